import Verif.NvmIndex.FixedLemmas
/-
What the operations of the fixed size index do to its contents (C25).
-/
namespace Verif.NvmIndex.Fixed
open Verif

/-- The record of a key. -/
def St.get (c : Cfg) (s : St) (k : Nat × Nat) : Option PRec :=
  if k.1 < c.total then (s.check c k.1 k.2).map (fun i => s.ht (c.slot k.1 i)) else none

theorem get_some {c : Cfg} {s : St} (hc : c.Good) (h : Inv c s) {k : Nat × Nat} {r : PRec} :
    s.get c k = some r ↔ ∃ q, At c s k q ∧ s.ht q = r := by
  unfold St.get
  constructor
  · intro hg
    split at hg
    · rename_i hk
      rw [Option.map_eq_some_iff] at hg
      obtain ⟨i, hi, hr⟩ := hg
      exact ⟨_, (check_some hc h hk hi).2.1, hr⟩
    · simp at hg
  · rintro ⟨q, hq, rfl⟩
    have hk : k.1 < c.total := by rw [← hq.2.2]; exact org_lt hc hq.1 _
    rw [if_pos hk]
    cases hi : s.check c k.1 k.2 with
    | none => exact absurd hq (check_none hc h hk hi q)
    | some i =>
      rw [Option.map_some, h.uniq _ _ _ (check_some hc h hk hi).2.1 hq]

theorem get_none {c : Cfg} {s : St} (hc : c.Good) (h : Inv c s) {k : Nat × Nat} : s.get c k = none ↔ ∀ q, ¬ At c s k q := by
  constructor
  · intro hg q hq
    have := (get_some hc h).2 ⟨q, hq, rfl⟩
    rw [hg] at this; simp at this
  · intro hn
    cases hg : s.get c k with
    | none => rfl
    | some r => obtain ⟨q, hq, _⟩ := (get_some hc h).1 hg; exact absurd hq (hn q)

/-- The contents are known from where the records are. -/
theorem get_ext {c : Cfg} {s s' : St} (hc : c.Good) (h : Inv c s) (h' : Inv c s') {k k' : Nat × Nat}
    (he : ∀ r, (∃ q, At c s' k' q ∧ s'.ht q = r) ↔ ∃ q, At c s k q ∧ s.ht q = r) : s'.get c k' = s.get c k := by
  apply Option.ext
  intro r
  rw [get_some hc h', get_some hc h, he]

/-! ### Clearing a bucket -/

theorem At_clear {c : Cfg} {s : St} {d : Nat} {cn : Nat → Nat} (k : Nat × Nat) (q : Nat) :
    At c { s with ht := upd s.ht d PRec.empty, cnt := cn } k q ↔ q ≠ d ∧ At c s k q := by
  unfold At keyAt St.fill
  simp only [upd]
  by_cases hq : q = d
  · simp [hq, PRec.empty, PRec.valid]
  · simp [hq]

theorem clear_inv {c : Cfg} {s : St} (hc : c.Good) (h : Inv c s) {d : Nat} (hd : d < c.total) (hv : (s.ht d).valid) :
    Inv c { s with ht := upd s.ht d PRec.empty, cnt := upd s.cnt (c.shard d) (s.cnt (c.shard d) - 1) } := by
  constructor
  · intro k q q' h1 h2
    rw [At_clear] at h1 h2
    exact h.uniq k q q' h1.2 h2.2
  · intro q hq
    simp only [upd]
    split
    · rfl
    · exact h.plain q hq
  · intro i hi
    have h1 := held_upd (n := c.n) (by have := hc.big; omega) s.vf d i false
    have e : St.vf { s with ht := upd s.ht d PRec.empty, cnt := upd s.cnt (c.shard d) (s.cnt (c.shard d) - 1) } = upd s.vf d false := by
      funext q; simp only [St.vf, upd]; split <;> rfl
    rw [e]
    have h2 := h.cnt i hi
    have hv' : s.vf d = true := hv
    show upd s.cnt (d / c.n) (s.cnt (d / c.n) - 1) i = _
    rw [hv'] at h1
    by_cases hi' : i = d / c.n
    · subst hi'; simp at h1; rw [upd_same]; omega
    · rw [upd_ne _ _ hi']
      have hi2 : ¬ d / c.n = i := fun h => hi' h.symm
      simp [hi2] at h1
      omega

theorem clear_get {c : Cfg} {s : St} (hc : c.Good) (h : Inv c s) {k : Nat × Nat} {d : Nat} (hd : At c s k d) (k' : Nat × Nat) :
    St.get c { s with ht := upd s.ht d PRec.empty, cnt := upd s.cnt (c.shard d) (s.cnt (c.shard d) - 1) } k' =
      if k' = k then none else s.get c k' := by
  have hi := clear_inv hc h hd.1 hd.2.1
  split
  · rename_i hk
    subst hk
    rw [get_none hc hi]
    intro q hq
    rw [At_clear] at hq
    exact hq.1 (h.uniq _ _ _ hq.2 hd)
  · rename_i hk
    apply get_ext hc h hi
    intro r
    constructor
    · rintro ⟨q, hq, hr⟩
      rw [At_clear] at hq
      refine ⟨q, hq.2, ?_⟩
      simpa [upd, hq.1] using hr
    · rintro ⟨q, hq, hr⟩
      have : q ≠ d := by
        rintro rfl
        exact hk (by rw [← hq.2.2, hd.2.2])
      exact ⟨q, (At_clear _ _).2 ⟨this, hq⟩, by simpa [upd, this] using hr⟩

/-! ### Changing the record of a bucket -/

theorem At_set {c : Cfg} {s : St} {d : Nat} {r : PRec} (hr : r.valid) (hv : (s.ht d).valid) (k : Nat × Nat) (q : Nat) :
    At c (s.setRec d r) k q ↔ At c s k q := by
  unfold At keyAt St.fill St.setRec
  simp only [upd]
  by_cases hq : q = d
  · simp [hq, hr, hv]
  · simp [hq]

theorem set_inv {c : Cfg} {s : St} (h : Inv c s) {d : Nat} {r : PRec} (hr : r.valid) (hp : r.combined = false) (hv : (s.ht d).valid) :
    Inv c (s.setRec d r) := by
  constructor
  · intro k q q' h1 h2
    rw [At_set hr hv] at h1 h2
    exact h.uniq k q q' h1 h2
  · intro q hq
    simp only [St.setRec, upd]
    split
    · exact hp
    · exact h.plain q hq
  · intro i hi
    have : (s.setRec d r).vf = s.vf := by
      funext q; simp only [St.vf, St.setRec, upd]; split
      · rename_i h; rw [h, hr, hv]
      · rfl
    rw [this]; exact h.cnt i hi

theorem set_get {c : Cfg} {s : St} (hc : c.Good) (h : Inv c s) {k : Nat × Nat} {d : Nat} {r : PRec} (hr : r.valid)
    (hp : r.combined = false) (hd : At c s k d) (k' : Nat × Nat) :
    (s.setRec d r).get c k' = if k' = k then some r else s.get c k' := by
  have hi := set_inv h hr hp hd.2.1
  split
  · rename_i hk
    subst hk
    rw [get_some hc hi]
    exact ⟨d, (At_set hr hd.2.1 _ _).2 hd, by simp [St.setRec]⟩
  · rename_i hk
    apply get_ext hc h hi
    intro x
    constructor
    · rintro ⟨q, hq, hx⟩
      rw [At_set hr hd.2.1] at hq
      have : q ≠ d := by rintro rfl; exact hk (by rw [← hq.2.2, hd.2.2])
      exact ⟨q, hq, by simpa [St.setRec, upd, this] using hx⟩
    · rintro ⟨q, hq, hx⟩
      have : q ≠ d := by rintro rfl; exact hk (by rw [← hq.2.2, hd.2.2])
      exact ⟨q, (At_set hr hd.2.1 _ _).2 hq, by simpa [St.setRec, upd, this] using hx⟩

/-! ### Placing a record -/

/-- Record `r` in slot `i` of bucket `b`. -/
def place (c : Cfg) (s : St) (b i p : Nat) (r : PRec) (cn : Nat → Nat) : St :=
  { (s.setRec (c.slot b i) r).setDist (c.slot b i) i p with cnt := cn }

theorem At_place {c : Cfg} {s : St} (hc : c.Good) {b i p : Nat} {r : PRec} {cn : Nat → Nat} (hb : b < c.total) (hi : i < 4) (hr : r.valid)
    (k : Nat × Nat) (q : Nat) :
    At c (place c s b i p r cn) k q ↔ if q = c.slot b i then k = (b, p) else At c s k q := by
  have hf : ∀ q, (place c s b i p r cn).fill q = if q = c.slot b i then i else s.fill q := fun q => fill_setDist (s.setRec (c.slot b i) r) _ _ p q hi
  have hp : ∀ q, (place c s b i p r cn).part q = if q = c.slot b i then p else s.part q := fun q => rfl
  have hh : ∀ q, (place c s b i p r cn).ht q = if q = c.slot b i then r else s.ht q := fun q => rfl
  unfold At keyAt
  rw [hf, hp, hh]
  split
  · rename_i hq
    subst hq
    rw [org_slot hc hb]
    constructor
    · exact fun h => h.2.2.symm
    · exact fun h => ⟨slot_lt hc hb i, hr, h.symm⟩
  · rfl

theorem place_inv {c : Cfg} {s : St} (hc : c.Good) (h : Inv c s) {b i p : Nat} {r : PRec} (hb : b < c.total) (hi : i < 4) (hr : r.valid)
    (hp : r.combined = false) (hno : ∀ q, q ≠ c.slot b i → ¬ At c s (b, p) q) :
    Inv c (place c s b i p r (if (s.ht (c.slot b i)).valid then s.cnt else upd s.cnt (c.shard b) (s.cnt (c.shard b) + 1))) := by
  constructor
  · intro k q q' h1 h2
    rw [At_place hc hb hi hr] at h1 h2
    split at h1 <;> split at h2
    · simp_all
    · subst h1; exact absurd h2 (hno q' (by assumption))
    · subst h2; exact absurd h1 (hno q (by assumption))
    · exact h.uniq k q q' h1 h2
  · intro q hq
    simp only [place, St.setDist, St.setRec, upd]
    split
    · exact hp
    · exact h.plain q hq
  · intro j hj
    have h1 := held_upd (n := c.n) (by have := hc.big; omega) s.vf (c.slot b i) j true
    have e : (place c s b i p r (if (s.ht (c.slot b i)).valid then s.cnt else upd s.cnt (c.shard b) (s.cnt (c.shard b) + 1))).vf =
        upd s.vf (c.slot b i) true := by
      funext q; simp only [St.vf, place, St.setDist, St.setRec, upd]; split
      · exact hr
      · rfl
    rw [e]
    have h2 := h.cnt j hj
    have hs : c.slot b i / c.n = b / c.n := slot_shard hc.big b i
    rw [hs] at h1
    have hvf : s.vf (c.slot b i) = (s.ht (c.slot b i)).valid := rfl
    rw [hvf] at h1
    show (if (s.ht (c.slot b i)).valid then s.cnt else upd s.cnt (c.shard b) (s.cnt (c.shard b) + 1)) j = _
    unfold Cfg.shard
    by_cases hv : (s.ht (c.slot b i)).valid
    · rw [if_pos hv]; simp only [hv] at h1; omega
    · rw [if_neg hv]
      simp only [hv] at h1
      by_cases hj' : b / c.n = j
      · subst hj'; simp at h1; simp; omega
      · rw [upd_ne _ _ (fun h => hj' h.symm)]
        simp [hj'] at h1; omega

theorem place_get {c : Cfg} {s : St} (hc : c.Good) (h : Inv c s) {b i p : Nat} {r : PRec} (hb : b < c.total) (hi : i < 4) (hr : r.valid)
    (hp : r.combined = false) (hno : ∀ q, q ≠ c.slot b i → ¬ At c s (b, p) q) (k : Nat × Nat) :
    (place c s b i p r (if (s.ht (c.slot b i)).valid then s.cnt else upd s.cnt (c.shard b) (s.cnt (c.shard b) + 1))).get c k =
      if k = (b, p) then some r else if (s.ht (c.slot b i)).valid ∧ keyAt c s (c.slot b i) = k then none else s.get c k := by
  have hinv := place_inv hc h hb hi hr hp hno
  generalize (if (s.ht (c.slot b i)).valid then s.cnt else upd s.cnt (c.shard b) (s.cnt (c.shard b) + 1)) = cn at hinv ⊢
  have hsl := slot_lt hc hb i
  split
  · rename_i hk
    rw [get_some hc hinv]
    exact ⟨c.slot b i, (At_place hc hb hi hr _ _).2 (by rw [if_pos rfl]; exact hk), by simp [place, St.setDist, St.setRec]⟩
  · rename_i hk
    split
    · rename_i ha
      rw [get_none hc hinv]
      intro q hq
      rw [At_place hc hb hi hr] at hq
      split at hq
      · exact hk hq
      · rename_i hne; exact hne (h.uniq _ _ _ hq ⟨hsl, ha⟩)
    · rename_i ha
      apply get_ext hc h hinv
      intro x
      constructor
      · rintro ⟨q, hq, hx⟩
        rw [At_place hc hb hi hr] at hq
        split at hq
        · exact absurd hq hk
        · rename_i hne; exact ⟨q, hq, by simpa [place, St.setDist, St.setRec, upd, hne] using hx⟩
      · rintro ⟨q, hq, hx⟩
        have hne : q ≠ c.slot b i := by rintro rfl; exact ha hq.2
        exact ⟨q, (At_place hc hb hi hr _ _).2 (by rw [if_neg hne]; exact hq),
          by simpa [place, St.setDist, St.setRec, upd, hne] using hx⟩

/-! ### Moving a record -/

theorem room_some {c : Cfg} {s : St} {q sub : Nat} (h : s.room c q = some sub) :
    sub < 4 ∧ sub ≠ s.fill q ∧ (s.ht (c.slot (c.org q (s.fill q)) sub)).valid = false := by
  have h1 := List.find?_some h
  have h2 := List.mem_of_find?_eq_some h
  simp only [bne_iff_ne, ne_eq, Bool.and_eq_true, Bool.not_eq_eq_eq_not, Bool.not_true] at h1
  refine ⟨by simp at h2; omega, h1⟩

theorem move_spec {c : Cfg} {s : St} (hc : c.Good) (h : Inv c s) {q sub : Nat} (hq : q < c.total) (hv : (s.ht q).valid)
    (hr : s.room c q = some sub) :
    Inv c (s.move c q sub) ∧ (∀ k, (s.move c q sub).get c k = s.get c k) ∧ ((s.move c q sub).ht q).valid = false := by
  obtain ⟨hsub, hne, hinv⟩ := room_some hr
  have ho := org_lt hc hq (s.fill q)
  have hso := slot_org hc hq (s.fill q)
  have hosh := org_shard hc hq (s.fill q)
  have hdl := slot_lt hc ho sub
  have hds := slot_shard hc.big (c.org q (s.fill q)) sub
  have hod := org_slot hc ho sub
  have hdq : c.slot (c.org q (s.fill q)) sub ≠ q := by
    intro he
    exact hne (slot_inj hc.big hsub (fill_lt s q) (by rw [he, hso]))
  generalize hd : c.slot (c.org q (s.fill q)) sub = d at *
  have hmv : s.move c q sub = ((s.setRec d (s.ht q)).setRec q PRec.empty).setDist d sub (s.part q) := by
    unfold St.move; rw [hd]
  have hf : ∀ x, (s.move c q sub).fill x = if x = d then sub else s.fill x := by
    intro x; rw [hmv]; exact fill_setDist _ _ _ _ _ hsub
  have hp : ∀ x, (s.move c q sub).part x = if x = d then s.part q else s.part x := by
    intro x; rw [hmv]; rfl
  have hh : ∀ x, (s.move c q sub).ht x = if x = q then PRec.empty else if x = d then s.ht q else s.ht x := by
    intro x; rw [hmv]; rfl
  have hcn : (s.move c q sub).cnt = s.cnt := by rw [hmv]; rfl
  have hAt : ∀ k x, At c (s.move c q sub) k x ↔ x ≠ q ∧ (if x = d then k = keyAt c s q else At c s k x) := by
    intro k x
    unfold At keyAt
    rw [hf, hp, hh]
    by_cases hx : x = q
    · simp [hx, PRec.empty, PRec.valid]
    · by_cases hx2 : x = d
      · simp only [hx, hx2, if_true, if_false, hdq, ne_eq, not_false_eq_true, true_and, hdl, hv, hod]
        exact eq_comm
      · simp only [hx, hx2, if_false, ne_eq, not_false_eq_true, true_and]
  have hqAt : At c s (keyAt c s q) q := ⟨hq, hv, rfl⟩
  have hno : ∀ k, ¬ At c s k d := fun k hk => by rw [hk.2.1] at hinv; simp at hinv
  have hI : Inv c (s.move c q sub) := by
    constructor
    · intro k x x' h1 h2
      rw [hAt] at h1 h2
      obtain ⟨h1, h1'⟩ := h1
      obtain ⟨h2, h2'⟩ := h2
      split at h1' <;> split at h2'
      · simp_all
      · subst h1'; exact absurd (h.uniq _ _ _ h2' hqAt) h2
      · subst h2'; exact absurd (h.uniq _ _ _ h1' hqAt) h1
      · exact h.uniq _ _ _ h1' h2'
    · intro x hx
      rw [hh]
      split
      · rfl
      · split
        · exact h.plain q hq
        · exact h.plain x hx
    · intro j hj
      rw [hcn, h.cnt j hj]
      have e : (s.move c q sub).vf = upd (upd s.vf d true) q false := by
        funext x
        simp only [St.vf, hh, upd]
        split
        · rfl
        · split
          · exact hv
          · rfl
      rw [e]
      have hn : 0 < c.n := by have := hc.big; omega
      have h1 := held_upd hn (upd s.vf d true) q j false
      have h2 := held_upd hn s.vf d j true
      have e1 : d / c.n = q / c.n := by
        have : c.shard d = c.shard q := by rw [hds, hosh]
        exact this
      rw [upd_ne _ _ (fun h => hdq h.symm)] at h1
      have v1 : s.vf q = true := hv
      have v2 : s.vf d = false := hinv
      rw [v1] at h1
      rw [v2, e1] at h2
      by_cases hj' : q / c.n = j <;> simp [hj'] at h1 h2 <;> omega
  refine ⟨hI, fun k => ?_, by rw [hh, if_pos rfl]; rfl⟩
  apply get_ext hc h hI
  intro r
  constructor
  · rintro ⟨x, hx, hr⟩
    rw [hAt] at hx
    obtain ⟨h1, h2⟩ := hx
    rw [hh, if_neg h1] at hr
    split at h2
    · subst h2; rw [if_pos (by assumption)] at hr; exact ⟨q, hqAt, hr⟩
    · rw [if_neg (by assumption)] at hr; exact ⟨x, h2, hr⟩
  · rintro ⟨x, hx, hrr⟩
    by_cases hxq : x = q
    · subst hxq
      exact ⟨d, (hAt _ _).2 ⟨hdq, by rw [if_pos rfl, hx.2.2]⟩, by rw [hh, if_neg hdq, if_pos rfl, hrr]⟩
    · have hxd : x ≠ d := by rintro rfl; exact hno _ hx
      exact ⟨x, (hAt _ _).2 ⟨hxq, by rw [if_neg hxd]; exact hx⟩, by rw [hh, if_neg hxq, if_neg hxd, hrr]⟩

theorem makeEmpty_spec {c : Cfg} {s : St} (hc : c.Good) (h : Inv c s) {b : Nat} (hb : b < c.total) (l : List Nat) (hl : ∀ i ∈ l, i < 4) :
    Inv c (s.makeEmpty c b l).1 ∧ (∀ k, (s.makeEmpty c b l).1.get c k = s.get c k) ∧
    (∀ i, (s.makeEmpty c b l).2 = some i → i < 4 ∧ ((s.makeEmpty c b l).1.ht (c.slot b i)).valid = false) ∧
    ((s.makeEmpty c b l).2 = none → (s.makeEmpty c b l).1 = s ∧ ∀ i ∈ l, (s.ht (c.slot b i)).valid) := by
  induction l with
  | nil => exact ⟨h, fun _ => rfl, by simp [St.makeEmpty], by simp [St.makeEmpty]⟩
  | cons i l ih =>
    have ih := ih (fun i hi => hl i (by simp [hi]))
    have hi := hl i (by simp)
    unfold St.makeEmpty
    by_cases hv : (s.ht (c.slot b i)).valid = false
    · rw [if_pos hv]
      refine ⟨h, fun _ => rfl, ?_, by simp⟩
      intro j hj
      simp only [Option.some.injEq] at hj
      subst hj
      exact ⟨hi, hv⟩
    · rw [if_neg hv, h.plain _ (slot_lt hc hb i)]
      simp only [Bool.not_eq_false] at hv
      have next : Inv c (s.makeEmpty c b l).1 ∧ (∀ k, (s.makeEmpty c b l).1.get c k = s.get c k) ∧
          (∀ i, (s.makeEmpty c b l).2 = some i → i < 4 ∧ ((s.makeEmpty c b l).1.ht (c.slot b i)).valid = false) ∧
          ((s.makeEmpty c b l).2 = none → (s.makeEmpty c b l).1 = s ∧ ∀ j ∈ i :: l, (s.ht (c.slot b j)).valid) := by
        refine ⟨ih.1, ih.2.1, ih.2.2.1, fun hn => ⟨(ih.2.2.2 hn).1, ?_⟩⟩
        intro j hj
        rcases List.mem_cons.1 hj with rfl | hj
        · exact hv
        · exact (ih.2.2.2 hn).2 j hj
      simp only [Bool.false_eq_true, if_false]
      split
      · cases hr : s.room c (c.slot b i) with
        | none => exact next
        | some sub =>
          obtain ⟨m1, m2, m3⟩ := move_spec hc h (slot_lt hc hb i) hv hr
          refine ⟨m1, m2, ?_, by simp⟩
          intro j hj
          simp only [Option.some.injEq] at hj
          subst hj
          exact ⟨hi, m3⟩
      · exact next

end Verif.NvmIndex.Fixed
