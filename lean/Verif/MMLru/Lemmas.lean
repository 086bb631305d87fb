import Verif.MMLru.Model
/-! The representation invariant of the LRU container and one lemma per operation. -/
namespace Verif.MMLru
open Verif

variable {N : Type} [DecidableEq N]

/-- The list is `a ++ t`; `t` is the tail section, beginning at the insertion point. -/
structure PInv (s : State N) (a t : List N) : Prop where
  rep : DList.Rep s.hooks s.lru (a ++ t)
  mem : ∀ x, s.inMM x = true ↔ x ∈ a ++ t
  tl : ∀ x, s.tail x = true ↔ x ∈ t
  size : s.tailSize = t.length
  ip : s.ip = t.head?

/-- size the tail section should have. -/
def tgt (spec n : Nat) : Nat := min n (max 1 (n / 2 ^ spec))

theorem div_le_half (n k : Nat) (hk : k ≠ 0) : 2 * (n / 2 ^ k) ≤ n := by
  have h1 : n / 2 ^ k * 2 ^ k ≤ n := Nat.div_mul_le_self n (2 ^ k)
  have h2 : 2 ≤ 2 ^ k := by
    calc 2 = 2 ^ 1 := rfl
      _ ≤ 2 ^ k := Nat.pow_le_pow_right (by decide) (by omega)
  have := Nat.mul_le_mul_left (n / 2 ^ k) h2
  omega

/-- same container apart from insertion point bookkeeping. -/
structure Same (s s' : State N) : Prop where
  hooks : s'.hooks = s.hooks
  lru : s'.lru = s.lru
  inMM : s'.inMM = s.inMM
  time : s'.time = s.time
  accessed : s'.accessed = s.accessed
  config : s'.config = s.config
  refreshTime : s'.refreshTime = s.refreshTime
  nextReconf : s'.nextReconf = s.nextReconf

theorem Same.refl (s : State N) : Same s s := ⟨rfl, rfl, rfl, rfl, rfl, rfl, rfl, rfl⟩
theorem Same.trans {s s' s'' : State N} (h : Same s s') (h' : Same s' s'') : Same s s'' :=
  ⟨h'.1.trans h.1, h'.2.trans h.2, h'.3.trans h.3, h'.4.trans h.4, h'.5.trans h.5, h'.6.trans h.6,
    h'.7.trans h.7, h'.8.trans h.8⟩

theorem grow_spec (e : Nat) (s : State N) (curr : Option N) (a t : List N) (he : e ≤ (a ++ t).length)
    (h : PInv { s with ip := curr } a t) (ht : t ≠ []) :
    ∃ s' c a' t', grow e s curr = some (s', c) ∧ PInv { s' with ip := c } a' t' ∧ a' ++ t' = a ++ t ∧
      t'.length = max e t.length ∧ Same s s' ∧ s'.ip = s.ip := by
  induction hk : e - t.length generalizing s curr a t with
  | zero =>
    refine ⟨s, curr, a, t, ?_, h, rfl, by omega, Same.refl s, rfl⟩
    have := h.size
    simp only at this
    unfold grow
    rw [if_neg (by rintro ⟨h1, _⟩; omega)]
  | succ k ih =>
    have hs := h.size
    simp only at hs
    have ha : a ≠ [] := by
      rintro rfl
      simp at he; omega
    obtain ⟨a', p, rfl⟩ : ∃ a' p, a = a' ++ [p] := by
      rcases List.eq_nil_or_concat a with rfl | ⟨b, y, rfl⟩
      · exact absurd rfl ha
      · exact ⟨b, y, by simp⟩
    obtain ⟨c, t', rfl⟩ : ∃ c t', t = c :: t' := by
      cases t with
      | nil => exact absurd rfl ht
      | cons c t' => exact ⟨c, t', rfl⟩
    have hc : curr = some c := h.ip
    subst hc
    have hp : s.hooks.prev c = some p := by
      have := DList.rep_prev (a := a' ++ [p]) (b := t') h.rep
      simpa using this
    have hnd := DList.nodup_mid (a := a' ++ [p]) h.rep.nodup
    have hpt : p ∉ c :: t' := by
      have := DList.nodup_mid (a := a') (b := c :: t') (x := p) (by simpa using h.rep.nodup)
      exact this.2.1
    have hne : some c ≠ s.lru.head := by
      have := h.rep.head
      simp only at this
      rw [this]
      intro e
      have : c ∈ a' ++ [p] := by
        cases a' with
        | nil => simp at e; simp [e]
        | cons z zs => simp at e; simp [e]
      exact hnd.1 this
    unfold grow
    rw [if_pos ⟨by omega, hne⟩]
    simp only [hp]
    obtain ⟨s', c', a'', t'', h1, h2, h3, h4, h5, h6⟩ := ih
      { s with tail := upd s.tail p true, tailSize := s.tailSize + 1 } (some p) a' (p :: c :: t')
      (by simpa using he)
      ⟨by simpa using h.rep, by simpa using h.mem, by
        intro x
        simp only [upd]
        have := h.tl x
        simp only at this
        by_cases hx : x = p
        · simp [hx]
        · simp only [hx, if_false, this, List.mem_cons, false_or], by simp [hs], rfl⟩ (by simp)
      (by simp only [List.length_cons] at hk ⊢; omega)
    refine ⟨s', c', a'', t'', h1, h2, by rw [h3]; simp, ?_, ?_, h6⟩
    · rw [h4]; simp only [List.length_cons] at hk ⊢; omega
    · exact ⟨h5.1, h5.2, h5.3, h5.4, h5.5, h5.6, h5.7, h5.8⟩

theorem shrink_spec (e : Nat) (s : State N) (curr : Option N) (a t : List N)
    (h : PInv { s with ip := curr } a t) (ht : t ≠ []) :
    ∃ s' c a' t', shrink e s curr = some (s', c) ∧ PInv { s' with ip := c } a' t' ∧ a' ++ t' = a ++ t ∧
      t'.length = max 1 (min e t.length) ∧ Same s s' ∧ s'.ip = s.ip := by
  induction hk : t.length generalizing s curr a t with
  | zero => exact absurd (List.eq_nil_of_length_eq_zero hk) ht
  | succ k ih =>
    obtain ⟨c, t', rfl⟩ : ∃ c t', t = c :: t' := by
      cases t with
      | nil => exact absurd rfl ht
      | cons c t' => exact ⟨c, t', rfl⟩
    have hs := h.size
    simp only [List.length_cons] at hs hk
    have hc : curr = some c := h.ip
    subst hc
    have htl := h.rep.tail
    simp only at htl
    have hnd := DList.nodup_mid h.rep.nodup
    by_cases hlt : e < s.tailSize
    · cases t' with
      | nil =>
        refine ⟨s, some c, a, [c], ?_, h, rfl, by simp only [List.length_cons, List.length_nil] at *; omega, Same.refl s, rfl⟩
        unfold shrink
        rw [if_neg]
        rintro ⟨_, h2⟩
        apply h2
        rw [htl]; simp
      | cons d t'' =>
        have hne : some c ≠ s.lru.tail := by
          rw [htl]
          intro e
          have : c ∈ d :: t'' := by
            rw [List.getLast?_append, List.getLast?_cons_cons] at e
            obtain ⟨z, hz⟩ : ∃ z, (d :: t'').getLast? = some z := ⟨_, List.getLast?_eq_some_getLast (by simp)⟩
            rw [hz, Option.some_or] at e
            cases e
            exact List.mem_of_getLast? hz
          exact hnd.2.1 this
        have hn : s.hooks.next c = some d := by
          have := DList.rep_next h.rep
          simpa using this
        unfold shrink
        rw [if_pos ⟨hlt, hne⟩]
        simp only [hn]
        obtain ⟨s', c', a'', t3, h1, h2, h3, h4, h5, h6⟩ := ih
          { s with tail := upd s.tail c false, tailSize := s.tailSize - 1 } (some d) (a ++ [c]) (d :: t'')
          ⟨by simpa using h.rep, by simpa using h.mem, by
            intro x
            simp only [upd]
            have := h.tl x
            simp only at this
            by_cases hx : x = c
            · subst hx
              simp only [if_true, Bool.false_eq_true, false_iff]
              exact hnd.2.1
            · simp only [hx, if_false, this, List.mem_cons, false_or], by simp [hs], rfl⟩ (by simp)
          (by omega)
        refine ⟨s', c', a'', t3, h1, h2, by rw [h3]; simp, ?_, ?_, h6⟩
        · rw [h4]; simp only [List.length_cons] at hk hs ⊢; omega
        · exact ⟨h5.1, h5.2, h5.3, h5.4, h5.5, h5.6, h5.7, h5.8⟩
    · refine ⟨s, some c, a, c :: t', ?_, h, rfl, by simp only [List.length_cons]; omega, Same.refl s, rfl⟩
      unfold shrink
      rw [if_neg (by rintro ⟨h1, _⟩; exact hlt h1)]

theorem init_spec {s : State N} {a t : List N} (h : PInv s a t) :
    ∃ a' t', PInv (initIp s) a' t' ∧ a' ++ t' = a ++ t ∧ Same s (initIp s) ∧ (a ++ t ≠ [] → t' ≠ []) := by
  unfold initIp
  have hip := h.ip
  cases hi : s.ip with
  | some i =>
    simp only
    refine ⟨a, t, h, rfl, Same.refl s, ?_⟩
    rintro _ rfl
    rw [hi] at hip; cases hip
  | none =>
    have ht : t = [] := by cases t with
      | nil => rfl
      | cons x l => rw [hi] at hip; cases hip
    subst ht
    simp only
    have htl := h.rep.tail
    cases htt : s.lru.tail with
    | none =>
      simp only
      have ha : a = [] := by
        rw [htt, List.append_nil] at htl
        cases a with
        | nil => rfl
        | cons x l =>
          rw [List.getLast?_eq_some_getLast (l := x :: l) (by simp)] at htl; cases htl
      subst ha
      refine ⟨[], [], ⟨h.rep, h.mem, h.tl, rfl, rfl⟩, rfl, ⟨rfl, rfl, rfl, rfl, rfl, rfl, rfl, rfl⟩, by simp⟩
    | some x =>
      simp only
      obtain ⟨a', rfl⟩ : ∃ a', a = a' ++ [x] := by
        rw [htt, List.append_nil] at htl
        rcases List.eq_nil_or_concat a with rfl | ⟨b, y, rfl⟩
        · cases htl
        · rw [List.concat_eq_append, List.getLast?_concat] at htl; cases htl; exact ⟨b, List.concat_eq_append⟩
      refine ⟨a', [x], ⟨by simpa using h.rep, by simpa using h.mem, ?_, rfl, rfl⟩, by simp,
        ⟨rfl, rfl, rfl, rfl, rfl, rfl, rfl, rfl⟩, by simp⟩
      intro y
      have := h.tl y
      simp only [List.not_mem_nil, iff_false] at this
      simp only [upd]
      by_cases hy : y = x <;> simp [hy, this]

theorem update_zero {s : State N} (h0 : s.config.ipSpec = 0) : updateIp s = some s := by
  unfold updateIp; rw [if_pos h0]

theorem update_spec {s : State N} {a t : List N} (h : PInv s a t) (h0 : s.config.ipSpec ≠ 0) :
    ∃ s' a' t', updateIp s = some s' ∧ PInv s' a' t' ∧ a' ++ t' = a ++ t ∧
      t'.length = tgt s.config.ipSpec (a ++ t).length ∧ Same s s' := by
  obtain ⟨a1, t1, h1, e1, s1, n1⟩ := init_spec h
  unfold updateIp
  rw [if_neg h0]
  have hsz := h1.rep.size
  unfold adjustIp
  by_cases hle : (initIp s).lru.size ≤ 1
  · rw [if_pos hle]
    refine ⟨_, a1, t1, rfl, h1, e1, ?_, s1⟩
    rw [← e1]
    rw [hsz] at hle
    by_cases hz : a1 ++ t1 = []
    · have : t1 = [] := by simpa using (List.append_eq_nil_iff.1 hz).2
      rw [hz, this]; simp [tgt]
    · have := n1 (by rw [← e1]; exact hz)
      have hl : 0 < t1.length := List.length_pos_iff.2 this
      have h2 : (a1 ++ t1).length = 1 := by
        rw [List.length_append] at hle ⊢; omega
      rw [h2]
      have : t1.length = 1 := by rw [List.length_append] at h2; omega
      rw [this]
      have := div_le_half 1 _ h0
      unfold tgt; omega
  · rw [if_neg hle]
    have hne : t1 ≠ [] := n1 (by rw [← e1]; intro e; rw [hsz, e] at hle; simp at hle)
    have hle2 : (initIp s).lru.size / 2 ^ (initIp s).config.ipSpec ≤ (a1 ++ t1).length := by
      rw [hsz]; exact Nat.div_le_self _ _
    obtain ⟨s2, c2, a2, t2, g1, g2, g3, g4, g5, g6⟩ := grow_spec _ (initIp s) (initIp s).ip a1 t1 hle2
      (by exact h1) hne
    have hne2 : t2 ≠ [] := by
      intro e; rw [e] at g4
      have := List.length_pos_iff.2 hne
      simp at g4; omega
    obtain ⟨s3, c3, a3, t3, k1, k2, k3, k4, k5, k6⟩ :=
      shrink_spec ((initIp s).lru.size / 2 ^ (initIp s).config.ipSpec) s2 c2 a2 t2 g2 hne2
    refine ⟨{ s3 with ip := c3 }, a3, t3, ?_, k2, by rw [k3, g3, e1], ?_, ?_⟩
    · rw [g1, Option.bind_some]
      simp only
      rw [k1]; rfl
    · rw [k4, g4, s1.config] at *
      rw [hsz, e1]
      have hb := div_le_half (a ++ t).length _ h0
      have hp := List.length_pos_iff.2 hne
      have hl : 1 ≤ (a ++ t).length := by rw [← e1, List.length_append]; omega
      unfold tgt
      omega
    · have := (s1.trans g5).trans k5
      exact ⟨this.1, this.2, this.3, this.4, this.5, this.6, this.7, this.8⟩

/-- full invariant: `PInv`, and the tail section is at most half of the list (or one element). -/
structure Inv (s : State N) (a t : List N) : Prop extends PInv s a t where
  half : t.length ≤ 1 ∨ 2 * t.length ≤ (a ++ t).length
  zero : s.config.ipSpec = 0 → t = []

theorem tgt_half {k : Nat} (hk : k ≠ 0) (n : Nat) : tgt k n ≤ 1 ∨ 2 * tgt k n ≤ n := by
  have := div_le_half n k hk
  unfold tgt; omega

/-- updateLruInsertionPoint re-establishes the invariant; sequence unchanged. -/
theorem update_inv {s : State N} {a t : List N} (h : PInv s a t) (hz : s.config.ipSpec = 0 → t = []) :
    ∃ s' a' t', updateIp s = some s' ∧ Inv s' a' t' ∧ a' ++ t' = a ++ t ∧
      t'.length = (if s.config.ipSpec = 0 then 0 else tgt s.config.ipSpec (a ++ t).length) ∧ Same s s' := by
  by_cases h0 : s.config.ipSpec = 0
  · have := hz h0
    subst this
    exact ⟨s, a, [], update_zero h0, ⟨h, by simp, fun _ => rfl⟩, rfl, by simp [h0], Same.refl s⟩
  · obtain ⟨s', a', t', h1, h2, h3, h4, h5⟩ := update_spec h h0
    refine ⟨s', a', t', h1, ⟨h2, ?_, ?_⟩, h3, by rw [if_neg h0]; exact h4, h5⟩
    · rw [h3, h4]; exact tgt_half h0 _
    · intro e; rw [h5.config] at e; exact absurd e h0

theorem inv_new (c : Config) (now : Nat) (hooks : DList.Hooks N) : Inv (new c now hooks) [] [] :=
  ⟨⟨DList.rep_empty hooks, by simp [new], by simp [new], rfl, rfl⟩, by simp, fun _ => rfl⟩

theorem add_in {s : State N} {a t : List N} (h : Inv s a t) {x : N} (hx : x ∈ a ++ t) (now : Nat) :
    add s x now = some (s, false) := by
  unfold add; rw [if_pos ((h.mem x).2 hx)]

theorem link_spec {s : State N} {a t : List N} (h : Inv s a t) {x : N} (hx : x ∉ a ++ t) :
    DList.Rep (linkNew s x).hooks (linkNew s x).lru
      ((if t = [] then x :: a else a ++ [x]) ++ t) ∧ (linkNew s x).inMM = s.inMM ∧
      (linkNew s x).tail = s.tail ∧ (linkNew s x).ip = s.ip ∧ (linkNew s x).tailSize = s.tailSize ∧
      (linkNew s x).config = s.config ∧ (linkNew s x).time = s.time ∧ (linkNew s x).accessed = s.accessed := by
  cases t with
  | nil =>
    have hip : s.ip = none := h.ip
    have : linkNew s x = { s with hooks := (DList.linkAtHead s.hooks s.lru x).1,
                                  lru := (DList.linkAtHead s.hooks s.lru x).2 } := by
      unfold linkNew; rw [hip]; simp
    rw [this]
    refine ⟨?_, rfl, rfl, rfl, rfl, rfl, rfl, rfl⟩
    have := DList.linkAtHead_rep h.rep hx
    simpa using this
  | cons i t' =>
    have h0 : s.config.ipSpec ≠ 0 := fun e => by have := h.zero e; cases this
    have hip : s.ip = some i := h.ip
    have : linkNew s x = { s with hooks := (DList.insertBefore s.hooks s.lru i x).1,
                                  lru := (DList.insertBefore s.hooks s.lru i x).2 } := by
      unfold linkNew; rw [hip, if_neg h0]
    rw [this]
    refine ⟨?_, rfl, rfl, rfl, rfl, rfl, rfl, rfl⟩
    have := DList.insertBefore_rep h.rep hx
    simpa using this

theorem add_out {s : State N} {a t : List N} (h : Inv s a t) {x : N} (hx : x ∉ a ++ t) (now : Nat) :
    ∃ s' a' t', add s x now = some (s', true) ∧ Inv s' a' t' ∧
      a' ++ t' = (if t = [] then x :: a else a ++ [x]) ++ t ∧
      t'.length = (if s.config.ipSpec = 0 then 0 else tgt s.config.ipSpec ((a ++ t).length + 1)) ∧
      s'.time = upd s.time x now ∧ s'.accessed = upd s.accessed x false ∧ s'.config = s.config := by
  obtain ⟨h1, h2, h3, h4, h5, h6, h7, h8⟩ := link_spec h hx
  have hin : s.inMM x = false := by
    have := h.mem x
    cases hb : s.inMM x with
    | false => rfl
    | true => exact absurd (this.1 hb) hx
  unfold add
  rw [if_neg (by simp [hin])]
  simp only
  generalize linkNew s x = s1 at h1 h2 h3 h4 h5 h6 h7 h8
  have hp : PInv { s1 with inMM := upd s1.inMM x true, time := upd s1.time x now,
                           accessed := upd s1.accessed x false }
      (if t = [] then x :: a else a ++ [x]) t := by
    refine ⟨h1, ?_, ?_, by simp only [h5]; exact h.size, by simp only [h4]; exact h.ip⟩
    · intro y
      simp only [upd, h2]
      have := h.mem y
      by_cases hy : y = x
      · simp only [hy, if_true, true_iff]; split <;> simp
      · simp only [hy, if_false, this]; split <;> simp [hy]
    · intro y; simp only [h3]; exact h.tl y
  obtain ⟨s', a', t', u1, u2, u3, u4, u5⟩ := update_inv hp (by simp only [h6]; exact h.zero)
  refine ⟨s', a', t', by rw [u1]; rfl, u2, u3, ?_, by rw [u5.time, h7], by rw [u5.accessed, h8],
    by rw [u5.config, h6]⟩
  rw [u4]
  simp only [h6]
  congr 2
  split <;> simp <;> omega

/-- ensureNotInsertionPoint on a member that is not the only element. -/
theorem ensure_spec {s : State N} {a t : List N} (h : Inv s a t) (x : N) :
    ∃ a' t', a' ++ t' = a ++ t ∧ DList.Rep (ensureNotIp s x).hooks (ensureNotIp s x).lru (a ++ t) ∧
      Same s (ensureNotIp s x) ∧
      (∀ y, (ensureNotIp s x).tail y = true ↔ y ∈ t') ∧ (ensureNotIp s x).tailSize = t'.length ∧
      ((ensureNotIp s x).ip = (t'.filter (· ≠ x)).head?) ∧ (t = [] → t' = []) ∧ (x ∈ t' → x ∈ t) ∧
      (x ∈ t → x ∈ t') ∧ (x ∉ t → t'.length = t.length) := by
  unfold ensureNotIp
  by_cases hx : some x = s.ip
  · rw [if_pos hx]
    obtain ⟨t2, rfl⟩ : ∃ t2, t = x :: t2 := by
      have := h.ip
      rw [← hx] at this
      cases t with
      | nil => cases this
      | cons z t2 => simp at this; exact ⟨t2, by rw [this]⟩
    have hnd := DList.nodup_mid h.rep.nodup
    have hpv := DList.rep_prev h.rep
    have hfx : (List.filter (fun x_1 => decide (x_1 ≠ x)) (x :: t2)) = t2 := by
      rw [List.filter_cons]
      simp
      intro z hz e; exact hnd.2.1 (e ▸ hz)
    rcases List.eq_nil_or_concat a with rfl | ⟨b, p, rfl⟩
    · simp only [List.getLast?_nil] at hpv
      rw [hpv]
      simp only
      have ht2 : t2 = [] := by
        have := h.half
        cases t2 with
        | nil => rfl
        | cons z zs => simp at this; omega
      subst ht2
      refine ⟨[], [x], rfl, h.rep, ⟨rfl, rfl, rfl, rfl, rfl, rfl, rfl, rfl⟩, h.tl, h.size, by simp, by simp,
        by simp, by simp, by simp⟩
    · simp only [List.concat_eq_append, List.getLast?_concat] at hpv hnd
      rw [hpv]
      simp only [List.concat_eq_append]
      have hpx : p ≠ x := fun e => hnd.1 (by simp [e])
      refine ⟨b, p :: x :: t2, by simp, by simpa using h.rep,
        ⟨rfl, rfl, rfl, rfl, rfl, rfl, rfl, rfl⟩, ?_, by simp [h.size], ?_, by simp, by simp, by simp, by simp⟩
      · intro y
        simp only [upd]
        have := h.tl y
        by_cases hy : y = p
        · simp [hy]
        · simp only [hy, if_false, this, List.mem_cons, false_or]
      · rw [List.filter_cons, if_pos (by simpa using hpx)]; simp
  · rw [if_neg hx]
    refine ⟨a, t, rfl, h.rep, Same.refl s, h.tl, h.size, ?_, id, id, id, fun _ => rfl⟩
    rw [h.ip] at hx ⊢
    cases t with
    | nil => rfl
    | cons z zs =>
      have : z ≠ x := by simpa [eq_comm] using hx
      rw [List.filter_cons, if_pos (by simpa using this)]; rfl

theorem nodup_filter_mid {a b : List N} {x : N} (h : (a ++ x :: b).Nodup) :
    (a ++ x :: b).filter (· ≠ x) = a ++ b := by
  obtain ⟨hxa, hxb, _⟩ := DList.nodup_mid h
  have ha : a.filter (· ≠ x) = a := by rw [List.filter_eq_self]; intro y hy; simp; exact fun e => hxa (e ▸ hy)
  have hb : b.filter (· ≠ x) = b := by rw [List.filter_eq_self]; intro y hy; simp; exact fun e => hxb (e ▸ hy)
  rw [List.filter_append, List.filter_cons]; simp only [ne_eq, not_true, decide_false]
  rw [ha]; simp only [Bool.false_eq_true, if_false]; rw [hb]

theorem filter_len {t : List N} {x : N} (hn : t.Nodup) :
    (t.filter (· ≠ x)).length = if x ∈ t then t.length - 1 else t.length := by
  split
  · rename_i hx
    obtain ⟨a, b, rfl⟩ := List.append_of_mem hx
    rw [nodup_filter_mid hn]; simp
  · rename_i hx
    congr 1
    rw [List.filter_eq_self]; intro y hy; simp; exact fun e => hx (e ▸ hy)

theorem removeLocked_spec {s : State N} {a t : List N} (h : Inv s a t) {x : N} (hx : x ∈ a ++ t) :
    ∃ s' a' t', removeLocked s x = some s' ∧ Inv s' a' t' ∧ a' ++ t' = (a ++ t).filter (· ≠ x) ∧
      t'.length = (if s.config.ipSpec = 0 then 0 else tgt s.config.ipSpec ((a ++ t).length - 1)) ∧
      s'.time = s.time ∧ s'.accessed = upd s.accessed x false ∧ s'.config = s.config ∧
      s'.hooks.next x = none ∧ s'.hooks.prev x = none := by
  obtain ⟨a1, t1, e1, r1, s1, m1, z1, i1, n1, x1, _, _⟩ := ensure_spec h x
  have hn : (a1 ++ t1).Nodup := by rw [e1]; exact h.rep.nodup
  have hnt : t1.Nodup := (List.nodup_append.1 hn).2.1
  unfold removeLocked
  simp only
  generalize ensureNotIp s x = s2 at r1 s1 m1 z1 i1
  have hsplit : ∃ b c, a ++ t = b ++ x :: c := List.append_of_mem hx
  obtain ⟨b, c, hbc⟩ := hsplit
  rw [hbc] at r1
  have rr := DList.remove_rep r1
  have hfil : (a ++ t).filter (· ≠ x) = b ++ c := by
    rw [hbc]; exact nodup_filter_mid (hbc ▸ h.rep.nodup)
  have hf2 : a1.filter (· ≠ x) ++ t1.filter (· ≠ x) = b ++ c := by
    rw [← List.filter_append, e1, hfil]
  -- the state before updateIp
  have key : ∀ s4 : State N, s4.hooks = (DList.remove s2.hooks s2.lru x).1 →
      s4.lru = (DList.remove s2.hooks s2.lru x).2 → s4.inMM = upd s2.inMM x false →
      (∀ y, s4.tail y = true ↔ y ∈ t1.filter (· ≠ x)) → s4.tailSize = (t1.filter (· ≠ x)).length →
      s4.ip = s2.ip → s4.config = s2.config → s4.time = s2.time → s4.accessed = upd s2.accessed x false →
      ∃ s' a' t', updateIp s4 = some s' ∧ Inv s' a' t' ∧ a' ++ t' = (a ++ t).filter (· ≠ x) ∧
      t'.length = (if s.config.ipSpec = 0 then 0 else tgt s.config.ipSpec ((a ++ t).length - 1)) ∧
      s'.time = s.time ∧ s'.accessed = upd s.accessed x false ∧ s'.config = s.config ∧
      s'.hooks.next x = none ∧ s'.hooks.prev x = none := by
    intro s4 k1 k2 k3 k4 k5 k6 k7 k8 k9
    have hp : PInv s4 (a1.filter (· ≠ x)) (t1.filter (· ≠ x)) := by
      refine ⟨by rw [k1, k2, hf2]; exact rr.1, ?_, k4, k5, by rw [k6]; exact i1⟩
      intro y
      rw [k3, ← List.filter_append, e1, s1.inMM]
      simp only [upd, List.mem_filter]
      by_cases hy : y = x
      · simp [hy]
      · simp only [hy, if_false, h.mem y]; simp [hy]
    obtain ⟨s', a', t', u1, u2, u3, u4, u5⟩ := update_inv hp (by
      rw [k7, s1.config]; intro e; rw [n1 (h.zero e)]; rfl)
    refine ⟨s', a', t', u1, u2, by rw [u3, ← List.filter_append, e1], ?_, by rw [u5.time, k8, s1.time],
      by rw [u5.accessed, k9, s1.accessed], by rw [u5.config, k7, s1.config], by rw [u5.hooks, k1]; exact rr.2.1,
      by rw [u5.hooks, k1]; exact rr.2.2⟩
    rw [u4, k7, s1.config, hf2]
    congr 2
    rw [hbc]; simp
  by_cases ht : s2.tail x = true
  · have hxt := (m1 x).1 ht
    have hpos : s2.tailSize ≠ 0 := by
      rw [z1]; intro e; rw [List.eq_nil_of_length_eq_zero e] at hxt; cases hxt
    rw [if_pos ht]
    unfold decTail unmarkTail
    simp only [hpos, if_false, Option.bind_some]
    refine key _ rfl rfl rfl ?_ ?_ rfl rfl rfl rfl
    · intro y
      simp only [upd, List.mem_filter]
      by_cases hy : y = x
      · simp [hy]
      · simp only [hy, if_false, m1 y]; simp [hy]
    · simp only [z1]; rw [filter_len hnt, if_pos hxt]
  · rw [if_neg ht]
    simp only [Option.bind_some]
    have hxt : x ∉ t1 := fun e => ht ((m1 x).2 e)
    have hfe : t1.filter (· ≠ x) = t1 := by
      rw [List.filter_eq_self]; intro y hy; simp; exact fun e => hxt (e ▸ hy)
    refine key _ rfl rfl rfl ?_ ?_ rfl rfl rfl rfl
    · rw [hfe]; exact m1
    · rw [hfe]; exact z1

theorem remove_in {s : State N} {a t : List N} (h : Inv s a t) {x : N} (hx : x ∈ a ++ t) :
    remove s x = (removeLocked s x).map fun s => (s, true) := by
  unfold remove; rw [if_pos ((h.mem x).2 hx)]

theorem inMM_false {s : State N} {a t : List N} (h : PInv s a t) {x : N} (hx : x ∉ a ++ t) : s.inMM x = false := by
  cases hb : s.inMM x with
  | false => rfl
  | true => exact absurd ((h.mem x).1 hb) hx

theorem remove_out {s : State N} {a t : List N} (h : Inv s a t) {x : N} (hx : x ∉ a ++ t) :
    remove s x = some (s, false) := by
  unfold remove; rw [if_neg (by simp [inMM_false h.toPInv hx])]

/-- one position changed. -/
def subst (o x : N) (l : List N) : List N := l.map fun y => if y = o then x else y

theorem subst_mid {a b : List N} {o x : N} (h : (a ++ o :: b).Nodup) : subst o x (a ++ o :: b) = a ++ x :: b := by
  obtain ⟨hxa, hxb, _⟩ := DList.nodup_mid h
  have key : ∀ l : List N, o ∉ l → l.map (fun y => if y = o then x else y) = l := by
    intro l hl
    conv => rhs; rw [← List.map_id l]
    apply List.map_congr_left
    intro y hy
    have : y ≠ o := fun e => hl (e ▸ hy)
    simp [this]
  simp [subst, key a hxa, key b hxb]

theorem mem_subst {l : List N} {o x y : N} (ho : o ∈ l) (hx : x ∉ l) :
    y ∈ subst o x l ↔ y = x ∨ (y ≠ o ∧ y ∈ l) := by
  simp only [subst, List.mem_map]
  constructor
  · rintro ⟨z, hz, rfl⟩
    by_cases e : z = o
    · simp [e]
    · right; simp [e, hz]
  · rintro (rfl | ⟨h1, h2⟩)
    · exact ⟨o, ho, by simp⟩
    · exact ⟨y, h2, by simp [h1]⟩

theorem subst_not_mem {l : List N} {o x : N} (ho : o ∉ l) : subst o x l = l := by
  unfold subst
  conv => rhs; rw [← List.map_id l]
  apply List.map_congr_left
  intro y hy
  have : y ≠ o := fun e => ho (e ▸ hy)
  simp [this]

theorem replace_no {s : State N} {a t : List N} (h : Inv s a t) {o x : N} (hx : o ∉ a ++ t ∨ x ∈ a ++ t) :
    replace s o x = some (s, false) := by
  unfold replace
  rw [if_pos]
  rcases hx with hx | hx
  · left; simp [inMM_false h.toPInv hx]
  · right; exact (h.mem x).2 hx

theorem replace_yes {s : State N} {a t : List N} (h : Inv s a t) {o x : N} (ho : o ∈ a ++ t)
    (hx : x ∉ a ++ t) :
    ∃ s', replace s o x = some (s', true) ∧ Inv s' (subst o x a) (subst o x t) ∧
      s'.time = upd s.time x (s.time o) ∧ s'.accessed = upd s.accessed x (s.accessed o) ∧
      s'.config = s.config := by
  have hox : x ≠ o := fun e => hx (e ▸ ho)
  unfold replace
  rw [if_neg (by simp [(h.mem o).2 ho, inMM_false h.toPInv hx])]
  simp only
  refine ⟨_, rfl, ⟨⟨?_, ?_, ?_, ?_, ?_⟩, ?_, ?_⟩, ?_, ?_, ?_⟩
  · obtain ⟨b, c, hbc⟩ := List.append_of_mem ho
    have hr := h.rep
    rw [hbc] at hr
    have hr' := (DList.replace_rep hr (hbc ▸ hx)).1
    have : subst o x a ++ subst o x t = b ++ x :: c := by
      rw [show subst o x a ++ subst o x t = subst o x (a ++ t) by simp [subst], hbc]
      exact subst_mid hr.nodup
    rw [this]
    split <;> exact hr'
  · intro y
    rw [show subst o x a ++ subst o x t = subst o x (a ++ t) by simp [subst], mem_subst ho hx, ← h.mem y]
    split <;> simp only [unmarkTail, markTail, upd] <;> by_cases h1 : y = x <;> by_cases h2 : y = o <;> simp_all
  · intro y
    have hxt : x ∉ t := fun e => hx (by simp [e])
    by_cases hot : o ∈ t
    · rw [mem_subst hot hxt, ← h.tl y]
      simp only [(h.tl o).2 hot, if_true, unmarkTail, markTail, upd]
      by_cases h1 : y = x <;> by_cases h2 : y = o <;> simp_all
    · rw [subst_not_mem hot, ← h.tl y]
      have : ¬ s.tail o = true := fun e => hot ((h.tl o).1 e)
      simp only [this, if_false, unmarkTail, upd]
      by_cases h1 : y = x
      · have : ¬ s.tail x = true := fun e => hxt ((h.tl x).1 e)
        simp_all
      · simp [h1, upd]
  · have : (subst o x t).length = t.length := by simp [subst]
    rw [this]
    split <;> exact h.size
  · have : (subst o x t).head? = if s.ip = some o then some x else s.ip := by
      rw [h.ip]
      cases t with
      | nil => rfl
      | cons z zs => by_cases hz : z = o <;> simp [subst, hz]
    rw [this]
    split <;> rfl
  · simpa [subst] using h.half
  · intro e
    have : t = [] := h.zero (by revert e; split <;> exact id)
    rw [this]; rfl
  · split <;> rfl
  · split <;> rfl
  · split <;> rfl

theorem promote_in {s : State N} {a t : List N} (h : Inv s a t) {x : N} (hx : x ∈ a ++ t) (now : Nat) :
    ∃ s' a' t', promote s x now = some s' ∧ Inv s' a' t' ∧ a' ++ t' = x :: (a ++ t).filter (· ≠ x) ∧
      t'.length = (if x ∈ t then tgt s.config.ipSpec (a ++ t).length else t.length) ∧
      s'.time = upd s.time x now ∧ s'.accessed = s.accessed ∧ s'.config = s.config ∧
      s'.refreshTime = (reconfigure s now).refreshTime := by
  have h0 : Inv (reconfigure s now) a t ∧ (reconfigure s now).time = s.time ∧
      (reconfigure s now).accessed = s.accessed ∧ (reconfigure s now).config = s.config := by
    unfold reconfigure
    split
    · exact ⟨h, rfl, rfl, rfl⟩
    · exact ⟨⟨⟨h.rep, h.mem, h.tl, h.size, h.ip⟩, h.half, h.zero⟩, rfl, rfl, rfl⟩
  unfold promote
  simp only
  generalize reconfigure s now = s0 at h0
  obtain ⟨h0, ht0, ha0, hc0⟩ := h0
  rw [← ht0, ← ha0, ← hc0]
  clear ht0 ha0 hc0 h
  obtain ⟨a1, t1, e1, r1, s1, m1, z1, i1, n1, x1, x2, x3⟩ := ensure_spec h0 x
  have hn : (a1 ++ t1).Nodup := by rw [e1]; exact h0.rep.nodup
  have hnt : t1.Nodup := (List.nodup_append.1 hn).2.1
  generalize ensureNotIp s0 x = s2 at r1 s1 m1 z1 i1
  obtain ⟨b, c, hbc⟩ := List.append_of_mem hx
  rw [hbc] at r1
  have rr := DList.moveToHead_rep r1
  have hfil : (a ++ t).filter (· ≠ x) = b ++ c := by
    rw [hbc]; exact nodup_filter_mid (hbc ▸ h0.rep.nodup)
  have hf2 : a1.filter (· ≠ x) ++ t1.filter (· ≠ x) = b ++ c := by
    rw [← List.filter_append, e1, hfil]
  have hin : s2.inMM x = true := by rw [s1.inMM]; exact (h0.mem x).2 hx
  simp only [hin, if_true]
  have memxx : ∀ y, s2.inMM y = true ↔ y ∈ (x :: a1.filter (· ≠ x)) ++ t1.filter (· ≠ x) := by
    intro y
    rw [List.cons_append, ← List.filter_append, e1, s1.inMM, h0.mem y, List.mem_cons, List.mem_filter]
    by_cases hy : y = x
    · simp only [hy, true_or, iff_true]; exact hx
    · simp [hy]
  by_cases ht : s2.tail x = true
  · have hxt := (m1 x).1 ht
    have hpos : s2.tailSize ≠ 0 := by
      rw [z1]; intro e; rw [List.eq_nil_of_length_eq_zero e] at hxt; cases hxt
    rw [if_pos ht]
    unfold decTail unmarkTail
    simp only [hpos, if_false, Option.bind_some]
    have hp : PInv { s2 with
        hooks := (DList.moveToHead s2.hooks s2.lru x).1, lru := (DList.moveToHead s2.hooks s2.lru x).2,
        time := upd s2.time x now, tail := upd s2.tail x false, tailSize := s2.tailSize - 1 }
        (x :: a1.filter (· ≠ x)) (t1.filter (· ≠ x)) := by
      refine ⟨by rw [List.cons_append, hf2]; exact rr, memxx, ?_, ?_, i1⟩
      · intro y
        simp only [upd, List.mem_filter]
        by_cases hy : y = x
        · simp [hy]
        · simp only [hy, if_false, m1 y]; simp [hy]
      · simp only [z1]; rw [filter_len hnt, if_pos hxt]
    obtain ⟨s', a', t', u1, u2, u3, u4, u5⟩ := update_inv hp (by
      simp only; rw [s1.config]; intro e; rw [n1 (h0.zero e)]; rfl)
    refine ⟨s', a', t', u1, u2, by rw [u3, List.cons_append, ← List.filter_append, e1], ?_,
      by rw [u5.time]; simp only [s1.time], by rw [u5.accessed]; simp only [s1.accessed],
      by rw [u5.config]; simp only [s1.config], by rw [u5.refreshTime]; simp only [s1.refreshTime]⟩
    have hne : s0.config.ipSpec ≠ 0 := fun e => by rw [n1 (h0.zero e)] at hxt; cases hxt
    rw [u4]
    simp only [s1.config]
    rw [if_neg hne, if_pos (x1 hxt)]
    congr 1
    rw [List.cons_append, hf2, hbc]; simp; omega
  · rw [if_neg ht]
    have hxt : x ∉ t1 := fun e => ht ((m1 x).2 e)
    have hfe : t1.filter (· ≠ x) = t1 := by
      rw [List.filter_eq_self]; intro y hy; simp; exact fun e => hxt (e ▸ hy)
    have hxt0 : x ∉ t := fun e => hxt (x2 e)
    rw [hfe] at memxx i1 hf2
    -- the insertion point was not the node, so nothing grew
    have htt : t1.length = t.length := x3 hxt0
    refine ⟨_, x :: a1.filter (· ≠ x), t1, rfl, ⟨⟨by rw [List.cons_append, hf2]; exact rr, memxx, m1, z1, i1⟩,
      ?_, ?_⟩, by rw [List.cons_append, hf2, hfil], by rw [if_neg hxt0, htt], by simp only [s1.time],
      s1.accessed, s1.config, s1.refreshTime⟩
    · have := h0.half
      rw [List.cons_append, hf2, htt]
      rw [hbc] at this
      simpa [Nat.add_assoc, Nat.add_comm] using this
    · simp only; rw [s1.config]; intro e; exact n1 (h0.zero e)

theorem promote_out {s : State N} {a t : List N} (h : Inv s a t) {x : N} (hx : x ∉ a ++ t) (now : Nat) :
    promote s x now = some (reconfigure s now) := by
  have h0 : Inv (reconfigure s now) a t := by
    unfold reconfigure
    split
    · exact h
    · exact ⟨⟨h.rep, h.mem, h.tl, h.size, h.ip⟩, h.half, h.zero⟩
  unfold promote
  simp only
  generalize reconfigure s now = s0 at h0
  have h1 : some x ≠ s0.ip := by
    rw [h0.ip]; intro e; exact hx (by simp [List.mem_of_head? e.symm])
  have h2 : ensureNotIp s0 x = s0 := by unfold ensureNotIp; rw [if_neg h1]
  have h3 : ¬ s0.tail x = true := fun e => hx (by simp [(h0.tl x).1 e])
  rw [h2, inMM_false h0.toPInv hx]
  simp [h3]

theorem clear_spec (s : State N) (a t : List N) (hr : DList.Rep s.hooks s.lru (a ++ t))
    (ht : ∀ x, s.tail x = true ↔ x ∈ t) :
    ∃ s', clearTail t.length s t.head? = some s' ∧ Same s s' ∧ (∀ x, s'.tail x = false) ∧ s'.tailSize = 0 ∧
      s'.ip = s.ip := by
  induction t generalizing s a with
  | nil =>
    refine ⟨{ s with tailSize := 0 }, rfl, ⟨rfl, rfl, rfl, rfl, rfl, rfl, rfl, rfl⟩, ?_, rfl, rfl⟩
    intro x
    have := ht x
    simp only [List.not_mem_nil, iff_false, Bool.not_eq_true] at this
    exact this
  | cons c t ih =>
    have hn : s.hooks.next c = t.head? := DList.rep_next hr
    have hnd := DList.nodup_mid hr.nodup
    simp only [List.length_cons, List.head?_cons, clearTail, hn]
    obtain ⟨s', h1, h2, h3, h4, h5⟩ := ih { s with tail := upd s.tail c false, tailSize := t.length } (a ++ [c])
      (by simpa using hr) (by
        intro x
        simp only [upd]
        by_cases hx : x = c
        · subst hx; simp; exact hnd.2.1
        · simp only [hx, if_false, ht x, List.mem_cons, false_or])
    exact ⟨s', h1, ⟨h2.1, h2.2, h2.3, h2.4, h2.5, h2.6, h2.7, h2.8⟩, h3, h4, h5⟩

theorem dropIp_spec {s : State N} {a t : List N} (h : PInv s a t)
    (half : t.length ≤ 1 ∨ 2 * t.length ≤ (a ++ t).length) :
    ∃ s' a' t', dropIp s = some s' ∧ Inv s' a' t' ∧ a' ++ t' = a ++ t ∧
      t'.length = (if s.config.ipSpec = 0 then 0 else t.length) ∧ s'.time = s.time ∧ s'.accessed = s.accessed ∧
      s'.config = s.config := by
  unfold dropIp
  by_cases hc : s.config.ipSpec = 0
  · by_cases hi : s.ip = none
    · rw [if_neg (by simp [hi])]
      have ht : t = [] := by
        have := h.ip
        rw [hi] at this
        cases t with
        | nil => rfl
        | cons x l => cases this
      subst ht
      exact ⟨s, a, [], rfl, ⟨h, half, fun _ => rfl⟩, rfl, by simp [hc], rfl, rfl, rfl⟩
    · rw [if_pos ⟨hc, hi⟩, h.ip, h.size]
      obtain ⟨s', h1, h2, h3, h4, h5⟩ := clear_spec s a t h.rep h.tl
      refine ⟨{ s' with ip := none }, a ++ t, [], by rw [h1]; rfl, ⟨⟨?_, ?_, ?_, ?_, ?_⟩, by simp, fun _ => rfl⟩,
        by simp, by simp [hc], h2.time, h2.accessed, h2.config⟩
      · simpa [h2.hooks, h2.lru] using h.rep
      · simpa [h2.inMM] using h.mem
      · simp [h3]
      · simp [h4]
      · rfl
  · rw [if_neg (by rintro ⟨e, _⟩; exact hc e)]
    exact ⟨s, a, t, rfl, ⟨h, half, fun e => absurd e hc⟩, rfl, by simp [hc], rfl, rfl, rfl⟩

theorem setConfig_spec {s : State N} {a t : List N} (h : Inv s a t) (c : Config) (now : Nat) :
    ∃ s' a' t', setConfig s c now = some s' ∧ Inv s' a' t' ∧ a' ++ t' = a ++ t ∧
      t'.length = (if c.ipSpec = 0 then 0 else t.length) ∧ s'.time = s.time ∧ s'.accessed = s.accessed ∧
      s'.config = c := by
  obtain ⟨s', a', t', h1, h2, h3, h4, h5, h6, h7⟩ :=
    dropIp_spec (s := { s with config := c }) (a := a) (t := t) ⟨h.rep, h.mem, h.tl, h.size, h.ip⟩ h.half
  unfold setConfig
  rw [h1]
  exact ⟨_, a', t', rfl, ⟨⟨h2.rep, h2.mem, h2.tl, h2.size, h2.ip⟩, h2.half, h2.zero⟩, h3, h4, h5, h6, h7⟩

end Verif.MMLru
