import Verif.Datatype.HashTable
import Mathlib.Data.List.Nodup

/-! # Robin-hood hashing: invariant and correctness of find / insert / remove / copy -/

namespace Verif.Datatype.HT
variable {K : Type} [DecidableEq K]

/-- Entry at an index (`none` outside). -/
def at' (ents : List (Option (K × Nat))) (i : Nat) : Option (K × Nat) :=
  match ents[i]? with
  | some x => x
  | none => none

theorem at'_set (ents : List (Option (K × Nat))) (i j : Nat) (x : Option (K × Nat)) (hi : i < ents.length) :
    at' (ents.set i x) j = if i = j then x else at' ents j := by
  unfold at'
  rw [List.getElem?_set]
  by_cases h : i = j
  · subst h; simp [hi]
  · simp [h]

theorem at'_some {ents : List (Option (K × Nat))} {i : Nat} {e : K × Nat} (h : at' ents i = some e) :
    i < ents.length := by
  unfold at' at h
  cases he : ents[i]? with
  | none => rw [he] at h; simp at h
  | some x => exact (List.getElem?_eq_some_iff.mp he).1

theorem getElem?_at' {ents : List (Option (K × Nat))} {i : Nat} (h : i < ents.length) :
    ents[i]? = some (at' ents i) := by
  unfold at'; rw [List.getElem?_eq_getElem h]

abbrev pd := probeDistance

def prv (cap i : Nat) : Nat := if i = 0 then cap - 1 else i - 1
def bck (cap i j : Nat) : Nat := if j ≤ i then i - j else i + cap - j

theorem pd_lt {cap d i : Nat} (hd : d < cap) (hi : i < cap) : pd d i cap < cap := by
  unfold pd probeDistance; split <;> omega

theorem pd_inj {cap d i j : Nat} (hd : d < cap) (hi : i < cap) (hj : j < cap)
    (h : pd d i cap = pd d j cap) : i = j := by
  unfold pd probeDistance at h; split at h <;> split at h <;> omega

theorem wrap_lt {cap i : Nat} (hi : i < cap) : wrap cap i < cap := by
  unfold wrap; split <;> omega

theorem pd_wrap {cap d i : Nat} (hd : d < cap) (hi : i < cap) (h : pd d i cap + 1 < cap) :
    pd d (wrap cap i) cap = pd d i cap + 1 := by
  unfold pd probeDistance wrap at *
  split at h <;> split <;> split <;> omega

theorem prv_wrap {cap i : Nat} (hi : i < cap) : prv cap (wrap cap i) = i := by
  unfold prv wrap; split <;> split <;> omega

theorem wrap_prv {cap i : Nat} (hi : i < cap) : wrap cap (prv cap i) = i := by
  unfold prv wrap; split <;> split <;> omega

theorem prv_lt {cap i : Nat} (hi : i < cap) : prv cap i < cap := by
  unfold prv; split <;> omega

theorem pd_to_wrap {cap i z : Nat} (hi : i < cap) (hz : z < cap) (h : i ≠ z) :
    pd (wrap cap i) z cap + 1 = pd i z cap := by
  unfold pd probeDistance wrap
  split <;> split <;> split <;> omega

theorem desired_lt {hash : K → Nat} (hh : ∀ k, hash k < 4294967296) {cap : Nat} (hc : 0 < cap)
    (hb : cap < 4294967296) (k : K) : desired hash cap k < cap := by
  unfold desired u32
  rw [Nat.shiftRight_eq_div_pow]
  have h1 : hash k * cap / 2 ^ 32 < cap := by
    rw [Nat.div_lt_iff_lt_mul (by decide)]
    have := (Nat.mul_lt_mul_right hc).mpr (hh k)
    rw [Nat.mul_comm cap]
    exact this
  omega

/-- The robin-hood invariant: an entry away from its home is preceded by an entry at most one step closer
to its own home. -/
def RH (d : K → Nat) (cap : Nat) (T : Nat → Option (K × Nat)) : Prop :=
  ∀ (i : Nat) (k : K) (a : Nat), i < cap → T i = some (k, a) → 0 < pd (d k) i cap →
    ∃ k' a', T (prv cap i) = some (k', a') ∧ pd (d k) i cap ≤ pd (d k') (prv cap i) cap + 1

/-- No key twice. -/
def Uniq (cap : Nat) (T : Nat → Option (K × Nat)) : Prop :=
  ∀ (i j : Nat) (k : K) (a b : Nat), i < cap → j < cap → T i = some (k, a) → T j = some (k, b) → i = j

theorem chain {d : K → Nat} {cap : Nat} {T : Nat → Option (K × Nat)} (hd : ∀ k, d k < cap)
    (h : RH d cap T) {i : Nat} {k : K} {a : Nat} (hi : i < cap) (hT : T i = some (k, a)) :
    ∀ j, j ≤ pd (d k) i cap → ∃ k' a', T (bck cap i j) = some (k', a') ∧
      pd (d k) i cap ≤ pd (d k') (bck cap i j) cap + j := by
  intro j
  have hlt := pd_lt (hd k) hi
  induction j with
  | zero => intro _; exact ⟨k, a, by simpa [bck] using hT, by simp [bck]⟩
  | succ j ih =>
    intro hj
    obtain ⟨k', a', h1, h2⟩ := ih (by omega)
    have hb : bck cap i j < cap := by unfold bck; split <;> omega
    obtain ⟨k'', a'', h3, h4⟩ := h _ k' a' hb h1 (by omega)
    have hp : prv cap (bck cap i j) = bck cap i (j + 1) := by
      unfold prv bck; repeat' split
      all_goals omega
    rw [hp] at h3 h4
    exact ⟨k'', a'', h3, by omega⟩

/-- With an empty slot somewhere, no entry is `cap - 1` away from its home. -/
theorem not_full {d : K → Nat} {cap : Nat} {T : Nat → Option (K × Nat)} (hd : ∀ k, d k < cap)
    (h : RH d cap T) {i z : Nat} {k : K} {a : Nat} (hi : i < cap) (hT : T i = some (k, a))
    (hz : z < cap) (he : T z = none) : pd (d k) i cap + 1 < cap := by
  have hlt := pd_lt (hd k) hi
  apply Classical.byContradiction
  intro hn
  have hfull : pd (d k) i cap = cap - 1 := by omega
  have hzi := pd_lt hz hi
  obtain ⟨k', a', h1, _⟩ := chain hd h hi hT (pd z i cap) (by omega)
  have : bck cap i (pd z i cap) = z := by
    unfold bck pd probeDistance; repeat' split
    all_goals omega
  rw [this, he] at h1
  cases h1

/-- The position `m` steps from the home of a key stored at `p`, `m` at most its distance, is occupied by an entry
at distance at least `m`. -/
theorem on_path {d : K → Nat} {cap : Nat} {T : Nat → Option (K × Nat)} (hd : ∀ k, d k < cap)
    (h : RH d cap T) {p : Nat} {k : K} {a : Nat} (hp : p < cap) (hT : T p = some (k, a))
    {i : Nat} (hi : i < cap) (hm : pd (d k) i cap ≤ pd (d k) p cap) :
    ∃ k' a', T i = some (k', a') ∧ pd (d k) i cap ≤ pd (d k') i cap := by
  obtain ⟨k', a', h1, h2⟩ := chain hd h hp hT (pd (d k) p cap - pd (d k) i cap) (by omega)
  have hdk := hd k
  have : bck cap p (pd (d k) p cap - pd (d k) i cap) = i := by
    unfold bck pd probeDistance at *
    repeat' split
    all_goals (repeat' split at hm)
    all_goals omega
  rw [this] at h1 h2
  exact ⟨k', a', h1, by omega⟩

/-! ### find -/

theorem findLoop_spec {hash : K → Nat} {t : HT K} (hlen : t.ents.length = t.cap)
    (hd : ∀ k, desired hash t.cap k < t.cap)
    (hRH : RH (desired hash t.cap) t.cap (at' t.ents)) {z : Nat} (hz : z < t.cap) (hze : at' t.ents z = none)
    (key : K) : ∀ (f i m : Nat), i < t.cap → m = pd (desired hash t.cap key) i t.cap → pd i z t.cap < f →
      (∀ p a, p < t.cap → at' t.ents p = some (key, a) → m ≤ pd (desired hash t.cap key) p t.cap) →
      ∃ r, findLoop hash t key f i m = some r ∧
        (∀ p, r = some p → p < t.cap ∧ ∃ a, at' t.ents p = some (key, a)) ∧
        (r = none → ∀ p a, p < t.cap → at' t.ents p ≠ some (key, a)) := by
  intro f
  induction f with
  | zero => intro i m _ _ hf; omega
  | succ f ih =>
    intro i m hi hm hf hp
    unfold findLoop
    rw [getElem?_at' (by omega)]
    cases hT : at' t.ents i with
    | none =>
      dsimp only
      refine ⟨none, rfl, by simp, ?_⟩
      intro _ p a hpc hpa
      obtain ⟨k', a', h1, _⟩ := on_path hd hRH hpc hpa hi (by rw [← hm]; exact hp p a hpc hpa)
      rw [hT] at h1; cases h1
    | some e =>
      obtain ⟨k, a⟩ := e
      dsimp only
      by_cases hk : k = key
      · subst hk
        rw [if_pos rfl]
        exact ⟨some i, rfl, by intro p hp; cases hp; exact ⟨hi, a, hT⟩, by simp⟩
      · rw [if_neg hk]
        by_cases hc : probeDistance (desired hash t.cap k) i t.cap < m
        · rw [if_pos hc]
          refine ⟨none, rfl, by simp, ?_⟩
          intro _ p a' hpc hpa
          obtain ⟨k', a', h1, h2⟩ := on_path hd hRH hpc hpa hi (by rw [← hm]; exact hp p _ hpc hpa)
          rw [hT] at h1; cases h1
          unfold pd at *; omega
        · rw [if_neg hc]
          have hnf := not_full hd hRH hi hT hz hze
          have hiz : i ≠ z := by rintro rfl; rw [hT] at hze; cases hze
          have hstep := pd_wrap (hd key) hi (by unfold pd at *; omega)
          have hz2 := pd_to_wrap hi hz hiz
          apply ih (wrap t.cap i) (m + 1) (wrap_lt hi) (by omega) (by omega)
          intro p a' hpc hpa
          have h1 := hp p a' hpc hpa
          rcases Nat.lt_or_ge m (pd (desired hash t.cap key) p t.cap) with h2 | h2
          · omega
          · have : i = p := pd_inj (hd key) hi hpc (by omega)
            subst this
            rw [hT] at hpa
            simp at hpa
            exact absurd hpa.1 hk

/-! ### insert -/

theorem insertLoop_present {hash : K → Nat} {cap : Nat} {ents : List (Option (K × Nat))}
    (hlen : ents.length = cap)
    (hd : ∀ k, desired hash cap k < cap)
    (hRH : RH (desired hash cap) cap (at' ents)) (hU : Uniq cap (at' ents)) {z : Nat} (hz : z < cap)
    (hze : at' ents z = none)
    (key : K) (addr : Nat) {p old : Nat} (hpc : p < cap) (hpa : at' ents p = some (key, old)) :
    ∀ (f i m : Nat), i < cap → m = pd (desired hash cap key) i cap → pd i z cap < f →
      m ≤ pd (desired hash cap key) p cap →
      insertLoop hash cap f ents (key, addr) i m = some (ents.set p (some (key, addr)), false, old) := by
  intro f
  induction f with
  | zero => intro i m _ _ hf; omega
  | succ f ih =>
    intro i m hi hm hf hp
    unfold insertLoop
    rw [getElem?_at' (by omega)]
    obtain ⟨k, a, hT, h2⟩ := on_path hd hRH hpc hpa hi (by rw [← hm]; exact hp)
    rw [hT]
    dsimp only
    by_cases hk : k = key
    · subst hk
      rw [if_pos rfl]
      have := hU i p k a old hi hpc hT hpa
      subst this
      rw [hT] at hpa; cases hpa
      rfl
    · rw [if_neg hk, if_neg (by unfold pd at *; omega)]
      have hnf := not_full hd hRH hi hT hz hze
      have hiz : i ≠ z := by rintro rfl; rw [hT] at hze; cases hze
      have hstep := pd_wrap (hd key) hi (by unfold pd at *; omega)
      have hz2 := pd_to_wrap hi hz hiz
      apply ih (wrap cap i) (m + 1) (wrap_lt hi) (by omega) (by omega)
      rcases Nat.lt_or_ge m (pd (desired hash cap key) p cap) with h3 | h3
      · omega
      · have : i = p := pd_inj (hd key) hi hpc (by omega)
        subst this
        rw [hT] at hpa
        simp at hpa
        exact absurd hpa.1 hk

def occ (ents : List (Option (K × Nat))) : Nat := ents.countP Option.isSome

theorem occ_set_some_none {ents : List (Option (K × Nat))} {i : Nat} {e : K × Nat} (hi : i < ents.length)
    (h : at' ents i = none) : occ (ents.set i (some e)) = occ ents + 1 := by
  unfold occ
  have hg : ents[i] = none := by
    have := getElem?_at' hi; rw [h, List.getElem?_eq_getElem hi] at this; simpa using this
  rw [List.countP_set hi]
  simp [hg]

theorem occ_set_some_some {ents : List (Option (K × Nat))} {i : Nat} {e e' : K × Nat} (hi : i < ents.length)
    (h : at' ents i = some e') : occ (ents.set i (some e)) = occ ents := by
  unfold occ
  have hg : ents[i] = some e' := by
    have := getElem?_at' hi; rw [h, List.getElem?_eq_getElem hi] at this; simpa using this
  have hpos : 0 < List.countP Option.isSome ents :=
    List.countP_pos_iff.mpr ⟨ents[i], List.getElem_mem hi, by rw [hg]; rfl⟩
  rw [List.countP_set hi]
  simp [hg]; omega

theorem occ_set_none_some {ents : List (Option (K × Nat))} {i : Nat} {e' : K × Nat} (hi : i < ents.length)
    (h : at' ents i = some e') : occ (ents.set i none) + 1 = occ ents := by
  unfold occ
  have hg : ents[i] = some e' := by
    have := getElem?_at' hi; rw [h, List.getElem?_eq_getElem hi] at this; simpa using this
  have hpos : 0 < List.countP Option.isSome ents :=
    List.countP_pos_iff.mpr ⟨ents[i], List.getElem_mem hi, by rw [hg]; rfl⟩
  rw [List.countP_set hi]
  simp [hg]; omega

theorem RH_set {d : K → Nat} {cap : Nat} {ents : List (Option (K × Nat))} (hlen : ents.length = cap)
    (hRH : RH d cap (at' ents)) {i : Nat} (hi : i < cap) {c : K} {ca : Nat}
    (hprev : 0 < pd (d c) i cap → ∃ k' a', at' ents (prv cap i) = some (k', a') ∧
      pd (d c) i cap ≤ pd (d k') (prv cap i) cap + 1)
    (hnext : ∀ k a, at' ents (wrap cap i) = some (k, a) → 0 < pd (d k) (wrap cap i) cap →
      pd (d k) (wrap cap i) cap ≤ pd (d c) i cap + 1) (hcap : 1 < cap) :
    RH d cap (at' (ents.set i (some (c, ca)))) := by
  intro j k a hj hT hpos
  rw [at'_set _ _ _ _ (by omega)] at hT
  have hpi : prv cap i ≠ i := by unfold prv; split <;> omega
  by_cases hij : i = j
  · subst hij
    rw [if_pos rfl] at hT
    cases hT
    rw [at'_set _ _ _ _ (by omega), if_neg (fun e => hpi e.symm)]
    exact hprev hpos
  · rw [if_neg hij] at hT
    rw [at'_set _ _ _ _ (by omega)]
    by_cases hp : i = prv cap j
    · rw [if_pos hp]
      have hw : wrap cap i = j := by rw [hp]; exact wrap_prv hj
      refine ⟨c, ca, rfl, ?_⟩
      rw [← hp]
      rw [← hw] at hT hpos ⊢
      exact hnext k a hT hpos
    · rw [if_neg hp]
      exact hRH j k a hj hT hpos

theorem insertLoop_absent {hash : K → Nat} {cap : Nat} (hcap : 1 < cap)
    (hd : ∀ k, desired hash cap k < cap) {z : Nat} (hz : z < cap) :
    ∀ (f : Nat) (ents : List (Option (K × Nat))) (c : K) (ca i m : Nat), ents.length = cap →
      RH (desired hash cap) cap (at' ents) → Uniq cap (at' ents) → at' ents z = none →
      i < cap → m = pd (desired hash cap c) i cap → pd i z cap < f →
      (0 < m → ∃ k' a', at' ents (prv cap i) = some (k', a') ∧ m ≤ pd (desired hash cap k') (prv cap i) cap + 1) →
      (∀ p a, p < cap → at' ents p ≠ some (c, a)) →
      ∃ ents', insertLoop hash cap f ents (c, ca) i m = some (ents', true, nullAddr) ∧
        ents'.length = cap ∧ RH (desired hash cap) cap (at' ents') ∧ Uniq cap (at' ents') ∧
        occ ents' = occ ents + 1 ∧
        (∀ k a, (∃ p, p < cap ∧ at' ents' p = some (k, a)) ↔
          (k = c ∧ a = ca) ∨ ∃ p, p < cap ∧ at' ents p = some (k, a)) := by
  intro f
  induction f with
  | zero => intro ents c ca i m _ _ _ _ _ _ hf; omega
  | succ f ih =>
    intro ents c ca i m hlen hRH hU hze hi hm hf hprev habs
    unfold insertLoop
    rw [getElem?_at' (by omega)]
    cases hT : at' ents i with
    | none =>
      dsimp only
      refine ⟨_, rfl, by simp [hlen], ?_, ?_, occ_set_some_none (by omega) hT, ?_⟩
      · apply RH_set hlen hRH hi _ _ hcap
        · rw [← hm]; exact hprev
        · intro k a hk hpos
          obtain ⟨k', a', h1, _⟩ := hRH _ k a (wrap_lt hi) hk hpos
          rw [prv_wrap hi, hT] at h1; cases h1
      · intro p q k a b hp hq h1 h2
        rw [at'_set _ _ _ _ (by omega)] at h1 h2
        by_cases hip : i = p
        · by_cases hiq : i = q
          · omega
          · rw [if_pos hip] at h1; rw [if_neg hiq] at h2
            cases h1
            exact absurd h2 (habs q b hq)
        · by_cases hiq : i = q
          · rw [if_neg hip] at h1; rw [if_pos hiq] at h2
            cases h2
            exact absurd h1 (habs p a hp)
          · rw [if_neg hip] at h1; rw [if_neg hiq] at h2
            exact hU p q k a b hp hq h1 h2
      · intro k a
        constructor
        · rintro ⟨p, hp, h1⟩
          rw [at'_set _ _ _ _ (by omega)] at h1
          split at h1
          · cases h1; exact Or.inl ⟨rfl, rfl⟩
          · exact Or.inr ⟨p, hp, h1⟩
        · rintro (⟨rfl, rfl⟩ | ⟨p, hp, h1⟩)
          · exact ⟨i, hi, by rw [at'_set _ _ _ _ (by omega), if_pos rfl]⟩
          · refine ⟨p, hp, ?_⟩
            rw [at'_set _ _ _ _ (by omega), if_neg]
            · exact h1
            · rintro rfl; rw [hT] at h1; cases h1
    | some e =>
      obtain ⟨k, a⟩ := e
      dsimp only
      have hk : k ≠ c := by rintro rfl; exact habs i a hi hT
      rw [if_neg hk]
      have hnf := not_full hd hRH hi hT hz hze
      have hiz : i ≠ z := by rintro rfl; rw [hT] at hze; cases hze
      have hz2 := pd_to_wrap hi hz hiz
      by_cases hc : probeDistance (desired hash cap k) i cap < m
      · rw [if_pos hc]
        have hRH' : RH (desired hash cap) cap (at' (ents.set i (some (c, ca)))) := by
          apply RH_set hlen hRH hi _ _ hcap
          · rw [← hm]; exact hprev
          · intro k2 a2 hk2 hpos
            obtain ⟨k', a', h1, h2⟩ := hRH _ k2 a2 (wrap_lt hi) hk2 hpos
            rw [prv_wrap hi] at h1 h2
            rw [hT] at h1; cases h1
            unfold pd at *; omega
        have hU' : Uniq cap (at' (ents.set i (some (c, ca)))) := by
          intro p q k a b hp hq h1 h2
          rw [at'_set _ _ _ _ (by omega)] at h1 h2
          by_cases hip : i = p
          · by_cases hiq : i = q
            · omega
            · rw [if_pos hip] at h1; rw [if_neg hiq] at h2
              cases h1
              exact absurd h2 (habs q b hq)
          · by_cases hiq : i = q
            · rw [if_neg hip] at h1; rw [if_pos hiq] at h2
              cases h2
              exact absurd h1 (habs p a hp)
            · rw [if_neg hip] at h1; rw [if_neg hiq] at h2
              exact hU p q k a b hp hq h1 h2
        have hstep := pd_wrap (hd k) hi hnf
        obtain ⟨ents', g1, g2, g3, g4, g5, g6⟩ := ih (ents.set i (some (c, ca))) k a (wrap cap i)
          (probeDistance (desired hash cap k) i cap + 1) (by simp [hlen]) hRH' hU'
          (by rw [at'_set _ _ _ _ (by omega), if_neg hiz]; exact hze) (wrap_lt hi) hstep.symm (by omega)
          (by
            intro _
            rw [prv_wrap hi, at'_set _ _ _ _ (by omega), if_pos rfl]
            exact ⟨c, ca, rfl, by unfold pd at *; omega⟩)
          (by
            intro p b hp h1
            rw [at'_set _ _ _ _ (by omega)] at h1
            split at h1
            · cases h1; exact hk rfl
            · rename_i hne
              exact hne (hU i p k a b hi hp hT h1))
        refine ⟨ents', g1, g2, g3, g4, by rw [g5, occ_set_some_some (by omega) hT], ?_⟩
        intro k2 a2
        rw [g6]
        constructor
        · rintro (⟨rfl, rfl⟩ | ⟨p, hp, h1⟩)
          · exact Or.inr ⟨i, hi, hT⟩
          · rw [at'_set _ _ _ _ (by omega)] at h1
            split at h1
            · cases h1; exact Or.inl ⟨rfl, rfl⟩
            · exact Or.inr ⟨p, hp, h1⟩
        · rintro (⟨rfl, rfl⟩ | ⟨p, hp, h1⟩)
          · exact Or.inr ⟨i, hi, by rw [at'_set _ _ _ _ (by omega), if_pos rfl]⟩
          · by_cases hip : i = p
            · subst hip; rw [hT] at h1; cases h1; exact Or.inl ⟨rfl, rfl⟩
            · exact Or.inr ⟨p, hp, by rw [at'_set _ _ _ _ (by omega), if_neg hip]; exact h1⟩
      · rw [if_neg hc]
        have hstep := pd_wrap (hd c) hi (by unfold pd at *; omega)
        exact ih ents c ca (wrap cap i) (m + 1) hlen hRH hU hze (wrap_lt hi) (by omega) (by omega)
          (by
            intro _
            rw [prv_wrap hi]
            exact ⟨k, a, hT, by unfold pd at *; omega⟩) habs

/-! ### remove -/

theorem removeLoop_spec {hash : K → Nat} {cap : Nat} (hcap : 1 < cap)
    (hd : ∀ k, desired hash cap k < cap) {z : Nat} (hz : z < cap) (P : K → Nat → Prop) :
    ∀ (f : Nat) (ents : List (Option (K × Nat))) (i : Nat), ents.length = cap →
      RH (desired hash cap) cap (at' ents) → at' ents z = none → i < cap → pd i z cap ≤ f → 0 < f →
      (∃ e, at' ents i = some e) →
      (∀ p q k a b, p < cap → q < cap → p ≠ i → q ≠ i → at' ents p = some (k, a) → at' ents q = some (k, b) → p = q) →
      (∀ k a, (∃ p, p < cap ∧ p ≠ i ∧ at' ents p = some (k, a)) ↔ P k a) →
      ∃ ents', removeLoop hash cap f ents i = some ents' ∧
        ents'.length = cap ∧ RH (desired hash cap) cap (at' ents') ∧ Uniq cap (at' ents') ∧
        occ ents' + 1 = occ ents ∧
        (∀ k a, (∃ p, p < cap ∧ at' ents' p = some (k, a)) ↔ P k a) := by
  intro f
  induction f with
  | zero => intro ents i _ _ _ _ _ hf; omega
  | succ f ih =>
    intro ents i hlen hRH hze hi hf _ ⟨e0, he0⟩ hU hP
    have hnx : (if i = cap - 1 then 0 else i + 1) = wrap cap i := by
      unfold wrap; split <;> split <;> omega
    have hiw : i ≠ wrap cap i := by unfold wrap; split <;> omega
    unfold removeLoop
    dsimp only
    rw [hnx, getElem?_at' (by have := wrap_lt hi; omega)]
    have hdone : (∀ k a, at' ents (wrap cap i) = some (k, a) → pd (desired hash cap k) (wrap cap i) cap = 0) →
        (ents.set i none).length = cap ∧ RH (desired hash cap) cap (at' (ents.set i none)) ∧
        Uniq cap (at' (ents.set i none)) ∧ occ (ents.set i none) + 1 = occ ents ∧
        (∀ k a, (∃ p, p < cap ∧ at' (ents.set i none) p = some (k, a)) ↔ P k a) := by
      intro hzero
      refine ⟨by simp [hlen], ?_, ?_, occ_set_none_some (by omega) he0, ?_⟩
      · intro j k a hj hT hpos
        rw [at'_set _ _ _ _ (by omega)] at hT
        split at hT
        · cases hT
        · rename_i hij
          rw [at'_set _ _ _ _ (by omega)]
          by_cases hp : i = prv cap j
          · have hw : wrap cap i = j := by rw [hp]; exact wrap_prv hj
            subst hw
            rw [hzero k a hT] at hpos; omega
          · rw [if_neg hp]; exact hRH j k a hj hT hpos
      · intro p q k a b hp hq h1 h2
        rw [at'_set _ _ _ _ (by omega)] at h1 h2
        split at h1
        · cases h1
        · split at h2
          · cases h2
          · rename_i h3 h4
            exact hU p q k a b hp hq (fun e => h3 e.symm) (fun e => h4 e.symm) h1 h2
      · intro k a
        rw [← hP]
        constructor
        · rintro ⟨p, hp, h1⟩
          rw [at'_set _ _ _ _ (by omega)] at h1
          split at h1
          · cases h1
          · rename_i h3; exact ⟨p, hp, fun e => h3 e.symm, h1⟩
        · rintro ⟨p, hp, hpi, h1⟩
          exact ⟨p, hp, by rw [at'_set _ _ _ _ (by omega), if_neg (fun e => hpi e.symm)]; exact h1⟩
    cases hT : at' ents (wrap cap i) with
    | none =>
      dsimp only
      exact ⟨_, rfl, hdone (by intro k a h; rw [hT] at h; cases h)⟩
    | some e =>
      obtain ⟨k, a⟩ := e
      dsimp only
      by_cases h0 : probeDistance (desired hash cap k) (wrap cap i) cap = 0
      · rw [if_pos h0]
        exact ⟨_, rfl, hdone (by intro k' a' h; rw [hT] at h; cases h; exact h0)⟩
      · rw [if_neg h0]
        have hpos : 0 < pd (desired hash cap k) (wrap cap i) cap := by unfold pd; omega
        obtain ⟨k0, a0, h1, h2⟩ := hRH _ k a (wrap_lt hi) hT hpos
        rw [prv_wrap hi] at h1 h2
        have hback : pd (desired hash cap k) i cap + 1 = pd (desired hash cap k) (wrap cap i) cap := by
          have := hd k
          unfold pd probeDistance wrap at *
          repeat' split at h0
          all_goals (repeat' split)
          all_goals omega
        have hRH' : RH (desired hash cap) cap (at' (ents.set i (some (k, a)))) := by
          apply RH_set hlen hRH hi _ _ hcap
          · intro hpos2
            obtain ⟨k3, a3, h3, h4⟩ := hRH i k0 a0 hi h1 (by omega)
            exact ⟨k3, a3, h3, by omega⟩
          · intro k2 a2 hk2 _
            rw [hT] at hk2; cases hk2; omega
        have hiz : i ≠ z := by rintro rfl; rw [he0] at hze; cases hze
        have hwz : wrap cap i ≠ z := by rintro rfl; rw [hT] at hze; cases hze
        have hz2 := pd_to_wrap hi hz hiz
        have hz3 : 0 < pd (wrap cap i) z cap := by
          have := wrap_lt hi
          unfold pd probeDistance; split <;> omega
        obtain ⟨ents', g1, g2, g3, g4, g5, g6⟩ := ih (ents.set i (some (k, a))) (wrap cap i) (by simp [hlen]) hRH'
          (by rw [at'_set _ _ _ _ (by omega), if_neg hiz]; exact hze) (wrap_lt hi) (by omega) (by omega)
          ⟨(k, a), by rw [at'_set _ _ _ _ (by omega), if_neg hiw]; exact hT⟩
          (by
            intro p q k' b c hp hq hpw hqw hb hc
            rw [at'_set _ _ _ _ (by omega)] at hb hc
            by_cases hip : i = p
            · by_cases hiq : i = q
              · omega
              · rw [if_pos hip] at hb; rw [if_neg hiq] at hc
                cases hb
                exact absurd (hU q (wrap cap i) k c a hq (wrap_lt hi) (fun e => hiq e.symm) (fun e => hiw e.symm) hc hT) hqw
            · by_cases hiq : i = q
              · rw [if_neg hip] at hb; rw [if_pos hiq] at hc
                cases hc
                exact absurd (hU p (wrap cap i) k b a hp (wrap_lt hi) (fun e => hip e.symm) (fun e => hiw e.symm) hb hT) hpw
              · rw [if_neg hip] at hb; rw [if_neg hiq] at hc
                exact hU p q k' b c hp hq (fun e => hip e.symm) (fun e => hiq e.symm) hb hc)
          (by
            intro k' a'
            rw [← hP]
            constructor
            · rintro ⟨p, hp, hpw, h3⟩
              rw [at'_set _ _ _ _ (by omega)] at h3
              split at h3
              · cases h3; exact ⟨wrap cap i, wrap_lt hi, fun e => hiw e.symm, hT⟩
              · rename_i hip; exact ⟨p, hp, fun e => hip e.symm, h3⟩
            · rintro ⟨p, hp, hpi, h3⟩
              by_cases hpw : p = wrap cap i
              · subst hpw
                rw [hT] at h3; cases h3
                exact ⟨i, hi, hiw, by rw [at'_set _ _ _ _ (by omega), if_pos rfl]⟩
              · exact ⟨p, hp, hpw, by rw [at'_set _ _ _ _ (by omega), if_neg (fun e => hpi e.symm)]; exact h3⟩)
        exact ⟨ents', g1, g2, g3, g4, by rw [g5, occ_set_some_some (by omega) he0], g6⟩

/-! ### the table -/

/-- The table maps `k` to `a`. -/
def Has (t : HT K) (k : K) (a : Nat) : Prop := ∃ p, p < t.cap ∧ at' t.ents p = some (k, a)

structure Inv (hash : K → Nat) (t : HT K) : Prop where
  len : t.ents.length = t.cap
  pos : 0 < t.cap
  capb : t.cap < 4294967296
  num : t.num = occ t.ents
  space : t.num < t.cap
  rh : RH (desired hash t.cap) t.cap (at' t.ents)
  uniq : Uniq t.cap (at' t.ents)

theorem Inv.has_unique {hash : K → Nat} {t : HT K} (h : Inv hash t) {k : K} {a b : Nat}
    (h1 : Has t k a) (h2 : Has t k b) : a = b := by
  obtain ⟨p, hp, h1⟩ := h1
  obtain ⟨q, hq, h2⟩ := h2
  have := h.uniq p q k a b hp hq h1 h2
  subst this
  rw [h1] at h2; simpa using h2

theorem Inv.empty {hash : K → Nat} {t : HT K} (h : Inv hash t) : ∃ z, z < t.cap ∧ at' t.ents z = none := by
  apply Classical.byContradiction
  intro hn
  have hall : ∀ x ∈ t.ents, Option.isSome x = true := by
    intro x hx
    obtain ⟨i, hi, rfl⟩ := List.mem_iff_getElem.mp hx
    cases hx2 : t.ents[i] with
    | some _ => rfl
    | none =>
      exact absurd ⟨i, by rw [← h.len]; exact hi, by unfold at'; rw [List.getElem?_eq_getElem hi, hx2]⟩ hn
  have : occ t.ents = t.ents.length := by
    unfold occ; rw [List.countP_eq_length]; exact hall
  have h1 := h.num; have h2 := h.space; have h3 := h.len
  omega

theorem new_inv (hash : K → Nat) {cap : Nat} (h : 0 < cap) (hb : cap < 4294967296) :
    Inv hash (new cap : HT K) ∧ ∀ k a, ¬ Has (new cap : HT K) k a := by
  have hat : ∀ p, at' (List.replicate cap (none : Option (K × Nat))) p = none := by
    intro p; unfold at'; rw [List.getElem?_replicate]; split <;> simp_all
  refine ⟨⟨by simp [new], h, hb, ?_, h, ?_, ?_⟩, ?_⟩
  · simp [new, occ, List.countP_replicate]
  · intro i k a _ hT; simp only [new, hat] at hT; cases hT
  · intro i j k a b _ _ hT; simp only [new, hat] at hT; cases hT
  · rintro k a ⟨p, _, hT⟩; simp only [new, hat] at hT; cases hT

theorem find_spec {hash : K → Nat} (hh : ∀ k, hash k < 4294967296) {t : HT K} (h : Inv hash t) (key : K) :
    ∃ r, find hash t key = some r ∧
      (∀ p, r = some p → p < t.cap ∧ ∃ a, at' t.ents p = some (key, a)) ∧
      (r = none → ∀ a, ¬ Has t key a) := by
  obtain ⟨z, hz, hze⟩ := h.empty
  have hd := fun k => desired_lt hh h.pos h.capb k
  have hz2 := pd_lt (hd key) hz
  obtain ⟨r, h1, h2, h3⟩ := findLoop_spec h.len hd h.rh hz hze key (t.cap + 1) (desired hash t.cap key) 0
    (hd key) (by simp [pd, probeDistance]) (by omega) (by intros; omega)
  exact ⟨r, h1, h2, fun hr a ⟨p, hp, hpa⟩ => h3 hr p a hp hpa⟩

theorem cap_gt_one {hash : K → Nat} {t : HT K} (h : Inv hash t) {k : K} {a : Nat} (hk : Has t k a) : 1 < t.cap := by
  obtain ⟨p, hp, hpa⟩ := hk
  obtain ⟨z, hz, hze⟩ := h.empty
  have : p ≠ z := by rintro rfl; rw [hpa] at hze; cases hze
  omega

/-- `insertOrReplace` throws exactly on a null address or when only one slot is left; otherwise it maps the key
to the address, returns the previous address, and changes nothing else. -/
theorem insertOrReplace_spec {hash : K → Nat} (hh : ∀ k, hash k < 4294967296) {t : HT K} (h : Inv hash t)
    (key : K) (addr : Nat) (ha : isNull addr = false) (hnn : ∀ k a, Has t k a → isNull a = false) :
    (t.num + 1 = t.cap ∧ t.insertOrReplace hash key addr = .throws) ∨
    (t.num + 1 < t.cap ∧ ∃ t' old, t.insertOrReplace hash key addr = .ok t' old ∧ Inv hash t' ∧ t'.cap = t.cap ∧
      (∀ k a, Has t' k a ↔ (k = key ∧ a = addr) ∨ (k ≠ key ∧ Has t k a)) ∧
      (Has t key old ∧ isNull old = false ∧ t'.num = t.num ∨
        (∀ a, ¬ Has t key a) ∧ old = nullAddr ∧ t'.num = t.num + 1)) := by
  have hsp := h.space; have hpos := h.pos; have hcb := h.capb
  unfold insertOrReplace
  rw [ha]
  have hu : u32 (4294967295 + t.cap) = t.cap - 1 := by unfold u32; omega
  rw [hu]
  by_cases hfull : t.num = t.cap - 1
  · left
    refine ⟨by omega, ?_⟩
    simp [hfull]
  · right
    refine ⟨by omega, ?_⟩
    rw [if_neg (by simp), if_neg hfull]
    obtain ⟨z, hz, hze⟩ := h.empty
    have hd := fun k => desired_lt hh h.pos h.capb k
    have hz2 := pd_lt (hd key) hz
    have hcap : 1 < t.cap := by omega
    by_cases hex : ∃ old, Has t key old
    · obtain ⟨old, p, hp, hpa⟩ := hex
      have hl : p < t.ents.length := by have := h.len; omega
      rw [insertLoop_present h.len hd h.rh h.uniq hz hze key addr hp hpa (t.cap + 1) (desired hash t.cap key) 0
        (hd key) (by simp [pd, probeDistance]) (by omega) (by omega)]
      dsimp only
      refine ⟨_, old, rfl, ⟨by simp [h.len], hpos, hcb, ?_, by simpa using hsp, ?_, ?_⟩, rfl, ?_,
        Or.inl ⟨⟨p, hp, hpa⟩, hnn _ _ ⟨p, hp, hpa⟩, by simp⟩⟩
      · dsimp only
        rw [occ_set_some_some hl hpa]; simpa using h.num
      · dsimp only
        intro j k a hj hT hpos'
        rw [at'_set _ _ _ _ hl] at hT
        have hT' : ∃ b, at' t.ents j = some (k, b) := by
          split at hT
          · rename_i hpj; subst hpj; cases hT; exact ⟨old, hpa⟩
          · exact ⟨a, hT⟩
        obtain ⟨b, hb⟩ := hT'
        obtain ⟨k', a', h1, h2⟩ := h.rh j k b hj hb hpos'
        rw [at'_set _ _ _ _ hl]
        by_cases hpp : p = prv t.cap j
        · rw [if_pos hpp]
          rw [← hpp, hpa] at h1; cases h1
          exact ⟨key, addr, rfl, h2⟩
        · rw [if_neg hpp]; exact ⟨k', a', h1, h2⟩
      · dsimp only
        intro i j k a b hi hj h1 h2
        rw [at'_set _ _ _ _ hl] at h1 h2
        have g1 : ∃ a, at' t.ents i = some (k, a) := by
          split at h1
          · rename_i e; subst e; cases h1; exact ⟨old, hpa⟩
          · exact ⟨a, h1⟩
        have g2 : ∃ a, at' t.ents j = some (k, a) := by
          split at h2
          · rename_i e; subst e; cases h2; exact ⟨old, hpa⟩
          · exact ⟨b, h2⟩
        obtain ⟨a1, g1⟩ := g1
        obtain ⟨a2, g2⟩ := g2
        exact h.uniq i j k a1 a2 hi hj g1 g2
      · intro k a
        unfold Has
        dsimp only
        constructor
        · rintro ⟨q, hq, hqa⟩
          rw [at'_set _ _ _ _ hl] at hqa
          split at hqa
          · cases hqa; exact Or.inl ⟨rfl, rfl⟩
          · rename_i hpq
            refine Or.inr ⟨?_, q, hq, hqa⟩
            rintro rfl
            exact hpq (h.uniq p q k old a hp hq hpa hqa)
        · rintro (⟨rfl, rfl⟩ | ⟨hne, q, hq, hqa⟩)
          · exact ⟨p, hp, by rw [at'_set _ _ _ _ hl, if_pos rfl]⟩
          · refine ⟨q, hq, ?_⟩
            rw [at'_set _ _ _ _ hl, if_neg]
            · exact hqa
            · rintro rfl; rw [hpa] at hqa; cases hqa; exact hne rfl
    · obtain ⟨ents', g1, g2, g3, g4, g5, g6⟩ := insertLoop_absent hcap hd hz (t.cap + 1) t.ents key addr
        (desired hash t.cap key) 0 h.len h.rh h.uniq hze (hd key) (by simp [pd, probeDistance]) (by omega)
        (by omega) (fun p a hp hpa => hex ⟨a, p, hp, hpa⟩)
      rw [g1]
      dsimp only
      refine ⟨_, nullAddr, rfl, ⟨g2, hpos, hcb, ?_, ?_, g3, g4⟩, rfl, ?_,
        Or.inr ⟨fun a hk => hex ⟨a, hk⟩, rfl, by simp⟩⟩
      · dsimp only; rw [g5, ← h.num]; simp
      · dsimp only; simp; omega
      · intro k a
        unfold Has
        dsimp only
        rw [g6]
        constructor
        · rintro (h1 | h1)
          · exact Or.inl h1
          · exact Or.inr ⟨by rintro rfl; exact hex ⟨a, h1⟩, h1⟩
        · rintro (h1 | h1)
          · exact Or.inl h1
          · exact Or.inr h1.2

theorem remove_spec {hash : K → Nat} (hh : ∀ k, hash k < 4294967296) {t : HT K} (h : Inv hash t) (key : K) :
    ∃ t' a, t.remove hash key = some (t', a) ∧ Inv hash t' ∧ t'.cap = t.cap ∧
      (∀ k b, Has t' k b ↔ k ≠ key ∧ Has t k b) ∧
      (Has t key a ∧ t'.num + 1 = t.num ∨ (∀ b, ¬ Has t key b) ∧ a = nullAddr ∧ t' = t) := by
  obtain ⟨r, h1, h2, h3⟩ := find_spec hh h key
  unfold remove
  rw [h1]
  cases r with
  | none =>
    dsimp only
    refine ⟨t, nullAddr, rfl, h, rfl, ?_, Or.inr ⟨h3 rfl, rfl, rfl⟩⟩
    intro k b
    constructor
    · intro hk; exact ⟨by rintro rfl; exact h3 rfl b hk, hk⟩
    · exact fun hk => hk.2
  | some i =>
    obtain ⟨hi, a, hia⟩ := h2 i rfl
    dsimp only
    have hl : i < t.ents.length := by have := h.len; omega
    rw [getElem?_at' hl, hia]
    dsimp only
    obtain ⟨z, hz, hze⟩ := h.empty
    have hd := fun k => desired_lt hh h.pos h.capb k
    have hz2 := pd_lt hi hz
    have hcap := cap_gt_one h ⟨i, hi, hia⟩
    obtain ⟨ents', g1, g2, g3, g4, g5, g6⟩ := removeLoop_spec hcap hd hz
      (fun k b => k ≠ key ∧ Has t k b) (t.cap + 1) t.ents i h.len h.rh hze hi (by omega) (by omega) ⟨_, hia⟩
      (fun p q k a b hp hq _ _ h1 h2 => h.uniq p q k a b hp hq h1 h2)
      (by
        intro k b
        constructor
        · rintro ⟨p, hp, hpi, hpa⟩
          exact ⟨by rintro rfl; exact hpi (h.uniq p i k b a hp hi hpa hia), p, hp, hpa⟩
        · rintro ⟨hne, p, hp, hpa⟩
          exact ⟨p, hp, by rintro rfl; rw [hia] at hpa; cases hpa; exact hne rfl, hpa⟩)
    rw [g1]
    dsimp only
    have hn := h.num; have hsp := h.space
    refine ⟨_, a, rfl, ⟨g2, h.pos, h.capb, ?_, ?_, g3, g4⟩, rfl, g6, Or.inl ⟨⟨i, hi, hia⟩, ?_⟩⟩
    · dsimp only; omega
    · dsimp only; omega
    · dsimp only; omega

theorem copyLoop_spec {hash : K → Nat} (hh : ∀ k, hash k < 4294967296) :
    ∀ (l : List (Option (K × Nat))) (t : HT K), Inv hash t →
      (∀ k a, Has t k a → isNull a = false) →
      (∀ k a, some (k, a) ∈ l → isNull a = false) →
      t.num + occ l < t.cap →
      (∀ (i j : Nat) (k : K) (a b : Nat), l[i]? = some (some (k, a)) → l[j]? = some (some (k, b)) → i = j) →
      (∀ k a b, some (k, a) ∈ l → ¬ Has t k b) →
      ∃ t', copyLoop hash l t = some t' ∧ Inv hash t' ∧ t'.cap = t.cap ∧ t'.num = t.num + occ l ∧
        (∀ k a, Has t' k a ↔ Has t k a ∨ some (k, a) ∈ l) := by
  intro l
  induction l with
  | nil => intro t ht _ _ _ _ _; exact ⟨t, rfl, ht, rfl, by simp [occ], by simp⟩
  | cons x l ih =>
    intro t ht hnt hnl hsp huq hdis
    have huq' : ∀ (i j : Nat) (k : K) (a b : Nat), l[i]? = some (some (k, a)) → l[j]? = some (some (k, b)) → i = j := by
      intro i j k a b h1 h2
      have := huq (i + 1) (j + 1) k a b (by simpa using h1) (by simpa using h2)
      omega
    cases x with
    | none =>
      have ho : occ (none :: l : List (Option (K × Nat))) = occ l := by simp [occ]
      rw [ho] at hsp
      obtain ⟨t', g1, g2, g3, g4, g5⟩ := ih t ht hnt (fun k a hm => hnl k a (List.mem_cons_of_mem _ hm)) hsp huq'
        (fun k a b hm => hdis k a b (List.mem_cons_of_mem _ hm))
      refine ⟨t', by rw [copyLoop]; exact g1, g2, g3, by rw [ho]; exact g4, ?_⟩
      intro k a; rw [g5]; simp
    | some e =>
      obtain ⟨k, a⟩ := e
      have ho : occ (some (k, a) :: l) = occ l + 1 := by simp [occ]
      rw [ho] at hsp
      have hna := hnl k a List.mem_cons_self
      unfold copyLoop
      rcases insertOrReplace_spec hh ht k a hna hnt with ⟨h1, _⟩ | ⟨_, t', old, g1, g2, g3, g4, g5⟩
      · omega
      · dsimp only
        rw [g1]
        dsimp only
        have hab : ∀ b, ¬ Has t k b := fun b => hdis k a b List.mem_cons_self
        have hnum : t'.num = t.num + 1 := by
          rcases g5 with ⟨h1, _⟩ | ⟨_, _, h1⟩
          · exact absurd h1 (hab _)
          · exact h1
        obtain ⟨t'', e1, e2, e3, e4, e5⟩ := ih t' g2
          (by
            intro k' b hk
            rcases (g4 k' b).mp hk with ⟨_, rfl⟩ | ⟨_, hk⟩
            · exact hna
            · exact hnt k' b hk)
          (fun k a hm => hnl k a (List.mem_cons_of_mem _ hm)) (by omega) huq'
          (by
            intro k' a' b hm hk
            rcases (g4 k' b).mp hk with ⟨rfl, rfl⟩ | ⟨_, hk⟩
            · obtain ⟨j, hj⟩ := List.mem_iff_getElem?.mp hm
              have := huq 0 (j + 1) k' b a' rfl (by simpa using hj)
              omega
            · exact hdis k' a' b (List.mem_cons_of_mem _ hm) hk)
        refine ⟨t'', e1, e2, by rw [e3, g3], by rw [ho]; omega, ?_⟩
        intro k' b
        rw [e5, g4, List.mem_cons]
        constructor
        · rintro ((⟨rfl, rfl⟩ | ⟨_, h1⟩) | h1)
          · exact Or.inr (Or.inl rfl)
          · exact Or.inl h1
          · exact Or.inr (Or.inr h1)
        · rintro (h1 | h1 | h1)
          · refine Or.inl (Or.inr ⟨?_, h1⟩)
            rintro rfl; exact hab b h1
          · cases h1; exact Or.inl (Or.inl ⟨rfl, rfl⟩)
          · exact Or.inr h1

/-- Copying a table into one at least as large keeps its contents. -/
theorem copy_spec {hash : K → Nat} (hh : ∀ k, hash k < 4294967296) {t : HT K} (h : Inv hash t)
    (hnn : ∀ k a, Has t k a → isNull a = false) {cap : Nat} (hc : t.cap ≤ cap) (hcb : cap < 4294967296) :
    ∃ t', copy hash cap t = some t' ∧ Inv hash t' ∧ t'.cap = cap ∧ t'.num = t.num ∧
      (∀ k a, Has t' k a ↔ Has t k a) := by
  have hpos := h.pos; have hsp := h.space; have hn := h.num
  obtain ⟨hi, hno⟩ := new_inv (K := K) hash (show 0 < cap by omega) hcb
  unfold copy
  rw [if_neg (by omega)]
  have hmem : ∀ k a, some (k, a) ∈ t.ents ↔ Has t k a := by
    intro k a
    constructor
    · intro hm
      obtain ⟨i, hi, he⟩ := List.mem_iff_getElem.mp hm
      refine ⟨i, by rw [← h.len]; exact hi, ?_⟩
      unfold at'; rw [List.getElem?_eq_getElem hi, he]
    · rintro ⟨p, hp, hpa⟩
      have hl : p < t.ents.length := by rw [h.len]; exact hp
      have := getElem?_at' hl
      rw [hpa] at this
      exact List.mem_of_getElem? this
  have hat : ∀ (i : Nat) (e : K × Nat), t.ents[i]? = some (some e) → i < t.cap ∧ at' t.ents i = some e := by
    intro i e he
    refine ⟨by rw [← h.len]; exact (List.getElem?_eq_some_iff.mp he).1, ?_⟩
    unfold at'; rw [he]
  obtain ⟨t', g1, g2, g3, g4, g5⟩ := copyLoop_spec hh t.ents (new cap) hi
    (fun k a hk => absurd hk (hno k a))
    (fun k a hm => hnn k a ((hmem k a).mp hm))
    (by show 0 + _ < cap; omega)
    (by
      intro i j k a b h1 h2
      obtain ⟨p1, p2⟩ := hat _ _ h1
      obtain ⟨q1, q2⟩ := hat _ _ h2
      exact h.uniq i j k a b p1 q1 p2 q2)
    (fun k a b _ => hno k b)
  refine ⟨t', g1, g2, g3, by rw [g4, hn]; show 0 + _ = _; omega, ?_⟩
  intro k a
  rw [g5, hmem]
  constructor
  · rintro (h1 | h1)
    · exact absurd h1 (hno k a)
    · exact h1
  · exact Or.inr

end Verif.Datatype.HT
