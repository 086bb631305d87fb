import Verif.MM2Q.Model
/-! The representation invariant of the 2Q container and one lemma per operation. -/
namespace Verif.MM2Q
open Verif MultiDList

variable {N : Type} [DecidableEq N] {P : N → Prop}

/-- flags of a node in queue `q`. -/
structure Flags (s : State N) (q : Nat) (x : N) : Prop where
  hot : s.hot x = decide (q = Hot)
  cold : s.cold x = decide (q = Cold ∨ q = ColdTail)
  tail : s.tail x = decide (q = WarmTail ∨ q = ColdTail)

/-- `P`: nodes that are in no queue and have clear flags. -/
structure QInv (P : N → Prop) (s : State N) (seq : Nat → List N) : Prop where
  rep : MRep s.m seq
  num : s.m.num = 5
  none : ∀ q, 5 ≤ q → seq q = []
  flags : ∀ q x, x ∈ seq q → Flags s q x
  zero : s.config.tailSize = 0 → seq WarmTail = [] ∧ seq ColdTail = []
  clear : ∀ x, P x → (∀ q, x ∉ seq q) ∧ s.hot x = false ∧ s.cold x = false ∧ s.tail x = false

/-- everything but lists and queue flags. -/
def rest (s : State N) :=
  (s.tracking, s.nextReconf, s.refreshTime, s.config, s.numHot, s.numCold, s.numWarm, s.numWarmTail, s.numColdTail,
    s.inMM, s.time)

theorem rest_config {s s' : State N} (h : rest s' = rest s) : s'.config = s.config := by
  simp only [rest, Prod.mk.injEq] at h; exact h.2.2.2.1

theorem QInv.lt {s : State N} {seq : Nat → List N} (h : QInv P s seq) {q : Nat} {x : N} (hx : x ∈ seq q) : q < 5 := by
  rcases Nat.lt_or_ge q 5 with h' | h'
  · exact h'
  · rw [h.none q h'] at hx; cases hx

theorem QInv.len {s : State N} {seq : Nat → List N} (h : QInv P s seq) (q : Nat) : s.len q = (seq q).length :=
  (h.rep.rep q).size

theorem QInv.last {s : State N} {seq : Nat → List N} (h : QInv P s seq) (q : Nat) : s.last q = (seq q).getLast? :=
  (h.rep.rep q).tail

theorem QInv.uniq {s : State N} {seq : Nat → List N} (h : QInv P s seq) {p q : Nat} {x : N} (hp : x ∈ seq p)
    (hq : x ∈ seq q) : p = q := by
  by_cases e : p = q
  · exact e
  · exact absurd hq (h.rep.disj p q e x hp)

theorem QInv.size {s : State N} {seq : Nat → List N} (h : QInv P s seq) :
    size s.m = (seq 0).length + (seq 1).length + (seq 2).length + (seq 3).length + (seq 4).length := by
  rw [MultiDList.size, size_eq h.rep, h.num]
  simp [total]

/-- the queue reported for a node is the one it is in. -/
theorem lruType_eq {s : State N} {seq : Nat → List N} (h : QInv P s seq) {q : Nat} {x : N} (hx : x ∈ seq q) :
    s.lruType x = q := by
  have hf := h.flags q x hx
  have hlt := h.lt hx
  unfold State.lruType State.inTail
  rw [hf.hot, hf.cold, hf.tail]
  have hz := h.zero
  match q, hlt with
  | 0, _ => simp
  | 1, _ =>
    by_cases e : s.config.tailSize = 0
    · rw [(hz e).1] at hx; cases hx
    · simp [e]
  | 2, _ => simp
  | 3, _ => simp
  | 4, _ =>
    by_cases e : s.config.tailSize = 0
    · rw [(hz e).2] at hx; cases hx
    · simp [e]

theorem inTail_eq {s : State N} {seq : Nat → List N} (h : QInv P s seq) {q : Nat} {x : N} (hx : x ∈ seq q) :
    s.inTail x = decide (q = WarmTail ∨ q = ColdTail) := by
  have hf := h.flags q x hx
  unfold State.inTail
  rw [hf.tail]
  by_cases e : s.config.tailSize = 0
  · have hz := h.zero e
    have : ¬ (q = WarmTail ∨ q = ColdTail) := by
      rintro (rfl | rfl)
      · rw [hz.1] at hx; cases hx
      · rw [hz.2] at hx; cases hx
    simp [this]
  · simp [e]

/-- moving the last node of a queue to the front of another. -/
theorem move_inv {s s' : State N} {seq : Nat → List N} (h : QInv P s seq) {p q : Nat} (hpq : p ≠ q) (hq : q < 5)
    {a : List N} {x : N} (hs : seq p = a ++ [x])
    (hm : s'.m = onList (onList s.m p (.remove x)) q (.linkAtHead x))
    (hx : Flags s' q x)
    (hr : ∀ y, y ≠ x → s'.hot y = s.hot y ∧ s'.cold y = s.cold y ∧ s'.tail y = s.tail y)
    (hc : s'.config = s.config) (hz : s.config.tailSize = 0 → q ≠ WarmTail ∧ q ≠ ColdTail) :
    QInv P s' (upd (upd seq p a) q (x :: seq q)) := by
  have hxp : x ∈ seq p := by rw [hs]; simp
  have hnd := (h.rep.rep p).nodup
  rw [hs] at hnd
  have hxa := (DList.nodup_mid (b := []) hnd).1
  have hp := h.lt hxp
  refine ⟨?_, ?_, ?_, ?_, ?_, ?_⟩
  · rw [hm]; exact move_rep h.rep hpq hs
  · rw [hm]; exact h.num
  · intro r hr
    rw [upd_ne _ _ (by omega), upd_ne _ _ (by omega)]
    exact h.none r hr
  · intro r y hy
    have hne : ∀ r', y ∈ seq r' → y ≠ x → Flags s' r' y := by
      intro r' h1 h2
      have hf := h.flags r' y h1
      obtain ⟨e1, e2, e3⟩ := hr y h2
      exact ⟨e1.trans hf.hot, e2.trans hf.cold, e3.trans hf.tail⟩
    by_cases e : r = q
    · subst e
      rw [upd_same] at hy
      rcases List.mem_cons.1 hy with rfl | hy
      · exact hx
      · exact hne r hy (fun e => h.rep.disj p r hpq x hxp (e ▸ hy))
    · rw [upd_ne _ _ e] at hy
      by_cases e' : r = p
      · subst e'
        rw [upd_same] at hy
        exact hne r (by rw [hs]; simp [hy]) (fun e => hxa (e ▸ hy))
      · rw [upd_ne _ _ e'] at hy
        exact hne r hy (fun e => h.rep.disj p r (Ne.symm e') x hxp (e ▸ hy))
  · intro e
    rw [hc] at e
    obtain ⟨h1, h2⟩ := h.zero e
    obtain ⟨h3, h4⟩ := hz e
    have hpn : ∀ r, seq r = [] → p ≠ r := by
      rintro r e1 rfl
      rw [e1] at hxp; cases hxp
    rw [upd_ne _ _ (Ne.symm h3), upd_ne _ _ (Ne.symm h4), upd_ne _ _ (Ne.symm (hpn _ h1)), upd_ne _ _ (Ne.symm (hpn _ h2))]
    exact ⟨h1, h2⟩
  · intro y hy
    obtain ⟨c1, c2, c3, c4⟩ := h.clear y hy
    have hyx : y ≠ x := fun e => c1 p (e ▸ hxp)
    obtain ⟨e1, e2, e3⟩ := hr y hyx
    refine ⟨?_, e1.trans c2, e2.trans c3, e3.trans c4⟩
    intro r hr'
    by_cases e : r = q
    · subst e
      rw [upd_same] at hr'
      rcases List.mem_cons.1 hr' with h | h
      · exact hyx h
      · exact c1 r h
    · rw [upd_ne _ _ e] at hr'
      by_cases e' : r = p
      · subst e'
        rw [upd_same] at hr'
        exact c1 r (by rw [hs]; simp [hr'])
      · rw [upd_ne _ _ e'] at hr'
        exact c1 r hr'

theorem flags_ne {f : N → Bool} {x y : N} {b : Bool} (h : y ≠ x) : upd f x b y = f y := upd_ne _ _ h

theorem popWarm_spec {s : State N} {seq : Nat → List N} (h : QInv P s seq) (hl : 0 < (seq 0).length + (seq 1).length) :
    ∃ x s' p a, popWarm s = some (x, s') ∧ (p = Warm ∧ seq 1 = [] ∨ p = WarmTail) ∧ seq p = a ++ [x] ∧
      s'.m = onList s.m p (.remove x) ∧ s'.hot = s.hot ∧ s'.cold = s.cold ∧
      (s'.tail x = false) ∧ (∀ y, y ≠ x → s'.tail y = s.tail y) ∧ rest s' = rest s := by
  unfold popWarm
  have hsplit : ∀ q, seq q ≠ [] → ∃ a x, seq q = a ++ [x] := by
    intro q hq
    rcases List.eq_nil_or_concat (seq q) with e | ⟨b, x, e⟩
    · exact absurd e hq
    · exact ⟨b, x, by simpa using e⟩
  by_cases h1 : seq 1 = []
  · rw [if_neg (by rw [h.len, h1]; simp)]
    obtain ⟨a, x, e⟩ := hsplit 0 (by intro e; rw [e, h1] at hl; simp at hl)
    refine ⟨x, s.on 0 (.remove x), 0, a, by rw [h.last, e, List.getLast?_concat]; rfl, Or.inl ⟨rfl, h1⟩, e, rfl, rfl, rfl, ?_, fun _ _ => rfl, rfl⟩
    have := (h.flags 0 x (by rw [e]; simp)).tail
    simp only [State.on]; simpa using this
  · rw [if_pos (by rw [h.len]; exact List.length_pos_iff.2 h1)]
    obtain ⟨a, x, e⟩ := hsplit 1 h1
    refine ⟨x, { s.on 1 (.remove x) with tail := upd s.tail x false }, 1, a, by rw [h.last, e, List.getLast?_concat]; rfl, Or.inr rfl, e, rfl, rfl, rfl, by simp, fun y hy => upd_ne _ _ hy, rfl⟩

theorem shrinkWarm_spec (e f : Nat) (s : State N) (seq : Nat → List N) (h : QInv P s seq)
    (hf : (seq 0).length + (seq 1).length ≤ f) :
    ∃ s' seq', shrinkWarm e f s = some s' ∧ QInv P s' seq' ∧
      seq' 0 ++ seq' 1 = (seq 0 ++ seq 1).take e ∧
      (seq' 1).length = (seq 1).length - ((seq 0 ++ seq 1).length - e) ∧
      seq' 3 = (seq 0 ++ seq 1).drop e ++ seq 3 ∧ seq' 2 = seq 2 ∧ seq' 4 = seq 4 ∧ rest s' = rest s := by
  induction f generalizing s seq with
  | zero =>
    refine ⟨s, seq, ?_, h, ?_, ?_, ?_, rfl, rfl, rfl⟩
    · unfold shrinkWarm
      rw [if_neg (by rw [h.len, h.len]; omega)]
    · rw [List.take_of_length_le (by simp; omega)]
    · simp; omega
    · rw [List.drop_of_length_le (by simp; omega)]; rfl
  | succ f ih =>
    unfold shrinkWarm
    by_cases hgt : s.len Warm + s.len WarmTail > e
    · rw [if_pos hgt]
      rw [h.len, h.len] at hgt
      obtain ⟨x, s1, p, a, h1, h2, h3, h4, h5, h6, h7, h8, h9⟩ := popWarm_spec h (by omega)
      simp only [h1, Option.bind_some]
      have hp3 : p ≠ 3 := by rcases h2 with ⟨rfl, _⟩ | rfl <;> decide
      have hx : x ∈ seq p := by rw [h3]; simp
      have hfl := h.flags p x hx
      have hhot : s.hot x = false := by
        rw [hfl.hot]
        rcases h2 with ⟨rfl, _⟩ | rfl <;> rfl
      have hinv := move_inv (s' := { s1.on Cold (.linkAtHead x) with cold := upd s1.cold x true }) h (q := 3) hp3
        (by decide) h3 (by simp only [State.on]; rw [h4])
        ⟨by simp only [State.on]; rw [h5, hhot]; rfl, by simp, by simp only [State.on]; rw [h7]; rfl⟩
        (fun y hy => ⟨by simp only [State.on]; rw [h5], by simp only [State.on]; rw [upd_ne _ _ hy, h6], by simp only [State.on]; exact h8 y hy⟩)
        (by simp only [State.on]; exact rest_config h9) (by omega)
      have hlen : (upd (upd seq p a) 3 (x :: seq 3) 0).length + (upd (upd seq p a) 3 (x :: seq 3) 1).length ≤ f := by
        have := congrArg List.length h3
        simp only [List.length_append, List.length_cons, List.length_nil] at this
        rcases h2 with ⟨rfl, _⟩ | rfl
        · simp [upd] at *; omega
        · simp [upd] at *; omega
      obtain ⟨s2, seq2, g1, g2, g3, g4, g5, g6, g7, g8⟩ := ih _ _ hinv hlen
      refine ⟨s2, seq2, g1, g2, ?_⟩
      have hW : ∃ b, seq 0 ++ seq 1 = b ++ [x] ∧
          upd (upd seq p a) 3 (x :: seq 3) 0 ++ upd (upd seq p a) 3 (x :: seq 3) 1 = b ∧
          (upd (upd seq p a) 3 (x :: seq 3) 1).length = (seq 1).length - 1 := by
        rcases h2 with ⟨rfl, h10⟩ | rfl
        · exact ⟨a, by rw [h10, h3]; simp, by simp [upd, h10], by simp [upd, h10]⟩
        · exact ⟨seq 0 ++ a, by rw [h3]; simp, by simp [upd], by simp [upd, h3]⟩
      obtain ⟨b, hb1, hb2, hb3⟩ := hW
      rw [hb2] at g3 g4 g5
      have hbe : e ≤ b.length := by
        have := congrArg List.length hb1
        simp only [List.length_append, List.length_cons, List.length_nil] at this
        omega
      refine ⟨?_, ?_, ?_, ?_, ?_, ?_⟩
      · rw [g3, hb1, List.take_append_of_le_length hbe]
      · rw [g4, hb1, hb3]
        simp only [List.length_append, List.length_cons, List.length_nil]
        omega
      · rw [g5, hb1, List.drop_append_of_le_length hbe]
        simp [upd]
      · rw [g6]; rcases h2 with ⟨rfl, _⟩ | rfl <;> simp [upd]
      · rw [g7]; rcases h2 with ⟨rfl, _⟩ | rfl <;> simp [upd]
      · exact g8.trans h9
    · rw [if_neg hgt]
      rw [h.len, h.len] at hgt
      refine ⟨s, seq, rfl, h, ?_, ?_, ?_, rfl, rfl, rfl⟩
      · rw [List.take_of_length_le (by simp; omega)]
      · simp; omega
      · rw [List.drop_of_length_le (by simp; omega)]; rfl

theorem split_last (l : List N) (h : l ≠ []) : ∃ a x, l = a ++ [x] := by
  rcases List.eq_nil_or_concat l with e | ⟨b, x, e⟩
  · exact absurd e h
  · exact ⟨b, x, by simpa using e⟩

theorem shrinkHot_spec (e f : Nat) (s : State N) (seq : Nat → List N) (h : QInv P s seq) (hf : (seq 2).length ≤ f) :
    ∃ s' seq', shrinkHot e f s = some s' ∧ QInv P s' seq' ∧
      seq' 2 = (seq 2).take e ∧ seq' 3 = (seq 2).drop e ++ seq 3 ∧ seq' 0 = seq 0 ∧ seq' 1 = seq 1 ∧
      seq' 4 = seq 4 ∧ rest s' = rest s := by
  induction f generalizing s seq with
  | zero =>
    have : seq 2 = [] := List.eq_nil_of_length_eq_zero (by omega)
    refine ⟨s, seq, ?_, h, by simp [this], by simp [this], rfl, rfl, rfl, rfl⟩
    unfold shrinkHot
    rw [if_neg (by rw [h.len]; omega)]
  | succ f ih =>
    unfold shrinkHot
    by_cases hgt : s.len Hot > e
    · rw [if_pos hgt]
      rw [h.len] at hgt
      obtain ⟨a, x, h3⟩ := split_last (seq 2) (by rintro e; rw [e] at hgt; simp at hgt)
      rw [h.last, h3]
      simp only [List.getLast?_concat, Option.bind_some]
      have hfl := h.flags 2 x (by rw [h3]; simp)
      have hinv := move_inv (s' := { (s.on Hot (.remove x)).on Cold (.linkAtHead x) with
          hot := upd s.hot x false, cold := upd s.cold x true }) h (p := 2) (q := 3) (by decide) (by decide) h3 rfl
        ⟨by simp, by simp, hfl.tail⟩ (fun y hy => ⟨upd_ne _ _ hy, upd_ne _ _ hy, rfl⟩) rfl (by omega)
      have hlen := congrArg List.length h3
      simp only [List.length_append, List.length_cons, List.length_nil] at hlen
      obtain ⟨s2, seq2, g1, g2, g3, g4, g5, g6, g7, g8⟩ := ih _ _ hinv (by simp [upd]; omega)
      refine ⟨s2, seq2, g1, g2, ?_, ?_, ?_, ?_, ?_, g8⟩
      · rw [g3]; simp only [upd]; simp
        rw [List.take_append_of_le_length (by omega)]
      · rw [g4]; simp only [upd]; simp
        rw [List.drop_append_of_le_length (by omega)]; simp
      · rw [g5]; simp [upd]
      · rw [g6]; simp [upd]
      · rw [g7]; simp [upd]
    · rw [if_neg hgt]
      rw [h.len] at hgt
      refine ⟨s, seq, rfl, h, ?_, ?_, rfl, rfl, rfl, rfl⟩
      · rw [List.take_of_length_le (by omega)]
      · rw [List.drop_of_length_le (by omega)]; rfl

theorem adjustTail_spec (p t f : Nat) (hpt : p = Cold ∧ t = ColdTail ∨ p = Warm ∧ t = WarmTail) (s : State N)
    (seq : Nat → List N) (h : QInv P s seq) (hf : (seq p).length ≤ f) :
    ∃ s' seq', adjustTail p t f s = some s' ∧ QInv P s' seq' ∧ seq' p ++ seq' t = seq p ++ seq t ∧
      (seq' t).length = max (seq t).length (min s.config.tailSize (seq p ++ seq t).length) ∧
      (∀ q, q ≠ p → q ≠ t → seq' q = seq q) ∧ rest s' = rest s := by
  have hne : p ≠ t := by rcases hpt with ⟨rfl, rfl⟩ | ⟨rfl, rfl⟩ <;> decide
  have ht5 : t < 5 := by rcases hpt with ⟨rfl, rfl⟩ | ⟨rfl, rfl⟩ <;> decide
  have base : ∀ (s : State N) (seq : Nat → List N), QInv P s seq → seq p = [] →
      ∀ f, ∃ s' seq', adjustTail p t f s = some s' ∧ QInv P s' seq' ∧ seq' p ++ seq' t = seq p ++ seq t ∧
      (seq' t).length = max (seq t).length (min s.config.tailSize (seq p ++ seq t).length) ∧
      (∀ q, q ≠ p → q ≠ t → seq' q = seq q) ∧ rest s' = rest s := by
    intro s seq h hp f
    refine ⟨s, seq, ?_, h, rfl, ?_, fun _ _ _ => rfl, rfl⟩
    · unfold adjustTail; rw [h.last, hp]; rfl
    · rw [hp]; simp; omega
  induction f generalizing s seq with
  | zero => exact base s seq h (List.eq_nil_of_length_eq_zero (by omega)) 0
  | succ f ih =>
    by_cases hp : seq p = []
    · exact base s seq h hp _
    · obtain ⟨a, x, h3⟩ := split_last (seq p) hp
      unfold adjustTail
      rw [h.last, h3]
      simp only [List.getLast?_concat]
      have hlen := congrArg List.length h3
      simp only [List.length_append, List.length_cons, List.length_nil] at hlen
      rw [h.len]
      by_cases hlt : (seq t).length + 1 ≤ s.config.tailSize
      · rw [if_pos hlt]
        have hfl := h.flags p x (by rw [h3]; simp)
        have hinv := move_inv (s' := ({ s with tail := upd s.tail x true }.on p (.remove x)).on t (.linkAtHead x))
          h hne ht5 h3 rfl
          ⟨by simp only [State.on]; rw [hfl.hot]; rcases hpt with ⟨rfl, rfl⟩ | ⟨rfl, rfl⟩ <;> rfl,
           by simp only [State.on]; rw [hfl.cold]; rcases hpt with ⟨rfl, rfl⟩ | ⟨rfl, rfl⟩ <;> rfl,
           by simp only [State.on, upd_same]; rcases hpt with ⟨rfl, rfl⟩ | ⟨rfl, rfl⟩ <;> rfl⟩
          (fun y hy => ⟨rfl, rfl, upd_ne _ _ hy⟩) rfl (by omega)
        obtain ⟨s2, seq2, g1, g2, g3, g4, g5, g6⟩ := ih _ _ hinv (by
          rw [upd_ne _ _ hne, upd_same]; omega)
        have ep : upd (upd seq p a) t (x :: seq t) p = a := by rw [upd_ne _ _ hne, upd_same]
        have et : upd (upd seq p a) t (x :: seq t) t = x :: seq t := upd_same _ _ _
        rw [ep, et] at g3 g4
        refine ⟨s2, seq2, g1, g2, ?_, ?_, ?_, g6⟩
        · rw [g3]; simp
        · rw [g4]
          simp only [State.on, List.length_append, List.length_cons, List.length_nil]
          omega
        · intro q h1 h2
          rw [g5 q h1 h2, upd_ne _ _ h2, upd_ne _ _ h1]
      · rw [if_neg hlt]
        refine ⟨s, seq, rfl, h, by rw [h3], ?_, fun _ _ _ => rfl, rfl⟩
        simp only [List.length_append, List.length_cons, List.length_nil]
        omega

/-- the result of rebalancing, in terms of the queues with their tails. -/
structure Rebalanced (c : Config) (seq seq' : Nat → List N) : Prop where
  warm : seq' 0 ++ seq' 1 = (seq 0 ++ seq 1).take (c.warmPct * ((seq 0).length + (seq 1).length + (seq 2).length +
    (seq 3).length + (seq 4).length) / 100)
  hot : seq' 2 = (seq 2).take (c.hotPct * ((seq 0).length + (seq 1).length + (seq 2).length + (seq 3).length +
    (seq 4).length) / 100)
  cold : seq' 3 ++ seq' 4 = (seq 2).drop (c.hotPct * ((seq 0).length + (seq 1).length + (seq 2).length + (seq 3).length +
    (seq 4).length) / 100) ++ (seq 0 ++ seq 1).drop (c.warmPct * ((seq 0).length + (seq 1).length + (seq 2).length +
    (seq 3).length + (seq 4).length) / 100) ++ (seq 3 ++ seq 4)
  wtail : (seq' 1).length = max ((seq 1).length - ((seq 0 ++ seq 1).length - (c.warmPct * ((seq 0).length +
    (seq 1).length + (seq 2).length + (seq 3).length + (seq 4).length) / 100))) (min c.tailSize (seq' 0 ++ seq' 1).length)
  ctail : (seq' 4).length = max (seq 4).length (min c.tailSize (seq' 3 ++ seq' 4).length)

theorem rebalance_spec {s : State N} {seq : Nat → List N} (h : QInv P s seq) :
    ∃ s' seq', rebalance s = some s' ∧ QInv P s' seq' ∧ Rebalanced s.config seq seq' ∧ rest s' = rest s := by
  unfold rebalance
  rw [h.size, h.len, h.len]
  generalize hn : (seq 0).length + (seq 1).length + (seq 2).length + (seq 3).length + (seq 4).length = n
  obtain ⟨s1, q1, a1, a2, a3, a4, a5, a6, a7, a8⟩ :=
    shrinkWarm_spec (s.config.warmPct * n / 100) _ s seq h (Nat.le_refl _)
  have hc1 := rest_config a8
  rw [a1, Option.bind_some, a2.size, a2.len, hc1]
  have hn1 : (q1 0).length + (q1 1).length + (q1 2).length + (q1 3).length + (q1 4).length = n := by
    have e1 := congrArg List.length a3
    rw [a5, a6, a7]
    simp only [List.length_append, List.length_take, List.length_drop] at e1 ⊢
    omega
  rw [hn1]
  obtain ⟨s2, q2, b1, b2, b3, b4, b5, b6, b7, b8⟩ :=
    shrinkHot_spec (s.config.hotPct * n / 100) _ s1 q1 a2 (Nat.le_refl _)
  rw [b1, Option.bind_some, b2.len]
  obtain ⟨s3, q3, c1, c2, c3, c4, c5, c6⟩ := adjustTail_spec Cold ColdTail _ (Or.inl ⟨rfl, rfl⟩) s2 q2 b2 (Nat.le_refl _)
  rw [c1, Option.bind_some, c2.len]
  obtain ⟨s4, q4, d1, d2, d3, d4, d5, d6⟩ := adjustTail_spec Warm WarmTail _ (Or.inr ⟨rfl, rfl⟩) s3 q3 c2 (Nat.le_refl _)
  have hr2 := b8.trans a8
  have hr3 := c6.trans hr2
  have hr4 := d6.trans hr3
  refine ⟨s4, q4, d1, d2, ⟨?_, ?_, ?_, ?_, ?_⟩, hr4⟩
  · rw [hn, d3, c5 0 (by decide) (by decide), c5 1 (by decide) (by decide), b5, b6, a3]
  · rw [hn, d5 2 (by decide) (by decide), c5 2 (by decide) (by decide), b3, a6]
  · rw [hn, d5 3 (by decide) (by decide), d5 4 (by decide) (by decide), c3, b4, b7, a5, a6, a7]
    simp
  · rw [hn, d4, rest_config hr3, d3, c5 1 (by decide) (by decide), b6, a4]
  · rw [d5 3 (by decide) (by decide), d5 4 (by decide) (by decide), c4, rest_config hr2, c3, b7, a7]

/-- flags of all nodes but `x` are the same. -/
def Others (s s' : State N) (x : N) : Prop :=
  ∀ y, y ≠ x → s'.hot y = s.hot y ∧ s'.cold y = s.cold y ∧ s'.tail y = s.tail y

theorem QInv.weaken {P' : N → Prop} {s : State N} {seq : Nat → List N} (h : QInv P s seq) (hp : ∀ x, P' x → P x) :
    QInv P' s seq := ⟨h.rep, h.num, h.none, h.flags, h.zero, fun x hx => h.clear x (hp x hx)⟩

theorem filter_not_mem {l : List N} {x : N} (h : x ∉ l) : l.filter (fun y => y ≠ x) = l := by
  rw [List.filter_eq_self]; intro y hy; simp; exact fun e => h (e ▸ hy)

theorem drop_inv {s s' : State N} {seq : Nat → List N} (h : QInv P s seq) {q : Nat} {x : N} (hx : x ∈ seq q)
    (hm : s'.m = onList s.m q (.remove x)) (ho : Others s s' x) (hc : s'.config = s.config) :
    QInv P s' (fun p => (seq p).filter (fun y => y ≠ x)) := by
  have e : (fun p => (seq p).filter (fun y => y ≠ x)) = upd seq q (DList.specStep (seq q) (.remove x)) := by
    funext p
    by_cases e : p = q
    · subst e; simp [DList.specStep]
    · rw [upd_ne _ _ e, filter_not_mem]
      exact fun h' => e (h.uniq h' hx)
  refine ⟨?_, by rw [hm]; exact h.num, ?_, ?_, ?_, ?_⟩
  · rw [e, hm]
    exact onList_rep h.rep q (.remove x) hx (by simp [DList.Op.inserted])
  · intro p hp; simp [h.none p hp]
  · intro p y hy
    simp only [List.mem_filter, decide_eq_true_eq] at hy
    have hf := h.flags p y hy.1
    obtain ⟨h1, h2, h3⟩ := ho y hy.2
    exact ⟨h1.trans hf.hot, h2.trans hf.cold, h3.trans hf.tail⟩
  · intro hz
    rw [hc] at hz
    obtain ⟨h1, h2⟩ := h.zero hz
    simp [h1, h2]
  · intro y hy
    obtain ⟨c1, c2, c3, c4⟩ := h.clear y hy
    have hne : y ≠ x := fun e => c1 q (e ▸ hx)
    obtain ⟨h1, h2, h3⟩ := ho y hne
    exact ⟨fun p hp => c1 p (List.mem_filter.1 hp).1, h1.trans c2, h2.trans c3, h3.trans c4⟩

theorem link_inv {s s' : State N} {seq : Nat → List N} (h : QInv P s seq) {q : Nat} (hq : q = 0 ∨ q = 2) {x : N}
    (hx : ∀ p, x ∉ seq p) (hP : ¬ P x) (hm : s'.m = onList s.m q (.linkAtHead x)) (hf : Flags s' q x)
    (ho : Others s s' x) (hc : s'.config = s.config) : QInv P s' (upd seq q (x :: seq q)) := by
  refine ⟨?_, by rw [hm]; exact h.num, ?_, ?_, ?_, ?_⟩
  · rw [hm]
    exact onList_rep h.rep q (.linkAtHead x) (hx q) (by
      intro y hy p _
      simp only [DList.Op.inserted, List.mem_singleton] at hy
      exact hy ▸ hx p)
  · intro p hp
    rw [upd_ne _ _ (by omega)]; exact h.none p hp
  · intro p y hy
    have hold : ∀ p, y ∈ seq p → Flags s' p y := by
      intro p hp
      have hf := h.flags p y hp
      obtain ⟨h1, h2, h3⟩ := ho y (fun e => hx p (e ▸ hp))
      exact ⟨h1.trans hf.hot, h2.trans hf.cold, h3.trans hf.tail⟩
    by_cases e : p = q
    · subst e
      rw [upd_same] at hy
      rcases List.mem_cons.1 hy with rfl | hy
      · exact hf
      · exact hold p hy
    · rw [upd_ne _ _ e] at hy
      exact hold p hy
  · intro hz
    rw [hc] at hz
    rw [upd_ne _ _ (by omega), upd_ne _ _ (by omega)]
    exact h.zero hz
  · intro y hy
    obtain ⟨c1, c2, c3, c4⟩ := h.clear y hy
    have hne : y ≠ x := fun e => hP (e ▸ hy)
    obtain ⟨h1, h2, h3⟩ := ho y hne
    refine ⟨?_, h1.trans c2, h2.trans c3, h3.trans c4⟩
    intro p hp
    by_cases e : p = q
    · subst e
      rw [upd_same] at hp
      rcases List.mem_cons.1 hp with h | h
      · exact hne h
      · exact c1 p h
    · rw [upd_ne _ _ e] at hp
      exact c1 p hp

theorem front_inv {s s' : State N} {seq : Nat → List N} (h : QInv P s seq) {q : Nat} {x : N} (hx : x ∈ seq q)
    (hm : s'.m = onList s.m q (.moveToHead x))
    (ho : s'.hot = s.hot ∧ s'.cold = s.cold ∧ s'.tail = s.tail) (hc : s'.config = s.config) :
    QInv P s' (upd seq q (x :: (seq q).filter (fun y => y ≠ x))) := by
  have hq := h.lt hx
  have hmem : ∀ p y, y ∈ upd seq q (x :: (seq q).filter (fun y => y ≠ x)) p → y ∈ seq p := by
    intro p y hy
    by_cases e : p = q
    · subst e
      rw [upd_same] at hy
      rcases List.mem_cons.1 hy with rfl | hy
      · exact hx
      · exact (List.mem_filter.1 hy).1
    · rwa [upd_ne _ _ e] at hy
  refine ⟨?_, by rw [hm]; exact h.num, ?_, ?_, ?_, ?_⟩
  · rw [hm]
    exact onList_rep h.rep q (.moveToHead x) hx (by simp [DList.Op.inserted])
  · intro p hp
    rw [upd_ne _ _ (by omega)]; exact h.none p hp
  · intro p y hy
    have hf := h.flags p y (hmem p y hy)
    exact ⟨by rw [ho.1, hf.hot], by rw [ho.2.1, hf.cold], by rw [ho.2.2, hf.tail]⟩
  · intro hz
    rw [hc] at hz
    obtain ⟨h1, h2⟩ := h.zero hz
    constructor
    · rw [upd_ne, h1]; rintro e; rw [← e, h1] at hx; cases hx
    · rw [upd_ne, h2]; rintro e; rw [← e, h2] at hx; cases hx
  · intro y hy
    obtain ⟨c1, c2, c3, c4⟩ := h.clear y hy
    refine ⟨fun p hp => c1 p (hmem p y hp), by rw [ho.1, c2], by rw [ho.2.1, c3], by rw [ho.2.2, c4]⟩

/-- pointwise replacement. -/
def subst (o x : N) (l : List N) : List N := l.map (fun z => if z = o then x else z)

theorem subst_not_mem {l : List N} {o x : N} (ho : o ∉ l) : subst o x l = l := by
  unfold subst
  induction l with
  | nil => rfl
  | cons z zs ih =>
    simp only [List.mem_cons, not_or] at ho
    simp [ih ho.2, Ne.symm ho.1]

theorem mem_subst {l : List N} {o x y : N} (h : y ∈ subst o x l) : (y = x ∧ o ∈ l) ∨ (y ∈ l ∧ y ≠ o) := by
  simp only [subst, List.mem_map] at h
  obtain ⟨z, hz, h⟩ := h
  split at h
  · rename_i e; exact Or.inl ⟨h.symm, e ▸ hz⟩
  · rename_i e; exact Or.inr ⟨h ▸ hz, h ▸ e⟩

theorem replace_inv {s s' : State N} {seq : Nat → List N} (h : QInv P s seq) {q : Nat} {o x : N} (hox : o ∈ seq q)
    (hx : ∀ p, x ∉ seq p) (hP : ¬ P x) (hm : s'.m = onList s.m q (.replace o x)) (hf : Flags s' q x)
    (ho : Others s s' x) (hc : s'.config = s.config) : QInv P s' (fun p => subst o x (seq p)) := by
  have e : (fun p => subst o x (seq p)) = upd seq q (DList.specStep (seq q) (.replace o x)) := by
    funext p
    by_cases e : p = q
    · subst e; simp [DList.specStep, subst]
    · rw [upd_ne _ _ e, subst_not_mem]
      exact fun h' => e (h.uniq h' hox)
  refine ⟨?_, by rw [hm]; exact h.num, ?_, ?_, ?_, ?_⟩
  · rw [e, hm]
    exact onList_rep h.rep q (.replace o x) ⟨hox, hx q⟩ (by
      intro y hy p _
      simp only [DList.Op.inserted, List.mem_singleton] at hy
      exact hy ▸ hx p)
  · intro p hp; simp [h.none p hp, subst]
  · intro p y hy
    rcases mem_subst hy with ⟨rfl, h1⟩ | ⟨h1, _⟩
    · exact (h.uniq h1 hox) ▸ hf
    · have hf := h.flags p y h1
      obtain ⟨h1, h2, h3⟩ := ho y (fun e => hx p (e ▸ h1))
      exact ⟨h1.trans hf.hot, h2.trans hf.cold, h3.trans hf.tail⟩
  · intro hz
    rw [hc] at hz
    obtain ⟨h1, h2⟩ := h.zero hz
    simp [h1, h2, subst]
  · intro y hy
    obtain ⟨c1, c2, c3, c4⟩ := h.clear y hy
    have hne : y ≠ x := fun e => hP (e ▸ hy)
    obtain ⟨h1, h2, h3⟩ := ho y hne
    refine ⟨?_, h1.trans c2, h2.trans c3, h3.trans c4⟩
    intro p hp
    rcases mem_subst hp with ⟨h1, _⟩ | ⟨h1, _⟩
    · exact hne h1
    · exact c1 p h1

end Verif.MM2Q
