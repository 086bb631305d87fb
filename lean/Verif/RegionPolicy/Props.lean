import Verif.RegionPolicy.Model
import Verif.DList.Lemmas
/-
C33: the order in which regions are given back for reclaim.
-/
namespace Verif.RegionPolicy
open Verif Verif.DList

/-! ### Specification -/

/-- What a user of a policy does and sees. -/
inductive Ev where
  | track (r : Nat)
  | touch (r : Nat)
  | evict (result : Option Nat)
  | reset
  deriving DecidableEq

/-- the regions tracked and not evicted since, after the events (the last event first) -/
def Tracked : List Ev → Nat → Prop
  | [], _ => False
  | .track r :: t, x => x = r ∨ Tracked t x
  | .touch _ :: t, x => Tracked t x
  | .evict (some r) :: t, x => x ≠ r ∧ Tracked t x
  | .evict none :: t, x => Tracked t x
  | .reset :: _, _ => False

/-- `Use t r k`: the last use of the tracked region `r` was the event number `k`: a touch, or the track with which it started -/
inductive Use : List Ev → Nat → Nat → Prop
  | track (t r) : ¬ Tracked t r → Use (.track r :: t) r t.length
  | touch (t r) : Tracked t r → Use (.touch r :: t) r t.length
  | again (t r k) : Tracked t r → Use t r k → Use (.track r :: t) r k
  | other (t e r k) : e ≠ .track r → e ≠ .touch r → Use t r k → Use (e :: t) r k

/-! ### FIFO -/

inductive FifoRun : List Ev → Fifo → Prop
  | init : FifoRun [] []
  | track (t q r now) : FifoRun t q → FifoRun (.track r :: t) (q.track r now)
  | touch (t q r) : FifoRun t q → FifoRun (.touch r :: t) (q.touch r)
  | evict (t q) : FifoRun t q → FifoRun (.evict q.evict.2 :: t) q.evict.1
  | reset (t q) : FifoRun t q → FifoRun (.reset :: t) q.reset

/-- the regions tracked, and the regions evicted, since the last reset, oldest first -/
def trackedSeq : List Ev → List Nat
  | [] => []
  | .track r :: t => trackedSeq t ++ [r]
  | .reset :: _ => []
  | _ :: t => trackedSeq t
def evictedSeq : List Ev → List Nat
  | [] => []
  | .evict (some r) :: t => evictedSeq t ++ [r]
  | .reset :: _ => []
  | _ :: t => evictedSeq t

/-- C33: what has been evicted, followed by what is still queued, is what was tracked, in that order. -/
theorem fifo_order {t q} (h : FifoRun t q) : evictedSeq t ++ q.map Prod.fst = trackedSeq t := by
  induction h with
  | init => rfl
  | track t q r now _ ih => simp [evictedSeq, trackedSeq, Fifo.track, ← ih]
  | touch t q r _ ih => simpa [evictedSeq, trackedSeq, Fifo.touch] using ih
  | evict t q _ ih =>
    cases q with
    | nil => simpa [evictedSeq, trackedSeq, Fifo.evict] using ih
    | cons x q => simpa [evictedSeq, trackedSeq, Fifo.evict] using ih
  | reset => rfl

/-- C33: an eviction returns the region tracked first among those not yet evicted; it returns nothing exactly when all are evicted. -/
theorem fifo_evicts_oldest {t q} (h : FifoRun t q) : q.evict.2 = (trackedSeq t)[(evictedSeq t).length]? := by
  rw [← fifo_order h, List.getElem?_append_right (Nat.le_refl _)]
  cases q <;> simp [Fifo.evict]

/-- C33, C45: recovering what was persisted gives the same queue. -/
theorem fifo_persist_recover (q q' : Fifo) (h : ∀ x ∈ q, x.1 < 2 ^ 32) : q'.recover q.persist = some q := by
  simp only [Fifo.persist, Fifo.recover, List.map_map, Option.some.injEq]
  induction q with
  | nil => rfl
  | cons x q ih =>
    rw [List.map_cons, ih fun y hy => h y (List.mem_cons_of_mem _ hy)]
    simp [Nat.mod_eq_of_lt (h x (by simp))]

/-! ### segmented FIFO -/

/-- the line of regions waiting: the segments one after the other, the lowest priority first -/
def line (s : SFifo) : List Nat := s.flatMap fun x => x.q.map Prod.fst

/-- regions in the segments above priority `i` -/
def above (s : SFifo) (i : Nat) : List Nat := line (s.drop (i + 1))

theorem drain_append (limit) : ∀ (cur next : List Node), (drain limit cur next).2 ++ (drain limit cur next).1 = next ++ cur
  | [], next => by simp [drain]
  | x :: cur, next => by
    simp only [drain]
    split
    · rw [drain_append limit cur]; simp
    · simp

theorem drain_limit (limit) : ∀ (cur next : List Node), (drain limit cur next).1.length ≤ limit
  | [], next => by simp [drain]
  | x :: cur, next => by
    simp only [drain]
    split
    · exact drain_limit limit cur _
    · simp; omega

theorem line_append (a b : List Seg) : line (a ++ b) = line a ++ line b := by simp [line]
theorem line_cons (a : Seg) (b : List Seg) : line (a :: b) = a.q.map Prod.fst ++ line b := by simp [line]

theorem rebalanceRev_line (n w) : ∀ (l : List Seg) (cur : Seg), line (rebalanceRev n w cur l).reverse = line (cur :: l).reverse
  | [], cur => rfl
  | next :: l, cur => by
    have h := drain_append (n * cur.ratio / w) cur.q next.q
    have ih := rebalanceRev_line n w l ⟨next.ratio, (drain (n * cur.ratio / w) cur.q next.q).2⟩
    simp only [rebalanceRev, List.reverse_cons, line_append] at ih ⊢
    rw [ih]
    simp only [line, List.flatMap_cons, List.flatMap_nil, List.append_nil, List.append_assoc, ← List.map_append]
    rw [h]

theorem rebalanceRev_ratio (n w) : ∀ (l : List Seg) (cur : Seg), (rebalanceRev n w cur l).map Seg.ratio = (cur :: l).map Seg.ratio
  | [], cur => rfl
  | next :: l, cur => by
    simp only [rebalanceRev, List.map_cons, List.cons.injEq, true_and]
    rw [rebalanceRev_ratio n w l]
    rfl

theorem rebalanceRev_limit (n w) : ∀ (l : List Seg) (cur : Seg), ∀ x ∈ (rebalanceRev n w cur l).dropLast, x.q.length ≤ n * x.ratio / w
  | [], cur, x, h => by simp [rebalanceRev] at h
  | next :: l, cur, x, h => by
    simp only [rebalanceRev] at h
    rw [List.dropLast_cons_of_ne_nil (by
      intro e
      have := congrArg (List.map Seg.ratio) e
      rw [rebalanceRev_ratio] at this; simp at this)] at h
    rcases List.mem_cons.1 h with rfl | h
    · exact drain_limit _ _ _
    · exact rebalanceRev_limit n w l _ x h

theorem rebalance_line (s : SFifo) : line s.rebalance = line s := by
  unfold SFifo.rebalance
  split
  · rename_i h; rw [List.reverse_eq_nil_iff.1 h]
  · rename_i cur l h
    rw [rebalanceRev_line, ← h, List.reverse_reverse]

theorem rebalance_ratio (s : SFifo) : s.rebalance.map Seg.ratio = s.map Seg.ratio := by
  unfold SFifo.rebalance
  split
  · rename_i h; rw [List.reverse_eq_nil_iff.1 h]
  · rename_i cur l h
    rw [List.map_reverse, rebalanceRev_ratio, ← h, List.map_reverse, List.reverse_reverse]

theorem numElements_eq (s : SFifo) : s.numElements = (line s).length := by
  unfold SFifo.numElements
  have : ∀ (l : List Seg) (n : Nat), l.foldl (fun n x => n + x.q.length) n = n + (line l).length := by
    intro l
    induction l with
    | nil => intro n; rfl
    | cons x l ih => intro n; rw [List.foldl_cons, ih, line_cons]; simp; omega
  rw [this]; omega

/-- every segment but the lowest is within its share -/
def InShare (s : SFifo) : Prop := ∀ x ∈ s.tail, x.q.length ≤ (line s).length * x.ratio / totalWeight (s.map Seg.ratio)

theorem rebalance_share (s : SFifo) : InShare s.rebalance := by
  unfold InShare
  rw [rebalance_line, rebalance_ratio, ← numElements_eq]
  unfold SFifo.rebalance
  split
  · simp
  · rename_i cur l h
    intro x hx
    apply rebalanceRev_limit _ _ l cur x
    rw [List.tail_reverse] at hx
    exact List.mem_reverse.1 hx

theorem pushAt_line : ∀ (i : Nat) (x : Node) (s : List Seg), i < s.length →
    line (pushAt i x s) = line (s.take (i + 1)) ++ x.1 :: line (s.drop (i + 1))
  | _, _, [], h => by simp at h
  | 0, x, a :: s, _ => by simp [pushAt, line]
  | i + 1, x, a :: s, h => by
    simp only [pushAt, List.take_succ_cons, List.drop_succ_cons, line_cons]
    rw [pushAt_line i x s (by simpa using h)]; simp

theorem pushAt_ratio : ∀ (i : Nat) (x : Node) (s : List Seg), (pushAt i x s).map Seg.ratio = s.map Seg.ratio
  | 0, _, [] => rfl
  | _ + 1, _, [] => rfl
  | 0, x, a :: s => rfl
  | i + 1, x, a :: s => by simp [pushAt, pushAt_ratio i x s]

/-- the reachable states, with the ratios given at construction -/
inductive SRun (ratios : List Nat) : List Ev → SFifo → Prop
  | init (s) : SFifo.make ratios = some s → SRun ratios [] s
  | track (t s r pri now s') : SRun ratios t s → s.track r pri now = some s' → SRun ratios (.track r :: t) s'
  | touch (t s r) : SRun ratios t s → SRun ratios (.touch r :: t) s
  | evict (t s) : SRun ratios t s → SRun ratios (.evict s.evict.2 :: t) s.evict.1
  | reset (t s) : SRun ratios t s → SRun ratios (.reset :: t) s.reset

theorem line_reset (s : SFifo) : line s.reset = [] := by
  unfold SFifo.reset line
  induction s with
  | nil => rfl
  | cons x s ih => simpa using ih

theorem srun_inv {ratios t s} (h : SRun ratios t s) : s.map Seg.ratio = ratios ∧ InShare s ∧ 0 ∉ ratios ∧ ratios ≠ [] := by
  induction h with
  | init s e =>
    unfold SFifo.make at e
    split at e
    · simp at e
    · split at e
      · simp at e
      · rename_i h1 h2
        simp only [Option.some.injEq] at e
        subst e
        refine ⟨by simp [Function.comp_def], ?_, by simpa using h1, by simpa using h2⟩
        intro x hx
        have := List.mem_of_mem_tail hx
        obtain ⟨r, _, rfl⟩ := List.mem_map.1 this
        simp
  | track t s r pri now s' _ e ih =>
    unfold SFifo.track at e
    split at e
    · simp only [Option.some.injEq] at e
      subst e
      exact ⟨by rw [rebalance_ratio, pushAt_ratio]; exact ih.1, rebalance_share _, ih.2.2⟩
    · simp at e
  | touch t s r _ ih => exact ih
  | evict t s _ ih =>
    unfold SFifo.evict
    split
    · exact ih
    · split
      · exact ih
      · refine ⟨?_, rebalance_share _, ih.2.2⟩
        rw [rebalance_ratio]
        simpa using ih.1
  | reset t s _ ih =>
    refine ⟨by simpa [SFifo.reset, Function.comp_def] using ih.1, ?_, ih.2.2⟩
    intro x hx
    have := List.mem_of_mem_tail hx
    obtain ⟨y, _, rfl⟩ := List.mem_map.1 this
    simp

theorem totalWeight_eq (l : List Nat) (h : l.sum < 2 ^ 32) : totalWeight l = l.sum := by
  unfold totalWeight
  have : ∀ (l : List Nat) (a : Nat), a + l.sum < 2 ^ 32 → l.foldl (fun a b => (a + b) % 2 ^ 32) a = a + l.sum := by
    intro l
    induction l with
    | nil => intro a _; simp
    | cons x l ih =>
      intro a ha
      simp only [List.sum_cons] at ha
      rw [List.foldl_cons, Nat.mod_eq_of_lt (by omega), ih _ (by omega), List.sum_cons]; omega
  rw [this l 0 (by omega)]; omega

theorem share_sum {n W : Nat} : ∀ (l : List Seg), (∀ x ∈ l, x.q.length ≤ n * x.ratio / W) →
    (line l).length * W ≤ n * (l.map Seg.ratio).sum
  | [], _ => by simp [line]
  | x :: l, h => by
    have ih := share_sum l fun y hy => h y (List.mem_cons_of_mem _ hy)
    have h1 := h x (by simp)
    have h2 : x.q.length * W ≤ n * x.ratio := Nat.le_trans (Nat.mul_le_mul_right W h1) (Nat.div_mul_le_self _ _)
    rw [line_cons, List.length_append, List.length_map, Nat.add_mul, List.map_cons, List.sum_cons, Nat.mul_add]
    omega

/-- C33: an eviction takes the first region of the line and leaves the rest as it is; it returns nothing exactly when no region is
tracked. -/
theorem sfifo_evict {ratios t s} (h : SRun ratios t s) (hw : ratios.sum < 2 ^ 32) :
    s.evict.2 = (line s).head? ∧ line s.evict.1 = (line s).tail := by
  obtain ⟨h1, h2, h3, h4⟩ := srun_inv h
  unfold SFifo.evict
  split
  · exact ⟨rfl, rfl⟩
  · rename_i low l
    split
    · rename_i hq
      -- the higher segments hold less than everything
      suffices e : line (low :: l) = [] by rw [e]; exact ⟨rfl, rfl⟩
      have hs : (line l).length * totalWeight ratios ≤ (line (low :: l)).length * (l.map Seg.ratio).sum := by
        apply share_sum
        intro x hx
        have := h2 x hx
        rw [h1] at this
        exact this
      rw [totalWeight_eq _ hw] at hs
      have e1 : line (low :: l) = line l := by rw [line_cons, hq]; rfl
      rw [e1] at hs ⊢
      rw [List.map_cons] at h1
      have e2 : ratios.sum = low.ratio + (l.map Seg.ratio).sum := by rw [← h1, List.sum_cons]
      have e3 : low.ratio ≠ 0 := fun e => h3 (by rw [← h1, e]; simp)
      rw [e2, Nat.mul_add] at hs
      have : (line l).length * low.ratio = 0 := by omega
      rcases Nat.mul_eq_zero.1 this with e | e
      · exact List.length_eq_zero_iff.1 e
      · exact absurd e e3
    · rename_i x q hq
      refine ⟨?_, ?_⟩
      · rw [line_cons, hq]; rfl
      · simp only
        rw [rebalance_line, line_cons, line_cons, hq]; rfl

/-- C33: a region is put in the line behind the regions in the segments of its priority and below, before those of the segments
above; nothing else changes. -/
theorem sfifo_track {ratios t s s' r pri now} (_ : SRun ratios t s) (h : s.track r pri now = some s') :
    ∃ a, line s = a ++ above s pri ∧ line s' = a ++ r :: above s pri := by
  unfold SFifo.track at h
  split at h
  · rename_i hp
    simp only [Option.some.injEq] at h
    subst h
    refine ⟨line (s.take (pri + 1)), ?_, ?_⟩
    · unfold above
      rw [← line_append, List.take_append_drop]
    · rw [rebalance_line, pushAt_line _ _ _ hp]
      rfl
  · simp at h

/-- C33: … and the segments above hold at most their share of all regions. -/
theorem sfifo_above {ratios t s} (h : SRun ratios t s) (hw : ratios.sum < 2 ^ 32) (pri : Nat) :
    (above s pri).length * ratios.sum ≤ (line s).length * (ratios.drop (pri + 1)).sum := by
  obtain ⟨h1, h2, h3, h4⟩ := srun_inv h
  have := share_sum (n := (line s).length) (W := totalWeight ratios) (s.drop (pri + 1)) (by
    intro x hx
    have hx : x ∈ s.tail := by
      cases s with
      | nil => simp at hx
      | cons y s => exact List.mem_of_mem_drop (by simpa using hx)
    have := h2 x hx
    rw [h1] at this; exact this)
  rw [totalWeight_eq _ hw, List.map_drop, h1] at this
  exact this

/-- C33: nothing is lost or duplicated: the regions in the line are the tracked ones that were not evicted (each region is tracked
only while it is not in the line). -/
def Once : List Ev → Prop
  | [] => True
  | .track r :: t => ¬ Tracked t r ∧ Once t
  | _ :: t => Once t

theorem sfifo_exact {ratios t s} (h : SRun ratios t s) (hw : ratios.sum < 2 ^ 32) (ho : Once t) :
    (line s).Nodup ∧ ∀ r, r ∈ line s ↔ Tracked t r := by
  induction h with
  | init s e =>
    have : line s = [] := by
      unfold SFifo.make at e
      split at e
      · simp at e
      · split at e
        · simp at e
        · simp only [Option.some.injEq] at e
          subst e
          simp [line]
    rw [this]; simp [Tracked]
  | track t s r pri now s' hr e ih =>
    obtain ⟨i1, i2⟩ := ih ho.2
    obtain ⟨a, e1, e2⟩ := sfifo_track hr e
    rw [e1] at i1 i2
    rw [e2]
    have hr : r ∉ a ++ above s pri := fun hm => ho.1 ((i2 r).1 hm)
    refine ⟨?_, ?_⟩
    · exact (List.perm_middle.nodup_iff).2 (List.nodup_cons.2 ⟨hr, i1⟩)
    · intro x
      rw [List.perm_middle.mem_iff, List.mem_cons, i2]
      rfl
  | touch t s r _ ih => exact ih ho
  | evict t s hr ih =>
    obtain ⟨i1, i2⟩ := ih ho
    obtain ⟨e1, e2⟩ := sfifo_evict hr hw
    rw [e1, e2]
    cases hl : line s with
    | nil =>
      rw [hl] at i2
      refine ⟨by simp, fun r => ?_⟩
      exact i2 r
    | cons x l =>
      rw [hl] at i1 i2
      refine ⟨(List.nodup_cons.1 i1).2, fun r => ?_⟩
      simp only [List.head?_cons, List.tail_cons, Tracked, ← i2 r, List.mem_cons]
      constructor
      · intro hm
        exact ⟨fun e => (List.nodup_cons.1 i1).1 (e ▸ hm), Or.inr hm⟩
      · rintro ⟨h1, h2 | h2⟩
        · exact absurd h2 h1
        · exact h2
  | reset t s _ ih => rw [line_reset]; simp [Tracked]

/-! ### LRU -/

inductive LRun : List Ev → Lru → Prop
  | init : LRun [] Lru.init
  | track (t s r s') : LRun t s → s.track r = some s' → LRun (.track r :: t) s'
  | touch (t s r s') : LRun t s → s.touch r = some s' → LRun (.touch r :: t) s'
  | evict (t s s' x) : LRun t s → s.evict = some (s', x) → LRun (.evict x :: t) s'
  | reset (t s) : LRun t s → LRun (.reset :: t) s.reset

/-- the list that array, head and tail represent, most recent first -/
structure LRep (s : Lru) (l : List Nat) : Prop where
  rep : Rep s.h ⟨s.head, s.tail, l.length⟩ l
  clean : ∀ i, i ∉ l → s.h.next i = none ∧ s.h.prev i = none
  bound : ∀ i ∈ l, i < s.size

theorem grow_rep {s l} (h : LRep s l) (i : Nat) : LRep (s.grow i) l ∧ i < (s.grow i).size := by
  unfold Lru.grow
  split
  · exact ⟨⟨h.rep, h.clean, fun j hj => by have := h.bound j hj; simp only; omega⟩, by simp⟩
  · exact ⟨h, by omega⟩

/-- unlink of LruPolicy is remove of DList -/
theorem unlink_eq {s a b i} (h : LRep s (a ++ i :: b)) : ∃ s', s.unlink i = some s' ∧ s'.size = s.size ∧
    s'.h = (DList.remove s.h ⟨s.head, s.tail, (a ++ i :: b).length⟩ i).1 ∧
    s'.head = (DList.remove s.h ⟨s.head, s.tail, (a ++ i :: b).length⟩ i).2.head ∧
    s'.tail = (DList.remove s.h ⟨s.head, s.tail, (a ++ i :: b).length⟩ i).2.tail := by
  have hp := rep_prev h.rep
  have hn := rep_next h.rep
  have hh := h.rep.head
  have ht := h.rep.tail
  have hd := nodup_mid h.rep.nodup
  simp only at hh ht
  have kt : s.tail = some i ↔ b = [] := by
    rw [ht]
    rcases List.eq_nil_or_concat b with rfl | ⟨b', q, rfl⟩
    · simp
    · simp only [List.concat_eq_append] at *
      rw [getLast?_mid]
      simp
      intro e; subst e; exact hd.2.1 (by simp)
  have kh : s.head = some i ↔ a = [] := by
    rw [hh]
    cases a with
    | nil => simp
    | cons y a => simp; intro e; subst e; exact hd.1 (by simp)
  have bn : ∀ j, b.head? = some j → j < s.size := fun j hj => h.bound j (by
    have := List.mem_of_head? hj; simp [this])
  have bp : ∀ j, a.getLast? = some j → j < s.size := fun j hj => h.bound j (by
    have := List.mem_of_getLast? hj; simp [this])
  unfold Lru.unlink Lru.unlinkT Lru.unlinkH DList.remove DList.unlink
  by_cases e1 : b = []
  · rw [if_pos (kt.2 e1)]
    simp only
    by_cases e2 : a = []
    · rw [if_pos (kh.2 e2)]
      subst e1; subst e2
      refine ⟨_, rfl, rfl, ?_, ?_, ?_⟩
      · simp only [List.head?_nil, List.getLast?_nil] at hp hn
        simp only [hp, hn, setNext?, setPrev?]
      · simp only [kh.2 rfl, if_true]
      · simp only [kt.2 rfl, if_true]
    · rw [if_neg (fun e => e2 (kh.1 e))]
      obtain ⟨j, hj⟩ : ∃ j, a.getLast? = some j := by
        cases hg : a.getLast? with
        | none => exact absurd (List.getLast?_eq_none_iff.1 hg) e2
        | some j => exact ⟨j, rfl⟩
      subst e1
      simp only [List.head?_nil] at hn
      rw [hj] at hp
      unfold Lru.setNextAt
      simp only [hp, if_pos (bp j hj)]
      refine ⟨_, rfl, rfl, ?_, ?_, ?_⟩
      · simp only [hn, setNext?, setPrev?]
      · simp only
        rw [if_neg (fun e => e2 (kh.1 e.symm))]
      · simp only [kt.2 rfl, if_true]
  · rw [if_neg (fun e => e1 (kt.1 e))]
    obtain ⟨k, hk⟩ : ∃ k, b.head? = some k := by
      cases b with
      | nil => exact absurd rfl e1
      | cons k b => exact ⟨k, rfl⟩
    rw [hk] at hn
    have hki : k ≠ i := fun e => hd.2.1 (by rw [← e]; exact List.mem_of_head? hk)
    unfold Lru.setPrevAt
    simp only [hn, if_pos (bn k hk)]
    by_cases e2 : a = []
    · rw [if_pos (kh.2 e2)]
      subst e2
      simp only [List.getLast?_nil] at hp
      refine ⟨_, rfl, rfl, ?_, ?_, ?_⟩
      · simp only [hp, setNext?, setPrev?]
      · simp only [kh.2 rfl, if_true, setPrev, hn]
      · simp only
        rw [if_neg (fun e => e1 (kt.1 e.symm))]
    · rw [if_neg (fun e => e2 (kh.1 e))]
      obtain ⟨j, hj⟩ : ∃ j, a.getLast? = some j := by
        cases hg : a.getLast? with
        | none => exact absurd (List.getLast?_eq_none_iff.1 hg) e2
        | some j => exact ⟨j, rfl⟩
      rw [hj] at hp
      unfold Lru.setNextAt
      have hp' : (setPrev s.h k (some j)).prev i = some j := by
        simp only [setPrev]; rw [upd_ne _ _ (Ne.symm hki)]; exact hp
      simp only [hp, hp', if_pos (bp j hj)]
      refine ⟨_, rfl, rfl, ?_, ?_, ?_⟩
      · simp only [setNext?, setPrev?, hn, hp, setPrev, setNext]
      · simp only
        rw [if_neg (fun e => e2 (kh.1 e.symm))]
      · simp only
        rw [if_neg (fun e => e1 (kt.1 e.symm))]

theorem unlink_lrep {s a b i} (h : LRep s (a ++ i :: b)) : ∃ s', s.unlink i = some s' ∧ s'.size = s.size ∧ LRep s' (a ++ b) := by
  obtain ⟨s', e, es, e1, e2, e3⟩ := unlink_eq h
  obtain ⟨r1, r2, r3⟩ := remove_rep h.rep
  have hp := rep_prev h.rep
  have hn := rep_next h.rep
  refine ⟨s', e, es, ⟨⟨r1.nodup, ?_, ?_, ?_, ?_, rfl⟩, ?_, ?_⟩⟩
  · rw [e1]; exact r1.next
  · rw [e1]; exact r1.prev
  · simp only; rw [e2]; exact r1.head
  · simp only; rw [e3]; exact r1.tail
  · intro j hj
    by_cases eji : j = i
    · subst eji; rw [e1]; exact ⟨r2, r3⟩
    · have hc := h.clean j (by
        intro hm
        rcases List.mem_append.1 hm with hm | hm
        · exact hj (List.mem_append_left _ hm)
        · rcases List.mem_cons.1 hm with hm | hm
          · exact eji hm
          · exact hj (List.mem_append_right _ hm))
      have nb : ∀ k, b.head? = some k → j ≠ k := fun k hk e => hj (List.mem_append_right _ (e ▸ List.mem_of_head? hk))
      have na : ∀ k, a.getLast? = some k → j ≠ k := fun k hk e => hj (List.mem_append_left _ (e ▸ List.mem_of_getLast? hk))
      rw [e1]
      simp only [remove, DList.unlink, setPrev, setNext, setPrev?_prev, setPrev?_next, setNext?_prev, setNext?_next, upd_ne _ _ eji]
      rw [hp, hn]
      constructor
      · cases hk : a.getLast? with
        | none => exact hc.1
        | some k => simp only [updO_some]; rw [upd_ne _ _ (na k hk)]; exact hc.1
      · cases hk : b.head? with
        | none => exact hc.2
        | some k => simp only [updO_some]; rw [upd_ne _ _ (nb k hk)]; exact hc.2
  · intro j hj
    rw [es]
    apply h.bound
    rcases List.mem_append.1 hj with hj | hj <;> simp [hj]

theorem link_lrep {s l i} (h : LRep s l) (hi : i ∉ l) (hb : i < s.size) : ∃ s', s.linkAtHead i = some s' ∧ LRep s' (i :: l) := by
  have hh := h.rep.head
  have ht := h.rep.tail
  simp only at hh ht
  have hc := h.clean i hi
  have key : ∃ s', s.linkAtHead i = some s' ∧ s'.size = s.size ∧
      s'.h = (DList.linkAtHead s.h ⟨s.head, s.tail, l.length⟩ i).1 ∧
      s'.head = (DList.linkAtHead s.h ⟨s.head, s.tail, l.length⟩ i).2.head ∧
      s'.tail = (DList.linkAtHead s.h ⟨s.head, s.tail, l.length⟩ i).2.tail := by
    unfold Lru.linkAtHead Lru.linkPrev
    rw [if_pos (by
      rw [hh]; intro e
      exact hi (List.mem_of_head? e.symm))]
    cases l with
    | nil =>
      simp only [List.head?_nil] at hh
      simp only [List.getLast?_nil] at ht
      simp only [hh, ht, ne_eq, not_true_eq_false, if_false]
      refine ⟨_, rfl, rfl, ?_, rfl, rfl⟩
      simp only [DList.linkAtHead, setPrev?, setPrev, setNext]
      rw [← hc.2, upd_self]
    | cons y l =>
      simp only [List.head?_cons] at hh
      have hy := h.bound y (by simp)
      have hiy : i ≠ y := fun e => hi (by simp [e])
      simp only [hh, Lru.setPrevAt, if_pos hy, ne_eq, reduceCtorEq, not_false_eq_true, if_true]
      refine ⟨_, rfl, rfl, ?_, ?_, ?_⟩
      · simp only [DList.linkAtHead, setPrev?, setPrev, setNext]
        rw [← hc.2, upd_self]
      · rfl
      · simp only [DList.linkAtHead]
        cases s.tail <;> rfl
  obtain ⟨s', e, es, e1, e2, e3⟩ := key
  have r := linkAtHead_rep h.rep hi
  refine ⟨s', e, ⟨r.nodup, ?_, ?_, ?_, ?_, rfl⟩, ?_, ?_⟩
  · rw [e1]; exact r.next
  · rw [e1]; exact r.prev
  · simp only; rw [e2]; exact r.head
  · simp only; rw [e3]; exact r.tail
  · intro j hj
    rw [List.mem_cons, not_or] at hj
    have hcj := h.clean j hj.2
    rw [e1]
    simp only [DList.linkAtHead, setPrev, setNext, setPrev?_prev, setPrev?_next, upd_ne _ _ hj.1]
    refine ⟨hcj.1, ?_⟩
    rw [hh]
    cases hk : l.head? with
    | none => simp only [updO_none]; rw [upd_ne _ _ hj.1]; exact hcj.2
    | some k =>
      have : j ≠ k := fun e => hj.2 (e ▸ List.mem_of_head? hk)
      simp only [updO_some]; rw [upd_ne _ _ this, upd_ne _ _ hj.1]; exact hcj.2
  · intro j hj
    rw [es]
    rcases List.mem_cons.1 hj with rfl | hj
    · exact hb
    · exact h.bound j hj

/-- a node is recognised as being in the list if it is there with another one -/
theorem inList_iff {s l} (h : LRep s l) (i : Nat) : s.inList i = true ↔ i ∈ l ∧ 2 ≤ l.length := by
  unfold Lru.inList
  by_cases hi : i ∈ l
  · obtain ⟨a, b, rfl⟩ := List.append_of_mem hi
    rw [rep_prev h.rep, rep_next h.rep]
    cases b with
    | cons y b => simp; omega
    | nil =>
      rcases List.eq_nil_or_concat a with rfl | ⟨a', q, rfl⟩
      · simp
      · simp
  · have := h.clean i hi
    rw [this.1, this.2]; simp [hi]

/-! ### the abstract LRU -/

theorem touch_lrep {s l} (h : LRep s l) (i : Nat) : ∃ s', s.touch i = some s' ∧
    LRep s' (if i ∈ l then i :: l.erase i else l) := by
  obtain ⟨hg, hb⟩ := grow_rep h i
  unfold Lru.touch
  simp only
  by_cases hin : (s.grow i).inList i = true
  · rw [if_pos hin]
    have hm := (inList_iff hg i).1 hin
    obtain ⟨a, b, rfl⟩ := List.append_of_mem hm.1
    have hd := nodup_mid hg.rep.nodup
    obtain ⟨s1, e1, es, h1⟩ := unlink_lrep hg
    rw [e1]
    obtain ⟨s2, e2, h2⟩ := link_lrep h1 (i := i) (by simp [hd.1, hd.2.1]) (by omega)
    refine ⟨s2, e2, ?_⟩
    rw [if_pos hm.1, List.erase_append_right _ hd.1, List.erase_cons_head]
    exact h2
  · rw [if_neg hin]
    refine ⟨_, rfl, ?_⟩
    split
    · rename_i hm
      have : ¬ 2 ≤ l.length := fun e => hin ((inList_iff hg i).2 ⟨hm, e⟩)
      match l, hm, this with
      | [x], hm, _ =>
        simp only [List.mem_singleton] at hm
        subst hm
        simpa using hg
      | x :: y :: l, _, hc => simp at hc
    · exact hg

theorem track_lrep {s l} (h : LRep s l) (i : Nat) : ∃ s', s.track i = some s' ∧ LRep s' (if i ∈ l then l else i :: l) := by
  obtain ⟨hg, hb⟩ := grow_rep h i
  unfold Lru.track
  simp only
  by_cases hin : (s.grow i).inList i = true
  · rw [hin, if_neg (by simp)]
    refine ⟨_, rfl, ?_⟩
    rw [if_pos ((inList_iff hg i).1 hin).1]; exact hg
  · have : (s.grow i).inList i = false := by simpa using hin
    rw [this, if_pos (by rfl)]
    by_cases hm : i ∈ l
    · have hl : ¬ 2 ≤ l.length := fun e => hin ((inList_iff hg i).2 ⟨hm, e⟩)
      match l, hm, hl with
      | [x], hm, _ =>
        simp only [List.mem_singleton] at hm
        subst hm
        have := hg.rep.head
        simp only [List.head?_cons] at this
        unfold Lru.linkAtHead
        rw [if_neg (by rw [this]; simp)]
        exact ⟨_, rfl, by simpa using hg⟩
      | x :: y :: l, _, hc => simp at hc
    · rw [if_neg hm]
      exact link_lrep hg hm hb

theorem evict_lrep {s l} (h : LRep s l) : ∃ s', s.evict = some (s', l.getLast?) ∧ LRep s' l.dropLast := by
  unfold Lru.evict
  have ht := h.rep.tail
  simp only at ht
  rcases List.eq_nil_or_concat l with rfl | ⟨a, q, rfl⟩
  · simp only [List.getLast?_nil] at ht
    rw [ht]
    exact ⟨s, rfl, h⟩
  · simp only [List.concat_eq_append, List.getLast?_concat, List.dropLast_concat] at *
    rw [ht]
    obtain ⟨s1, e1, _, h1⟩ := unlink_lrep h
    simp only [e1]
    exact ⟨s1, rfl, by simpa using h1⟩

theorem init_lrep : LRep Lru.init [] := ⟨⟨by simp, by simp, by simp, rfl, rfl, rfl⟩, fun i _ => ⟨rfl, rfl⟩, by simp⟩

/-- `Use` says one thing -/
theorem use_fun {t r k k'} (h : Use t r k) (h' : Use t r k') : k = k' := by
  induction h generalizing k' with
  | track t r hn =>
    cases h' with
    | track => rfl
    | again _ _ _ ht => exact absurd ht hn
    | other _ _ _ _ h1 _ _ => exact absurd rfl h1
  | touch t r ht =>
    cases h' with
    | touch => rfl
    | other _ _ _ _ _ h2 _ => exact absurd rfl h2
  | again t r k ht _ ih =>
    cases h' with
    | track _ _ hn => exact absurd ht hn
    | again _ _ _ _ h => exact ih h
    | other _ _ _ _ h1 _ _ => exact absurd rfl h1
  | other t e r k h1 h2 _ ih =>
    cases h' with
    | track => exact absurd rfl h1
    | touch => exact absurd rfl h2
    | again => exact absurd rfl h1
    | other _ _ _ _ _ _ h => exact ih h

/-- the list is ordered by last use -/
structure Ord (t : List Ev) (l : List Nat) : Prop where
  mem : ∀ x, x ∈ l ↔ Tracked t x
  use : ∃ k : Nat → Nat, (∀ x ∈ l, Use t x (k x) ∧ k x < t.length) ∧ l.Pairwise (fun a b => k b < k a)

theorem ord_front {t l l' e r} (h : Ord t l) (hs : ∀ x ∈ l', x ∈ l ∧ x ≠ r) (hsub : l'.Sublist l)
    (hm : ∀ x, x ∈ r :: l' ↔ Tracked (e :: t) x) (hu : Use (e :: t) r t.length)
    (ho : ∀ x, x ≠ r → e ≠ .track x ∧ e ≠ .touch x) : Ord (e :: t) (r :: l') := by
  obtain ⟨k, h1, h2⟩ := h.use
  refine ⟨hm, fun x => if x = r then t.length else k x, ?_, ?_⟩
  · intro x hx
    by_cases hxr : x = r
    · subst hxr; simp only [if_true]; exact ⟨hu, by simp⟩
    · simp only [if_neg hxr]
      have hx : x ∈ l' := by
        rcases List.mem_cons.1 hx with h | h
        · exact absurd h hxr
        · exact h
      have := h1 x (hs x hx).1
      exact ⟨.other _ _ _ _ (ho x hxr).1 (ho x hxr).2 this.1, by simp only [List.length_cons]; omega⟩
  · rw [List.pairwise_cons]
    constructor
    · intro x hx
      have := hs x hx
      simp only [if_neg this.2, if_true]
      exact (h1 x this.1).2
    · refine (h2.sublist hsub).imp_of_mem ?_
      intro a b ha hb hab
      simp only [if_neg (hs a ha).2, if_neg (hs b hb).2]
      exact hab

theorem ord_keep {t l l' e} (h : Ord t l) (hsub : l'.Sublist l) (hm : ∀ x, x ∈ l' ↔ Tracked (e :: t) x)
    (ho : ∀ x k, x ∈ l' → Use t x k → Use (e :: t) x k) : Ord (e :: t) l' := by
  obtain ⟨k, h1, h2⟩ := h.use
  refine ⟨hm, k, ?_, h2.sublist hsub⟩
  intro x hx
  have := h1 x (hsub.subset hx)
  exact ⟨ho x _ hx this.1, by simp only [List.length_cons]; omega⟩

theorem lrun_inv {t s} (h : LRun t s) : ∃ l, LRep s l ∧ Ord t l := by
  induction h with
  | init => exact ⟨[], init_lrep, ⟨by simp [Tracked], ⟨fun _ => 0, by simp, by simp⟩⟩⟩
  | track t s r s' _ e ih =>
    obtain ⟨l, hl, ho⟩ := ih
    obtain ⟨s2, e2, h2⟩ := track_lrep hl r
    rw [e] at e2; cases e2
    refine ⟨_, h2, ?_⟩
    by_cases hm : r ∈ l
    · rw [if_pos hm]
      refine ord_keep ho (List.Sublist.refl _) ?_ ?_
      · intro x
        simp only [Tracked, ho.mem x]
        constructor
        · exact Or.inr
        · rintro (rfl | h)
          · exact (ho.mem _).1 hm
          · exact h
      · intro x k hx hu
        by_cases hxr : x = r
        · subst hxr; exact .again _ _ _ ((ho.mem _).1 hm) hu
        · exact .other _ _ _ _ (by simpa using Ne.symm hxr) (by simp) hu
    · rw [if_neg hm]
      refine ord_front ho (fun x hx => ⟨hx, fun e => hm (e ▸ hx)⟩) (List.Sublist.refl _) ?_
        (.track _ _ (fun ht => hm ((ho.mem _).2 ht))) ?_
      · intro x; simp only [List.mem_cons, Tracked, ho.mem x]
      · intro x hx; simpa using Ne.symm hx
  | touch t s r s' _ e ih =>
    obtain ⟨l, hl, ho⟩ := ih
    obtain ⟨s2, e2, h2⟩ := touch_lrep hl r
    rw [e] at e2; cases e2
    refine ⟨_, h2, ?_⟩
    by_cases hm : r ∈ l
    · rw [if_pos hm]
      have hnd := hl.rep.nodup
      refine ord_front ho (fun x hx => ⟨List.mem_of_mem_erase hx, fun e => ?_⟩) List.erase_sublist ?_
        (.touch _ _ ((ho.mem _).1 hm)) ?_
      · rw [e] at hx; exact (hnd.not_mem_erase) hx
      · intro x
        simp only [List.mem_cons, Tracked, ← ho.mem x]
        rw [hnd.mem_erase_iff]
        constructor
        · rintro (rfl | h)
          · exact hm
          · exact h.2
        · intro h
          by_cases hx : x = r
          · exact Or.inl hx
          · exact Or.inr ⟨hx, h⟩
      · intro x hx; simpa using Ne.symm hx
    · rw [if_neg hm]
      refine ord_keep ho (List.Sublist.refl _) (fun x => ho.mem x) ?_
      intro x k hx hu
      exact .other _ _ _ _ (by simp) (by intro e; injection e with e; exact hm (e ▸ hx)) hu
  | evict t s s' x _ e ih =>
    obtain ⟨l, hl, ho⟩ := ih
    obtain ⟨s2, e2, h2⟩ := evict_lrep hl
    rw [e] at e2; cases e2
    refine ⟨_, h2, ?_⟩
    refine ord_keep ho (List.dropLast_sublist _) ?_ (fun x k _ hu => .other _ _ _ _ (by simp) (by simp) hu)
    intro x
    rcases List.eq_nil_or_concat l with rfl | ⟨a, q, rfl⟩
    · exact ho.mem x
    · have hnd := hl.rep.nodup
      simp only [List.concat_eq_append, List.getLast?_concat, List.dropLast_concat, Tracked, ← ho.mem x] at *
      rw [List.nodup_append] at hnd
      constructor
      · intro hx; exact ⟨fun e => hnd.2.2 x hx q (by simp) e, List.mem_append_left _ hx⟩
      · rintro ⟨h1, h2⟩
        rcases List.mem_append.1 h2 with h | h
        · exact h
        · exact absurd (by simpa using h) h1
  | reset t s _ ih => exact ⟨[], init_lrep, ⟨by simp [Tracked], ⟨fun _ => 0, by simp, by simp⟩⟩⟩

/-- C33: an eviction returns a tracked region whose last use is before that of every other tracked region … -/
theorem lru_evicts_least_recent {t s s' r} (h : LRun t s) (he : s.evict = some (s', some r)) :
    Tracked t r ∧ ∃ k, Use t r k ∧ ∀ r' k', Tracked t r' → r' ≠ r → Use t r' k' → k < k' := by
  obtain ⟨l, hl, ho⟩ := lrun_inv h
  obtain ⟨s2, e2, _⟩ := evict_lrep hl
  rw [he] at e2
  simp only [Option.some.injEq, Prod.mk.injEq] at e2
  obtain ⟨a, rfl⟩ := List.getLast?_eq_some_iff.1 e2.2.symm
  obtain ⟨k, h1, h2⟩ := ho.use
  refine ⟨(ho.mem r).1 (by simp), k r, (h1 r (by simp)).1, ?_⟩
  intro r' k' ht hne hu
  have hm := (ho.mem r').2 ht
  have hm' : r' ∈ a := by
    rcases List.mem_append.1 hm with h | h
    · exact h
    · exact absurd (by simpa using h) hne
  rw [use_fun hu (h1 r' hm).1]
  exact (List.pairwise_append.1 h2).2.2 r' hm' r (by simp)

/-- C33: … and nothing only if none is tracked. -/
theorem lru_evict_none {t s s'} (h : LRun t s) (he : s.evict = some (s', none)) (r : Nat) : ¬ Tracked t r := by
  obtain ⟨l, hl, ho⟩ := lrun_inv h
  obtain ⟨s2, e2, _⟩ := evict_lrep hl
  rw [he] at e2
  simp only [Option.some.injEq, Prod.mk.injEq] at e2
  have := List.getLast?_eq_none_iff.1 e2.2.symm
  subst this
  intro ht
  exact absurd ((ho.mem r).2 ht) (by simp)

/-- C33: no operation accesses the array out of bounds. -/
theorem lru_safe {t s} (h : LRun t s) (r : Nat) : s.track r ≠ none ∧ s.touch r ≠ none ∧ s.evict ≠ none := by
  obtain ⟨l, hl, _⟩ := lrun_inv h
  obtain ⟨_, e1, _⟩ := track_lrep hl r
  obtain ⟨_, e2, _⟩ := touch_lrep hl r
  obtain ⟨_, e3, _⟩ := evict_lrep hl
  rw [e1, e2, e3]; simp

/-! ### the hypotheses are met -/

/-- tracked 5, 7, 9; touched 5; 7 is evicted, then 9, then 5 -/
example : ∃ s s1 s2 s3 s4 s5 s6, LRun [.touch 5, .track 9, .track 7, .track 5] s ∧ s.evict = some (s1, some 7) ∧
    s1.evict = some (s2, some 9) ∧ s2.touch 5 = some s3 ∧ s3.track 5 = some s4 ∧ s4.evict = some (s5, some 5) ∧ s5.evict = some (s6, none) :=
  ⟨_, _, _, _, _, _, _, .touch _ _ _ _ (.track _ _ _ _ (.track _ _ _ _ (.track _ _ _ _ .init rfl) rfl) rfl) rfl, rfl, rfl, rfl, rfl, rfl, rfl⟩

/-- three segments with ratios 1, 1, 1: six regions of the highest priority; one of the lowest overtakes those above -/
example : ∃ s s' s'', SRun [1, 1, 1] [.track 5, .track 4, .track 3, .track 2, .track 1, .track 0] s ∧ line s = [0, 1, 2, 3, 4, 5] ∧
    s.map (fun x => x.q.length) = [3, 1, 2] ∧ s.track 9 0 0 = some s' ∧ line s' = [0, 1, 2, 9, 3, 4, 5] ∧ s'.evict = (s'', some 0) :=
  ⟨_, _, _, .track _ _ _ 2 0 _ (.track _ _ _ 2 0 _ (.track _ _ _ 2 0 _ (.track _ _ _ 2 0 _ (.track _ _ _ 2 0 _ (.track _ _ _ 2 0 _ (.init _ rfl) rfl) rfl) rfl) rfl) rfl) rfl,
    rfl, rfl, rfl, rfl, rfl⟩

example : ∃ q : Fifo, FifoRun [.track 3, .evict (some 1), .track 2, .touch 1, .track 1] q ∧ q = [(2, 20), (3, 30)] ∧ q.recover q.persist = some q :=
  ⟨_, .track _ _ _ 30 (.evict _ _ (.track _ _ _ 20 (.touch _ _ _ (.track _ _ _ 10 .init)))), rfl, rfl⟩

end Verif.RegionPolicy
