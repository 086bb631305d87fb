import Verif.HashTable.Props
/-!
Property C08: iterating the RAM index visits every key exactly once.

Models Container::Iterator (ChainedHashTable.h:1335-1487) and Container::LockGroupIterator
(1489-1586, 1681-1698) as programs over the answers of their bucket reads; throttling and scan
statistics are left out.
-/
namespace Verif.HashTable
variable {K : Type}

/-- Iterator (ChainedHashTable.h:603-612).  `reads` counts the calls of getBucketElems so far, so that
each call may see a different table. -/
structure Iter where
  currBucket : Nat
  curSor : Nat
  elems : List P
  reads : Nat

/-- the loop of operator++ (1378-1391): `k` is the number of buckets still to try. -/
def Iter.advance (fetch : Nat → Nat → List P) (num : Nat) (it : Iter) : Iter :=
  if it.currBucket < num then
    let e := fetch it.reads it.currBucket
    if e ≠ [] then { it with elems := e, curSor := 0, reads := it.reads + 1 }
    else Iter.advance fetch num ⟨it.currBucket + 1, it.curSor, e, it.reads + 1⟩
  else { it with elems := [], curSor := 0 }
termination_by num - it.currBucket

/-- operator++ (1366-1392).  `fetch i b` is what the `i`-th call of getBucketElems, for bucket `b`,
gives; `num` is the number of buckets. -/
def Iter.incr (fetch : Nat → Nat → List P) (num : Nat) (it : Iter) : Iter :=
  if it.curSor + 1 < it.elems.length then { it with curSor := it.curSor + 1 }
  else Iter.advance fetch num { it with curSor := it.curSor + 1, currBucket := it.currBucket + 1 }

/-- the loop of reset (1479-1485). -/
def Iter.skip (fetch : Nat → Nat → List P) (num : Nat) (it : Iter) : Iter :=
  if it.elems = [] then
    if it.currBucket + 1 < num then
      Iter.skip fetch num
        ⟨it.currBucket + 1, it.curSor, fetch it.reads (it.currBucket + 1), it.reads + 1⟩
    else { it with currBucket := it.currBucket + 1 }
  else it
termination_by num - it.currBucket

/-- reset (1475-1487), called by the constructor. -/
def Iter.begin (fetch : Nat → Nat → List P) (num : Nat) : Iter :=
  Iter.skip fetch num ⟨0, 0, fetch 0 0, 1⟩

/-- comparison with end() (576-579, 1454-1461). -/
def Iter.isEnd (num : Nat) (it : Iter) : Prop := it.currBucket = num ∧ it.curSor = 0

/-- A loop `for (it = ...; it != end(); ++it)`: the items it dereferences (618-628: dereferencing out of
range throws, then there is no run). -/
inductive Visits (fetch : Nat → Nat → List P) (num : Nat) : Iter → List P → Prop
  | stop (it : Iter) (h : it.isEnd num) : Visits fetch num it []
  | go (it : Iter) (x : P) (l : List P) (h : ¬ it.isEnd num) (hx : it.elems[it.curSor]? = some x)
      (hr : Visits fetch num (it.incr fetch num) l) : Visits fetch num it (x :: l)

/-- what is still to be visited from bucket `b` on, the reads being numbered like the buckets. -/
def rest (fetch : Nat → Nat → List P) (num b : Nat) : List P :=
  (List.range' b (num - b)).flatMap fun i => fetch i i

theorem rest_step (fetch : Nat → Nat → List P) {num b : Nat} (h : b < num) :
    rest fetch num b = fetch b b ++ rest fetch num (b + 1) := by
  unfold rest
  have : num - b = (num - (b + 1)) + 1 := by omega
  rw [this, List.range'_succ, List.flatMap_cons]

theorem rest_end (fetch : Nat → Nat → List P) {num b : Nat} (h : num ≤ b) : rest fetch num b = [] := by
  unfold rest
  have : num - b = 0 := by omega
  simp [this]

/-- a state inside the iteration: positioned in bucket `b`, whose elements were read, `cur` to go. -/
def Ready (num : Nat) (it : Iter) : Prop :=
  it.currBucket < num ∧ it.reads = it.currBucket + 1 ∧ it.curSor < it.elems.length

theorem advance_spec (fetch : Nat → Nat → List P) (num : Nat) (it : Iter)
    (hr : it.reads = it.currBucket) (hb : it.currBucket ≤ num) :
    ((it.advance fetch num).isEnd num ∧ rest fetch num it.currBucket = []) ∨
    (Ready num (it.advance fetch num) ∧ (it.advance fetch num).curSor = 0 ∧
      rest fetch num it.currBucket =
        (it.advance fetch num).elems ++ rest fetch num ((it.advance fetch num).currBucket + 1)) := by
  induction hk : num - it.currBucket using Nat.strongRecOn generalizing it with
  | ind k ih =>
    unfold Iter.advance
    by_cases h : it.currBucket < num
    · simp only [h, if_true]
      by_cases he : fetch it.reads it.currBucket = []
      · simp only [he, ne_eq, not_true_eq_false, if_false]
        have := ih (num - (it.currBucket + 1)) (by omega) ⟨it.currBucket + 1, it.curSor, [], it.reads + 1⟩
          (by simp [hr]) (Nat.succ_le_of_lt h) rfl
        simp only at this
        rw [rest_step fetch h, ← show it.reads = it.currBucket from hr] at *
        simp only [he, List.nil_append] at *
        exact this
      · right
        simp only [ne_eq, he, not_false_eq_true, if_true]
        refine ⟨⟨h, by simp [hr], ?_⟩, trivial, ?_⟩
        · exact List.length_pos_iff.2 he
        · rw [rest_step fetch h]; simp [hr]
    · simp only [h, if_false]
      left
      exact ⟨⟨by simp; omega, rfl⟩, rest_end fetch (by omega)⟩

theorem advance_ge (fetch : Nat → Nat → List P) (num : Nat) (it : Iter) :
    it.currBucket ≤ (it.advance fetch num).currBucket := by
  induction hk : num - it.currBucket using Nat.strongRecOn generalizing it with
  | ind k ih =>
    unfold Iter.advance
    by_cases h : it.currBucket < num
    · simp only [h, if_true]
      by_cases he : fetch it.reads it.currBucket = []
      · simp only [he, ne_eq, not_true_eq_false, if_false]
        have := ih (num - (it.currBucket + 1)) (by omega) ⟨it.currBucket + 1, it.curSor, [], it.reads + 1⟩
          rfl
        simp only at this
        omega
      · simp only [ne_eq, he, not_false_eq_true, if_true]; exact Nat.le_refl _
    · simp only [h, if_false]; exact Nat.le_refl _

theorem visits_ready (fetch : Nat → Nat → List P) (num : Nat) (it : Iter) (h : Ready num it) (l : List P) :
    Visits fetch num it l ↔ l = it.elems.drop it.curSor ++ rest fetch num (it.currBucket + 1) := by
  induction hk : (num - it.currBucket) + (it.elems.length - it.curSor) +
      (rest fetch num (it.currBucket + 1)).length using Nat.strongRecOn generalizing it l with
  | ind k ih =>
    obtain ⟨h1, h2, h3⟩ := h
    have hne : ¬ it.isEnd num := fun e => by have := e.1; omega
    have hd : it.elems.drop it.curSor = it.elems[it.curSor] :: it.elems.drop (it.curSor + 1) :=
      List.drop_eq_getElem_cons h3
    -- the tail of the run
    have tail : ∀ l', Visits fetch num (it.incr fetch num) l' ↔
        l' = it.elems.drop (it.curSor + 1) ++ rest fetch num (it.currBucket + 1) := by
      intro l'
      unfold Iter.incr
      by_cases hlt : it.curSor + 1 < it.elems.length
      · simp only [hlt, if_true]
        exact ih _ (by subst hk; simp only; omega) { it with curSor := it.curSor + 1 } ⟨h1, h2, hlt⟩ l' rfl
      · simp only [hlt, if_false]
        have hdrop : it.elems.drop (it.curSor + 1) = [] := by
          apply List.drop_eq_nil_of_le; omega
        rw [hdrop, List.nil_append]
        have sp := advance_spec fetch num
          { it with curSor := it.curSor + 1, currBucket := it.currBucket + 1 } (by simpa using h2)
          (Nat.succ_le_of_lt h1)
        simp only at sp
        rcases sp with ⟨he, hr⟩ | ⟨hr, hc, he⟩
        · rw [hr]
          constructor
          · intro hv
            cases hv with
            | stop _ _ => rfl
            | go _ _ _ hn _ _ => exact absurd he hn
          · rintro rfl; exact .stop _ he
        · have hlen := congrArg List.length he
          rw [List.length_append] at hlen
          have h3' := hr.2.2
          rw [hc] at h3'
          have := ih ((num - (Iter.advance fetch num
              { it with curSor := it.curSor + 1, currBucket := it.currBucket + 1 }).currBucket) +
              ((Iter.advance fetch num
              { it with curSor := it.curSor + 1, currBucket := it.currBucket + 1 }).elems.length -
              (Iter.advance fetch num
              { it with curSor := it.curSor + 1, currBucket := it.currBucket + 1 }).curSor) +
              (rest fetch num ((Iter.advance fetch num
              { it with curSor := it.curSor + 1, currBucket := it.currBucket + 1 }).currBucket + 1)).length)
            (by
              have hge : it.currBucket + 1 ≤ (Iter.advance fetch num
                { it with curSor := it.curSor + 1, currBucket := it.currBucket + 1 }).currBucket :=
                advance_ge fetch num { it with curSor := it.curSor + 1, currBucket := it.currBucket + 1 }
              rw [hc]
              omega) _ hr l' rfl
          rw [this, hc, List.drop_zero, ← he]
    constructor
    · intro hv
      cases hv with
      | stop _ he => exact absurd he hne
      | go _ x l' _ hx hr =>
        rw [List.getElem?_eq_getElem h3] at hx
        cases hx
        rw [(tail l').1 hr, hd]; rfl
    · rintro rfl
      rw [hd]
      exact .go it _ _ hne (List.getElem?_eq_getElem h3) ((tail _).2 rfl)

theorem skip_spec (fetch : Nat → Nat → List P) (num : Nat) (it : Iter)
    (hr : it.reads = it.currBucket + 1) (hb : it.currBucket < num) (hc : it.curSor = 0) :
    ((it.skip fetch num).isEnd num ∧ it.elems ++ rest fetch num (it.currBucket + 1) = []) ∨
    (Ready num (it.skip fetch num) ∧ (it.skip fetch num).curSor = 0 ∧
      it.elems ++ rest fetch num (it.currBucket + 1) =
        (it.skip fetch num).elems ++ rest fetch num ((it.skip fetch num).currBucket + 1)) := by
  induction hk : num - it.currBucket using Nat.strongRecOn generalizing it with
  | ind k ih =>
    unfold Iter.skip
    by_cases he : it.elems = []
    · simp only [he, if_true]
      by_cases h : it.currBucket + 1 < num
      · simp only [h, if_true]
        have := ih (num - (it.currBucket + 1)) (by omega)
          ⟨it.currBucket + 1, it.curSor, fetch it.reads (it.currBucket + 1), it.reads + 1⟩
          (by simp [hr]) (by simpa using h) hc rfl
        simp only at this
        rw [List.nil_append, rest_step fetch h]
        rw [hr] at this ⊢
        exact this
      · simp only [h, if_false]
        left
        exact ⟨⟨by simp; omega, hc⟩, by rw [List.nil_append]; exact rest_end fetch (by omega)⟩
    · simp only [he, if_false]
      right
      refine ⟨⟨hb, hr, ?_⟩, hc, trivial⟩
      rw [hc]; exact List.length_pos_iff.2 he

/-- C08: the iteration ends and visits the answers of one read of each bucket, in order: bucket `b` is
read by the `b`-th read. -/
theorem iteration (fetch : Nat → Nat → List P) {num : Nat} (hn : 0 < num) (l : List P) :
    Visits fetch num (Iter.begin fetch num) l ↔ l = (List.range num).flatMap fun b => fetch b b := by
  have hall : ((List.range num).flatMap fun b => fetch b b) = rest fetch num 0 := by
    unfold rest; rw [List.range_eq_range']; rfl
  rw [hall, rest_step fetch hn]
  have sp := skip_spec fetch num ⟨0, 0, fetch 0 0, 1⟩ rfl hn rfl
  simp only [Nat.zero_add] at sp
  unfold Iter.begin
  rcases sp with ⟨he, hr⟩ | ⟨hr, hc, he⟩
  · rw [Nat.zero_add, hr]
    constructor
    · intro hv
      cases hv with
      | stop _ _ => rfl
      | go _ _ _ hn _ _ => exact absurd he hn
    · rintro rfl; exact .stop _ he
  · rw [Nat.zero_add, he, visits_ready fetch num _ hr, hc, List.drop_zero]

/-! ### Iteration while other threads modify the table -/

/-- An execution of the atomic map in which reads of buckets `0, 1, …` take effect at the instants
`at 0 ≤ at 1 ≤ …`; between them other operations may take effect.  `m j` is the map after `j` steps,
`got b` the answer of the read of bucket `b`. -/
structure IterRun (key : P → K) (bucket : K → Nat) (num : Nat) (m : Nat → K → Option P) (inst : Nat → Nat)
    (got : Nat → List P) : Prop where
  /-- every step is the effect of some operation, or leaves the map alone. -/
  steps : ∀ j, m (j + 1) = m j ∨ ∃ o r, Spec key bucket o (m j) r (m (j + 1))
  /-- maps relate keys to items with that key (shown for the table by `AExec.keys`). -/
  keys : ∀ j k p, m j k = some p → key p = k
  order : ∀ b b', b ≤ b' → b' < num → inst b ≤ inst b'
  read : ∀ b, b < num → ∃ r, r = .items (got b) ∧ Spec key bucket (.scan b) (m (inst b)) r (m (inst b))

/-- maps reached by the atomic object relate keys to items with that key. -/
theorem AExec.keys {n : Nat} {key : P → K} {bucket : K → Nat} {tr : List (Label K n)} {a : Atomic K n}
    (h : AExec key bucket tr a) :
    ∀ k p, a.map k = some p → key p = k := by
  have step : ∀ {a a' : Atomic K n} {l : Label K n}, AStep key bucket a l a' →
      (∀ k p, a.map k = some p → key p = k) → ∀ k p, a'.map k = some p → key p = k := by
    intro a a' l hs ih
    have set : ∀ (m m' : K → Option P) (nd : P), (∀ k p, m k = some p → key p = k) →
        m' (key nd) = some nd → (∀ k, k ≠ key nd → m' k = m k) → ∀ k p, m' k = some p → key p = k := by
      intro m m' nd h0 h1 h2 k p hk
      by_cases e : k = key nd
      · subst e; rw [h1] at hk; cases hk; rfl
      · rw [h2 k e] at hk; exact h0 k p hk
    have del : ∀ (m m' : K → Option P) (nd : P), (∀ k p, m k = some p → key p = k) →
        m' (key nd) = none → (∀ k, k ≠ key nd → m' k = m k) → ∀ k p, m' k = some p → key p = k := by
      intro m m' nd h0 h1 h2 k p hk
      by_cases e : k = key nd
      · subst e; rw [h1] at hk; cases hk
      · rw [h2 k e] at hk; exact h0 k p hk
    cases hs with
    | call _ _ _ _ hm _ _ => rw [hm]; exact ih
    | ret _ _ _ _ hm _ _ => rw [hm]; exact ih
    | effect _ _ _ _ _ hs _ _ =>
      obtain ⟨m', c'⟩ := a'
      simp only at hs ⊢
      cases hs with
      | insertNew nd _ _ _ h1 h2 => exact set _ _ nd ih h1 h2
      | putNew nd _ _ _ _ h1 h2 => exact set _ _ nd ih h1 h2
      | putOld nd _ _ _ _ _ h1 h2 => exact set _ _ nd ih h1 h2
      | replaceYes _ nd _ _ _ h1 h2 => exact set _ _ nd ih h1 h2
      | removeYes nd _ _ _ h1 h2 => exact del _ _ nd ih h1 h2
      | removeIfYes nd _ _ _ h1 h2 => exact del _ _ nd ih h1 h2
      | _ => exact ih
  induction h with
  | init => intro k p hk; cases hk
  | silent _ hs ih => exact step hs ih
  | obs _ _ hs ih => exact step hs ih

/-- C08, no key twice: whatever other threads do and whichever items the iterator fails to get a handle
for (`ok`), the items visited have pairwise different keys. -/
theorem iterate_once {key : P → K} {bucket : K → Nat} {num : Nat} {m : Nat → K → Option P}
    {inst : Nat → Nat} {got : Nat → List P} (h : IterRun key bucket num m inst got) (hn : 0 < num)
    (ok : P → Bool) (l : List P)
    (hv : Visits (fun _ b => (got b).filter ok) num (Iter.begin (fun _ b => (got b).filter ok) num) l) :
    (l.map key).Nodup := by
  rw [iteration _ hn] at hv
  subst hv
  rw [List.map_flatMap, List.nodup_flatMap]
  have hread : ∀ b, b < num → (got b).Nodup ∧
      ∀ p, p ∈ got b ↔ m (inst b) (key p) = some p ∧ bucket (key p) = b := by
    intro b hb
    obtain ⟨r, hr, hs⟩ := h.read b hb
    cases hs with
    | scan _ _ l hn hm => cases hr; exact ⟨hn, hm⟩
  constructor
  · intro b hb
    obtain ⟨h1, h2⟩ := hread b (List.mem_range.1 hb)
    refine List.Nodup.map_on ?_ (h1.filter _)
    intro p hp q hq e
    have hp' := ((h2 p).1 (List.mem_of_mem_filter hp)).1
    have hq' := ((h2 q).1 (List.mem_of_mem_filter hq)).1
    rw [e, hq'] at hp'
    exact (Option.some.inj hp').symm
  · refine List.Pairwise.imp_of_mem ?_ List.nodup_range
    intro b b' hb hb' hne k hk hk'
    simp only [List.mem_map] at hk hk'
    obtain ⟨p, hp, rfl⟩ := hk
    obtain ⟨q, hq, e⟩ := hk'
    have hp' := ((hread b (List.mem_range.1 hb)).2 p).1 (List.mem_of_mem_filter hp)
    have hq' := ((hread b' (List.mem_range.1 hb')).2 q).1 (List.mem_of_mem_filter hq)
    exact hne (by rw [← hp'.2, ← hq'.2, e])

/-- C08, no key missed: a key that is in the table during the whole iteration is visited, unless the
handle of its item could not be acquired at that moment. -/
theorem iterate_all {key : P → K} {bucket : K → Nat} {num : Nat} {m : Nat → K → Option P}
    {inst : Nat → Nat} {got : Nat → List P} (h : IterRun key bucket num m inst got) (hn : 0 < num)
    (ok : P → Bool) (l : List P) (k : K) (hk : bucket k < num)
    (hv : Visits (fun _ b => (got b).filter ok) num (Iter.begin (fun _ b => (got b).filter ok) num) l)
    (hpres : ∀ j, inst 0 ≤ j → j ≤ inst (num - 1) → m j k ≠ none)
    (hok : ∀ p, key p = k → ok p = true) : k ∈ l.map key := by
  rw [iteration _ hn] at hv
  subst hv
  have h1 := h.order 0 (bucket k) (by omega) hk
  have h2 := h.order (bucket k) (num - 1) (by omega) (by omega)
  obtain ⟨p, hp⟩ := Option.ne_none_iff_exists'.1 (hpres (inst (bucket k)) h1 h2)
  have hkey := h.keys _ _ _ hp
  obtain ⟨r, hr, hs⟩ := h.read _ hk
  cases hs with
  | scan _ _ l hnd hm =>
    cases hr
    rw [List.mem_map]
    refine ⟨p, ?_, hkey⟩
    rw [List.mem_flatMap]
    refine ⟨bucket k, List.mem_range.2 hk, ?_⟩
    rw [List.mem_filter]
    exact ⟨(hm p).2 ⟨by rw [hkey]; exact hp, by rw [hkey]⟩, hok p hkey⟩

/-- C08, nothing invented: every item visited was what its key referred to at some moment during the
iteration. -/
theorem iterate_sound {key : P → K} {bucket : K → Nat} {num : Nat} {m : Nat → K → Option P}
    {inst : Nat → Nat} {got : Nat → List P} (h : IterRun key bucket num m inst got) (hn : 0 < num)
    (ok : P → Bool) (l : List P) (p : P) (hp : p ∈ l)
    (hv : Visits (fun _ b => (got b).filter ok) num (Iter.begin (fun _ b => (got b).filter ok) num) l) :
    ∃ j, inst 0 ≤ j ∧ j ≤ inst (num - 1) ∧ m j (key p) = some p := by
  rw [iteration _ hn] at hv
  subst hv
  rw [List.mem_flatMap] at hp
  obtain ⟨b, hb, hp⟩ := hp
  rw [List.mem_range] at hb
  obtain ⟨r, hr, hs⟩ := h.read b hb
  cases hs with
  | scan _ _ l hnd hm =>
    cases hr
    exact ⟨inst b, h.order 0 b (by omega) hb, h.order b (num - 1) (by omega) (by omega),
      ((hm p).1 (List.mem_of_mem_filter hp)).1⟩

/-! ### Lock groups -/

/-- forEachBucketForLock (common/Mutex.h:294-299): the buckets it calls `func` for, in order. -/
def bucketsOfLock (numLocks numBuckets b : Nat) : List Nat :=
  if _h : b < numBuckets ∧ 0 < numLocks then b :: bucketsOfLock numLocks numBuckets (b + numLocks) else []
termination_by numBuckets - b
decreasing_by omega

theorem mem_bucketsOfLock {numLocks numBuckets : Nat} (hl : 0 < numLocks) (b x : Nat) :
    x ∈ bucketsOfLock numLocks numBuckets b ↔ b ≤ x ∧ x < numBuckets ∧ x % numLocks = b % numLocks := by
  induction hk : numBuckets - b using Nat.strongRecOn generalizing b with
  | ind k ih =>
    unfold bucketsOfLock
    by_cases h : b < numBuckets
    · simp only [h, hl, and_self, dite_true, List.mem_cons]
      rw [ih (numBuckets - (b + numLocks)) (by omega) (b + numLocks) rfl, Nat.add_mod_right]
      constructor
      · rintro (rfl | ⟨h1, h2, h3⟩)
        · exact ⟨Nat.le_refl _, h, rfl⟩
        · exact ⟨by omega, h2, h3⟩
      · rintro ⟨h1, h2, h3⟩
        rcases Nat.eq_or_lt_of_le h1 with e | hlt
        · exact Or.inl e.symm
        · right
          refine ⟨?_, h2, h3⟩
          by_contra hlt2
          have e1 := Nat.div_add_mod x numLocks
          have e2 := Nat.div_add_mod b numLocks
          have : x / numLocks = b / numLocks := by
            have hle : b / numLocks ≤ x / numLocks := Nat.div_le_div_right h1
            have hlt3 : x / numLocks < b / numLocks + 1 := by
              rw [← Nat.add_div_right _ hl]
              have : x < b + numLocks := by omega
              rw [Nat.lt_iff_le_and_ne]
              refine ⟨Nat.div_le_div_right (Nat.le_of_lt this), fun e => ?_⟩
              have := Nat.div_add_mod (b + numLocks) numLocks
              rw [Nat.add_mod_right, ← e, ← h3, e1] at this
              omega
            omega
          rw [h3, this] at e1
          omega
    · have : ¬ (b < numBuckets ∧ 0 < numLocks) := fun e => h e.1
      simp only [this, dite_false, List.not_mem_nil, false_iff]
      omega

/-- C08: the buckets visited under lock `i` are exactly those guarded by that lock, so that scanning
lock groups `0 … numLocks-1` covers every bucket, each in one group. -/
theorem lock_group (c : Cfg K) (i b : Nat) (hi : i < 2 ^ c.locksPower) :
    b ∈ bucketsOfLock (2 ^ c.locksPower) (2 ^ c.bucketsPower) i ↔
      b < 2 ^ c.bucketsPower ∧ c.lockOf b = i := by
  rw [mem_bucketsOfLock (Nat.two_pow_pos _)]
  unfold Cfg.lockOf
  rw [Nat.and_two_pow_sub_one_eq_mod, Nat.mod_eq_of_lt hi]
  constructor
  · rintro ⟨-, h2, h3⟩; exact ⟨h2, h3⟩
  · rintro ⟨h2, h3⟩
    refine ⟨?_, h2, h3⟩
    rw [← h3]; exact Nat.mod_le _ _

theorem lock_group_nodup (numLocks numBuckets b : Nat) : (bucketsOfLock numLocks numBuckets b).Nodup := by
  by_cases hl : 0 < numLocks
  · induction hk : numBuckets - b using Nat.strongRecOn generalizing b with
    | ind k ih =>
      unfold bucketsOfLock
      by_cases h : b < numBuckets
      · simp only [h, hl, and_self, dite_true, List.nodup_cons]
        refine ⟨?_, ih (numBuckets - (b + numLocks)) (by omega) _ rfl⟩
        rw [mem_bucketsOfLock hl]
        omega
      · have : ¬ (b < numBuckets ∧ 0 < numLocks) := fun e => h e.1
        simp [this]
  · unfold bucketsOfLock
    have : ¬ (b < numBuckets ∧ 0 < numLocks) := fun e => hl e.2
    simp [this]

/-- Outcome of the try-handle-maker (ChainedHashTable.h:538-542), or an exception / filtered out. -/
inductive Try where
  | success
  | moving
  | skip
deriving DecidableEq

/-- getLockGroupElems (1489-1547): all buckets of the group are read under the shared lock (`bucketItems b`
is the content of bucket `b` at that instant); items being moved are looked up again by key afterwards
(`findByKey`, which may find nothing). -/
def groupElems (key : P → K) (bucketItems : Nat → List P) (attempt : P → Try)
    (findByKey : K → Option P) (buckets : List Nat) : List P :=
  let all := buckets.flatMap bucketItems
  all.filter (fun p => attempt p = .success) ++
    (all.filter (fun p => attempt p = .moving)).filterMap fun p => findByKey (key p)

/-- C08: a lock group yields no key twice, also when items are looked up again. -/
theorem group_once {c : Cfg K} {m : K → Option P} (i : Nat) (hi : i < 2 ^ c.locksPower)
    (bucketItems : Nat → List P)
    (hread : ∀ b, b < 2 ^ c.bucketsPower → Spec c.key c.bucket (.scan b) m (.items (bucketItems b)) m)
    (attempt : P → Try) (findByKey : K → Option P) (hfind : ∀ k p, findByKey k = some p → c.key p = k) :
    ((groupElems c.key bucketItems attempt findByKey
      (bucketsOfLock (2 ^ c.locksPower) (2 ^ c.bucketsPower) i)).map c.key).Nodup := by
  have hspec : ∀ b, b < 2 ^ c.bucketsPower → (bucketItems b).Nodup ∧
      ∀ p, p ∈ bucketItems b ↔ m (c.key p) = some p ∧ c.bucket (c.key p) = b := by
    intro b hb
    have hs := hread b hb
    cases hs with
    | scan _ _ l h1 h2 => exact ⟨h1, h2⟩
  have hall : (((bucketsOfLock (2 ^ c.locksPower) (2 ^ c.bucketsPower) i).flatMap bucketItems).map
      c.key).Nodup := by
    rw [List.map_flatMap, List.nodup_flatMap]
    constructor
    · intro b hb
      obtain ⟨h1, h2⟩ := hspec b ((lock_group c i b hi).1 hb).1
      refine List.Nodup.map_on ?_ h1
      intro p hp q hq e
      have hp' := ((h2 p).1 hp).1
      have hq' := ((h2 q).1 hq).1
      rw [e, hq'] at hp'
      exact (Option.some.inj hp').symm
    · refine List.Pairwise.imp_of_mem ?_ (lock_group_nodup _ _ i)
      intro b b' hb hb' hne k hk hk'
      simp only [List.mem_map] at hk hk'
      obtain ⟨p, hp, rfl⟩ := hk
      obtain ⟨q, hq, e⟩ := hk'
      have hp' := ((hspec b ((lock_group c i b hi).1 hb).1).2 p).1 hp
      have hq' := ((hspec b' ((lock_group c i b' hi).1 hb').1).2 q).1 hq
      exact hne (by rw [← hp'.2, ← hq'.2, e])
  unfold groupElems
  generalize (bucketsOfLock (2 ^ c.locksPower) (2 ^ c.bucketsPower) i).flatMap bucketItems = all at hall
  have hinj : ∀ p ∈ all, ∀ q ∈ all, c.key p = c.key q → p = q := fun p hp q hq e =>
    List.inj_on_of_nodup_map hall hp hq e
  have hn : all.Nodup := List.Nodup.of_map _ hall
  rw [List.map_append, List.nodup_append]
  refine ⟨?_, ?_, ?_⟩
  · exact List.Nodup.map_on (fun p hp q hq e => hinj p (List.mem_of_mem_filter hp) q
      (List.mem_of_mem_filter hq) e) (hn.filter _)
  · have hsub : ∀ (l : List P), ((l.filterMap fun p => findByKey (c.key p)).map c.key).Sublist
        (l.map c.key) := by
      intro l
      induction l with
      | nil => simp
      | cons x l ih =>
        rw [List.filterMap_cons]
        cases hf : findByKey (c.key x) with
        | none => simp only [List.map_cons]; exact ih.cons _
        | some y =>
          simp only [List.map_cons]
          rw [hfind _ _ hf]; exact ih.cons_cons _
    refine (hsub _).nodup ?_
    exact List.Nodup.map_on (fun p hp q hq e => hinj p (List.mem_of_mem_filter hp) q
      (List.mem_of_mem_filter hq) e) (hn.filter _)
  · intro k hk k' hk' e
    subst e
    simp only [List.mem_map, List.mem_filterMap] at hk hk'
    obtain ⟨p, hp, rfl⟩ := hk
    obtain ⟨q, ⟨x, hx, hf⟩, e⟩ := hk'
    have := hfind _ _ hf
    have hpx := hinj p (List.mem_of_mem_filter hp) x (List.mem_of_mem_filter hx) (by rw [← e, this])
    subst hpx
    have h1 := (List.mem_filter.1 hp).2
    have h2 := (List.mem_filter.1 hx).2
    simp at h1 h2
    rw [h1] at h2; cases h2

/-! Non-vacuity: a table with two buckets whose content changes during the iteration. -/

example : Visits (fun i b => if b = 0 then [4, 8] else if i = 1 then [5] else []) 2
    (Iter.begin (fun i b => if b = 0 then [4, 8] else if i = 1 then [5] else []) 2) [4, 8, 5] := by
  rw [iteration _ (by decide)]; decide

/-- keys are the items themselves; item 4 is there all the time, item 6 is removed and item 5 appears
between the reads of the two buckets. -/
example : IterRun (K := Nat) (fun p => p) (fun k => k % 2) 2
    (fun j k => if k = 4 then some 4 else if k = 6 ∧ j = 0 then some 6 else
      if k = 5 ∧ 2 ≤ j then some 5 else none)
    (fun b => 2 * b) (fun b => if b = 0 then [4, 6] else [5]) := by
  refine ⟨?_, ?_, fun b b' h _ => by omega, ?_⟩
  · intro j
    match j with
    | 0 =>
      right
      refine ⟨.remove 6, .flag true, .removeYes 6 _ _ (by decide) (by decide) ?_⟩
      intro k hk
      simp [hk]
    | 1 =>
      right
      refine ⟨.insert 5, .flag true, .insertNew 5 _ _ (by decide) (by decide) ?_⟩
      intro k hk
      simp [hk]
    | j + 2 =>
      left
      funext k
      have h1 : ¬ (j + 2 + 1 = 0) := by omega
      have h2 : ¬ (j + 2 = 0) := by omega
      have h3 : 2 ≤ j + 2 + 1 := by omega
      have h4 : 2 ≤ j + 2 := by omega
      simp [h1, h3]
  · intro j k p h
    grind
  · intro b hb
    refine ⟨_, rfl, ?_⟩
    match b, hb with
    | 0, _ =>
      refine .scan 0 _ _ (by decide) ?_
      intro p
      simp
      constructor
      · rintro (rfl | rfl) <;> simp
      · rintro ⟨h, h2⟩
        grind
    | 1, _ =>
      refine .scan 1 _ _ (by decide) ?_
      intro p
      simp
      constructor
      · rintro rfl; simp
      · rintro ⟨h, h2⟩
        grind

end Verif.HashTable
