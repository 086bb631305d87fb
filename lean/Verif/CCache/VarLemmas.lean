import Mathlib.Data.List.Nodup
import Verif.CCache.VarModel

/-! Layout predicate of a variable-size bucket and how the byte moves act on it. -/
namespace Verif.CCache

variable {K : Type}

/-- One `EntryData` object as seen in the data section: position of its header, the `headerIndex`
byte stored in it, and the entry it belongs to. -/
structure Seg (K : Type) where
  hi : Nat
  si : Nat
  k : K
  v : List Nat

/-- The data section from `s` to `e` consists of exactly the objects `segs`, in that order. -/
def Chain (hdr : Nat → Hdr K) (mem : Nat → Nat) : Nat → List (Seg K) → Nat → Prop
  | s, [], e => s = e
  | s, g :: gs, e =>
    hdr g.hi = ⟨g.k, g.v.length, s⟩ ∧ mem s = g.si ∧
      (∀ j, j < g.v.length → g.v[j]? = some (mem (s + 1 + j))) ∧
      Chain hdr mem (s + 1 + g.v.length) gs e

theorem Chain.le {hdr : Nat → Hdr K} {mem} {segs : List (Seg K)} {s e}
    (h : Chain hdr mem s segs e) : s ≤ e := by
  induction segs generalizing s with
  | nil => exact Nat.le_of_eq h
  | cons g gs ih => have := ih h.2.2.2; omega

theorem Chain.append {hdr : Nat → Hdr K} {mem} {l1 l2 : List (Seg K)} {s e} :
    Chain hdr mem s (l1 ++ l2) e ↔ ∃ m, Chain hdr mem s l1 m ∧ Chain hdr mem m l2 e := by
  induction l1 generalizing s with
  | nil => simp [Chain]
  | cons g gs ih =>
    simp only [List.cons_append, Chain, ih]
    constructor
    · rintro ⟨h1, h2, h3, m, h4, h5⟩; exact ⟨m, ⟨h1, h2, h3, h4⟩, h5⟩
    · rintro ⟨m, ⟨h1, h2, h3, h4⟩, h5⟩; exact ⟨h1, h2, h3, m, h4, h5⟩

/-- Bytes taken by a run of data objects. -/
def segLen (segs : List (Seg K)) : Nat := (segs.map fun g => 1 + g.v.length).sum

theorem Chain.len {hdr : Nat → Hdr K} {mem} {segs : List (Seg K)} {s e}
    (h : Chain hdr mem s segs e) : e = s + segLen segs := by
  induction segs generalizing s with
  | nil => simp only [Chain] at h; simp [segLen, h]
  | cons g gs ih =>
    have := ih h.2.2.2
    simp only [segLen, List.map_cons, List.sum_cons] at *; omega

/-- Only the bytes in the window and the headers of the run matter. -/
theorem Chain.frame {hdr hdr' : Nat → Hdr K} {mem mem'} {segs : List (Seg K)} {s e}
    (h : Chain hdr mem s segs e) (hh : ∀ g ∈ segs, hdr' g.hi = hdr g.hi)
    (hm : ∀ a, s ≤ a → a < e → mem' a = mem a) : Chain hdr' mem' s segs e := by
  induction segs generalizing s with
  | nil => exact h
  | cons g gs ih =>
    obtain ⟨h1, h2, h3, h4⟩ := h
    have hle := h4.le
    refine ⟨?_, ?_, ?_, ?_⟩
    · rw [hh g (by simp), h1]
    · rw [hm s (by omega) (by omega), h2]
    · intro j hj; rw [hm _ (by omega) (by omega)]; exact h3 j hj
    · exact ih h4 (fun g' hg' => hh g' (by simp [hg'])) (fun a h1 h2 => hm a (by omega) h2)

theorem Chain.off_mem {hdr : Nat → Hdr K} {mem} {segs : List (Seg K)} {s e}
    (h : Chain hdr mem s segs e) {g} (hg : g ∈ segs) :
    s ≤ (hdr g.hi).off ∧ (hdr g.hi).off + 1 + g.v.length ≤ e ∧ (hdr g.hi).size = g.v.length ∧
      (hdr g.hi).key = g.k ∧ mem (hdr g.hi).off = g.si := by
  induction segs generalizing s with
  | nil => simp at hg
  | cons g' gs ih =>
    obtain ⟨h1, h2, h3, h4⟩ := h
    rcases List.mem_cons.1 hg with rfl | hg
    · have := h4.le; simp [h1, h2]; omega
    · have h5 := ih h4 hg; exact ⟨by omega, h5.2⟩

/-- The bytes read for an entry of the run. -/
theorem Chain.val {hdr : Nat → Hdr K} {mem} {segs : List (Seg K)} {s e}
    (h : Chain hdr mem s segs e) {g} (hg : g ∈ segs) :
    ((List.range (hdr g.hi).size).map fun j => mem ((hdr g.hi).off + ds + j)) = g.v := by
  induction segs generalizing s with
  | nil => simp at hg
  | cons g' gs ih =>
    obtain ⟨h1, h2, h3, h4⟩ := h
    rcases List.mem_cons.1 hg with rfl | hg
    · rw [h1]
      apply List.ext_getElem?
      intro j
      by_cases hj : j < g.v.length
      · rw [h3 j hj]; simp [hj, ds]
      · simp [hj]
    · exact ih h4 hg

/-- Renaming headers. -/
theorem Chain.rehead {hdr hdr' : Nat → Hdr K} {mem} {segs : List (Seg K)} {s e} (f : Nat → Nat)
    (h : Chain hdr mem s segs e) (hh : ∀ g ∈ segs, hdr' (f g.hi) = hdr g.hi) :
    Chain hdr' mem s (segs.map fun g => { g with hi := f g.hi }) e := by
  induction segs generalizing s with
  | nil => exact h
  | cons g gs ih =>
    obtain ⟨h1, h2, h3, h4⟩ := h
    refine ⟨?_, h2, h3, ih h4 (fun g' hg' => hh g' (by simp [hg']))⟩
    dsimp only; rw [hh g (by simp), h1]

/-- Rewriting one stored header index. -/
theorem Chain.setIdx {hdr : Nat → Hdr K} {mem} {segs : List (Seg K)} {s e} {i : Nat} {x : Nat}
    (h : Chain hdr mem s segs e) (hi : ∃ g ∈ segs, g.hi = i) :
    Chain hdr (put mem (hdr i).off x) s
      (segs.map fun g => if g.hi = i then { g with si := x } else g) e := by
  induction segs generalizing s with
  | nil => exact h
  | cons g gs ih =>
    obtain ⟨h1, h2, h3, h4⟩ := h
    have hle := h4.le
    by_cases hgi : g.hi = i
    · -- the byte is the first of this object
      subst hgi
      have hoff : (hdr g.hi).off = s := by rw [h1]
      have hno : ∀ g' ∈ gs, g'.hi ≠ g.hi := by
        intro g' hg' he
        have := (h4.off_mem hg').1
        rw [he, hoff] at this; omega
      have hmap : (gs.map fun g' => if g'.hi = g.hi then { g' with si := x } else g') = gs := by
        conv => rhs; rw [← List.map_id gs]
        apply List.map_congr_left
        intro g' hg'; simp [hno g' hg']
      simp only [List.map_cons, if_true]
      rw [hmap, hoff]
      refine ⟨h1, by simp [put], ?_, ?_⟩
      · intro j hj
        have : s + 1 + j ≠ s := by omega
        simp only [put, this, if_false]; exact h3 j hj
      · apply h4.frame (fun _ _ => rfl)
        intro a h1 h2
        simp only [put]; rw [if_neg (by omega)]
    · have hi' : ∃ g ∈ gs, g.hi = i := by
        obtain ⟨g', hg', he⟩ := hi
        rcases List.mem_cons.1 hg' with rfl | hg'
        · exact absurd he hgi
        · exact ⟨g', hg', he⟩
      obtain ⟨g', hg', he⟩ := hi'
      have ho := (h4.off_mem hg').1
      rw [he] at ho
      simp only [List.map_cons, hgi, if_false]
      refine ⟨h1, ?_, ?_, ih h4 ⟨g', hg', he⟩⟩
      · simp only [put]; rw [if_neg (by omega)]; exact h2
      · intro j hj
        simp only [put]; rw [if_neg (by omega)]; exact h3 j hj

/-- What the header-index loops do to the run. -/
theorem Chain.reindex {hdr : Nat → Hdr K} {segs : List (Seg K)} {s e} (f : Nat → Nat → Nat)
    {is : List Nat} {mem} (h : Chain hdr mem s segs e) (hn : is.Nodup)
    (hi : ∀ i ∈ is, ∃ g ∈ segs, g.hi = i) :
    Chain hdr (reindex hdr f is mem) s
      (segs.map fun g => if g.hi ∈ is then { g with si := f g.hi g.si } else g) e := by
  induction is generalizing mem segs with
  | nil => simpa [CCache.reindex] using h
  | cons i is ih =>
    rw [List.nodup_cons] at hn
    obtain ⟨hni, hn⟩ := hn
    have h1 := h.setIdx (x := f i (mem (hdr i).off)) (hi i (by simp))
    have h2 := ih h1 hn (by
      intro j hj
      obtain ⟨g, hg, he⟩ := hi j (by simp [hj])
      refine ⟨if g.hi = i then { g with si := f i (mem (hdr i).off) } else g, ?_, ?_⟩
      · exact List.mem_map.2 ⟨g, hg, rfl⟩
      · split <;> exact he)
    simp only [CCache.reindex]
    convert h2 using 1
    rw [List.map_map]
    apply List.map_congr_left
    intro g hg
    have hsi := (h.off_mem hg).2.2.2.2
    simp only [Function.comp]
    by_cases hgi : g.hi = i
    · subst hgi
      simp [hni, hsi]
    · simp [hgi]

/-- Bytes outside the run are not touched by the header-index loops. -/
theorem reindex_other {hdr : Nat → Hdr K} (f : Nat → Nat → Nat) (is : List Nat) (mem : Nat → Nat)
    (a : Nat) (h : ∀ i ∈ is, (hdr i).off ≠ a) : reindex hdr f is mem a = mem a := by
  induction is generalizing mem with
  | nil => rfl
  | cons i is ih =>
    simp only [CCache.reindex]
    rw [ih _ (fun j hj => h j (by simp [hj]))]
    have := h i (by simp)
    simp only [put]; rw [if_neg (fun e => this e.symm)]

/-- The loop of `shiftEntriesData` adjusts exactly the headers of the run. -/
theorem shiftHdrs_spec {mem : Nat → Nat} {dist stop : Nat} :
    ∀ (segs : List (Seg K)) (fuel cur : Nat) (hdr : Nat → Hdr K),
      Chain hdr mem cur segs stop → (segs.map (·.hi)).Nodup → (∀ g ∈ segs, g.si = g.hi) →
      stop ≤ cur + fuel →
      (∀ i, i ∈ segs.map (·.hi) → shiftHdrs mem dist stop fuel cur hdr i =
        { hdr i with off := ((hdr i).off + dist) % 65536 }) ∧
      (∀ i, i ∉ segs.map (·.hi) → shiftHdrs mem dist stop fuel cur hdr i = hdr i) := by
  intro segs
  induction segs with
  | nil =>
    intro fuel cur hdr h _ _ _
    simp only [Chain] at h
    subst h
    constructor
    · simp
    · intro i _
      cases fuel <;> simp [shiftHdrs]
  | cons g gs ih =>
    intro fuel cur hdr h hn hs hf
    obtain ⟨h1, h2, h3, h4⟩ := h
    have hle := h4.le
    rw [List.map_cons, List.nodup_cons] at hn
    cases fuel with
    | zero => omega
    | succ fuel =>
      have hm : mem cur = g.hi := by rw [h2]; exact hs g (by simp)
      simp only [shiftHdrs]
      rw [if_pos (by omega), hm]
      simp only [put, if_true]
      have hh4 := h4.frame (hdr' := put hdr g.hi { hdr g.hi with off := ((hdr g.hi).off + dist) % 65536 })
        (mem' := mem) (by
          intro g' hg'
          have : g'.hi ≠ g.hi := fun e => hn.1 (by rw [← e]; exact List.mem_map.2 ⟨g', hg', rfl⟩)
          simp [put, this]) (fun _ _ _ => rfl)
      have hsz : cur + ds + (hdr g.hi).size = cur + 1 + g.v.length := by rw [h1]; rfl
      rw [hsz]
      have := ih fuel _ _ hh4 hn.2 (fun g' hg' => hs g' (by simp [hg'])) (by omega)
      refine ⟨?_, ?_⟩
      · intro i hi
        by_cases hig : i = g.hi
        · subst hig
          have := this.2 g.hi hn.1
          simp only [put] at this
          rw [this]; simp
        · have hi' : i ∈ gs.map (·.hi) := by simpa [hig] using hi
          have := this.1 i hi'
          simp only [put, hig, if_false] at this
          exact this
      · intro i hi
        rw [List.map_cons, List.mem_cons, not_or] at hi
        have := this.2 i hi.2
        simp only [put, hi.1, if_false] at this
        exact this

/-- Shifting a run to the right. -/
theorem Chain.shift {hdr hdr' : Nat → Hdr K} {mem mem'} {segs : List (Seg K)} {s e d}
    (h : Chain hdr mem s segs e)
    (hh : ∀ g ∈ segs, hdr' g.hi = { hdr g.hi with off := (hdr g.hi).off + d })
    (hm : ∀ a, s ≤ a → a < e → mem' (a + d) = mem a) : Chain hdr' mem' (s + d) segs (e + d) := by
  induction segs generalizing s with
  | nil => simp only [Chain] at *; omega
  | cons g gs ih =>
    obtain ⟨h1, h2, h3, h4⟩ := h
    have hle := h4.le
    refine ⟨?_, ?_, ?_, ?_⟩
    · rw [hh g (by simp), h1]
    · rw [hm s (by omega) (by omega), h2]
    · intro j hj
      have : s + d + 1 + j = s + 1 + j + d := by omega
      rw [this, hm _ (by omega) (by omega)]; exact h3 j hj
    · have : s + d + 1 + g.v.length = s + 1 + g.v.length + d := by omega
      rw [this]
      exact ih h4 (fun g' hg' => hh g' (by simp [hg'])) (fun a h1 h2 => hm a (by omega) h2)

/-- `shiftEntriesData` on a run: the run moves by `d`, everything else keeps its header, and the bytes
left of the run and right of the moved run are unchanged. -/
theorem shiftEntries_spec {b : VB K} {segs : List (Seg K)} {s e d : Nat}
    (h : Chain b.hdr b.mem s segs e) (hn : (segs.map (·.hi)).Nodup) (hs : ∀ g ∈ segs, g.si = g.hi)
    (hb : e + d < 65536) :
    Chain (shiftEntries b s d (e - s)).hdr (shiftEntries b s d (e - s)).mem (s + d) segs (e + d) ∧
    (∀ i, i ∉ segs.map (·.hi) → (shiftEntries b s d (e - s)).hdr i = b.hdr i) ∧
    (∀ i, i ∈ segs.map (·.hi) → (shiftEntries b s d (e - s)).hdr i =
      { b.hdr i with off := (b.hdr i).off + d }) ∧
    (∀ a, a < s + d ∨ e + d ≤ a → (shiftEntries b s d (e - s)).mem a = b.mem a) := by
  have hle := h.le
  have hse : s + (e - s) = e := by omega
  have hsp := shiftHdrs_spec (dist := d) segs (e - s) s b.hdr h hn hs (by omega)
  have hin : ∀ i, i ∈ segs.map (·.hi) → (shiftEntries b s d (e - s)).hdr i =
      { b.hdr i with off := (b.hdr i).off + d } := by
    intro i hi
    simp only [shiftEntries, hse]
    rw [hsp.1 i hi]
    obtain ⟨g, hg, rfl⟩ := List.mem_map.1 hi
    have := h.off_mem hg
    rw [Nat.mod_eq_of_lt (by omega)]
  refine ⟨?_, ?_, hin, ?_⟩
  · apply h.shift
    · intro g hg
      exact hin _ (List.mem_map.2 ⟨g, hg, rfl⟩)
    · intro a h1 h2
      simp only [shiftEntries, memmove]
      rw [if_pos (by omega)]
      congr 1; omega
  · intro i hi
    simp only [shiftEntries, hse]
    exact hsp.2 i hi
  · intro a ha
    simp only [shiftEntries, memmove]
    rw [if_neg (by omega)]

end Verif.CCache
