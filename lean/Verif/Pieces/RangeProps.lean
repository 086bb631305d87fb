import Mathlib.Tactic.Ring
import Mathlib.Tactic.Linarith
import Mathlib.Algebra.Order.Ring.Nat
import Verif.Pieces.Model

/-! # C41: the pieces of a request cover exactly what was requested -/

namespace Verif.Pieces

/-! ## Specification -/

/-- Byte `b` of an object of `full` bytes is asked for by the range `[first, last?]` (to the end if `last?` is absent). -/
def Requested (full : Nat) (first : Nat) (last? : Option Nat) (b : Nat) : Prop :=
  first ≤ b ∧ b < full ∧ ∀ l, last? = some l → b ≤ l

/-- Byte `b` of an object of `full` bytes is in piece `i` (pieces have `ps` bytes, the last one may be shorter). -/
def InPiece (ps full i b : Nat) : Prop := i * ps ≤ b ∧ b < (i + 1) * ps ∧ b < full

/-- The pieces that are fetched for a request: `getStartPieceIndex()` to `getEndPieceIndex()`. -/
def Fetched (p : Pieces) (i : Nat) : Prop := p.startPieceIndex ≤ i ∧ i ≤ p.endPieceIndex

/-- The fetch index has been advanced `k` times. -/
def advance (p : Pieces) : Nat → Pieces
  | 0 => p
  | k + 1 => updateFetchIndex (advance p k)

/-! ## Proofs -/

theorem u64_eq {x : Nat} (h : x < 18446744073709551616) : u64 x = x := Nat.mod_eq_of_lt h

theorem sub64_eq {a b : Nat} (h : b ≤ a) (ha : a < 18446744073709551616) : sub64 a b = a - b := by
  unfold sub64
  rw [show 18446744073709551616 + a - b = (a - b) + 18446744073709551616 by omega, Nat.add_mod_right]
  exact Nat.mod_eq_of_lt (by omega)

theorem inPiece_iff {ps full i b : Nat} (h : 0 < ps) : InPiece ps full i b ↔ i = b / ps ∧ b < full := by
  unfold InPiece
  constructor
  · rintro ⟨h1, h2, h3⟩
    refine ⟨?_, h3⟩
    symm
    rw [Nat.div_eq_iff h]
    constructor
    · exact h1
    · have : (i + 1) * ps = i * ps + ps := by ring
      omega
  · rintro ⟨h1, h3⟩
    subst h1
    refine ⟨Nat.div_mul_le_self _ _, ?_, h3⟩
    have := Nat.lt_div_mul_add (a := b) h
    have e : (b / ps + 1) * ps = b / ps * ps + ps := by ring
    omega

/-- What the constructor gives: sizes, and the pieces of the first and last requested byte. -/
structure Good (p : Pieces) (full ps : Nat) (lo hi : Nat) : Prop where
  hps : 0 < ps
  ps_eq : p.pieceSize = ps
  full_eq : p.fullBodyLen = full
  hlo : lo ≤ hi
  hhi : hi < full
  hfull : full + ps ≤ 18446744073709551616
  s_eq : p.startPieceIndex = lo / ps
  e_eq : p.endPieceIndex = hi / ps
  cur_eq : p.curFetchingPieceIndex = lo / ps

/-- The last byte asked for, in an object of `full` bytes. -/
def lastOf (full : Nat) (last? : Option Nat) : Nat :=
  match last? with
  | none => full - 1
  | some l => if l < full then l else full - 1

theorem requested_iff {full first b : Nat} {last? : Option Nat} (h : 0 < full) :
    Requested full first last? b ↔ first ≤ b ∧ b ≤ lastOf full last? := by
  unfold Requested lastOf
  cases last? with
  | none => simp; intro _; omega
  | some l =>
    simp only [Option.some.injEq, forall_eq']
    split <;> omega

theorem div_le_full {full ps b : Nat} (h : b < full) : b / ps ≤ b := Nat.div_le_self _ _

theorem new_good {full ps ppg first : Nat} {last? : Option Nat} (hps : 0 < ps)
    (hfull : full + ps ≤ 18446744073709551616) (hfirst : first < full) (hle : ∀ l, last? = some l → first ≤ l) :
    ∃ p, new ps ppg full (some (RequestRange.mk (some first) last?)) = some p ∧ Good p full ps first (lastOf full last?) ∧
      p.numPiecesPerGroup = ppg ∧ p.numPiecesTotal = (full - 1) / ps + 1 := by
  have hn : calculateNumPiecesTotal full ps = (full - 1) / ps + 1 := by
    unfold calculateNumPiecesTotal
    rw [sub64_eq (by omega) (by omega)]
    apply u64_eq
    have := Nat.div_le_self (full - 1) ps
    omega
  have hd := Nat.div_le_self (full - 1) ps
  have hs1 : sub64 ((full - 1) / ps + 1) 1 = (full - 1) / ps := by
    generalize (full - 1) / ps = d at hd ⊢
    rw [sub64_eq (by omega) (by omega)]; omega
  have hlast : first ≤ lastOf full last? ∧ lastOf full last? < full := by
    unfold lastOf
    cases last? with
    | none => simp only; omega
    | some l =>
      have := hle l rfl
      simp only
      split <;> omega
  have hmk : RequestRange.mk (some first) last? = some (first, last?) := by
    unfold RequestRange.mk
    cases last? with
    | none => rfl
    | some l =>
      have := hle l rfl
      simp only
      rw [if_neg (by omega)]
  unfold new
  rw [if_pos ⟨by omega, hps⟩, hmk]
  simp only [hn, hs1]
  unfold resetFromRequestRange
  cases hl : last? with
  | none =>
    subst hl
    simp only
    rw [if_pos (by exact Nat.div_le_div_right (by omega))]
    exact ⟨_, rfl, ⟨hps, rfl, rfl, hlast.1, hlast.2, hfull, rfl, rfl, rfl⟩, rfl, rfl⟩
  | some l =>
    subst hl
    simp only
    by_cases h : l < full
    · rw [if_pos h]
      simp only
      rw [if_pos (by exact Nat.div_le_div_right (hle l rfl))]
      refine ⟨_, rfl, ⟨hps, rfl, rfl, hlast.1, hlast.2, hfull, rfl, ?_, rfl⟩, rfl, rfl⟩
      simp only [lastOf, if_pos h]
    · rw [if_neg h]
      simp only
      rw [if_pos (by exact Nat.div_le_div_right (by omega))]
      refine ⟨_, rfl, ⟨hps, rfl, rfl, hlast.1, hlast.2, hfull, rfl, ?_, rfl⟩, rfl, rfl⟩
      simp only [lastOf, if_neg h]

variable {p : Pieces} {full ps lo hi : Nat}

theorem last_eq (g : Good p full ps lo hi) :
    getLastByteOffsetOfLastPiece p = min ((hi / ps + 1) * ps - 1) (full - 1) := by
  have h1 := Nat.div_mul_le_self hi ps
  have h2 := Nat.div_le_self hi ps
  have e : (hi / ps + 1) * ps = hi / ps * ps + ps := by ring
  have := g.hhi
  have := g.hfull
  have := g.hps
  unfold getLastByteOffsetOfLastPiece
  rw [g.e_eq, g.ps_eq, g.full_eq, u64_eq (x := hi / ps + 1) (by omega), sub64_eq (a := full) (by omega) (by omega)]
  rcases Nat.lt_or_ge ((hi / ps + 1) * ps) 18446744073709551616 with h | h
  · rw [u64_eq h, sub64_eq (by omega) h]
  · omega

/-- The last byte of the last fetched piece, in that piece. -/
theorem last_facts (g : Good p full ps lo hi) :
    getLastByteOffsetOfLastPiece p / ps = hi / ps ∧ hi ≤ getLastByteOffsetOfLastPiece p ∧
      getLastByteOffsetOfLastPiece p < full ∧
      (∀ b, InPiece ps full (hi / ps) b → b ≤ getLastByteOffsetOfLastPiece p) := by
  have h1 := Nat.div_mul_le_self hi ps
  have h2 := Nat.lt_div_mul_add (a := hi) g.hps
  have e : (hi / ps + 1) * ps = hi / ps * ps + ps := by ring
  have := g.hhi
  have := g.hps
  rw [last_eq g]
  have hle : hi ≤ min ((hi / ps + 1) * ps - 1) (full - 1) := by omega
  refine ⟨?_, hle, by omega, ?_⟩
  · rw [Nat.div_eq_iff g.hps]
    omega
  · rintro b ⟨b1, b2, b3⟩
    omega

theorem size_eq (g : Good p full ps lo hi) (i : Nat) (hi' : i ≤ p.endPieceIndex) :
    ∀ b, InPiece ps full i b ↔ i * ps ≤ b ∧ b < i * ps + getSizeOfAPiece p i := by
  intro b
  obtain ⟨l1, l2, l3, l4⟩ := last_facts g
  have hps := g.hps
  have hhi := g.hhi
  have h1 := Nat.div_mul_le_self hi ps
  have hm := Nat.div_add_mod (getLastByteOffsetOfLastPiece p) ps
  have hml := Nat.mod_lt (getLastByteOffsetOfLastPiece p) hps
  rw [l1] at hm
  have hf := g.hfull
  unfold getSizeOfAPiece
  rw [g.e_eq, g.ps_eq, u64_eq (by omega)]
  rw [g.e_eq] at hi'
  have e1 : (i + 1) * ps = i * ps + ps := by ring
  by_cases h : i < hi / ps
  · rw [if_pos h]
    have : (i + 1) * ps ≤ hi / ps * ps := Nat.mul_le_mul_right _ h
    unfold InPiece
    constructor
    · rintro ⟨a, b', _⟩; exact ⟨a, by omega⟩
    · rintro ⟨a, b'⟩; exact ⟨a, by omega, by omega⟩
  · rw [if_neg h]
    have hie : i = hi / ps := by omega
    subst hie
    have hc : ps * (hi / ps) = hi / ps * ps := Nat.mul_comm _ _
    constructor
    · intro hb
      have := l4 b hb
      exact ⟨hb.1, by omega⟩
    · rintro ⟨a, b'⟩
      exact ⟨a, by omega, by omega⟩

theorem cover (g : Good p full ps lo hi) (b : Nat) :
    (∃ i, Fetched p i ∧ InPiece ps full i b) ↔
      getFirstByteOffsetToFetch p ≤ b ∧ b ≤ getLastByteOffsetOfLastPiece p := by
  obtain ⟨l1, l2, l3, l4⟩ := last_facts g
  have hps := g.hps
  have hhi := g.hhi
  have hlo := g.hlo
  have hf := g.hfull
  have h1 := Nat.div_mul_le_self lo ps
  have hfirst : getFirstByteOffsetToFetch p = lo / ps * ps := by
    unfold getFirstByteOffsetToFetch
    rw [g.s_eq, g.ps_eq]
    exact u64_eq (by omega)
  rw [hfirst]
  unfold Fetched
  rw [g.s_eq, g.e_eq]
  constructor
  · rintro ⟨i, ⟨i1, i2⟩, hb⟩
    have hb' := (inPiece_iff hps).mp hb
    refine ⟨?_, ?_⟩
    · have := Nat.mul_le_mul_right ps i1
      have := hb.1
      omega
    · rcases Nat.lt_or_ge i (hi / ps) with h | h
      · have h3 : (i + 1) * ps ≤ hi / ps * ps := Nat.mul_le_mul_right _ h
        have := Nat.div_mul_le_self hi ps
        have := hb.2.1
        omega
      · have : i = hi / ps := by omega
        subst this
        exact l4 b hb
  · rintro ⟨b1, b2⟩
    refine ⟨b / ps, ⟨?_, ?_⟩, (inPiece_iff hps).mpr ⟨rfl, by omega⟩⟩
    · have := Nat.div_le_div_right (c := ps) b1
      rw [Nat.mul_div_cancel _ hps] at this
      exact this
    · rw [← l1]
      exact Nat.div_le_div_right b2

theorem first_eq (g : Good p full ps lo hi) : getFirstByteOffsetToFetch p = lo / ps * ps := by
  have h1 := Nat.div_mul_le_self lo ps
  have := g.hlo
  have := g.hhi
  have := g.hfull
  unfold getFirstByteOffsetToFetch
  rw [g.s_eq, g.ps_eq]
  exact u64_eq (by omega)

theorem total_eq (g : Good p full ps lo hi) :
    getTotalSize p = getLastByteOffsetOfLastPiece p + 1 - getFirstByteOffsetToFetch p := by
  obtain ⟨l1, l2, l3, l4⟩ := last_facts g
  have h1 := Nat.div_mul_le_self lo ps
  have := g.hlo
  have := g.hhi
  have := g.hfull
  have := g.hps
  have hf := first_eq g
  unfold getTotalSize
  have hf' : u64 (p.startPieceIndex * p.pieceSize) = lo / ps * ps := by
    rw [← hf]; rfl
  rw [hf', hf]
  generalize lo / ps * ps = d at *
  rw [sub64_eq (by omega) (by omega), u64_eq (by omega)]
  omega

theorem advance_eq (p : Pieces) (k : Nat) (h : p.curFetchingPieceIndex + k < 18446744073709551616) :
    advance p k = { p with curFetchingPieceIndex := p.curFetchingPieceIndex + k } := by
  induction k with
  | zero => rfl
  | succ k ih =>
    rw [advance, ih (by omega)]
    unfold updateFetchIndex
    simp only
    rw [u64_eq (by omega)]
    rfl

theorem target_eq (g : Good p full ps lo hi) : getTargetNumPieces p = hi / ps - lo / ps + 1 := by
  have := Nat.div_le_div_right (c := ps) g.hlo
  have := Nat.div_le_self hi ps
  have := g.hhi
  have := g.hfull
  have := g.hps
  unfold getTargetNumPieces
  rw [g.s_eq, g.e_eq]
  generalize hi / ps = d at *
  generalize lo / ps = d' at *
  rw [sub64_eq (by omega) (by omega), u64_eq (by omega)]

/-- What is left when piece `i` is next is the sum of the sizes of the pieces from `i` on. -/
theorem sum_sizes (g : Good p full ps lo hi) : ∀ (n i : Nat), i + n = hi / ps + 1 → 0 < n →
    ((List.range n).map (fun j => getSizeOfAPiece p (i + j))).sum = getLastByteOffsetOfLastPiece p + 1 - i * ps := by
  obtain ⟨l1, l2, l3, l4⟩ := last_facts g
  have hps := g.hps
  have hhi := g.hhi
  have hf := g.hfull
  have hm := Nat.div_add_mod (getLastByteOffsetOfLastPiece p) ps
  have hml := Nat.mod_lt (getLastByteOffsetOfLastPiece p) hps
  rw [l1] at hm
  intro n
  induction n with
  | zero => intro i _ h; omega
  | succ n ih =>
    intro i hi' _
    rw [List.range_succ_eq_map, List.map_cons, List.sum_cons, List.map_map]
    have hfun : ((fun j => getSizeOfAPiece p (i + j)) ∘ Nat.succ) = fun j => getSizeOfAPiece p (i + 1 + j) := by
      funext j
      simp only [Function.comp]
      congr 1
      omega
    rw [hfun, Nat.add_zero]
    have hc : ps * (hi / ps) = hi / ps * ps := Nat.mul_comm _ _
    by_cases hn : n = 0
    · subst hn
      simp only [List.range_zero, List.map_nil, List.sum_nil, Nat.add_zero]
      have : i = hi / ps := by omega
      subst this
      unfold getSizeOfAPiece
      rw [g.e_eq, g.ps_eq, if_neg (by omega), u64_eq (by omega)]
      omega
    · rw [ih (i + 1) (by omega) (by omega)]
      have e1 : (i + 1) * ps = i * ps + ps := by ring
      have h3 : (i + 1) * ps ≤ hi / ps * ps := Nat.mul_le_mul_right _ (by omega)
      have h4 := Nat.div_mul_le_self hi ps
      unfold getSizeOfAPiece
      rw [g.e_eq, g.ps_eq, if_pos (by omega)]
      omega

/-- **C41.** For a range request that starts inside the object (the last byte may be absent or beyond the end), the
constructor succeeds and
* every requested byte is in exactly one of the pieces that are fetched, and none of these is superfluous;
* `getSizeOfAPiece` is exactly the number of bytes of that piece, so consecutive pieces neither overlap nor leave a gap;
* `getFirstByteOffsetToFetch`, `getLastByteOffsetOfLastPiece` and `getTotalSize` describe exactly the bytes of these
  pieces;
* `getTargetNumPieces` is their number. -/
theorem range_covered {full ps ppg first : Nat} {last? : Option Nat} (hps : 0 < ps)
    (hfull : full + ps ≤ 2 ^ 64) (hfirst : first < full) (hle : ∀ l, last? = some l → first ≤ l) :
    ∃ p, new ps ppg full (some (RequestRange.mk (some first) last?)) = some p ∧
      (∀ b, Requested full first last? b → ∃ i, (Fetched p i ∧ InPiece ps full i b) ∧
        ∀ j, InPiece ps full j b → j = i) ∧
      (∀ i, Fetched p i → ∃ b, Requested full first last? b ∧ InPiece ps full i b) ∧
      (∀ i, Fetched p i → ∀ b, InPiece ps full i b ↔ i * ps ≤ b ∧ b < i * ps + getSizeOfAPiece p i) ∧
      (∀ b, (∃ i, Fetched p i ∧ InPiece ps full i b) ↔
        getFirstByteOffsetToFetch p ≤ b ∧ b ≤ getLastByteOffsetOfLastPiece p) ∧
      getTotalSize p = getLastByteOffsetOfLastPiece p + 1 - getFirstByteOffsetToFetch p ∧
      (∀ i, Fetched p i ↔ p.startPieceIndex ≤ i ∧ i < p.startPieceIndex + getTargetNumPieces p) ∧
      (∀ i, isPieceWithinBound p i = true ↔ i ≤ p.endPieceIndex) ∧ p.numPiecesTotal = (full - 1) / ps + 1 := by
  obtain ⟨p, hp, g, -, hn⟩ := new_good (ppg := ppg) hps hfull hfirst hle
  have h0 : 0 < full := by omega
  refine ⟨p, hp, ?_, ?_, fun i hi => size_eq g i hi.2, cover g, total_eq g, ?_, ?_, hn⟩
  · intro b hb
    rw [requested_iff h0] at hb
    refine ⟨b / ps, ⟨⟨?_, ?_⟩, (inPiece_iff hps).mpr ⟨rfl, ?_⟩⟩, fun j hj => ((inPiece_iff hps).mp hj).1⟩
    · rw [g.s_eq]; exact Nat.div_le_div_right hb.1
    · rw [g.e_eq]; exact Nat.div_le_div_right hb.2
    · have := g.hhi; omega
  · rintro i ⟨i1, i2⟩
    rw [g.s_eq] at i1
    rw [g.e_eq] at i2
    have h1 := Nat.div_mul_le_self (lastOf full last?) ps
    have h2 := Nat.mul_le_mul_right ps i2
    have hlt := Nat.lt_div_mul_add (a := first) hps
    have e1 : (i + 1) * ps = i * ps + ps := by ring
    have h3 := Nat.mul_le_mul_right ps i1
    have hhi := g.hhi
    have hlo := g.hlo
    refine ⟨max first (i * ps), ?_, ⟨Nat.le_max_right _ _, ?_, ?_⟩⟩
    · rw [requested_iff h0]; omega
    · omega
    · omega
  · intro i
    have := Nat.div_le_div_right (c := ps) g.hlo
    rw [target_eq g]
    unfold Fetched
    rw [g.s_eq, g.e_eq]
    omega
  · intro i
    unfold isPieceWithinBound
    simp

/-- **C41, fetching.** After `k` pieces of a request have been fetched (each followed by `updateFetchIndex`), the piece
fetched next is the `k`-th, `getNumFetchedPieces` is `k`, `getRemainingBytes` is the sum of the sizes of the pieces that
remain (0 when all have been fetched), and `morePiecesToFetch` says whether another one follows the current one. -/
theorem fetching {full ps ppg first : Nat} {last? : Option Nat} (hps : 0 < ps) (hfull : full + ps ≤ 2 ^ 64)
    (hfirst : first < full) (hle : ∀ l, last? = some l → first ≤ l) {p : Pieces}
    (hp : new ps ppg full (some (RequestRange.mk (some first) last?)) = some p) (k : Nat) (hk : k ≤ getTargetNumPieces p) :
    let q := advance p k
    q.curFetchingPieceIndex = p.startPieceIndex + k ∧ getNumFetchedPieces q = k ∧
      (k < getTargetNumPieces p → getFirstByteOffsetOfCurPiece q = (p.startPieceIndex + k) * ps) ∧
      getRemainingBytes q =
        ((List.range (getTargetNumPieces p - k)).map (fun j => getSizeOfAPiece p (p.startPieceIndex + k + j))).sum ∧
      (morePiecesToFetch q = true ↔ k + 1 < getTargetNumPieces p) := by
  obtain ⟨p', hp', g, -, -⟩ := new_good (ppg := ppg) hps hfull hfirst hle
  rw [hp] at hp'
  cases hp'
  obtain ⟨l1, l2, l3, l4⟩ := last_facts g
  have ht := target_eq g
  have hd := Nat.div_le_div_right (c := ps) g.hlo
  have hd2 := Nat.div_le_self (lastOf full last?) ps
  have hhi := g.hhi
  have hf := g.hfull
  have hcur := g.cur_eq
  have hs := g.s_eq
  have he := g.e_eq
  have h4 := Nat.div_mul_le_self (lastOf full last?) ps
  rw [ht] at hk ⊢
  intro q
  have hq : q = { p with curFetchingPieceIndex := p.curFetchingPieceIndex + k } := advance_eq p k (by omega)
  have hmul : k < lastOf full last? / ps - first / ps + 1 →
      (first / ps + k) * ps ≤ lastOf full last? / ps * ps := fun h => Nat.mul_le_mul_right _ (by omega)
  have hfb : k < lastOf full last? / ps - first / ps + 1 →
      getFirstByteOffsetOfCurPiece q = (first / ps + k) * ps := by
    intro h
    have := hmul h
    rw [hq]
    unfold getFirstByteOffsetOfCurPiece
    simp only
    rw [hcur, g.ps_eq]
    exact u64_eq (by omega)
  refine ⟨by rw [hq]; simp only; omega, ?_, ?_, ?_, ?_⟩
  · rw [hq]
    unfold getNumFetchedPieces
    simp only
    rw [hcur, hs, sub64_eq (by omega) (by omega)]
    omega
  · intro h
    rw [hfb h, hs]
  · by_cases h : k < lastOf full last? / ps - first / ps + 1
    · have := hmul h
      rw [hs, sum_sizes g _ _ (by omega) (by omega)]
      have hr : getRemainingBytes q =
          u64 (sub64 (getLastByteOffsetOfLastPiece p) (getFirstByteOffsetOfCurPiece q) + 1) := by
        unfold getRemainingBytes
        rw [if_neg (by rw [hq]; simp only; omega)]
        rw [hq]
        rfl
      rw [hr, hfb h, sub64_eq (by omega) (by omega), u64_eq (by omega)]
      omega
    · have : getRemainingBytes q = 0 := by
        unfold getRemainingBytes
        rw [if_pos (by rw [hq]; simp only; omega)]
      rw [this, show lastOf full last? / ps - first / ps + 1 - k = 0 by omega]
      rfl
  · rw [hq]
    unfold morePiecesToFetch
    simp only [decide_eq_true_eq]
    omega

/-- Without a range, or with an invalid one (no first byte, or the last before the first), the request is the whole
object: it behaves as the range from byte 0. -/
theorem no_range {full ps ppg : Nat} (hps : 0 < ps) (h0 : 0 < full)
    {range : Option RequestRange}
    (hr : range = none ∨ (∃ e, range = some (RequestRange.mk none e)) ∨
      ∃ a b, b < a ∧ range = some (RequestRange.mk (some a) (some b))) :
    new ps ppg full range = new ps ppg full (some (RequestRange.mk (some 0) none)) := by
  have hz : ∀ q : Pieces, q.startPieceIndex = 0 → q.curFetchingPieceIndex = 0 → 0 < q.pieceSize →
      resetFromRequestRange q none = some q ∧ resetFromRequestRange q (some (0, none)) = some q := by
    intro q q1 q2 q3
    obtain ⟨a, b, c, d, e, f, g⟩ := q
    simp only at q1 q2
    subst q1; subst q2
    unfold resetFromRequestRange
    simp
  have hnone : ∀ q : Pieces, q.startPieceIndex = 0 → q.curFetchingPieceIndex = 0 → 0 < q.pieceSize →
      resetFromRequestRange q none = resetFromRequestRange q (some (0, none)) := by
    intro q q1 q2 q3
    rw [(hz q q1 q2 q3).1, (hz q q1 q2 q3).2]
  unfold new
  rw [if_pos ⟨h0, hps⟩]
  rw [if_pos ⟨h0, hps⟩]
  rcases hr with hr | ⟨e, hr⟩ | ⟨a, b, hab, hr⟩
  · subst hr
    exact ((hz _ rfl rfl hps).2).symm
  · subst hr
    exact hnone _ rfl rfl hps
  · subst hr
    have : RequestRange.mk (some a) (some b) = none := by
      unfold RequestRange.mk
      simp only
      rw [if_pos hab]
    rw [this]
    exact hnone _ rfl rfl hps

/-! ## Examples and limits -/

/-- The unit test's object: 1000 bytes in pieces of 256, bytes 260-759. -/
def ex : Pieces := ⟨256, 0, 1000, 1, 4, 1, 2⟩

example : new 256 0 1000 (some (RequestRange.mk (some 260) (some 759))) = some ex ∧ getTargetNumPieces ex = 2 ∧
    getSizeOfAPiece ex 2 = 256 ∧ getTotalSize ex = 512 ∧ getRemainingBytes (advance ex 1) = 256 ∧
    getRemainingBytes (advance ex 2) = 0 := by decide +kernel

/-- The last byte may lie beyond the end. -/
example : (new 256 0 1000 (some (RequestRange.mk (some 400) (some 56789)))).map
    (fun p => (p.startPieceIndex, p.endPieceIndex, getTotalSize p)) = some (1, 3, 744) := by decide +kernel

/-- A first byte beyond the end: in the last piece's unused part the request succeeds with a piece that contains no
requested byte; further out the process aborts. -/
theorem start_beyond_end :
    (new 256 0 1000 (some (RequestRange.mk (some 1010) none))).map (fun p => (p.startPieceIndex, getTotalSize p)) =
      some (3, 232) ∧
    new 256 0 1000 (some (RequestRange.mk (some 1024) none)) = none := by decide +kernel

/-- `resetFromRequestRange` with an open range keeps the end of the previous range: here bytes 600- of the object are
requested after bytes 300-700, and pieces 2 only are fetched; from byte 800 on the process aborts. -/
theorem reset_keeps_end :
    ((new 256 0 1000 (some (RequestRange.mk (some 300) (some 700)))).bind
      (fun p => resetFromRequestRange p (RequestRange.mk (some 600) none))).map
        (fun p => (p.startPieceIndex, p.endPieceIndex)) = some (2, 2) ∧
    ((new 256 0 1000 (some (RequestRange.mk (some 300) (some 700)))).bind
      (fun p => resetFromRequestRange p (RequestRange.mk (some 800) none))) = none := by decide +kernel

/-- Without the bound on the sizes the product wraps: an object of 2^64 - 1 bytes in pieces of 2^63 + 1. -/
theorem wraps : (new 9223372036854775809 0 18446744073709551615 none).map
    (fun p => (getLastByteOffsetOfLastPiece p, getSizeOfAPiece p 1)) = some (1, 2) := by decide +kernel

end Verif.Pieces
