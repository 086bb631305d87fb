import Verif.Bloom.Model
/-!
Property C12: the Bloom filter has no false negatives.
-/
namespace Verif.Bloom
open Verif

/-- Operations of a user of the filter array. `restart` persists the filter and recovers it in a newly constructed one. -/
inductive Op
  | set (idx key : Nat)
  | clear (idx : Nat)
  | reset
  | restart

/-- Spec: was `key` added to sub-filter `idx` and not cleared since? -/
def member (idx key : Nat) (os : List Op) : Bool :=
  os.foldl (fun p o => match o with
    | .set i k => if i = idx ∧ k = key then true else p
    | .clear i => if i = idx then false else p
    | .reset => false
    | .restart => p) false

/-- Execution; `none` models an exception. -/
def step (comb : Nat → Nat → Nat) (hashInt : Nat → Nat) (b : BF) : Op → Option BF
  | .set i k => some (b.set comb i k)
  | .clear i => some (b.clear i)
  | .reset => some b.reset
  | .restart =>
    match make hashInt b.numFilters b.seeds.length b.tableBits with
    | none => none
    | some nb => (nb.recover b.persist).map Prod.fst

def run (comb : Nat → Nat → Nat) (hashInt : Nat → Nat) (b : BF) : List Op → Option BF
  | [] => some b
  | o :: os => match step comb hashInt b o with
    | none => none
    | some b' => run comb hashInt b' os

/-! ### Bits -/

theorem u8_nz (a : UInt8) : a ≠ 0 ↔ ∃ k, a.toNat.testBit k = true := by
  constructor
  · intro h
    have : a.toNat ≠ 0 := by intro hc; apply h; exact UInt8.toNat_inj.1 (by simpa using hc)
    exact Nat.exists_testBit_of_ne_zero this
  · rintro ⟨k, hk⟩ h; subst h; simp at hk

theorem or_and_nz_left {x y z : UInt8} (h : x &&& y ≠ 0) : (x ||| z) &&& y ≠ 0 := by
  rw [u8_nz] at h ⊢
  obtain ⟨k, hk⟩ := h
  refine ⟨k, ?_⟩
  simp only [UInt8.toNat_and, UInt8.toNat_or, Nat.testBit_and, Nat.testBit_or, Bool.and_eq_true, Bool.or_eq_true] at hk ⊢
  exact ⟨Or.inl hk.1, hk.2⟩

theorem or_and_nz_right {x y : UInt8} (h : y ≠ 0) : (x ||| y) &&& y ≠ 0 := by
  rw [u8_nz] at h ⊢
  obtain ⟨k, hk⟩ := h
  refine ⟨k, ?_⟩
  simp only [UInt8.toNat_and, UInt8.toNat_or, Nat.testBit_and, Nat.testBit_or, Bool.and_eq_true, Bool.or_eq_true] at hk ⊢
  exact ⟨Or.inr hk, hk⟩

theorem bitMask_ne (i : Nat) : bitMask i ≠ 0 := by
  have h : ∀ j : Fin 8, UInt8.ofNat (1 <<< j.val) ≠ 0 := by decide
  exact h ⟨i % 8, Nat.mod_lt _ (by decide)⟩

theorem bitGet_set_same (m : Mem) (p i : Nat) : bitGet (bitSet m p i) p i = true := by
  simp only [bitGet, bitSet, if_true, decide_eq_true_eq]
  exact or_and_nz_right (bitMask_ne i)

theorem bitGet_set_mono {m : Mem} {p i q j : Nat} (h : bitGet m p i = true) : bitGet (bitSet m q j) p i = true := by
  simp only [bitGet, decide_eq_true_eq] at h ⊢
  simp only [bitSet]
  split
  · exact or_and_nz_left h
  · exact h

theorem existLoop_iff (comb : Nat → Nat → Nat) (tb ptr key : Nat) (m : Mem) (seeds : List Nat) : ∀ fb,
    existLoop comb tb ptr key m seeds fb = true ↔
      ∀ i seed, seeds[i]? = some seed → bitGet m ptr (fb + i * tb + comb key seed % tb) = true := by
  induction seeds with
  | nil => intro fb; simp [existLoop]
  | cons s seeds ih =>
    intro fb
    simp only [existLoop]
    by_cases hb : bitGet m ptr (fb + comb key s % tb) = true
    · rw [hb]
      simp only [Bool.not_true, Bool.false_eq_true, if_false]
      rw [ih]
      constructor
      · intro h i seed hi
        cases i with
        | zero => simp at hi; subst hi; simpa using hb
        | succ i =>
          have := h i seed (by simpa using hi)
          rw [Nat.succ_mul]; rw [show fb + (i * tb + tb) + comb key seed % tb = fb + tb + i * tb + comb key seed % tb by omega]; exact this
      · intro h i seed hi
        have := h (i + 1) seed (by simpa using hi)
        rw [Nat.succ_mul] at this; rw [show fb + (i * tb + tb) + comb key seed % tb = fb + tb + i * tb + comb key seed % tb by omega] at this; exact this
    · have hb' : bitGet m ptr (fb + comb key s % tb) = false := by simpa using hb
      rw [hb']
      simp only [Bool.not_false, if_true, Bool.false_eq_true, false_iff]
      intro h
      have := h 0 s rfl
      simp at this; exact hb this

theorem setLoop_mono (comb : Nat → Nat → Nat) (tb ptr key : Nat) (seeds : List Nat) : ∀ fb (m : Mem) p i, bitGet m p i = true →
    bitGet (setLoop comb tb ptr key seeds fb m) p i = true := by
  induction seeds with
  | nil => intro fb m p i h; exact h
  | cons s seeds ih => intro fb m p i h; simp only [setLoop]; exact ih _ _ _ _ (bitGet_set_mono h)

theorem exist_setLoop (comb : Nat → Nat → Nat) (tb ptr key : Nat) (seeds : List Nat) : ∀ fb (m : Mem),
    existLoop comb tb ptr key (setLoop comb tb ptr key seeds fb m) seeds fb = true := by
  induction seeds with
  | nil => intro fb m; rfl
  | cons s seeds ih =>
    intro fb m
    have h1 : bitGet (setLoop comb tb ptr key (s :: seeds) fb m) ptr (fb + comb key s % tb) = true :=
      setLoop_mono comb tb ptr key seeds _ _ _ _ (bitGet_set_same m ptr _)
    rw [existLoop, h1]
    exact ih _ _

/-- Well-formed filter: its geometry is the one the constructor computes. -/
structure WF (b : BF) : Prop where
  tb : 0 < b.tableBits
  nf : 0 < b.numFilters
  ns : 0 < b.seeds.length
  fb : b.filterBytes = bitsToBytes (b.seeds.length * b.tableBits)

theorem bitsToBytes_ge (n : Nat) : n ≤ 8 * bitsToBytes n := by simp only [bitsToBytes]; omega

/-- Every byte tested for sub-filter `idx` lies in the bytes of that sub-filter. -/
theorem probe_in_filter {b : BF} (h : WF b) (comb : Nat → Nat → Nat) (key : Nat) {i seed} (hi : b.seeds[i]? = some seed) :
    (0 + i * b.tableBits + comb key seed % b.tableBits) / 8 < b.filterBytes := by
  have hlt : i < b.seeds.length := by
    have := List.getElem?_eq_some_iff.1 hi; exact this.1
  have h1 : (i + 1) * b.tableBits ≤ b.seeds.length * b.tableBits := Nat.mul_le_mul_right _ hlt
  rw [Nat.add_mul] at h1
  have h2 := Nat.mod_lt (comb key seed) h.tb
  have h3 := bitsToBytes_ge (b.seeds.length * b.tableBits)
  rw [← h.fb] at h3
  omega

/-- Membership depends only on the bytes of the sub-filter. -/
theorem exist_congr {b b' : BF} (h : WF b) (comb : Nat → Nat → Nat) (idx key : Nat) (h1 : b'.tableBits = b.tableBits)
    (h2 : b'.filterBytes = b.filterBytes) (h3 : b'.seeds = b.seeds)
    (hb : ∀ a, idx * b.filterBytes ≤ a → a < (idx + 1) * b.filterBytes → b'.bits a = b.bits a) :
    b.couldExist comb idx key = true → b'.couldExist comb idx key = true := by
  intro he
  simp only [BF.couldExist, BF.filterPtr, h1, h2, h3] at he ⊢
  rw [existLoop_iff] at he ⊢
  intro i seed hi
  have hp := probe_in_filter h comb key hi
  have := he i seed hi
  simp only [bitGet, decide_eq_true_eq] at this ⊢
  rw [hb _ (by omega) (by rw [Nat.add_mul]; omega)]
  exact this

/-! ### Persist / recover -/

theorem serLoop_pos {m : Mem} {size off : Nat} (h : off < size) :
    serLoop m size off = .raw (m.read off (min (size - off) kFrag)) :: serLoop m size (off + min (size - off) kFrag) := by
  rw [serLoop, if_pos h]

theorem serLoop_neg {m : Mem} {size off : Nat} (h : ¬ off < size) : serLoop m size off = [] := by rw [serLoop, if_neg h]

theorem des_ser (m : Mem) (size : Nat) (rest : List Rec) : ∀ n off, size - off = n → off ≤ size → ∀ m0 : Mem,
    ∃ m1, desLoop size (serLoop m size off ++ rest) off m0 = some (m1, rest) ∧ (∀ a, off ≤ a → a < size → m1 a = m a) ∧
      (∀ a, a < off ∨ size ≤ a → m1 a = m0 a) := by
  intro n
  induction n using Nat.strongRecOn with
  | _ n ih =>
    intro off hn hle m0
    by_cases h : off < size
    · have hk : 0 < min (size - off) kFrag := by simp only [kFrag]; omega
      obtain ⟨m1, e1, e2, e3⟩ := ih (size - (off + min (size - off) kFrag)) (by omega) (off + min (size - off) kFrag) rfl (by omega)
        (m0.write off (m.read off (min (size - off) kFrag)))
      refine ⟨m1, ?_, ?_, ?_⟩
      · rw [serLoop_pos h, List.cons_append, desLoop, if_pos h]
        simp only [Mem.length_read]
        exact e1
      · intro a h1 h2
        by_cases ha : a < off + min (size - off) kFrag
        · rw [e3 a (by omega)]
          have := congrArg (fun l => l[a - off]?) (Mem.read_write_same' (m := m0) (o := off) (Mem.length_read m off (min (size - off) kFrag)))
          simp only [Mem.read_getElem?] at this
          rw [if_pos (by omega), if_pos (by omega), show off + (a - off) = a by omega] at this
          exact Option.some.inj this
        · exact e2 a (by omega) h2
      · intro a ha
        rw [e3 a (by omega), Mem.write_outside (by rw [Mem.length_read]; omega)]
    · refine ⟨m0, ?_, fun a h1 h2 => by omega, fun a _ => rfl⟩
      rw [serLoop_neg h, List.nil_append]
      cases rest <;> simp only [desLoop, if_neg h]

theorem skip_ser (m : Mem) (size : Nat) (rest : List Rec) : ∀ n off, size - off = n → off ≤ size →
    skipLoop size (serLoop m size off ++ rest) off = some rest := by
  intro n
  induction n using Nat.strongRecOn with
  | _ n ih =>
    intro off hn hle
    by_cases h : off < size
    · have hk : 0 < min (size - off) kFrag := by simp only [kFrag]; omega
      rw [serLoop_pos h, List.cons_append, skipLoop, if_pos h]
      simp only [Mem.length_read]
      exact ih (size - (off + min (size - off) kFrag)) (by omega) _ rfl (by omega)
    · rw [serLoop_neg h, List.nil_append]
      cases rest <;> simp only [skipLoop, if_neg h]

theorem copySeeds_eq : ∀ (old new : List Nat), old.length = new.length → copySeeds old new = new
  | [], [], _ => rfl
  | _ :: old, s :: new, h => by simp only [copySeeds]; rw [copySeeds_eq old new (by simpa using h)]

/-- **C12, persist and recover.** A filter with the same geometry recovers the persisted bits and seeds exactly (whatever its bits
were), and leaves the rest of the stream for the next reader. -/
theorem recover_persist (b nb : BF) (rest : List Rec) (h1 : nb.numFilters = b.numFilters) (h2 : nb.tableBits = b.tableBits)
    (h3 : nb.filterBytes = b.filterBytes) (h4 : nb.seeds.length = b.seeds.length) :
    ∃ b', nb.recover (b.persist ++ rest) = some (b', rest) ∧ b'.numFilters = b.numFilters ∧ b'.tableBits = b.tableBits ∧
      b'.filterBytes = b.filterBytes ∧ b'.seeds = b.seeds ∧ ∀ a, a < b.byteSize → b'.bits a = b.bits a := by
  have hbs : nb.byteSize = b.byteSize := by simp only [BF.byteSize, h1, h3]
  obtain ⟨m1, e1, e2, e3⟩ := des_ser b.bits b.byteSize (serLoop (fun _ => 0) (bitsToBytes b.numFilters) 0 ++ rest) _ 0 rfl
    (Nat.zero_le _) nb.bits
  have e4 := skip_ser (fun _ => 0) (bitsToBytes b.numFilters) rest _ 0 rfl (Nat.zero_le _)
  refine ⟨{ nb with seeds := copySeeds nb.seeds b.seeds, bits := m1 }, ?_, h1, h2, h3, copySeeds_eq _ _ h4, fun a ha => e2 a (Nat.zero_le _) ha⟩
  simp only [BF.persist, List.cons_append, List.append_assoc, BF.recover, h1, h2, h3, ne_eq, not_true_eq_false, or_self, if_false, hbs, e1, e4]

/-- Negative result: recovery does not compare the number of hash functions (BloomFilter.h:155-165). A filter persisted with one hash
function and recovered into one configured with two (both with 3 bits per hash, so equal byte sizes) recovers without error and then
denies a key that was added. -/
theorem recover_hash_count_false_negative : ∃ (comb : Nat → Nat → Nat) (hashInt : Nat → Nat) (b nb b' : BF) (rest : List Rec),
    make hashInt 1 1 3 = some b ∧ make hashInt 1 2 3 = some nb ∧
    nb.recover ((b.set comb 0 5).persist) = some (b', rest) ∧
    (b.set comb 0 5).couldExist comb 0 5 = true ∧ b'.couldExist comb 0 5 = false := by
  refine ⟨fun _ _ => 0, id, ⟨1, 3, 1, [0], fun _ => 0⟩, ⟨1, 3, 1, [0, 1], fun _ => 0⟩, ?_⟩
  obtain ⟨m1, e1, e2, e3⟩ := des_ser (BF.set (fun _ _ => 0) ⟨1, 3, 1, [0], fun _ => 0⟩ 0 5).bits 1
    (serLoop (fun _ => 0) (bitsToBytes 1) 0 ++ []) _ 0 rfl (Nat.zero_le _) (fun _ => 0)
  have e4 := skip_ser (fun _ => 0) (bitsToBytes 1) [] _ 0 rfl (Nat.zero_le _)
  refine ⟨⟨1, 3, 1, [0, 1], m1⟩, [], rfl, rfl, ?_, by decide, ?_⟩
  · have hp : (BF.set (fun _ _ => 0) ⟨1, 3, 1, [0], fun _ => 0⟩ 0 5).persist =
      .cfg 1 3 1 kFrag [0] :: (serLoop (BF.set (fun _ _ => 0) ⟨1, 3, 1, [0], fun _ => 0⟩ 0 5).bits 1 0 ++
        (serLoop (fun _ => 0) (bitsToBytes 1) 0 ++ [])) := by rw [List.append_nil]; rfl
    rw [hp]
    have hbs : BF.byteSize ⟨1, 3, 1, [0, 1], fun _ => 0⟩ = 1 := rfl
    simp only [BF.recover, ne_eq, not_true_eq_false, or_self, if_false, hbs, e1, e4, copySeeds]
  · have hm : m1 0 = 1 := by rw [e2 0 (Nat.le_refl _) (by decide)]; decide
    simp only [BF.couldExist, existLoop, BF.filterPtr, bitGet, bitMask]
    simp [hm]
    decide

/-! ### Histories -/

theorem make_wf {hashInt nf nh tb b} (h : make hashInt nf nh tb = some b) :
    WF b ∧ b.numFilters = nf ∧ b.tableBits = tb ∧ b.seeds.length = nh := by
  simp only [make] at h
  split at h
  · cases h
  · rename_i hc
    injection h with h; subst h
    refine ⟨⟨by simp only; omega, by simp only; omega, by simp; omega, by simp⟩, rfl, rfl, by simp⟩

theorem step_spec {comb hashInt} {b : BF} (h : WF b) (o : Op) : ∃ b', step comb hashInt b o = some b' ∧ WF b' ∧
    b'.numFilters = b.numFilters ∧ b'.tableBits = b.tableBits ∧ b'.filterBytes = b.filterBytes ∧ b'.seeds = b.seeds ∧
    ∀ idx key, idx < b.numFilters →
      (match o with
        | .set i k => (i = idx ∧ k = key) ∨ b.couldExist comb idx key = true
        | .clear i => i ≠ idx ∧ b.couldExist comb idx key = true
        | .reset => False
        | .restart => b.couldExist comb idx key = true) → b'.couldExist comb idx key = true := by
  cases o with
  | set i k =>
    refine ⟨_, rfl, ⟨h.tb, h.nf, h.ns, h.fb⟩, rfl, rfl, rfl, rfl, ?_⟩
    rintro idx key _ (⟨rfl, rfl⟩ | he)
    · simp only [BF.couldExist, BF.set]; exact exist_setLoop ..
    · simp only [BF.couldExist, BF.set, BF.filterPtr] at he ⊢
      rw [existLoop_iff] at he ⊢
      intro i' seed hi
      exact setLoop_mono _ _ _ _ _ _ _ _ _ (he i' seed hi)
  | clear i =>
    refine ⟨_, rfl, ⟨h.tb, h.nf, h.ns, h.fb⟩, rfl, rfl, rfl, rfl, ?_⟩
    rintro idx key _ ⟨hne, he⟩
    refine exist_congr h comb idx key rfl rfl rfl ?_ he
    intro a h1 h2
    simp only [BF.clear, zero, BF.filterPtr]
    rw [if_neg]
    rintro ⟨h3, h4⟩
    rcases Nat.lt_or_gt_of_ne hne with hlt | hgt
    · have := Nat.mul_le_mul_right b.filterBytes (show i + 1 ≤ idx by omega)
      rw [Nat.add_mul] at this; omega
    · have := Nat.mul_le_mul_right b.filterBytes (show idx + 1 ≤ i by omega)
      omega
  | reset =>
    exact ⟨_, rfl, ⟨h.tb, h.nf, h.ns, h.fb⟩, rfl, rfl, rfl, rfl, fun _ _ _ hf => hf.elim⟩
  | restart =>
    have hmk : ∃ nb, make hashInt b.numFilters b.seeds.length b.tableBits = some nb := by
      refine ⟨_, if_neg ?_⟩
      have := h.tb; have := h.nf; have := h.ns; omega
    obtain ⟨nb, hmk⟩ := hmk
    obtain ⟨w, g1, g2, g3⟩ := make_wf hmk
    obtain ⟨b', r1, r2, r3, r4, r5, r6⟩ := recover_persist b nb [] g1 g2 (by rw [w.fb, h.fb, g3, g2]) g3
    refine ⟨b', ?_, ⟨by rw [r3]; exact h.tb, by rw [r2]; exact h.nf, by rw [r5]; exact h.ns, by rw [r4, r5, r3]; exact h.fb⟩,
      r2, r3, r4, r5, ?_⟩
    · rw [List.append_nil] at r1
      simp only [step, hmk, r1, Option.map_some]
    · intro idx key hidx he
      refine exist_congr h comb idx key r3 r4 r5 (fun a h1 h2 => r6 a ?_) he
      have := Nat.mul_le_mul_right b.filterBytes (show idx + 1 ≤ b.numFilters by omega)
      simp only [BF.byteSize]; omega

theorem run_spec {comb hashInt} (os : List Op) : ∀ {b : BF} (_ : WF b), ∃ b', run comb hashInt b os = some b' ∧
    b'.numFilters = b.numFilters ∧
    ∀ idx key, idx < b.numFilters → ∀ p : Bool, (p = true → b.couldExist comb idx key = true) →
      os.foldl (fun p o => match o with
      | .set i k => if i = idx ∧ k = key then true else p
      | .clear i => if i = idx then false else p
      | .reset => false
      | .restart => p) p = true → b'.couldExist comb idx key = true := by
  induction os with
  | nil => intro b h; exact ⟨b, rfl, rfl, fun idx key _ p hp he => hp he⟩
  | cons o os ih =>
    intro b h
    obtain ⟨b1, s1, s2, s3, s4, s5, s6, s7⟩ := step_spec (comb := comb) (hashInt := hashInt) h o
    obtain ⟨b2, t1, t2, t3⟩ := ih s2
    refine ⟨b2, by simp only [run, s1, t1], by rw [t2, s3], ?_⟩
    intro idx key hidx p hp he
    rw [List.foldl_cons] at he
    refine t3 idx key (by rw [s3]; exact hidx) _ ?_ he
    intro hq
    apply s7 idx key hidx
    cases o with
    | set i k =>
      simp only at hq ⊢
      by_cases hc : i = idx ∧ k = key
      · exact Or.inl hc
      · rw [if_neg hc] at hq; exact Or.inr (hp hq)
    | clear i =>
      simp only at hq ⊢
      by_cases hc : i = idx
      · rw [if_pos hc] at hq; cases hq
      · rw [if_neg hc] at hq; exact ⟨hc, hp hq⟩
    | reset => simp only at hq; cases hq
    | restart => exact hp hq

/-- **C12.** For every hash function, every accepted geometry and every history of adds, clears, resets and clean restarts (no
operation of which raises an error), every key that was added to a sub-filter and not cleared since is reported as possibly present. -/
theorem no_false_negatives (comb : Nat → Nat → Nat) (hashInt : Nat → Nat) (nf nh tb : Nat) (b : BF)
    (hb : make hashInt nf nh tb = some b) (os : List Op) :
    ∃ b', run comb hashInt b os = some b' ∧ ∀ idx key, idx < nf → member idx key os = true → b'.couldExist comb idx key = true := by
  obtain ⟨w, g1, g2, g3⟩ := make_wf hb
  obtain ⟨b', t1, t2, t3⟩ := run_spec (comb := comb) (hashInt := hashInt) os w
  exact ⟨b', t1, fun idx key hi hm => t3 idx key (by rw [g1]; exact hi) false (by simp) hm⟩

/-- A cleared sub-filter denies every key (it is empty). -/
theorem cleared_denies {b : BF} (h : WF b) (comb : Nat → Nat → Nat) (idx key : Nat) : (b.clear idx).couldExist comb idx key = false := by
  cases hc : (b.clear idx).couldExist comb idx key with
  | false => rfl
  | true =>
    exfalso
    simp only [BF.couldExist, BF.clear] at hc
    rw [existLoop_iff] at hc
    have hs := h.ns
    obtain ⟨seed, hseed⟩ : ∃ s, b.seeds[0]? = some s := ⟨b.seeds[0], List.getElem?_eq_getElem hs⟩
    have h1 := hc 0 seed hseed
    have h2 := probe_in_filter h comb key hseed
    have hz : ∀ x, x / 8 < b.filterBytes → bitGet (zero b.bits (b.filterPtr idx) b.filterBytes) (b.filterPtr idx) x = false := by
      intro x hx
      have : zero b.bits (b.filterPtr idx) b.filterBytes (b.filterPtr idx + x / 8) = 0 := if_pos ⟨by omega, by omega⟩
      simp [bitGet, this]
    have h3 := hz _ h2
    exact Bool.false_ne_true (h3.symm.trans h1)

/-- The constructor refuses exactly the degenerate geometries. -/
theorem make_refuses (hashInt nf nh tb) : make hashInt nf nh tb = none ↔ nf = 0 ∨ nh = 0 ∨ tb = 0 := by
  simp only [make]; split
  · rename_i h; simp [h]
  · rename_i h; simp [h]

/-- Non-vacuity. -/
example : (make (· * 7 + 3) 3 4 5).isSome = true ∧
    member 1 42 [.set 1 42, .set 2 42, .clear 2, .restart, .clear 0, .set 0 1] = true ∧
    member 2 42 [.set 1 42, .set 2 42, .clear 2, .restart, .clear 0, .set 0 1] = false := by decide

end Verif.Bloom
