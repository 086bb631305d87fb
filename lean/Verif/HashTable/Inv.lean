import Verif.HashTable.Spec
import Mathlib.Algebra.BigOperators.Group.Finset.Basic
import Mathlib.Algebra.BigOperators.Fin
import Mathlib.Algebra.BigOperators.Ring.Finset
/-! Invariant for the linearizability proof of the chained hash table. -/
namespace Verif.HashTable
variable {K : Type} {n : Nat}

/-- linked segment: following `next` from `a` visits the items of the list and arrives at `q`. -/
def Seg (next : P → Option P) : Option P → List P → Option P → Prop
  | a, [], q => a = q
  | a, p :: l, q => a = some p ∧ Seg next (next p) l q

theorem Seg.append {next : P → Option P} {a q : Option P} {l1 l2 : List P} :
    Seg next a (l1 ++ l2) q ↔ ∃ m, Seg next a l1 m ∧ Seg next m l2 q := by
  induction l1 generalizing a with
  | nil => simp [Seg]
  | cons p l ih => simp [Seg, ih, and_assoc]

theorem Seg.congr {next next' : P → Option P} {a q : Option P} {l : List P}
    (h : ∀ p ∈ l, next' p = next p) : Seg next' a l q ↔ Seg next a l q := by
  induction l generalizing a with
  | nil => simp [Seg]
  | cons p l ih =>
    simp only [Seg]
    rw [ih (fun p hp => h p (List.mem_cons_of_mem _ hp)), h p List.mem_cons_self]

theorem Seg.upd_notin {next : P → Option P} {a q v : Option P} {l : List P} {x : P} (h : x ∉ l) :
    Seg (upd next x v) a l q ↔ Seg next a l q := by
  apply Seg.congr
  intro p hp
  have : p ≠ x := fun e => h (e ▸ hp)
  simp [upd, this]

/-- the memory chain of a bucket is the list `l`. -/
def Chain (s : State K n) (b : Nat) (l : List P) : Prop := Seg s.next (s.heads b) l none

/-- what `newNode` an in-lock writer has, with default. -/
def Cfg.bkt (c : Cfg K) (p : P) : Nat := c.bucket (c.key p)

/-- tested node of an operation. -/
def Op.target : Op K → Option P
  | .replaceIf old _ _ => some old
  | .remove nd => some nd
  | .removeIf nd _ _ => some nd
  | _ => none

/-- memory chain of the bucket differs from the logical chain. -/
def PC.dirty : PC K → Bool
  | .idle => false
  | .pre _ => false
  | .want _ => false
  | .locked _ => false
  | .start _ => false
  | .walk _ _ _ => false
  | .scanw _ _ _ => false
  | .iHead _ => false
  | .iLink _ _ => false
  | .iNext _ _ => true
  | .iMark _ => true
  | .iCount _ => false
  | .xLink _ _ _ => false
  | .xNext _ _ => true
  | .xDone _ _ => true
  | .xOld _ _ => true
  | .zMark _ => false
  | .back _ _ _ _ => true
  | .bLink _ _ _ _ => true
  | .bNext _ _ _ => true
  | .uLink _ _ => false
  | .uMark _ => true
  | .uCount _ => false
  | .fin _ _ => false
  | .ret _ _ => false

/-- node whose accessible flag differs from membership in the logical chain. -/
def PC.flagNode : PC K → Option P
  | .xOld o _ => o.newNode
  | .zMark o => o.newNode
  | _ => none

/-- program points between the accessibility test of the new node and the effect. -/
def PC.late : PC K → Option P
  | .idle => none
  | .pre (.replaceIf _ nd _) => some nd
  | .pre _ => none
  | .want o => o.newNode
  | .locked o => o.newNode
  | .start o => o.newNode
  | .walk o _ _ => o.newNode
  | .scanw o _ _ => o.newNode
  | .iHead o => o.newNode
  | .iLink o _ => o.newNode
  | .iNext o _ => o.newNode
  | .iMark o => o.newNode
  | .iCount _ => none
  | .xLink o _ _ => o.newNode
  | .xNext o _ => o.newNode
  | .xDone o _ => o.newNode
  | .xOld o _ => o.newNode
  | .zMark _ => none
  | .back o _ _ _ => o.newNode
  | .bLink o _ _ _ => o.newNode
  | .bNext o _ _ => o.newNode
  | .uLink o _ => o.newNode
  | .uMark o => o.newNode
  | .uCount _ => none
  | .fin _ _ => none
  | .ret _ _ => none

/-- search position: `pre` was passed without a hit, `cur` is next. -/
def Pos (c : Cfg K) (l : List P) (k : K) (prev cur : Option P) : Prop :=
  ∃ pre post, l = pre ++ post ∧ cur = post.head? ∧ prev = pre.getLast? ∧ ∀ p ∈ pre, c.key p ≠ k

/-- the key is not in the chain. -/
def Fresh (c : Cfg K) (l : List P) (nd : P) : Prop := ∀ p ∈ l, c.key p ≠ c.key nd

/-- facts about a thread inside the lock of its bucket, with `l` the logical chain of the bucket. -/
def Loc (c : Cfg K) (s : State K n) (L : Nat → List P) : PC K → Prop
  | .idle => True
  | .pre (.replaceIf old nd _) => c.key old = c.key nd
  | .pre (.scan b) => b < 2 ^ c.bucketsPower
  | .pre _ => True
  | .want (.replaceIf old nd _) => c.key old = c.key nd
  | .want (.scan b) => b < 2 ^ c.bucketsPower
  | .want _ => True
  | .locked (.replaceIf old nd _) => c.key old = c.key nd
  | .locked (.scan b) => b < 2 ^ c.bucketsPower
  | .locked _ => True
  | .start o => (∀ p, o.target = some p → p ∈ L (c.opBucket o)) ∧
      (∀ old nd p, o = .replaceIf old nd p → c.key old = c.key nd) ∧
      (∀ b, o = .scan b → b < 2 ^ c.bucketsPower) ∧ predOf o = true ∧ throwsEarly o = false
  | .walk o prev cur => (∀ p, o.target = some p → p ∈ L (c.opBucket o)) ∧
      (∀ old nd p, o = .replaceIf old nd p → c.key old = c.key nd) ∧
      predOf o = true ∧ throwsEarly o = false ∧
      ∃ k, c.opKey o = some k ∧ Pos c (L (c.opBucket o)) k prev cur
  | .scanw o cur got => ∃ b post, o = .scan b ∧ L b = got ++ post ∧ cur = post.head?
  | .iHead o => ∃ nd r, resPre o = some (nd, r) ∧ Fresh c (L (c.opBucket o)) nd
  | .iLink o h => ∃ nd r, resPre o = some (nd, r) ∧ Fresh c (L (c.opBucket o)) nd ∧
      h = s.heads (c.opBucket o)
  | .iNext o h => ∃ nd r, resPre o = some (nd, r) ∧ Fresh c (L (c.opBucket o)) nd ∧
      s.heads (c.opBucket o) = some nd ∧ Seg s.next h (L (c.opBucket o)) none
  | .iMark o => ∃ nd r, resPre o = some (nd, r) ∧ Fresh c (L (c.opBucket o)) nd ∧
      Chain s (c.opBucket o) (nd :: L (c.opBucket o))
  | .iCount o => ∃ nd r, resPre o = some (nd, r)
  | .xLink o prev x => ∃ nd pre post, o.newNode = some nd ∧ o ≠ .insert nd ∧ c.key x = c.key nd ∧
      (∀ old nd p, o = .replaceIf old nd p → x = old ∧ p = true) ∧
      L (c.opBucket o) = pre ++ x :: post ∧ prev = pre.getLast?
  | .xNext o x => ∃ nd pre post, o.newNode = some nd ∧ o ≠ .insert nd ∧ c.key x = c.key nd ∧
      (∀ old nd p, o = .replaceIf old nd p → x = old ∧ p = true) ∧
      L (c.opBucket o) = pre ++ x :: post ∧
      Seg s.next (s.heads (c.opBucket o)) pre (some nd) ∧ Seg s.next (s.next x) post none
  | .xDone o x => ∃ nd pre post, o.newNode = some nd ∧ o ≠ .insert nd ∧ c.key x = c.key nd ∧
      (∀ old nd p, o = .replaceIf old nd p → x = old ∧ p = true) ∧
      L (c.opBucket o) = pre ++ x :: post ∧ Chain s (c.opBucket o) (pre ++ nd :: post)
  | .xOld o x => ∃ nd pre post, o = .insertOrReplace nd false ∧ c.key x = c.key nd ∧
      L (c.opBucket o) = pre ++ x :: post ∧ Chain s (c.opBucket o) (pre ++ nd :: post) ∧
      s.acc nd = true
  | .zMark o => ∃ old nd, o = .replaceIf old nd true ∧ nd ∈ L (c.opBucket o)
  | .back o x prev cur => ∃ nd pre post, o = .insertOrReplace nd true ∧ c.key x = c.key nd ∧
      L (c.opBucket o) = pre ++ x :: post ∧ Chain s (c.opBucket o) (pre ++ nd :: post) ∧
      Pos c (pre ++ nd :: post) (c.key nd) prev cur
  | .bLink o x prev d => ∃ nd pre post, o = .insertOrReplace nd true ∧ c.key x = c.key nd ∧ d = nd ∧
      L (c.opBucket o) = pre ++ x :: post ∧ Chain s (c.opBucket o) (pre ++ nd :: post) ∧
      prev = pre.getLast?
  | .bNext o x d => ∃ nd pre post, o = .insertOrReplace nd true ∧ c.key x = c.key nd ∧ d = nd ∧
      L (c.opBucket o) = pre ++ x :: post ∧
      Seg s.next (s.heads (c.opBucket o)) pre (some x) ∧ Seg s.next (s.next nd) post none
  | .uLink o prev => ∃ nd pre post, o.target = some nd ∧ o.newNode = none ∧ predOf o = true ∧
      throwsEarly o = false ∧ L (c.opBucket o) = pre ++ nd :: post ∧ prev = pre.getLast?
  | .uMark o => ∃ nd pre post, o.target = some nd ∧ o.newNode = none ∧ predOf o = true ∧
      throwsEarly o = false ∧ L (c.opBucket o) = pre ++ nd :: post ∧
      Chain s (c.opBucket o) (pre ++ post)
  | .uCount o => ∃ nd, o.target = some nd ∧ o.newNode = none ∧ predOf o = true ∧ throwsEarly o = false
  | .fin _ _ => True
  | .ret _ _ => True

/-- contribution to `numKeys_` still to be made. -/
def PC.owed : PC K → Int
  | .iCount _ => 1
  | .uCount _ => -1
  | _ => 0

/-- well-formedness of a logical chain: distinct keys, all of this bucket. -/
def Good (c : Cfg K) (b : Nat) (l : List P) : Prop :=
  (l.map c.key).Nodup ∧ ∀ p ∈ l, c.bkt p = b

/-- the invariant, with the logical chains `L`. -/
structure Inv (c : Cfg K) (s : State K n) (L : Nat → List P) : Prop where
  good : ∀ b, Good c b (L b)
  loc : ∀ t, Loc c s L (s.pc t)
  clean : ∀ b, (∀ t o, (s.pc t).op = some o → (s.pc t).dirty = true → c.opBucket o ≠ b) →
    Chain s b (L b)
  excl : ∀ t t' o o', t ≠ t' → (s.pc t).op = some o → (s.pc t').op = some o' →
    (s.pc t).inLock = true → (s.pc t').inLock = true → o.exclusive = true →
    c.lockOf (c.opBucket o) ≠ c.lockOf (c.opBucket o')
  uniq : ∀ t t' o o' nd, t ≠ t' → (s.pc t).op = some o → (s.pc t').op = some o' →
    o.newNode = some nd → o'.newNode ≠ some nd
  late : ∀ t nd, (s.pc t).late = some nd → nd ∉ L (c.bkt nd)
  flag : ∀ p, (∀ t, (s.pc t).flagNode ≠ some p) → (s.acc p = true ↔ p ∈ L (c.bkt p))
  count : s.numKeys + ∑ t, (s.pc t).owed = ∑ b ∈ Finset.range (2 ^ c.bucketsPower), ((L b).length : Int)

theorem bucket_lt (c : Cfg K) (k : K) : c.bucket k < 2 ^ c.bucketsPower := by
  unfold Cfg.bucket
  have : c.hash k &&& (2 ^ c.bucketsPower - 1) ≤ 2 ^ c.bucketsPower - 1 := Nat.and_le_right
  have := Nat.two_pow_pos c.bucketsPower
  omega

/-- agreement of two states and ghosts on one bucket. -/
structure Agree (c : Cfg K) (s s' : State K n) (L L' : Nat → List P) (b : Nat) : Prop where
  heads : s'.heads b = s.heads b
  next : ∀ p, c.bkt p = b → s'.next p = s.next p
  acc : ∀ p, c.bkt p = b → s'.acc p = s.acc p
  ghost : L' b = L b

theorem new_bkt {c : Cfg K} {o : Op K} {nd : P} (h : o.newNode = some nd) : c.opBucket o = c.bkt nd := by
  cases o <;> simp [Op.newNode] at h <;> subst h <;> rfl

theorem pre_new {o : Op K} {nd : P} {r : Res} (h : resPre o = some (nd, r)) : o.newNode = some nd := by
  cases o <;> simp [resPre] at h <;> obtain ⟨rfl, -⟩ := h <;> rfl

theorem seg_agree {c : Cfg K} {s s' : State K n} {L L' : Nat → List P} {b : Nat}
    (h : Agree c s s' L L' b) {a q : Option P} {l : List P} (hl : ∀ p ∈ l, c.bkt p = b) :
    Seg s'.next a l q ↔ Seg s.next a l q := Seg.congr fun p hp => h.next p (hl p hp)

theorem good_parts {c : Cfg K} {b : Nat} {pre post : List P} {x : P} (h : Good c b (pre ++ x :: post)) :
    (∀ p ∈ pre, c.bkt p = b) ∧ c.bkt x = b ∧ (∀ p ∈ post, c.bkt p = b) := by
  refine ⟨fun p hp => h.2 p (by simp [hp]), h.2 x (by simp), fun p hp => h.2 p (by simp [hp])⟩

/-- facts of a thread are stable when another bucket changes. -/
theorem loc_agree {c : Cfg K} {s s' : State K n} {L L' : Nat → List P} {p : PC K}
    (hg : ∀ b, Good c b (L b)) (h : ∀ o, p.op = some o → Agree c s s' L L' (c.opBucket o))
    (hl : Loc c s L p) : Loc c s' L' p := by
  cases p
  case idle => trivial
  case pre o => cases o <;> exact hl
  case want o => cases o <;> exact hl
  case locked o => cases o <;> exact hl
  case start o => obtain ⟨h1, h2⟩ := hl; exact ⟨by rw [(h o rfl).ghost]; exact h1, h2⟩
  case walk o prev cur => simp only [Loc, (h o rfl).ghost]; exact hl
  case scanw o cur got =>
    obtain ⟨b, post, rfl, hp, hc⟩ := hl
    exact ⟨b, post, rfl, by rw [← hp]; exact (h _ rfl).ghost, hc⟩
  case iHead o => simp only [Loc, (h o rfl).ghost]; exact hl
  case iLink o hd => simp only [Loc, (h o rfl).ghost, (h o rfl).heads]; exact hl
  case iNext o hd =>
    simp only [Loc, (h o rfl).ghost, (h o rfl).heads, seg_agree (h o rfl) (hg _).2]; exact hl
  case iMark o =>
    obtain ⟨nd, r, h1, h2, h3⟩ := hl
    refine ⟨nd, r, h1, by rw [(h o rfl).ghost]; exact h2, ?_⟩
    unfold Chain
    rw [(h o rfl).ghost, (h o rfl).heads, seg_agree (h o rfl)]
    · exact h3
    · intro p hp
      rcases List.mem_cons.1 hp with rfl | hp
      · exact (new_bkt (pre_new h1)).symm
      · exact (hg _).2 p hp
  case iCount o => exact hl
  case xLink o prev x => simp only [Loc, (h o rfl).ghost]; exact hl
  case xNext o x =>
    obtain ⟨nd, pre, post, h1, h2, h3, h4, h5, h6, h7⟩ := hl
    have hgp := good_parts (h5 ▸ hg (c.opBucket o))
    refine ⟨nd, pre, post, h1, h2, h3, h4, by rw [(h o rfl).ghost]; exact h5, ?_, ?_⟩
    · rw [(h o rfl).heads, seg_agree (h o rfl) hgp.1]; exact h6
    · rw [(h o rfl).next _ hgp.2.1, seg_agree (h o rfl) hgp.2.2]; exact h7
  case xDone o x =>
    obtain ⟨nd, pre, post, h1, h2, h3, h4, h5, h6⟩ := hl
    have hgp := good_parts (h5 ▸ hg (c.opBucket o))
    refine ⟨nd, pre, post, h1, h2, h3, h4, by rw [(h o rfl).ghost]; exact h5, ?_⟩
    unfold Chain
    rw [(h o rfl).heads, seg_agree (h o rfl)]
    · exact h6
    · intro p hp
      have := new_bkt (c := c) h1
      simp only [List.mem_append, List.mem_cons] at hp
      rcases hp with hp | rfl | hp
      exacts [hgp.1 p hp, this.symm, hgp.2.2 p hp]
  case xOld o x =>
    obtain ⟨nd, pre, post, h1, h3, h5, h6, h7⟩ := hl
    have hgp := good_parts (h5 ▸ hg (c.opBucket o))
    have hn : c.bkt nd = c.opBucket o := by rw [h1]; rfl
    refine ⟨nd, pre, post, h1, h3, by rw [(h o rfl).ghost]; exact h5, ?_, ?_⟩
    · unfold Chain
      rw [(h o rfl).heads, seg_agree (h o rfl)]
      · exact h6
      · intro p hp
        simp only [List.mem_append, List.mem_cons] at hp
        rcases hp with hp | rfl | hp
        exacts [hgp.1 p hp, hn, hgp.2.2 p hp]
    · rw [(h o rfl).acc _ hn]; exact h7
  case zMark o => simp only [Loc, (h o rfl).ghost]; exact hl
  case back o x prev cur =>
    obtain ⟨nd, pre, post, h1, h3, h5, h6, h7⟩ := hl
    have hgp := good_parts (h5 ▸ hg (c.opBucket o))
    have hn : c.bkt nd = c.opBucket o := by rw [h1]; rfl
    refine ⟨nd, pre, post, h1, h3, by rw [(h o rfl).ghost]; exact h5, ?_, h7⟩
    unfold Chain
    rw [(h o rfl).heads, seg_agree (h o rfl)]
    · exact h6
    · intro p hp
      simp only [List.mem_append, List.mem_cons] at hp
      rcases hp with hp | rfl | hp
      exacts [hgp.1 p hp, hn, hgp.2.2 p hp]
  case bLink o x prev d =>
    obtain ⟨nd, pre, post, h1, h3, h4, h5, h6, h7⟩ := hl
    have hgp := good_parts (h5 ▸ hg (c.opBucket o))
    have hn : c.bkt nd = c.opBucket o := by rw [h1]; rfl
    refine ⟨nd, pre, post, h1, h3, h4, by rw [(h o rfl).ghost]; exact h5, ?_, h7⟩
    unfold Chain
    rw [(h o rfl).heads, seg_agree (h o rfl)]
    · exact h6
    · intro p hp
      simp only [List.mem_append, List.mem_cons] at hp
      rcases hp with hp | rfl | hp
      exacts [hgp.1 p hp, hn, hgp.2.2 p hp]
  case bNext o x d =>
    obtain ⟨nd, pre, post, h1, h3, h4, h5, h6, h7⟩ := hl
    have hgp := good_parts (h5 ▸ hg (c.opBucket o))
    have hn : c.bkt nd = c.opBucket o := by rw [h1]; rfl
    refine ⟨nd, pre, post, h1, h3, h4, by rw [(h o rfl).ghost]; exact h5, ?_, ?_⟩
    · rw [(h o rfl).heads, seg_agree (h o rfl) hgp.1]; exact h6
    · rw [(h o rfl).next _ hn, seg_agree (h o rfl) hgp.2.2]; exact h7
  case uLink o prev => simp only [Loc, (h o rfl).ghost]; exact hl
  case uMark o =>
    obtain ⟨nd, pre, post, h1, h2, h3, h4, h5, h6⟩ := hl
    have hgp := good_parts (h5 ▸ hg (c.opBucket o))
    refine ⟨nd, pre, post, h1, h2, h3, h4, by rw [(h o rfl).ghost]; exact h5, ?_⟩
    unfold Chain
    rw [(h o rfl).heads, seg_agree (h o rfl)]
    · exact h6
    · intro p hp
      simp only [List.mem_append] at hp
      rcases hp with hp | hp
      exacts [hgp.1 p hp, hgp.2.2 p hp]
  case uCount o => exact hl
  case fin => trivial
  case ret => trivial

/-- facts of threads outside locks do not depend on memory. -/
theorem loc_unlocked {c : Cfg K} {s s' : State K n} {L L' : Nat → List P} {p : PC K}
    (hp : p.inLock = false) (hl : Loc c s L p) : Loc c s' L' p := by
  cases p <;> first | (simp [PC.inLock] at hp; done) | trivial | (rename_i o; cases o <;> exact hl)

end Verif.HashTable
