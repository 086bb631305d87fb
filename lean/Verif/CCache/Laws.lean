import Verif.CCache.Table
import Verif.CCache.FixLemmas
import Verif.CCache.VarInsert

/-! What the table relies on about a bucket, and that both kinds of buckets provide it. -/
namespace Verif.CCache

/-- Laws of a bucket descriptor: `ents` reads a well-formed bucket as a list of entries, most recently
used first; `ok` says which entries can be stored. -/
structure Laws {K V : Type} (D : Desc K V) where
  wf : D.B → Prop
  ents : D.B → List (K × V)
  ok : K → V → Prop
  wf_empty : wf D.empty
  ents_empty : ents D.empty = []
  len : ∀ {b : D.B}, wf b → (ents b).length ≤ D.lim
  valid : ∀ {b : D.B}, wf b → ∀ i : Nat, D.valid b i = true ↔ i < (ents b).length
  get : ∀ {b : D.B}, wf b → ∀ {i : Nat} {e : K × V}, (ents b)[i]? = some e →
    D.key b i = e.1 ∧ D.val b i = e.2
  ok_mem : ∀ {b : D.B}, wf b → ∀ {e : K × V}, e ∈ ents b → ok e.1 e.2
  insert : ∀ {b : D.B}, wf b → ∀ {k : K} {v : V}, ok k v → ∃ q : Nat,
    (D.insert b k v).1 ≠ -1 ∧ wf (D.insert b k v).2.1 ∧
    ents (D.insert b k v).2.1 = (k, v) :: (ents b).take q ∧
    (D.insert b k v).2.2 = ((ents b).drop q).reverse
  promote : ∀ {b : D.B}, wf b → ∀ {i : Nat} {e : K × V}, (ents b)[i]? = some e →
    wf (D.promote b i) ∧ ents (D.promote b i) = e :: (ents b).eraseIdx i
  del : ∀ {b : D.B}, wf b → ∀ {i : Nat}, i < (ents b).length →
    wf (D.del b i) ∧ ents (D.del b i) = (ents b).eraseIdx i
  update : ∀ {b : D.B}, wf b → ∀ {i : Nat} {k : K} {w v : V}, (ents b)[i]? = some (k, w) → ok k v →
    wf (D.update b i v).1 ∧ ∃ keep : List (K × V),
      (ents (D.update b i v).1).Perm ((k, v) :: keep) ∧
      ((ents b).eraseIdx i).Perm (keep ++ (D.update b i v).2)
  cap : ∀ {b : D.B}, wf b → (ents b).length ≤ D.capacity b

/-- The list held by a fixed-size bucket. -/
def fEnts {K V : Type} (c : FCfg K V) (b : Nat → K × V) : List (K × V) :=
  ((List.range c.num).takeWhile fun i => !c.isEmpty (b i).1).map b

theorem FRep.ents {K V : Type} {c : FCfg K V} {b : Nat → K × V} {l} (h : FRep c b l) :
    fEnts c b = l := by
  have hlen := h.len
  have h1 : (List.range c.num).takeWhile (fun i => !c.isEmpty (b i).1) = List.range l.length := by
    have hsplit : List.range c.num = List.range l.length ++
        (List.range (c.num - l.length)).map (l.length + ·) := by
      rw [← List.range_add]; congr 1; omega
    rw [hsplit, List.takeWhile_append_of_pos]
    · rcases Nat.eq_or_lt_of_le hlen with he | hlt
      · simp [he]
      · obtain ⟨m, hm⟩ : ∃ m, c.num - l.length = m + 1 := ⟨c.num - l.length - 1, by omega⟩
        rw [hm, List.range_succ_eq_map]
        have := h.free l.length (Nat.le_refl _) hlt
        simp [this]
    · intro i hi
      rw [List.mem_range] at hi
      have := h.used i _ (List.getElem?_eq_getElem hi)
      rw [this.1, this.2]; rfl
  rw [fEnts, h1]
  apply List.ext_getElem?
  intro i
  rw [List.getElem?_map]
  by_cases hi : i < l.length
  · rw [List.getElem?_range hi, List.getElem?_eq_getElem hi]
    simp [(h.used i _ (List.getElem?_eq_getElem hi)).1]
  · rw [List.getElem?_eq_none (by simpa using hi), List.getElem?_eq_none (by omega)]; rfl

/-- Fixed-size buckets satisfy the laws. -/
def fixLaws {K V : Type} (c : FCfg K V) (hn : 0 < c.num) (hz : c.isEmpty c.zero.1 = true) :
    Laws (fixDesc c) where
  wf b := FRep c b (fEnts c b)
  ents b := fEnts c b
  ok k _ := c.isEmpty k = false
  wf_empty := by
    have : FRep c (fun _ => c.zero) [] := ⟨by simp, by simp, fun _ _ _ => hz⟩
    show FRep c (fun _ => c.zero) (fEnts c fun _ => c.zero)
    rw [this.ents]; exact this
  ents_empty := FRep.ents (⟨by simp, by simp, fun _ _ _ => hz⟩ : FRep c (fun _ => c.zero) [])
  len h := h.len
  valid h i := h.valid i
  get h _ _ hi := ⟨by rw [← (h.used _ _ hi).1]; rfl, by rw [← (h.used _ _ hi).1]; rfl⟩
  ok_mem h e he := by
    obtain ⟨i, hi⟩ := List.mem_iff_getElem?.1 he
    exact (h.used i e hi).2
  insert {b} h k v hk := by
    have := fInsert_spec hn h (v := v) hk
    refine ⟨c.num - 1, ?_, ?_, ?_, ?_⟩
    · show (if _ then (1 : Int) else 0) ≠ -1
      split <;> decide
    · show FRep c (fInsert c b k v).2.1 (fEnts c (fInsert c b k v).2.1)
      rw [this.1.ents]; exact this.1
    · exact this.1.ents
    · exact this.2.1
  promote {b} h i e hi := by
    have := fPromote_spec h hi
    refine ⟨?_, this.ents⟩
    show FRep c (fPromote b i) (fEnts c (fPromote b i))
    rw [this.ents]; exact this
  del {b} h i hi := by
    have := fDel_spec hz h hi
    refine ⟨?_, this.ents⟩
    show FRep c (fDel c b i) (fEnts c (fDel c b i))
    rw [this.ents]; exact this
  update {b} h i k w v hi _ := by
    have := fUpdate_spec h (v := v) hi
    refine ⟨?_, (fEnts c b).eraseIdx i, ?_, ?_⟩
    · show FRep c (fUpdate b i v) (fEnts c (fUpdate b i v))
      rw [this.ents]; exact this
    · show (fEnts c (fUpdate b i v)).Perm _
      rw [this.ents]
      have hlt : i < (fEnts c b).length := (List.getElem?_eq_some_iff.1 hi).1
      rw [List.set_eq_take_append_cons_drop, if_pos hlt, List.eraseIdx_eq_take_drop_succ]
      exact List.perm_middle
    · show ((fEnts c b).eraseIdx i).Perm ((fEnts c b).eraseIdx i ++ [])
      rw [List.append_nil]
  cap h := h.len

/-- The list held by a variable-size bucket. -/
def vEnts {K : Type} (b : VB K) : List (K × List Nat) :=
  (List.range b.n).map fun i => (vKey b i, vVal b i)

theorem Rep.ents {K : Type} {c : VCfg} {b : VB K} {l} (h : Rep c b l) : vEnts b = l := by
  apply List.ext_getElem?
  intro i
  rw [vEnts, List.getElem?_map, h.len]
  by_cases hi : i < l.length
  · have := h.key (i := i) (k := l[i].1) (v := l[i].2) (by rw [List.getElem?_eq_getElem hi])
    rw [List.getElem?_range hi, List.getElem?_eq_getElem hi]
    simp [this.1, this.2.1]
  · rw [List.getElem?_eq_none (by simpa using hi), List.getElem?_eq_none (by omega)]; rfl

/-- Values that can be stored. -/
def vOk (c : VCfg) (v : List Nat) : Prop := v.length ≤ c.maxVal ∧ v.length ≤ 255

/-- A well-formed variable-size bucket. -/
def vWf {K : Type} (c : VCfg) (b : VB K) : Prop := Rep c b (vEnts b) ∧ ∀ e ∈ vEnts b, vOk c e.2

theorem vWf_of {K : Type} {c : VCfg} {b : VB K} {l} (h : Rep c b l) (ho : ∀ e ∈ l, vOk c e.2) :
    vWf c b ∧ vEnts b = l := by
  have := h.ents
  exact ⟨⟨by rw [this]; exact h, by rw [this]; exact ho⟩, this⟩

/-- Variable-size buckets satisfy the laws. -/
def varLaws {K : Type} (c : VCfg) (zk : K) (hkb : c.kb < 65536) : Laws (varDesc c zk) where
  wf b := vWf c b
  ents b := vEnts b
  ok _ v := vOk c v
  wf_empty := (vWf_of (rep_empty c _ rfl rfl) (by simp)).1
  ents_empty := (rep_empty c _ rfl rfl : Rep c (varDesc c zk).empty []).ents
  len h := h.1.num
  valid {b} h i := by
    show decide (i < b.n) = true ↔ _
    rw [decide_eq_true_eq, h.1.len]
  get h _ e hi := by
    have := h.1.key (k := e.1) (v := e.2) hi
    exact ⟨this.1, this.2.1⟩
  ok_mem h e he := h.2 e he
  insert {b} h k v hv := by
    obtain ⟨q, h1, h2, h3, h4⟩ := insert_core hkb h.1 k hv.1 hv.2
    have := vWf_of h3 (by
      intro e he
      rcases List.mem_cons.1 he with rfl | he
      · exact hv
      · exact h.2 e (List.mem_of_mem_take he))
    refine ⟨q, ?_, this.1, this.2, h4⟩
    show (vInsert c b k v).1 ≠ -1
    rw [h2]; split <;> decide
  promote {b} h i e hi := by
    have := promote_core h.1 (k := e.1) (v := e.2) hi
    exact vWf_of this (by
      intro e' he
      rcases List.mem_cons.1 he with rfl | he
      · exact h.2 _ (List.mem_of_getElem? hi)
      · exact h.2 e' ((List.eraseIdx_sublist _ _).mem he))
  del {b} h i hi := vWf_of (del_core hkb h.1 hi) (fun e he => h.2 e ((List.eraseIdx_sublist _ _).mem he))
  update {b} h i k w v hi hv := by
    have hw : vOk c w := h.2 _ (List.mem_of_getElem? hi)
    rcases Nat.lt_or_ge w.length v.length with hlt | hge
    · obtain ⟨q, h1, h2, h3⟩ := update_big hkb h.1 hi hlt hv.1 hv.2
      have := vWf_of h2 (by
        intro e' he
        rcases List.mem_cons.1 he with rfl | he
        · exact hv
        · exact h.2 e' ((List.eraseIdx_sublist _ _).mem (List.mem_of_mem_take he)))
      refine ⟨this.1, ((vEnts b).eraseIdx i).take q, ?_, ?_⟩
      · show (vEnts (vUpdate c b i v).1).Perm _
        rw [this.2]
      · show ((vEnts b).eraseIdx i).Perm (_ ++ (vUpdate c b i v).2)
        rw [h3]
        conv => lhs; rw [← List.take_append_drop q ((vEnts b).eraseIdx i)]
        exact List.Perm.append_left _ (List.reverse_perm _).symm
    · have h1 := update_small hkb h.1 hi hw.2 hge
      have := vWf_of h1.1 (by
        intro e' he
        rcases List.mem_cons.1 he with rfl | he
        · exact hv
        · exact h.2 e' ((List.eraseIdx_sublist _ _).mem he))
      refine ⟨this.1, (vEnts b).eraseIdx i, ?_, ?_⟩
      · show (vEnts (vUpdate c b i v).1).Perm _
        rw [this.2]
      · show ((vEnts b).eraseIdx i).Perm (_ ++ (vUpdate c b i v).2)
        rw [h1.2, List.append_nil]
  cap {b} h := by
    show (vEnts b).length ≤ vCapacity c b
    have h1 := h.1.len
    have h2 := h.1.space
    have h3 := h.1.cost
    have h4 := cost_split c (vEnts b)
    simp only [vCapacity]
    rw [← h1] at h2 ⊢
    split
    · omega
    · next h0 =>
      rw [Nat.le_div_iff_mul_le]
      · exact Nat.mul_le_mul_left _ h2
      · have : 0 < ((vEnts b).map fun e => 1 + e.2.length).sum := by
          cases hv : vEnts b with
          | nil => rw [hv] at h1; simp at h1; omega
          | cons e l => simp; omega
        rw [h1]; omega

end Verif.CCache
