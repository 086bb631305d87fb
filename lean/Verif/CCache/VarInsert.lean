import Verif.CCache.VarEvict

/-! Insertion and update in a variable-size bucket. -/
namespace Verif.CCache

variable {K : Type}

/-- Writing a new entry into free space. -/
theorem add_core {c : VCfg} (hkb : c.kb < 65536) {b : VB K} {l : List (K × List Nat)} (h : Rep c b l)
    {k : K} {v : List Nat} (hv : v.length ≤ 255) (hn255 : l.length < 255)
    (hfit : (c.hs + 1 + v.length) + cost c l ≤ c.kb) :
    Rep c
      { n := (b.n + 1) % 256
        total := (b.total + v.length + ds) % 65536
        hdr := put (memmove b.hdr 1 0 b.n) 0
          ⟨k, v.length % 256, (c.kb - (b.total + v.length + ds) % 65536) % 65536⟩
        mem := put (reindex b.hdr (fun _ x => (x + 1) % 256) (List.range b.n)
            (memcpy b.mem (c.kb - (b.total + v.length + ds) % 65536 + ds) v))
          (c.kb - (b.total + v.length + ds) % 65536) 0 }
      ((k, v) :: l) := by
  obtain ⟨segs, hc, hn, hs, hl⟩ := h.chain
  have hlen := h.len
  have hcost := h.cost
  have hcs := cost_split c l
  have hsp := h.space
  have ht : (b.total + v.length + ds) % 65536 = b.total + v.length + 1 := by
    simp only [ds]; rw [Nat.mod_eq_of_lt (by omega)]
  rw [ht]
  obtain ⟨o, ho⟩ : ∃ o, o = c.kb - (b.total + v.length + 1) := ⟨_, rfl⟩
  have ho' : o + 1 + v.length = c.kb - b.total := by omega
  rw [← ho]
  rw [Nat.mod_eq_of_lt (show b.n + 1 < 256 by omega), Nat.mod_eq_of_lt (show v.length < 256 by omega),
    Nat.mod_eq_of_lt (show o < 65536 by omega), show o + ds = o + 1 from rfl]
  let mem1 := memcpy b.mem (o + 1) v
  have hc1 : Chain b.hdr mem1 (c.kb - b.total) segs c.kb := by
    apply hc.frame (fun _ _ => rfl)
    intro a h1 h2
    simp only [mem1, memcpy]; rw [if_neg (by omega)]
  let mem2 := reindex b.hdr (fun _ x => (x + 1) % 256) (List.range b.n) mem1
  have hc2 := hc1.reindex (fun _ x => (x + 1) % 256) (is := List.range b.n) List.nodup_range (by
    intro i hi
    rw [List.mem_range] at hi
    exact hi_ex hl (by omega))
  have hmem2 : ∀ a, a < c.kb - b.total → mem2 a = mem1 a := by
    intro a ha
    apply reindex_other
    intro i hi
    rw [List.mem_range] at hi
    obtain ⟨g, hg, rfl⟩ := hi_ex hl (i := i) (by omega)
    have := (hc.off_mem hg).1
    omega
  let hdr' : Nat → Hdr K := put (memmove b.hdr 1 0 b.n) 0 ⟨k, v.length, o⟩
  have hc3 := hc2.rehead (fun i => i + 1) (hdr' := hdr') (by
    intro g hg
    obtain ⟨y, hy, rfl⟩ := List.mem_map.1 hg
    have hlt := hi_lt hl hy
    have : hdr' (y.hi + 1) = b.hdr y.hi := by
      simp only [hdr', put, memmove]
      rw [if_neg (by omega), if_pos (by omega)]
      congr 1
    split <;> exact this)
  rw [List.map_map] at hc3
  have hstep : ∀ x ∈ segs, ((fun g : Seg K => { g with hi := g.hi + 1 }) ∘ fun g =>
      if g.hi ∈ List.range b.n then { g with si := (g.si + 1) % 256 } else g) x =
      { x with hi := x.hi + 1, si := x.hi + 1 } := by
    intro x hx
    have hlt := hi_lt hl hx
    have hx3 := hs x hx
    simp only [Function.comp]
    rw [if_pos (List.mem_range.2 (by omega)), hx3, Nat.mod_eq_of_lt (by omega)]
  rw [List.map_congr_left hstep] at hc3
  have hc4 : Chain hdr' (put mem2 o 0) (c.kb - b.total)
      (segs.map fun x => { x with hi := x.hi + 1, si := x.hi + 1 }) c.kb := by
    apply hc3.frame (fun _ _ => rfl)
    intro a h1 h2
    simp only [put]; rw [if_neg (by omega)]
  refine ⟨by simp [hlen], by simp; omega, ?_,
    ⟨0, 0, k, v⟩ :: segs.map (fun x => { x with hi := x.hi + 1, si := x.hi + 1 }), ?_, ?_, ?_, ?_⟩
  · simp only [List.length_cons, Nat.mul_add]; omega
  · dsimp only
    rw [← ho]
    refine ⟨?_, ?_, ?_, ?_⟩
    · simp [put]
    · simp [put]
    · intro j hj
      dsimp only at hj ⊢
      have e : put mem2 o 0 (o + 1 + j) = mem1 (o + 1 + j) := by
        simp only [put]; rw [if_neg (by omega)]; exact hmem2 _ (by omega)
      show v[j]? = some (put mem2 o 0 (o + 1 + j))
      rw [e]
      simp only [mem1, memcpy]
      rw [if_pos (by omega)]
      have : o + 1 + j - (o + 1) = j := by omega
      rw [this, List.getElem?_eq_getElem hj]; rfl
    · dsimp only
      rw [ho']; exact hc4
  · rw [List.map_cons, List.nodup_cons, List.map_map]
    constructor
    · simp
    · apply nodup_rename hn
      intro g _ g' _ h
      simpa using h
  · intro g hg
    rcases List.mem_cons.1 hg with rfl | hg
    · rfl
    · obtain ⟨y, hy, rfl⟩ := List.mem_map.1 hg; rfl
  · intro i k' v'
    cases i with
    | zero =>
      simp only [List.getElem?_cons_zero]
      constructor
      · intro he
        obtain ⟨rfl, rfl⟩ := Prod.mk.inj (Option.some.inj he)
        exact ⟨_, List.mem_cons_self .., rfl, rfl, rfl⟩
      · rintro ⟨g, hg, h1, h2, h3⟩
        rcases List.mem_cons.1 hg with rfl | hg
        · dsimp only at h2 h3; rw [h2, h3]
        · obtain ⟨y, hy, rfl⟩ := List.mem_map.1 hg
          simp at h1
    | succ i =>
      rw [List.getElem?_cons_succ, hl]
      constructor
      · rintro ⟨g, hg, rfl, h2, h3⟩
        exact ⟨_, List.mem_cons_of_mem _ (List.mem_map.2 ⟨g, hg, rfl⟩), rfl, h2, h3⟩
      · rintro ⟨g, hg, h1, h2, h3⟩
        rcases List.mem_cons.1 hg with rfl | hg
        · simp at h1
        · obtain ⟨y, hy, rfl⟩ := List.mem_map.1 hg
          exact ⟨y, hy, by simpa using h1, h2, h3⟩

theorem insert_core {c : VCfg} (hkb : c.kb < 65536) {b : VB K} {l : List (K × List Nat)}
    (h : Rep c b l) (k : K) {v : List Nat} (hv : v.length ≤ c.maxVal) (hv' : v.length ≤ 255) :
    ∃ q, Keeps c (c.hs + 1 + v.length) l q ∧
      (vInsert c b k v).1 = (if q < l.length then 1 else 0) ∧
      Rep c (vInsert c b k v).2.1 ((k, v) :: l.take q) ∧
      (vInsert c b k v).2.2 = (l.drop q).reverse := by
  have hreq : v.length + c.hs + ds = c.hs + 1 + v.length := by simp only [ds]; omega
  obtain ⟨q, hk, h1, h2, h3⟩ := evictEntries_spec hkb (req := c.hs + 1 + v.length) h
    (by simp only [VCfg.kb, ds]; omega)
  refine ⟨q, hk, ?_, ?_, ?_⟩
  · simp only [vInsert]
    rw [if_neg (by omega), if_neg (by omega), hreq]
    dsimp only
    by_cases hq : q < l.length
    · rw [if_pos hq, if_pos (h1.2 hq)]
    · rw [if_neg hq, if_neg (fun e => hq (h1.1 e))]
  · simp only [vInsert]
    rw [if_neg (by omega), if_neg (by omega), hreq]
    exact add_core hkb h2 hv' (by rw [List.length_take]; have := hk.2.1; omega) hk.2.2.1
  · simp only [vInsert]
    rw [if_neg (by omega), if_neg (by omega), hreq]
    exact h3

/-- A value that is too big: nothing happens. -/
theorem insert_reject {c : VCfg} {b : VB K} {k : K} {v : List Nat}
    (hv : ¬ (v.length ≤ c.maxVal ∧ v.length ≤ 255)) : vInsert c b k v = (-1, b, []) := by
  simp only [vInsert]
  split
  · rfl
  · rw [if_pos (by omega)]

/-- In-place updates. -/
theorem update_small {c : VCfg} (hkb : c.kb < 65536) {b : VB K} {l : List (K × List Nat)}
    (h : Rep c b l) {pos : Nat} {k : K} {w v : List Nat} (hp : l[pos]? = some (k, w))
    (hw : w.length ≤ 255) (hv : v.length ≤ w.length) :
    Rep c (vUpdate c b pos v).1 ((k, v) :: l.eraseIdx pos) ∧ (vUpdate c b pos v).2 = [] := by
  have hlt : pos < l.length := (List.getElem?_eq_some_iff.1 hp).1
  have hsz := (h.key hp).2.2
  have her : (l.set pos (k, v)).eraseIdx pos = l.eraseIdx pos := List.eraseIdx_set_eq
  have hp' : (l.set pos (k, v))[pos]? = some (k, v) := by simp [hlt]
  simp only [vUpdate]
  by_cases heq : (b.hdr pos).size = v.length
  · rw [if_pos heq]
    refine ⟨?_, rfl⟩
    have := promote_core (same_core h hp heq) hp'
    rwa [her] at this
  · rw [if_neg heq, if_pos (by omega)]
    refine ⟨?_, rfl⟩
    have := promote_core (small_core hkb h hp (v := v) (by omega) (by omega)) hp'
    rw [her] at this
    exact this

/-- Updates with a bigger value: delete, then insert. -/
theorem update_big {c : VCfg} (hkb : c.kb < 65536) {b : VB K} {l : List (K × List Nat)}
    (h : Rep c b l) {pos : Nat} {k : K} {w v : List Nat} (hp : l[pos]? = some (k, w))
    (hvw : w.length < v.length) (hv : v.length ≤ c.maxVal) (hv' : v.length ≤ 255) :
    ∃ q, Keeps c (c.hs + 1 + v.length) (l.eraseIdx pos) q ∧
      Rep c (vUpdate c b pos v).1 ((k, v) :: (l.eraseIdx pos).take q) ∧
      (vUpdate c b pos v).2 = ((l.eraseIdx pos).drop q).reverse := by
  have hlt : pos < l.length := (List.getElem?_eq_some_iff.1 hp).1
  have hk := h.key hp
  simp only [vUpdate]
  rw [if_neg (by omega), if_neg (by omega)]
  obtain ⟨q, h1, h2, h3, h4⟩ := insert_core hkb (del_core hkb h hlt) (b.hdr pos).key hv hv'
  refine ⟨q, h1, ?_, h4⟩
  have : (b.hdr pos).key = k := hk.1
  rw [this] at h3 ⊢
  exact h3

/-- Updates with a value that does not fit in any bucket: the entry is deleted. -/
theorem update_reject {c : VCfg} (hkb : c.kb < 65536) {b : VB K} {l : List (K × List Nat)}
    (h : Rep c b l) {pos : Nat} {k : K} {w v : List Nat} (hp : l[pos]? = some (k, w))
    (hvw : w.length < v.length) (hv : ¬ (v.length ≤ c.maxVal ∧ v.length ≤ 255)) :
    Rep c (vUpdate c b pos v).1 (l.eraseIdx pos) ∧ (vUpdate c b pos v).2 = [] := by
  have hlt : pos < l.length := (List.getElem?_eq_some_iff.1 hp).1
  have hk := h.key hp
  simp only [vUpdate]
  rw [if_neg (by omega), if_neg (by omega), insert_reject hv]
  exact ⟨del_core hkb h hlt, rfl⟩

/-- An empty bucket. -/
theorem rep_empty (c : VCfg) (b : VB K) (hn : b.n = 0) (ht : b.total = 0) : Rep c b [] := by
  refine ⟨hn, by simp, by simp [ht], [], ?_, by simp, by simp, by simp⟩
  simp [Chain, ht]

end Verif.CCache
