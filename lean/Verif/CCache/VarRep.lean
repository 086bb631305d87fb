import Verif.CCache.VarLemmas

/-! The invariant of a variable-size bucket and its preservation by promote, delete and in-place
update. -/
namespace Verif.CCache

variable {K : Type}

/-- Bucket `b` represents the list `l` of entries, most recently used first. -/
structure Rep (c : VCfg) (b : VB K) (l : List (K × List Nat)) : Prop where
  len : b.n = l.length
  num : l.length ≤ 255
  space : b.total + c.hs * l.length ≤ c.kb
  chain : ∃ segs : List (Seg K), Chain b.hdr b.mem (c.kb - b.total) segs c.kb ∧
    (segs.map (·.hi)).Nodup ∧ (∀ g ∈ segs, g.si = g.hi) ∧
    (∀ i k v, l[i]? = some (k, v) ↔ ∃ g ∈ segs, g.hi = i ∧ g.k = k ∧ g.v = v)

theorem Rep.total_eq {c : VCfg} {b : VB K} {l} (h : Rep c b l) {segs : List (Seg K)}
    (hc : Chain b.hdr b.mem (c.kb - b.total) segs c.kb) : b.total = segLen segs := by
  have := hc.len; have := h.space; omega

theorem Rep.key {c : VCfg} {b : VB K} {l} (h : Rep c b l) {i k v} (hi : l[i]? = some (k, v)) :
    vKey b i = k ∧ vVal b i = v ∧ (b.hdr i).size = v.length := by
  obtain ⟨segs, hc, hn, hs, hl⟩ := h.chain
  obtain ⟨g, hg, rfl, rfl, rfl⟩ := (hl i k v).1 hi
  have := hc.off_mem hg
  exact ⟨this.2.2.2.1, hc.val hg, this.2.2.1⟩

/-- Split the data section at a given entry. -/
theorem split_at {l : List (K × List Nat)} {segs : List (Seg K)}
    (hl : ∀ i k v, l[i]? = some (k, v) ↔ ∃ g ∈ segs, g.hi = i ∧ g.k = k ∧ g.v = v)
    {i : Nat} (hi : i < l.length) : ∃ pre g post, segs = pre ++ g :: post ∧ g.hi = i ∧
      l[i]? = some (g.k, g.v) := by
  obtain ⟨g, hg, h1, h2, h3⟩ := (hl i _ _).1 (List.getElem?_eq_getElem hi)
  obtain ⟨pre, post, rfl⟩ := List.append_of_mem hg
  exact ⟨pre, g, post, rfl, h1, by rw [List.getElem?_eq_getElem hi, h2, h3]; rfl⟩

theorem hi_lt {l : List (K × List Nat)} {segs : List (Seg K)}
    (hl : ∀ i k v, l[i]? = some (k, v) ↔ ∃ g ∈ segs, g.hi = i ∧ g.k = k ∧ g.v = v)
    {g} (hg : g ∈ segs) : g.hi < l.length := by
  have := (hl g.hi g.k g.v).2 ⟨g, hg, rfl, rfl, rfl⟩
  exact (List.getElem?_eq_some_iff.1 this).1

theorem hi_ex {l : List (K × List Nat)} {segs : List (Seg K)}
    (hl : ∀ i k v, l[i]? = some (k, v) ↔ ∃ g ∈ segs, g.hi = i ∧ g.k = k ∧ g.v = v)
    {i : Nat} (hi : i < l.length) : ∃ g ∈ segs, g.hi = i := by
  obtain ⟨g, hg, h1, _⟩ := (hl i _ _).1 (List.getElem?_eq_getElem hi)
  exact ⟨g, hg, h1⟩

/-- Injective renaming keeps header positions distinct. -/
theorem nodup_rename {segs : List (Seg K)} {f : Seg K → Nat} (hn : (segs.map (·.hi)).Nodup)
    (hf : ∀ g ∈ segs, ∀ g' ∈ segs, f g = f g' → g.hi = g'.hi) : (segs.map f).Nodup := by
  have hn' : segs.Nodup := hn.of_map
  apply List.Nodup.map_on _ hn'
  intro g hg g' hg' h
  exact List.inj_on_of_nodup_map hn hg hg' (hf g hg g' hg' h)

/-- Promotion when only the promoted entry's stored index may be off. -/
theorem promote_core {c : VCfg} {b : VB K} {l : List (K × List Nat)} {pos : Nat} (h : Rep c b l)
    {k v} (hp : l[pos]? = some (k, v)) : Rep c (vPromote b pos) ((k, v) :: l.eraseIdx pos) := by
  obtain ⟨segs, hc, hn, hs, hl⟩ := h.chain
  have hlt : pos < l.length := (List.getElem?_eq_some_iff.1 hp).1
  have hnum := h.num
  have hlen : ((k, v) :: l.eraseIdx pos).length = l.length := by
    rw [List.length_cons, List.length_eraseIdx_of_lt hlt]; omega
  let f : Nat → Nat := fun i => if i = pos then 0 else if i < pos then i + 1 else i
  let hdr' := put (memmove b.hdr 1 0 pos) 0 (b.hdr pos)
  have hhdr : ∀ i, hdr' (f i) = b.hdr i := by
    intro i
    simp only [hdr', f, put, memmove]
    by_cases h1 : i = pos
    · simp [h1]
    · by_cases h2 : i < pos
      · simp only [h1, h2, if_false, if_true]
        rw [if_neg (by omega), if_pos (by omega)]
        congr 1
      · simp only [h1, h2, if_false]
        rw [if_neg (by omega), if_neg (by omega)]
  have h1 := hc.rehead f (hdr' := hdr') (fun g _ => hhdr g.hi)
  have h2 := h1.reindex (fun i _ => i % 256) (is := List.range (pos + 1)) List.nodup_range (by
    intro i hi
    rw [List.mem_range] at hi
    have : ∃ j, j < l.length ∧ f j = i := by
      by_cases h0 : i = 0
      · exact ⟨pos, hlt, by simp [f, h0]⟩
      · exact ⟨i - 1, by omega, by simp only [f]; rw [if_neg (by omega), if_pos (by omega)]; omega⟩
    obtain ⟨j, hj, hfj⟩ := this
    obtain ⟨g, hg, hgj⟩ := hi_ex hl hj
    exact ⟨_, List.mem_map.2 ⟨g, hg, rfl⟩, by simp [hgj, hfj]⟩)
  rw [List.map_map] at h2
  refine ⟨?_, by omega, ?_, _, h2, ?_, ?_, ?_⟩
  · rw [hlen]; exact h.len
  · rw [hlen]; exact h.space
  · rw [List.map_map]
    apply nodup_rename hn
    intro g hg g' hg' he
    simp only [Function.comp] at he
    have he' : f g.hi = f g'.hi := by
      have := he
      split at this <;> split at this <;> exact this
    simp only [f] at he'
    split at he' <;> split at he' <;> first | omega | (split at he' <;> first | omega | (split at he' <;> omega))
  · intro g hg
    obtain ⟨g0, hg0, rfl⟩ := List.mem_map.1 hg
    have hlt0 := hi_lt hl hg0
    have hs0 := hs g0 hg0
    simp only [Function.comp]
    split
    · next hmem =>
      rw [List.mem_range] at hmem
      dsimp only at hmem ⊢
      rw [Nat.mod_eq_of_lt (by omega)]
    · next hmem =>
      rw [List.mem_range] at hmem
      dsimp only at hmem ⊢
      simp only [f] at hmem ⊢
      split at hmem
      · omega
      · split at hmem
        · omega
        · rename_i h1 h2
          simp [h1, h2, hs0]
  · intro i k' v'
    constructor
    · intro hi
      have : ∃ j, l[j]? = some (k', v') ∧ f j = i := by
        cases i with
        | zero =>
          simp only [List.getElem?_cons_zero] at hi
          exact ⟨pos, by rw [hp]; exact hi, by simp [f]⟩
        | succ i =>
          rw [List.getElem?_cons_succ, List.getElem?_eraseIdx] at hi
          split at hi
          · exact ⟨i, hi, by simp only [f]; rw [if_neg (by omega), if_pos (by omega)]⟩
          · exact ⟨i + 1, hi, by simp only [f]; rw [if_neg (by omega), if_neg (by omega)]⟩
      obtain ⟨j, hj, hfj⟩ := this
      obtain ⟨g, hg, hg1, hg2, hg3⟩ := (hl j k' v').1 hj
      refine ⟨_, List.mem_map.2 ⟨g, hg, rfl⟩, ?_, ?_, ?_⟩
      · simp only [Function.comp]; split <;> simp [hg1, hfj]
      · simp only [Function.comp]; split <;> simp [hg2]
      · simp only [Function.comp]; split <;> simp [hg3]
    · rintro ⟨g', hg', h1, h2, h3⟩
      obtain ⟨g, hg, rfl⟩ := List.mem_map.1 hg'
      have hgl := (hl g.hi g.k g.v).2 ⟨g, hg, rfl, rfl, rfl⟩
      have e1 : f g.hi = i := by
        simp only [Function.comp] at h1
        split at h1 <;> exact h1
      have e2 : g.k = k' := by
        simp only [Function.comp] at h2
        split at h2 <;> exact h2
      have e3 : g.v = v' := by
        simp only [Function.comp] at h3
        split at h3 <;> exact h3
      subst e2 e3
      simp only [f] at e1
      split at e1
      · next hp' =>
        subst e1
        rw [hp', hp] at hgl
        simp [hgl]
      · split at e1
        · subst e1
          rw [List.getElem?_cons_succ, List.getElem?_eraseIdx, if_pos (by assumption)]; exact hgl
        · subst e1
          obtain ⟨m, hm⟩ : ∃ m, g.hi = m + 1 := ⟨g.hi - 1, by omega⟩
          rw [hm, List.getElem?_cons_succ, List.getElem?_eraseIdx, if_neg (by omega), ← hm]; exact hgl

/-- A member of the head part and a member of the tail part have different headers. -/
theorem split_ne {pre post : List (Seg K)} {g : Seg K}
    (hn : ((pre ++ g :: post).map (·.hi)).Nodup) :
    (pre.map (·.hi)).Nodup ∧ (post.map (·.hi)).Nodup ∧ ((pre ++ post).map (·.hi)).Nodup ∧
    (∀ x ∈ pre, x.hi ≠ g.hi) ∧ (∀ x ∈ post, x.hi ≠ g.hi) ∧
    (∀ x ∈ pre, ∀ y ∈ post, x.hi ≠ y.hi) := by
  simp only [List.map_append, List.map_cons, List.nodup_append, List.nodup_cons, List.mem_cons,
    List.mem_map] at *
  grind

theorem del_core {c : VCfg} {b : VB K} {l : List (K × List Nat)} {pos : Nat} (hkb : c.kb < 65536)
    (h : Rep c b l) (hlt : pos < l.length) : Rep c (vDel c b pos) (l.eraseIdx pos) := by
  obtain ⟨segs, hc, hn, hs, hl⟩ := h.chain
  obtain ⟨pre, g, post, rfl, hgi, hgl⟩ := split_at hl hlt
  have hnum := h.num
  have hspace := h.space
  have hlen' : (l.eraseIdx pos).length = l.length - 1 := List.length_eraseIdx_of_lt hlt
  obtain ⟨n1, n2, n3, n4, n5, n6⟩ := split_ne hn
  obtain ⟨m, hpre, hg⟩ := Chain.append.1 hc
  obtain ⟨e1, e2, e3, hpost⟩ := hg
  have hle1 := hpre.le
  have hle2 := hpost.le
  have hn' := h.len
  -- the shift
  have hd : ((b.hdr pos).size + ds) % 65536 = g.v.length + 1 := by
    rw [← hgi, e1]; show (g.v.length + 1) % 65536 = _; rw [Nat.mod_eq_of_lt (by omega)]
  have hch : (b.hdr pos).off - firstOff c b = m - (c.kb - b.total) := by
    rw [← hgi, e1]; rfl
  have hsh := shiftEntries_spec (d := g.v.length + 1) hpre n1 (fun x hx => hs x (by simp [hx])) (by omega)
  obtain ⟨s1, s2, s3, s4⟩ := hsh
  let b1 := shiftEntries b (c.kb - b.total) (g.v.length + 1) (m - (c.kb - b.total))
  have hpost1 : Chain b1.hdr b1.mem (m + (g.v.length + 1)) post c.kb := by
    have := hpost.frame (hdr' := b1.hdr) (mem' := b1.mem)
      (by
        intro x hx
        apply s2
        intro hm
        obtain ⟨y, hy, hyx⟩ := List.mem_map.1 hm
        exact n6 y hy x hx hyx)
      (by intro a h1 h2; exact s4 a (by omega))
    have e : m + (g.v.length + 1) = m + 1 + g.v.length := by omega
    rw [e]; exact this
  have hall : Chain b1.hdr b1.mem (c.kb - (b.total - (g.v.length + 1))) (pre ++ post) c.kb := by
    have : c.kb - (b.total - (g.v.length + 1)) = c.kb - b.total + (g.v.length + 1) := by omega
    rw [this]
    exact Chain.append.2 ⟨_, s1, hpost1⟩
  have hmem' : ∀ x, x ∈ pre ++ post → x ∈ pre ++ g :: post := by
    intro x hx; simp only [List.mem_append, List.mem_cons] at *; tauto
  have hne : ∀ x ∈ pre ++ post, x.hi ≠ pos := by
    intro x hx
    rw [← hgi]
    rcases List.mem_append.1 hx with hx | hx
    · exact n4 x hx
    · exact n5 x hx
  have h2 := hall.reindex (fun _ x => (x + 255) % 256)
    (is := (List.range (b.n - (pos + 1))).map (· + (pos + 1)))
    (List.Nodup.map (fun a b h => by simpa using h) List.nodup_range)
    (by
      intro i hi
      obtain ⟨j, hj, rfl⟩ := List.mem_map.1 hi
      rw [List.mem_range] at hj
      obtain ⟨x, hx, hxi⟩ := hi_ex hl (i := j + (pos + 1)) (by omega)
      refine ⟨x, ?_, hxi⟩
      simp only [List.mem_append, List.mem_cons] at hx ⊢
      rcases hx with hx | rfl | hx
      · exact Or.inl hx
      · omega
      · exact Or.inr hx)
  let f : Nat → Nat := fun i => if pos < i then i - 1 else i
  let hdr' := if pos < b.n - 1 then memmove b1.hdr pos (pos + 1) (b.n - pos - 1) else b1.hdr
  have hhdr : ∀ x ∈ pre ++ post, hdr' (f x.hi) = b1.hdr x.hi := by
    intro x hx
    have hx1 := hne x hx
    have hx2 := hi_lt hl (hmem' x hx)
    simp only [hdr', f]
    by_cases hp : pos < b.n - 1
    · simp only [hp, if_true, memmove]
      by_cases hx3 : pos < x.hi
      · simp only [hx3, if_true]
        rw [if_pos (by omega)]
        congr 1; omega
      · simp only [hx3, if_false]
        rw [if_neg (by omega)]
    · simp only [hp, if_false]
      rw [if_neg (by omega)]
  have h3 := h2.rehead f (hdr' := hdr') (by
    intro x hx
    obtain ⟨y, hy, rfl⟩ := List.mem_map.1 hx
    have := hhdr y hy
    split <;> exact this)
  rw [List.map_map] at h3
  have hstep : ∀ x ∈ pre ++ post, ((fun g => { g with hi := f g.hi }) ∘ fun g =>
      if g.hi ∈ (List.range (b.n - (pos + 1))).map (· + (pos + 1)) then
        { g with si := (g.si + 255) % 256 } else g) x =
      { x with hi := f x.hi, si := f x.hi } := by
    intro x hx
    have hx1 := hne x hx
    have hx2 := hi_lt hl (hmem' x hx)
    have hx3 := hs x (hmem' x hx)
    simp only [Function.comp]
    by_cases hx4 : pos < x.hi
    · rw [if_pos (by
        refine List.mem_map.2 ⟨x.hi - (pos + 1), List.mem_range.2 (by omega), by omega⟩)]
      simp only [f, hx4, if_true]
      congr 1; omega
    · rw [if_neg (by
        intro hm
        obtain ⟨j, _, hj⟩ := List.mem_map.1 hm
        omega)]
      simp only [f, hx4, if_false]
      rw [hx3]
  rw [List.map_congr_left hstep] at h3
  have hdel : vDel c b pos =
      { n := b.n - 1
        total := b.total - (g.v.length + 1)
        hdr := hdr'
        mem := reindex b1.hdr (fun _ x => (x + 255) % 256)
          ((List.range (b.n - (pos + 1))).map (· + (pos + 1))) b1.mem } := by
    simp only [vDel, hd, hch]; rfl
  rw [hdel]
  refine ⟨by dsimp only; rw [hlen', hn'], by omega, ?_, _, h3, ?_, ?_, ?_⟩
  · dsimp only
    rw [hlen']
    have := Nat.mul_le_mul_left c.hs (Nat.sub_le l.length 1)
    omega
  · rw [List.map_map]
    apply nodup_rename n3
    intro x hx y hy he
    have hx1 := hne x hx
    have hy1 := hne y hy
    simp only [Function.comp, f] at he
    split at he <;> split at he <;> omega
  · intro x hx
    obtain ⟨y, hy, rfl⟩ := List.mem_map.1 hx
    rfl
  · intro i k v
    rw [List.getElem?_eraseIdx]
    constructor
    · intro hi
      have : ∃ j, l[j]? = some (k, v) ∧ f j = i ∧ j ≠ pos := by
        split at hi
        · exact ⟨i, hi, by simp only [f]; rw [if_neg (by omega)], by omega⟩
        · exact ⟨i + 1, hi, by simp only [f]; rw [if_pos (by omega)]; omega, by omega⟩
      obtain ⟨j, hj, hfj, hjp⟩ := this
      obtain ⟨x, hx, rfl, rfl, rfl⟩ := (hl j k v).1 hj
      have hx' : x ∈ pre ++ post := by
        simp only [List.mem_append, List.mem_cons] at hx ⊢
        rcases hx with hx | rfl | hx
        · exact Or.inl hx
        · exact absurd hgi hjp
        · exact Or.inr hx
      exact ⟨_, List.mem_map.2 ⟨x, hx', rfl⟩, hfj, rfl, rfl⟩
    · rintro ⟨y, hy, h1, h2, h3⟩
      obtain ⟨x, hx, rfl⟩ := List.mem_map.1 hy
      dsimp only at h1 h2 h3
      subst h2 h3
      have hxl := (hl x.hi x.k x.v).2 ⟨x, hmem' x hx, rfl, rfl, rfl⟩
      have hx1 := hne x hx
      simp only [f] at h1
      split at h1
      · rw [if_neg (by omega)]
        have : i + 1 = x.hi := by omega
        rw [this]; exact hxl
      · rw [if_pos (by omega), ← h1]; exact hxl

/-- Replacing the value of one entry. -/
theorem set_getElem? {l : List (K × List Nat)} {pos : Nat} {x : K × List Nat} (hlt : pos < l.length)
    (i : Nat) : (l.set pos x)[i]? = if i = pos then some x else l[i]? := by
  rw [List.getElem?_set]
  by_cases h : pos = i
  · subst h; simp [hlt]
  · have : i ≠ pos := fun e => h e.symm
    simp [h, this]

/-- Overwriting a value in place with one of the same size. -/
theorem same_core {c : VCfg} {b : VB K} {l : List (K × List Nat)} {pos : Nat}
    (h : Rep c b l) {k w v} (hp : l[pos]? = some (k, w)) (hsz : (b.hdr pos).size = v.length) :
    Rep c { b with mem := memcpy b.mem ((b.hdr pos).off + ds) v } (l.set pos (k, v)) := by
  obtain ⟨segs, hc, hn, hs, hl⟩ := h.chain
  have hlt : pos < l.length := (List.getElem?_eq_some_iff.1 hp).1
  obtain ⟨pre, g, post, rfl, hgi, hgl⟩ := split_at hl hlt
  obtain ⟨n1, n2, n3, n4, n5, n6⟩ := split_ne hn
  obtain ⟨m, hpre, hg⟩ := Chain.append.1 hc
  obtain ⟨e1, e2, e3, hpost⟩ := hg
  have hle1 := hpre.le
  have hle2 := hpost.le
  rw [hp, Option.some.injEq, Prod.mk.injEq] at hgl
  obtain ⟨rfl, rfl⟩ := hgl
  have hlv : v.length = g.v.length := by rw [← hsz, ← hgi, e1]
  have hoff : (b.hdr pos).off = m := by rw [← hgi, e1]
  have hmemE : ∀ a, a < m + 1 ∨ m + 1 + g.v.length ≤ a → memcpy b.mem (m + ds) v a = b.mem a := by
    intro a ha
    rw [show m + ds = m + 1 from rfl]
    simp only [memcpy]; rw [if_neg (by omega)]
  rw [hoff]
  refine ⟨by simpa using h.len, by simpa using h.num, by simpa using h.space,
    pre ++ { g with v := v } :: post, ?_, ?_, ?_, ?_⟩
  · apply Chain.append.2
    refine ⟨m, hpre.frame (fun _ _ => rfl) (fun a _ h2 => hmemE a (by omega)), ?_, ?_, ?_, ?_⟩
    · show b.hdr g.hi = _; rw [e1, hlv]
    · show memcpy b.mem (m + ds) v m = g.si; rw [hmemE m (by omega), e2]
    · intro j hj
      dsimp only at hj ⊢
      rw [show m + ds = m + 1 from rfl]
      simp only [memcpy]
      rw [if_pos (by omega)]
      have : m + 1 + j - (m + 1) = j := by omega
      rw [this, List.getElem?_eq_getElem hj]; rfl
    · dsimp only
      rw [hlv]
      exact hpost.frame (fun _ _ => rfl) (fun a h1 _ => hmemE a (by omega))
  · simpa using hn
  · intro x hx
    simp only [List.mem_append, List.mem_cons] at hx
    rcases hx with hx | rfl | hx
    · exact hs x (by simp [hx])
    · exact hs g (by simp)
    · exact hs x (by simp [hx])
  · intro i k' v'
    rw [set_getElem? hlt]
    simp only [List.mem_append, List.mem_cons] at hl ⊢
    split
    · next hip =>
      subst hip
      constructor
      · intro he
        obtain ⟨rfl, rfl⟩ := Prod.mk.inj (Option.some.inj he)
        exact ⟨_, Or.inr (Or.inl rfl), hgi, rfl, rfl⟩
      · rintro ⟨x, hx | rfl | hx, h1, h2, h3⟩
        · exact absurd (h1.trans hgi.symm) (n4 x hx)
        · dsimp only at h2 h3; rw [← h2, ← h3]
        · exact absurd (h1.trans hgi.symm) (n5 x hx)
    · next hip =>
      rw [hl]
      constructor
      · rintro ⟨x, hx | rfl | hx, h1, h2, h3⟩
        · exact ⟨x, Or.inl hx, h1, h2, h3⟩
        · exact absurd (h1.symm.trans hgi) hip
        · exact ⟨x, Or.inr (Or.inr hx), h1, h2, h3⟩
      · rintro ⟨x, hx | rfl | hx, h1, h2, h3⟩
        · exact ⟨x, Or.inl hx, h1, h2, h3⟩
        · exact absurd (h1.symm.trans hgi) hip
        · exact ⟨x, Or.inr (Or.inr hx), h1, h2, h3⟩

/-- Overwriting a value with a smaller one (before the promotion). -/
def shrinkTo {K : Type} (c : VCfg) (b : VB K) (pos : Nat) (v : List Nat) : VB K :=
  let h := b.hdr pos
  let dist := h.size - v.length
  let mem1 := put (memcpy b.mem (h.off + dist + ds) v) (h.off + dist) (pos % 256)
  let b1 := { b with mem := mem1 }
  let b2 := shiftEntries b1 (firstOff c b) dist (h.off - firstOff c b)
  { b2 with
    hdr := put b2.hdr pos
      { b2.hdr pos with
        off := ((b2.hdr pos).off + dist) % 65536
        size := v.length % 256 }
    total := b2.total - dist }

theorem small_core {c : VCfg} {b : VB K} {l : List (K × List Nat)} {pos : Nat} (hkb : c.kb < 65536)
    (h : Rep c b l) {k w v} (hp : l[pos]? = some (k, w)) (hsz : v.length < (b.hdr pos).size)
    (hv : v.length < 256) :
    Rep c (shrinkTo c b pos v) (l.set pos (k, v)) := by
  obtain ⟨segs, hc, hn, hs, hl⟩ := h.chain
  have hlt : pos < l.length := (List.getElem?_eq_some_iff.1 hp).1
  obtain ⟨pre, g, post, rfl, hgi, hgl⟩ := split_at hl hlt
  obtain ⟨n1, n2, n3, n4, n5, n6⟩ := split_ne hn
  obtain ⟨m, hpre, hg⟩ := Chain.append.1 hc
  obtain ⟨e1, e2, e3, hpost⟩ := hg
  have hle1 := hpre.le
  have hle2 := hpost.le
  have hspace := h.space
  have hnum := h.num
  rw [hp, Option.some.injEq, Prod.mk.injEq] at hgl
  obtain ⟨rfl, rfl⟩ := hgl
  have hsz' : (b.hdr pos).size = g.v.length := by rw [← hgi, e1]
  have hoff : (b.hdr pos).off = m := by rw [← hgi, e1]
  rw [hsz'] at hsz
  obtain ⟨d, hd⟩ : ∃ d, d = g.v.length - v.length := ⟨_, rfl⟩
  let mem1 := put (memcpy b.mem (m + d + 1) v) (m + d) pos
  have hmem1 : ∀ a, a < m + d ∨ m + 1 + g.v.length ≤ a → mem1 a = b.mem a := by
    intro a ha; simp only [mem1, memcpy, put]; rw [if_neg (by omega), if_neg (by omega)]
  let b1 : VB K := { b with mem := mem1 }
  have hpre1 : Chain b1.hdr b1.mem (c.kb - b.total) pre m :=
    hpre.frame (fun _ _ => rfl) (fun a _ h2 => hmem1 a (by omega))
  obtain ⟨s1, s2, s3, s4⟩ := shiftEntries_spec (d := d) hpre1 n1 (fun x hx => hs x (by simp [hx]))
    (by omega)
  let b2 := shiftEntries b1 (c.kb - b.total) d (m - (c.kb - b.total))
  have hb2pos : b2.hdr pos = b.hdr pos := by
    apply s2
    intro hm
    obtain ⟨y, hy, hyx⟩ := List.mem_map.1 hm
    exact n4 y hy (by rw [hgi]; exact hyx)
  have hshrink : shrinkTo c b pos v =
      { b2 with
        hdr := put b2.hdr pos ⟨g.k, v.length, m + d⟩
        total := b.total - d } := by
    have hd' : (b.hdr pos).size - v.length = d := by rw [hsz', hd]
    simp only [shrinkTo, hd']
    rw [Nat.mod_eq_of_lt (show pos < 256 by omega), hoff]
    show ({ b2 with
      hdr := put b2.hdr pos ⟨(b2.hdr pos).key, v.length % 256, ((b2.hdr pos).off + d) % 65536⟩
      total := b2.total - d } : VB K) = _
    rw [hb2pos, ← hgi, e1]
    dsimp only
    rw [Nat.mod_eq_of_lt hv, Nat.mod_eq_of_lt (show m + d < 65536 by omega)]
    rfl
  rw [hshrink]
  refine ⟨by rw [List.length_set]; exact h.len, by simpa using h.num, ?_, pre ++ { g with v := v } :: post, ?_, ?_, ?_, ?_⟩
  · rw [List.length_set]; dsimp only; omega
  · apply Chain.append.2
    have hbase : c.kb - (b.total - d) = c.kb - b.total + d := by omega
    refine ⟨m + d, ?_, ?_, ?_, ?_, ?_⟩
    · dsimp only; rw [hbase]
      apply s1.frame
      · intro x hx
        have := n4 x hx
        rw [hgi] at this
        simp [put, this]
        rfl
      · intro _ _ _; rfl
    · dsimp only; rw [hgi]; simp [put]
    · show b2.mem (m + d) = g.si
      have : b2.mem (m + d) = mem1 (m + d) := s4 _ (by omega)
      rw [this, hs g (by simp), hgi]
      simp [mem1, put]
    · intro j hj
      dsimp only at hj ⊢
      have : b2.mem (m + d + 1 + j) = mem1 (m + d + 1 + j) := s4 _ (by omega)
      rw [this]
      simp only [mem1, put, memcpy]
      rw [if_neg (by omega), if_pos (by omega)]
      have : m + d + 1 + j - (m + d + 1) = j := by omega
      rw [this, List.getElem?_eq_getElem hj]; rfl
    · dsimp only
      have : m + d + 1 + v.length = m + 1 + g.v.length := by omega
      rw [this]
      apply hpost.frame
      · intro x hx
        have h1 := n5 x hx
        rw [hgi] at h1
        simp only [put, h1, if_false]
        apply s2
        intro hm
        obtain ⟨y, hy, hyx⟩ := List.mem_map.1 hm
        exact n6 y hy x hx hyx
      · intro a h1 h2
        have : b2.mem a = mem1 a := s4 _ (by omega)
        show b2.mem a = b.mem a
        rw [this]; exact hmem1 a (by omega)
  · simpa using hn
  · intro x hx
    simp only [List.mem_append, List.mem_cons] at hx
    rcases hx with hx | rfl | hx
    · exact hs x (by simp [hx])
    · exact hs g (by simp)
    · exact hs x (by simp [hx])
  · intro i k' v'
    rw [set_getElem? hlt]
    simp only [List.mem_append, List.mem_cons] at hl ⊢
    split
    · next hip =>
      subst hip
      constructor
      · intro he
        obtain ⟨rfl, rfl⟩ := Prod.mk.inj (Option.some.inj he)
        exact ⟨_, Or.inr (Or.inl rfl), hgi, rfl, rfl⟩
      · rintro ⟨x, hx | rfl | hx, h1, h2, h3⟩
        · exact absurd (h1.trans hgi.symm) (n4 x hx)
        · dsimp only at h2 h3; rw [← h2, ← h3]
        · exact absurd (h1.trans hgi.symm) (n5 x hx)
    · next hip =>
      rw [hl]
      constructor
      · rintro ⟨x, hx | rfl | hx, h1, h2, h3⟩
        · exact ⟨x, Or.inl hx, h1, h2, h3⟩
        · exact absurd (h1.symm.trans hgi) hip
        · exact ⟨x, Or.inr (Or.inr hx), h1, h2, h3⟩
      · rintro ⟨x, hx | rfl | hx, h1, h2, h3⟩
        · exact ⟨x, Or.inl hx, h1, h2, h3⟩
        · exact absurd (h1.symm.trans hgi) hip
        · exact ⟨x, Or.inr (Or.inr hx), h1, h2, h3⟩

end Verif.CCache
