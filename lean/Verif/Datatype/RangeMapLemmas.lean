import Verif.Datatype.RangeMap

namespace Verif.Datatype
namespace RMapM
variable {K : Type} [DecidableEq K]

/-- What is assumed of the configuration: `operator<` is a strict total order, compatible with `==`, and items are no
larger than a slab (4 MB, Slab.h). -/
structure CfgOK (cfg : RMCfg K) : Prop where
  lt : StrictTotal cfg.lt
  es : 0 < cfg.es
  item : cfg.maxItem ≤ 4194304

structure RMRep (cfg : RMCfg K) (it : RMItem K) (C : Contents K) : Prop where
  inv : BI.Inv cfg.lt it.idx
  pos : 0 < it.idx.cap
  coh : Coh cfg.E it.bufs (BI.Has it.idx) C
  size : 8 + it.idx.cap * cfg.es ≤ cfg.maxItem

variable {cfg : RMCfg K} {it : RMItem K} {C : Contents K}

theorem RMRep.nn (h : RMRep cfg it C) : ∀ k a, BI.Has it.idx k a → isNull a = false :=
  fun _ _ ha => h.coh.not_null ha

theorem cap_le (hc : CfgOK cfg) (h : RMRep cfg it C) : it.idx.cap ≤ 4194304 := by
  have h1 := h.size; have h2 := hc.item; have h3 := hc.es
  have : it.idx.cap * 1 ≤ it.idx.cap * cfg.es := Nat.mul_le_mul_left _ h3
  omega

theorem reindex_spec (hc : CfgOK cfg) {bufs : List Buffer} (f : Nat → K) : ∀ (l : List Nat) (t : BI K),
    BI.Inv cfg.lt t → (∀ k a, BI.Has t k a → isNull a = false) →
    (∀ a ∈ l, ∃ p, BufMgr.get bufs a = some p ∧ f a = loadKey cfg.E bufs p) →
    (∀ a ∈ l, isNull a = false) → (l.map f).Nodup → (∀ a ∈ l, ∃ b, BI.Has t (f a) b) →
    ∃ t', reindex cfg bufs l t = some t' ∧ BI.Inv cfg.lt t' ∧ t'.cap = t.cap ∧ t'.num = t.num ∧
      ∀ k a, BI.Has t' k a ↔ (a ∈ l ∧ f a = k) ∨ (k ∉ l.map f ∧ BI.Has t k a) := by
  intro l
  induction l with
  | nil =>
    intro t ht hnn _ _ _ _
    exact ⟨t, rfl, ht, rfl, rfl, by simp⟩
  | cons a l ih =>
    intro t ht hnn hget hnull hnd hhas
    obtain ⟨p, hp, hf⟩ := hget a List.mem_cons_self
    unfold reindex
    rw [hp]
    dsimp only
    rw [← hf]
    obtain ⟨t1, old, g2, g3, g4, g5, g6⟩ := BI.insertOrReplace_spec hc.lt ht (f a) a
      (Or.inr (hhas a List.mem_cons_self)) hnn
    rw [g2]
    dsimp only
    have hold : t1.num = t.num := by
      rcases g6 with ⟨_, h1, h2⟩ | ⟨h1, _, _⟩
      · exact h2
      · obtain ⟨b, hb⟩ := hhas a List.mem_cons_self
        exact absurd hb (h1 b)
    rw [List.map_cons, List.nodup_cons] at hnd
    have hne : ∀ a' ∈ l, f a' ≠ f a := by
      intro a' ha' he
      exact hnd.1 (List.mem_map.mpr ⟨a', ha', he⟩)
    have hnn1 : ∀ k b, BI.Has t1 k b → isNull b = false := by
      intro k b hb
      rcases (g5 k b).mp hb with ⟨_, rfl⟩ | ⟨_, hb⟩
      · exact hnull b List.mem_cons_self
      · exact hnn k b hb
    obtain ⟨t', k2, k3, k4, k5, k6⟩ := ih t1 g3 hnn1 (fun x hx => hget x (List.mem_cons_of_mem _ hx))
      (fun x hx => hnull x (List.mem_cons_of_mem _ hx)) hnd.2
      (fun x hx => by
        obtain ⟨b, hb⟩ := hhas x (List.mem_cons_of_mem _ hx)
        exact ⟨b, (g5 _ _).mpr (Or.inr ⟨hne x hx, hb⟩)⟩)
    refine ⟨t', k2, k3, by rw [k4, g4], by rw [k5, hold], ?_⟩
    intro k b
    rw [k6, g5]
    simp only [List.mem_cons, List.map_cons, not_or]
    constructor
    · rintro (⟨h1, h2⟩ | ⟨h1, ⟨h2, h3⟩ | ⟨h2, h3⟩⟩)
      · exact Or.inl ⟨Or.inr h1, h2⟩
      · exact Or.inl ⟨Or.inl h3, by rw [h3, h2]⟩
      · exact Or.inr ⟨⟨h2, h1⟩, h3⟩
    · rintro (⟨h1 | h1, h2⟩ | ⟨⟨h1, h2⟩, h3⟩)
      · subst h1
        exact Or.inr ⟨by rw [← h2]; exact hnd.1, Or.inl ⟨h2.symm, rfl⟩⟩
      · exact Or.inl ⟨h1, h2⟩
      · exact Or.inr ⟨h2, Or.inr ⟨h1, h3⟩⟩

theorem compactItem_rep (hc : CfgOK cfg) (h : RMRep cfg it C) (junk : Mem) :
    ∃ it', compactItem cfg it junk = some it' ∧ RMRep cfg it' C ∧ it'.idx.cap = it.idx.cap ∧
      it'.idx.num = it.idx.num ∧ it'.bufs.length = it.bufs.length := by
  obtain ⟨bufs', l, c1, c2, c3, c4, c5⟩ := h.coh.compacted junk
  let f : Nat → K := fun a => match BufMgr.get bufs' a with
    | some p => loadKey cfg.E bufs' p
    | none => cfg.E.dec []
  have hf : ∀ a p, BufMgr.get bufs' a = some p → f a = loadKey cfg.E bufs' p := by
    intro a p hp; simp only [f, hp]
  obtain ⟨d1, d2, d3, d4⟩ := c5 f (fun a _ p hp => hf a p hp)
  unfold compactItem
  rw [c1]
  dsimp only
  rw [c2]
  dsimp only
  obtain ⟨t', g2, g3, g4, g5, g6⟩ := reindex_spec hc f l it.idx h.inv h.nn
    (fun a ha => by obtain ⟨p, hp⟩ := c4 a ha; exact ⟨p, hp, hf a p hp⟩) d3 d1
    (fun a ha => (d2 (f a)).mp ⟨a, ha, rfl⟩)
  rw [g2]
  refine ⟨_, rfl, ⟨g3, by dsimp only; rw [g4]; exact h.pos, ?_, by dsimp only; rw [g4]; exact h.size⟩, g4, g5, ?_⟩
  · apply d4
    intro k a
    rw [g6]
    constructor
    · rintro (hh | ⟨h1, h2⟩)
      · exact hh
      · obtain ⟨x, hx, hxk⟩ := (d2 k).mpr ⟨a, h2⟩
        exact absurd (List.mem_map.mpr ⟨x, hx, hxk⟩) h1
    · exact fun hh => Or.inl hh
  · have := congrArg List.length c3
    simpa using this

theorem autoCompact_rep (hc : CfgOK cfg) (h : RMRep cfg it C) (junk : Mem) :
    ∃ it', autoCompact cfg it junk = some it' ∧ RMRep cfg it' C ∧ it'.idx.cap = it.idx.cap ∧
      it'.idx.num = it.idx.num ∧ it'.bufs.length = it.bufs.length := by
  obtain ⟨p, hp⟩ := h.coh.pct
  unfold autoCompact
  rw [hp]
  dsimp only
  split
  · exact compactItem_rep hc h junk
  · exact ⟨it, rfl, h, rfl, rfl, rfl⟩

/-- The state between the allocation of the new entry and its use. -/
def Pend (cfg : RMCfg K) (it : RMItem K) (C : Contents K) (size addr : Nat) : Prop :=
  isNull addr = false ∧ ∃ b0, RMRep cfg ⟨it.idx, b0⟩ C ∧ BufMgr.allocate b0 size = (it.bufs, addr)

theorem alloc_null (h : RMRep cfg it C) {size : Nat} (hs : 0 < size) (hu : size < 4294967292)
    (hn : isNull (BufMgr.allocate it.bufs size).2 = true) : (BufMgr.allocate it.bufs size).1 = it.bufs := by
  obtain ⟨L, hL⟩ := h.coh
  rcases allocate_live hL.m hs hu with h1 | ⟨a', b', L1, d, h1, h2, _⟩
  · rw [h1]
  · rw [h1] at hn; rw [hn] at h2; cases h2

theorem cloneIndex_rep (hc : CfgOK cfg) (h : RMRep cfg it C) (ex : Bool) {size : Nat} (hs : 0 < size)
    (hu : size < 4294967292) (o : RMOrc K) :
    (cloneIndexAndAllocate cfg it size ex o = none ∧
      ¬ (o.o.ht = true ∧ (∀ i, o.o.clone i = true) ∧ o.o.expand = true ∧ o.o.add = true ∧
        4 + size < kMaxBufferCapacity ∧ it.bufs.length < 1023 ∧ 8 + it.idx.cap * 2 * cfg.es ≤ cfg.maxItem)) ∨
    (∃ it2 addr, cloneIndexAndAllocate cfg it size ex o = some (it2, addr) ∧ it2.idx.num = it.idx.num ∧
      it2.idx.cap = (if ex then it.idx.cap * 2 else it.idx.cap) ∧ Pend cfg it2 C size addr) := by
  have hcap := cap_le hc h
  have hitem := hc.item
  have hsize := h.size
  obtain ⟨n, hn⟩ : ∃ n, n = if ex then it.idx.cap * 2 else it.idx.cap := ⟨_, rfl⟩
  have hn' : (if ex = true then u32 (it.idx.cap * 2) else it.idx.cap) = n := by
    rw [hn]; split
    · unfold u32; omega
    · rfl
  have hle : it.idx.cap ≤ n := by rw [hn]; split <;> omega
  have hle2 : n * cfg.es ≤ it.idx.cap * 2 * cfg.es := by
    apply Nat.mul_le_mul_right; rw [hn]; split <;> omega
  have hmul : it.idx.cap * 2 * cfg.es = it.idx.cap * cfg.es * 2 := by rw [Nat.mul_right_comm]
  have hst : computeStorageSize cfg n = 8 + n * cfg.es := by
    unfold computeStorageSize u32
    apply Nat.mod_eq_of_lt; omega
  unfold cloneIndexAndAllocate
  dsimp only
  rw [hn', hst]
  by_cases hcond : (o.o.ht && decide (8 + n * cfg.es ≤ cfg.maxItem)) = true
  · rw [if_pos hcond]
    simp only [Bool.and_eq_true, decide_eq_true_eq] at hcond
    obtain ⟨c1, c2, c3, c4⟩ := BI.clone_spec h.inv hle o.ij
    cases g5 : BufMgr.clone it.bufs o.o with
    | none =>
      left
      refine ⟨rfl, ?_⟩
      rintro ⟨_, hh, _⟩
      rw [clone_ok hh] at g5; cases g5
    | some r =>
      have := clone_some g5
      subst this
      dsimp only
      have hrep : RMRep cfg ⟨BI.cloneIndex (BI.new n o.ij) it.idx, it.bufs⟩ C :=
        ⟨c1, by dsimp only; rw [c2]; have := h.pos; omega, h.coh.congr c4, by dsimp only; rw [c2]; exact hcond.2⟩
      cases hnul : isNull (BufMgr.allocate it.bufs size).2 with
      | false =>
        right
        rw [if_neg (by simp)]
        exact ⟨_, _, rfl, c3, by rw [← hn]; exact c2, hnul, it.bufs, hrep, rfl⟩
      | true =>
        rw [if_pos rfl, alloc_null h hs hu hnul]
        have hrep2 : RMRep cfg ⟨BI.cloneIndex (BI.new n o.ij) it.idx, (BufMgr.expand it.bufs size o.o).1⟩ C :=
          ⟨hrep.inv, hrep.pos, hrep.coh.expand size o.o hu, hrep.size⟩
        by_cases hx : (BufMgr.expand it.bufs size o.o).2 = true
        · rw [if_pos hx]
          cases hq : isNull (BufMgr.allocate (BufMgr.expand it.bufs size o.o).1 size).2 with
          | true =>
            left
            rw [if_pos rfl]
            refine ⟨rfl, ?_⟩
            rintro ⟨_, _, h1, h2, h3, h4, _⟩
            have := (h.coh.alloc_after_expand hs h3 h1 h2 h4).2
            have hne : isNull (BufMgr.allocate (BufMgr.expand it.bufs size o.o).1 size).2 = false :=
              beq_eq_false_iff_ne.mpr this
            rw [hq] at hne; cases hne
          | false =>
            right
            rw [if_neg (by simp)]
            exact ⟨_, _, rfl, c3, by rw [← hn]; exact c2, hq, _, hrep2, rfl⟩
        · left
          rw [if_neg hx]
          refine ⟨rfl, ?_⟩
          rintro ⟨_, _, h1, h2, h3, h4, _⟩
          exact absurd (h.coh.alloc_after_expand hs h3 h1 h2 h4).1 hx
  · left
    rw [if_neg hcond]
    refine ⟨rfl, ?_⟩
    rintro ⟨h1, _, _, _, _, _, h2⟩
    apply hcond
    have h3 : 8 + n * cfg.es ≤ cfg.maxItem := by omega
    rw [h1, decide_eq_true h3]; rfl

theorem allocPhase_rep (hc : CfgOK cfg) (h : RMRep cfg it C) {size : Nat} (hs : 0 < size)
    (hu : size < 4294967292) (o : RMOrc K) :
    (allocPhase cfg it size o = none ∧
      ¬ (o.o.ht = true ∧ (∀ i, o.o.clone i = true) ∧ o.o.expand = true ∧ o.o.add = true ∧
        4 + size < kMaxBufferCapacity ∧ it.bufs.length < 1023 ∧ 8 + it.idx.cap * 2 * cfg.es ≤ cfg.maxItem)) ∨
    (∃ it2 moved addr, allocPhase cfg it size o = some (it2, moved, addr) ∧ it2.idx.num < it2.idx.cap ∧
      Pend cfg it2 C size addr) := by
  have hcap := cap_le hc h
  have hnum := h.inv.numb
  have hpos := h.pos
  unfold allocPhase
  by_cases ho : it.idx.overLimit = true
  · rw [if_pos ho]
    rcases cloneIndex_rep hc h true hs hu o with ⟨g1, g2⟩ | ⟨it2, addr, g1, g2, g3, g4⟩
    · left; rw [g1]; exact ⟨rfl, g2⟩
    · right; rw [g1]
      rw [if_pos rfl] at g3
      exact ⟨_, _, _, rfl, by dsimp only; omega, g4⟩
  · rw [if_neg ho]
    have hlt : it.idx.num < it.idx.cap := by
      unfold BI.overLimit at ho
      simp only [Bool.or_eq_true, decide_eq_true_eq, not_or] at ho
      have hu32 : u32 (4294967295 + it.idx.cap) = it.idx.cap - 1 := by unfold u32; omega
      rw [hu32] at ho
      omega
    dsimp only
    cases hn : isNull (BufMgr.allocate it.bufs size).2 with
    | false =>
      right
      rw [if_neg (by simp)]
      exact ⟨_, _, _, rfl, hlt, hn, it.bufs, h, rfl⟩
    | true =>
      rw [if_pos rfl, alloc_null h hs hu hn]
      rcases cloneIndex_rep hc (it := ⟨it.idx, it.bufs⟩) h false hs hu o with ⟨g1, g2⟩ | ⟨it2, addr, g1, g2, g3, g4⟩
      · left; rw [g1]; exact ⟨rfl, g2⟩
      · right; rw [g1]
        rw [if_neg (by simp)] at g3
        dsimp only at g2 g3
        exact ⟨_, _, _, rfl, by dsimp only; omega, g4⟩

theorem putEntry_rep (hc : CfgOK cfg) {k : K} {v : List Byte} {addr : Nat}
    (hp : Pend cfg it C (cfg.E.ks + v.length) addr)
    (hu : cfg.E.ks + v.length < 4294967292) (hs : it.idx.num < it.idx.cap) :
    ∃ it' b, putEntry cfg it k v addr = (it', .bool b) ∧ (b = true ↔ ∃ v', C k = some v') ∧
      RMRep cfg it' (fun x => if x = k then some v else C x) := by
  obtain ⟨hn, b0, h1, h2⟩ := hp
  obtain ⟨p, g1, g2, _⟩ := h1.coh.insert k v hu h2 hn
  unfold putEntry
  rw [g1]
  dsimp only
  obtain ⟨t', old, k2, k3, k4, k5, k6⟩ := BI.insertOrReplace_spec hc.lt h1.inv k addr (Or.inl hs) h1.nn
  dsimp only at k2 k4 k6
  rw [k2]
  dsimp only
  have hsz : 8 + t'.cap * cfg.es ≤ cfg.maxItem := by rw [k4]; exact h1.size
  have hps : 0 < t'.cap := by rw [k4]; exact h1.pos
  obtain ⟨g3, g4⟩ := g2 (BI.Has t') k5
  rcases k6 with ⟨m1, m2, m3⟩ | ⟨m1, m2, m3⟩
  · rw [m2, if_neg (by simp)]
    obtain ⟨bufs3, r1, r2⟩ := g4 old m1
    rw [r1]
    refine ⟨_, _, rfl, ?_, k3, hps, r2, hsz⟩
    simp only [true_iff]
    cases hck : C k with
    | none => exact absurd m1 ((h1.coh.none_iff k).mp hck old)
    | some v' => exact ⟨v', rfl⟩
  · have : isNull old = true := by rw [m2]; rfl
    rw [this, if_pos rfl]
    refine ⟨_, _, rfl, ?_, k3, hps, g3 m1, hsz⟩
    rw [(h1.coh.none_iff k).mpr m1]
    simp

theorem finish_eq (W1 : World (RMItem K)) (it2 it' : RMItem K) (moved : Bool) :
    (if moved = true then
        if W1.accessible = true then (W1.push it2).publish else W1.push it2
      else W1.setCur it2).setCur it' = finW moved W1 it' := by
  cases moved with
  | false => simp [finW, World.setCur]
  | true =>
    cases ha : W1.accessible <;>
      simp [finW, ha, World.push, World.publish, World.setCur]

theorem insertInternal_none {W : World (RMItem K)} {o : RMOrc K} {k : K} {v : List Byte} {it it1 : RMItem K}
    (hcur : W.curItem = some it) (a1 : autoCompact cfg it o.o.junk = some it1)
    (g1 : allocPhase cfg it1 (u32 (cfg.E.ks + v.length)) o = none) :
    insertInternal cfg W o k v = (W.setCur it1, .throws) := by
  unfold insertInternal
  rw [hcur]; dsimp only
  rw [a1]; dsimp only
  rw [g1]

theorem insertInternal_some {W : World (RMItem K)} {o : RMOrc K} {k : K} {v : List Byte} {it it1 it2 : RMItem K}
    {moved : Bool} {addr : Nat} (hcur : W.curItem = some it) (a1 : autoCompact cfg it o.o.junk = some it1)
    (g1 : allocPhase cfg it1 (u32 (cfg.E.ks + v.length)) o = some (it2, moved, addr)) :
    insertInternal cfg W o k v =
      (finW moved (W.setCur it1) (putEntry cfg it2 k v addr).1, (putEntry cfg it2 k v addr).2) := by
  unfold insertInternal
  rw [hcur]; dsimp only
  rw [a1]; dsimp only
  rw [g1]; dsimp only
  rw [finish_eq]

theorem insertInternal_ok (hc : CfgOK cfg) {W : World (RMItem K)} {w : SpecW K} (hw : WRep (RMRep cfg) W w)
    (o : RMOrc K) (k : K) (v : List Byte) (hu : cfg.E.ks + v.length < 4294967292) :
    (((insertInternal cfg W o k v).2 = .throws ∧ WRep (RMRep cfg) (insertInternal cfg W o k v).1 w) ∨
     (∃ b, (insertInternal cfg W o k v).2 = .bool b ∧ (b = true ↔ ∃ v', w.now k = some v') ∧
       ∃ w', Upd w (fun x => if x = k then some v else w.now x) w' ∧
        WRep (RMRep cfg) (insertInternal cfg W o k v).1 w')) ∧
    (∀ it, W.curItem = some it → o.o.ht = true → (∀ i, o.o.clone i = true) → o.o.expand = true → o.o.add = true →
      4 + cfg.E.ks + v.length < kMaxBufferCapacity → it.bufs.length < 1023 →
      8 + it.idx.cap * 2 * cfg.es ≤ cfg.maxItem → (insertInternal cfg W o k v).2 ≠ .throws) := by
  have hpos := cfg.E.pos
  obtain ⟨it, hcur, hr⟩ := hw.here
  obtain ⟨it1, a1, a2, a3, a4, a5⟩ := autoCompact_rep hc hr o.o.junk
  have hw1 : WRep (RMRep cfg) (W.setCur it1) w := hw.keep a2
  have hsz : u32 (cfg.E.ks + v.length) = cfg.E.ks + v.length := Nat.mod_eq_of_lt (by omega)
  rcases allocPhase_rep hc a2 (size := cfg.E.ks + v.length) (by omega) hu o with
    ⟨g1, g2⟩ | ⟨it2, moved, addr, g1, g2, g3⟩
  · have he := insertInternal_none hcur a1 (v := v) (k := k) (by rw [hsz]; exact g1)
    rw [he]
    refine ⟨Or.inl ⟨rfl, hw1⟩, ?_⟩
    intro it0 h0 h1 h2 h3 h4 h5 h6 h7
    rw [hcur] at h0
    cases h0
    exact absurd ⟨h1, h2, h3, h4, by omega, by omega, by rw [a3]; exact h7⟩ g2
  · have he := insertInternal_some hcur a1 (v := v) (k := k) (by rw [hsz]; exact g1)
    obtain ⟨it', b, e1, e2, e3⟩ := putEntry_rep hc g3 hu g2 (k := k)
    rw [e1] at he
    rw [he]
    obtain ⟨w', f1, f2⟩ := finW_rep hw1 moved e3
    refine ⟨Or.inr ⟨b, rfl, e2, w', f1, f2⟩, ?_⟩
    intro _ _ _ _ _ _ _ _ _ hh; cases hh

theorem removeAll_coh : ∀ (ps : List (K × Nat)) (bufs : List Buffer) (H : K → Nat → Prop) (C : Contents K),
    Coh cfg.E bufs H C → (ps.map Prod.fst).Nodup → (∀ p ∈ ps, H p.1 p.2) →
    ∃ bufs', removeAll bufs (ps.map Prod.snd) = some bufs' ∧
      Coh cfg.E bufs' (fun k a => k ∉ ps.map Prod.fst ∧ H k a) (fun x => if x ∈ ps.map Prod.fst then none else C x) := by
  intro ps
  induction ps with
  | nil =>
    intro bufs H C h _ _
    refine ⟨bufs, rfl, ?_⟩
    simpa using h
  | cons p ps ih =>
    intro bufs H C h hnd hH
    obtain ⟨b1, r1, r2⟩ := h.erase (hH p List.mem_cons_self) (H' := fun k b => k ≠ p.1 ∧ H k b) (fun _ _ => Iff.rfl)
    rw [List.map_cons, List.nodup_cons] at hnd
    obtain ⟨b2, r3, r4⟩ := ih b1 _ _ r2 hnd.2 (fun q hq => ⟨by
      intro he; exact hnd.1 (by rw [← he]; exact List.mem_map.mpr ⟨q, hq, rfl⟩), hH q (List.mem_cons_of_mem _ hq)⟩)
    refine ⟨b2, ?_, ?_⟩
    · rw [List.map_cons]
      unfold removeAll
      rw [r1]; exact r3
    · have hC : (fun x => if x ∈ ps.map Prod.fst then none else (fun x => if x = p.1 then none else C x) x) =
          (fun x => if x ∈ (p :: ps).map Prod.fst then none else C x) := by
        funext x
        simp only [List.map_cons, List.mem_cons]
        by_cases h1 : x = p.1 <;> by_cases h2 : x ∈ ps.map Prod.fst <;> simp [h1, h2]
      rw [← hC]
      apply r4.congr
      intro k a
      simp only [List.map_cons, List.mem_cons, not_or]
      exact ⟨fun ⟨⟨h1, h2⟩, h3⟩ => ⟨h2, h1, h3⟩, fun ⟨h2, h1, h3⟩ => ⟨⟨h1, h2⟩, h3⟩⟩

theorem zip_fst_sublist : ∀ (ks : List K) (l : List Nat), ((ks.zip l).map Prod.fst).Sublist ks
  | [], l => by simp
  | k :: ks, [] => by simp
  | k :: ks, a :: l => by
    rw [List.zip_cons_cons, List.map_cons]
    exact (zip_fst_sublist ks l).cons_cons k

theorem removeBeforeItem_rep (hc : CfgOK cfg) (h : RMRep cfg it C) (k : K) (junk : Mem) :
    ∃ (it' : RMItem K) (l : List K), removeBeforeItem cfg it k junk = (it', .num l.length) ∧
      (l.Nodup ∧ ∀ x, x ∈ l ↔ cfg.lt x k = true ∧ ∃ v, C x = some v) ∧
      RMRep cfg it' (fun x => if cfg.lt x k then none else C x) := by
  obtain ⟨r1, r2, r3, r4, r5, ks, r6, r7, r8⟩ := BI.removeBefore_spec hc.lt h.inv k
  obtain ⟨r, hr⟩ : ∃ r, r = it.idx.removeBefore cfg.lt k := ⟨_, rfl⟩
  rw [← hr] at r1 r2 r3 r4 r5 r6 r8
  have hlen : (ks.zip r.2.2).length = r.2.2.length := by rw [r6, r5]
  have hle : r.2.2.length ≤ ks.length := by
    rw [List.length_zip] at hlen; omega
  have hsnd : (ks.zip r.2.2).map Prod.snd = r.2.2 := List.map_snd_zip hle
  have hfst : ((ks.zip r.2.2).map Prod.fst).Nodup := by
    exact (zip_fst_sublist _ _).nodup r7
  have hmem : ∀ x, x ∈ (ks.zip r.2.2).map Prod.fst ↔ cfg.lt x k = true ∧ ∃ v, C x = some v := by
    intro x
    constructor
    · intro hx
      obtain ⟨⟨y, a⟩, hy, rfl⟩ := List.mem_map.mp hx
      obtain ⟨h1, h2⟩ := (r8 y a).mp hy
      refine ⟨h1, ?_⟩
      cases hcy : C y with
      | none => exact absurd h2 ((h.coh.none_iff y).mp hcy a)
      | some v => exact ⟨v, rfl⟩
    · rintro ⟨h1, v, hv⟩
      obtain ⟨L, hL⟩ := h.coh
      obtain ⟨a, ha⟩ := hL.c2h x v hv
      exact List.mem_map.mpr ⟨(x, a), (r8 x a).mpr ⟨h1, ha⟩, rfl⟩
  obtain ⟨bufs', e1, e2⟩ := removeAll_coh (cfg := cfg) (ks.zip r.2.2) it.bufs _ _ h.coh hfst
    (fun p hp => ((r8 p.1 p.2).mp hp).2)
  rw [hsnd] at e1
  have hrep : RMRep cfg ⟨r.1, bufs'⟩ (fun x => if cfg.lt x k then none else C x) := by
    refine ⟨r1, by dsimp only; rw [r2]; exact h.pos, ?_, by dsimp only; rw [r2]; exact h.size⟩
    have hC : (fun x => if x ∈ (ks.zip r.2.2).map Prod.fst then none else C x) =
        (fun x => if cfg.lt x k then none else C x) := by
      funext x
      by_cases hx : cfg.lt x k = true
      · rw [if_pos hx]
        split
        · rfl
        · rename_i hnot
          cases hcx : C x with
          | none => rfl
          | some v => exact absurd ((hmem x).mpr ⟨hx, v, hcx⟩) hnot
      · rw [if_neg hx, if_neg (fun hh => hx ((hmem x).mp hh).1)]
    rw [← hC]
    apply e2.congr
    intro x a
    rw [r3]
    constructor
    · rintro ⟨h1, h2⟩
      exact ⟨fun hh => by rw [((hmem x).mp hh).1] at h1; exact absurd h1 (by simp), h2⟩
    · rintro ⟨h1, h2⟩
      refine ⟨?_, h2⟩
      cases hx : cfg.lt x k with
      | false => rfl
      | true =>
        exfalso; apply h1
        exact List.mem_map.mpr ⟨(x, a), (r8 x a).mpr ⟨hx, h2⟩, rfl⟩
  unfold removeBeforeItem
  rw [← hr]
  dsimp only
  rw [e1]
  obtain ⟨it', a1, a2, _⟩ := autoCompact_rep hc hrep junk
  dsimp only
  rw [a1]
  exact ⟨it', (ks.zip r.2.2).map Prod.fst, by rw [List.length_map, r6], ⟨hfst, hmem⟩, a2⟩

theorem lookupPtr_spec (hc : CfgOK cfg) (h : RMRep cfg it C) (k : K) :
    (C k = none ∧ lookupPtr cfg it k = some none ∧ it.idx.lookup cfg.lt k = it.idx.num) ∨
    (∃ a p v, BI.Has it.idx k a ∧ C k = some v ∧ lookupPtr cfg it k = some (some p) ∧ BufMgr.get it.bufs a = some p ∧
      it.idx.lookup cfg.lt k < it.idx.num ∧ (it.idx.ents (it.idx.lookup cfg.lt k)).1 = k ∧
      ∀ n, n ≤ v.length → BufMgr.load it.bufs (p.1, p.2 + cfg.E.ks) n = v.take n) := by
  unfold lookupPtr
  dsimp only
  rcases BI.lookup_spec hc.lt h.inv k with ⟨h1, h2⟩ | ⟨h1, h2⟩
  · right
    have hhas : BI.Has it.idx k (it.idx.ents (it.idx.lookup cfg.lt k)).2 := ⟨_, h1, Prod.ext h2 rfl⟩
    obtain ⟨L, hL⟩ := h.coh
    obtain ⟨p, v, r1, r2, r3, r4⟩ := hL.read hhas
    rw [if_neg (by omega), r2]
    exact ⟨_, p, v, hhas, r1, rfl, r2, h1, h2, r4⟩
  · left
    rw [if_pos h1]
    exact ⟨(h.coh.none_iff k).mpr h2, rfl, h1⟩

theorem readRange_spec (h : RMRep cfg it C) (n : K → Nat) (hn : ∀ k v, C k = some v → n k ≤ v.length) (j : Nat)
    (hj : j ≤ it.idx.num) : ∀ (f i : Nat), i ≤ j → j - i < f →
    ∃ r, readRange cfg it n j f i = some r ∧ r.length = j - i ∧
      ∀ (x : Nat) (e : K × List Byte), r[x]? = some e → e.1 = (it.idx.ents (i + x)).1 ∧
        (C e.1).map (List.take (n e.1)) = some e.2 := by
  intro f
  induction f with
  | zero => intro i _ hf; omega
  | succ f ih =>
    intro i hi hf
    unfold readRange
    by_cases he : i = j
    · rw [if_pos he]
      exact ⟨[], rfl, by simp; omega, by intro x e hx; simp at hx⟩
    · rw [if_neg he, if_neg (by omega)]
      have hhas : BI.Has it.idx (it.idx.ents i).1 (it.idx.ents i).2 := ⟨i, by omega, rfl⟩
      obtain ⟨L, hL⟩ := h.coh
      obtain ⟨p, v, r1, r2, r3, r4⟩ := hL.read hhas
      rw [r2]
      dsimp only
      obtain ⟨r, e1, e2, e3⟩ := ih (i + 1) (by omega) (by omega)
      rw [e1]
      refine ⟨_, rfl, by simp [e2]; omega, ?_⟩
      intro x e hx
      cases x with
      | zero =>
        simp only [List.getElem?_cons_zero, Option.some.injEq] at hx
        subst hx
        dsimp only
        rw [r3]
        refine ⟨rfl, ?_⟩
        rw [r1, r4 _ (hn _ v r1)]; rfl
      | succ x =>
        rw [List.getElem?_cons_succ] at hx
        have := e3 x e hx
        rw [show i + 1 + x = i + (x + 1) by omega] at this
        exact this

end RMapM
end Verif.Datatype
