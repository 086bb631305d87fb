import Verif.Datatype.Map

namespace Verif.Datatype
namespace MapM
variable {K : Type} [DecidableEq K]

/-- What is assumed of the configuration: 32-bit hashes, and items no larger than a slab (4 MB, Slab.h). -/
structure CfgOK (cfg : MapCfg K) : Prop where
  hash : ∀ k, cfg.hash k < 4294967296
  es : 0 < cfg.es
  item : cfg.maxItem ≤ 4194304

structure MapRep (cfg : MapCfg K) (it : MapItem K) (C : Contents K) : Prop where
  inv : HT.Inv cfg.hash it.ht
  coh : Coh cfg.E it.bufs (HT.Has it.ht) C
  size : 8 + it.ht.cap * cfg.es ≤ cfg.maxItem

variable {cfg : MapCfg K} {it : MapItem K} {C : Contents K}

theorem MapRep.nn (h : MapRep cfg it C) : ∀ k a, HT.Has it.ht k a → isNull a = false :=
  fun _ _ ha => h.coh.not_null ha

theorem cap_le (hc : CfgOK cfg) (h : MapRep cfg it C) : it.ht.cap ≤ 4194304 := by
  have h1 := h.size; have h2 := hc.item; have h3 := hc.es
  have : it.ht.cap * 1 ≤ it.ht.cap * cfg.es := Nat.mul_le_mul_left _ h3
  omega

theorem cloneItem_rep (hc : CfgOK cfg) (h : MapRep cfg it C) {n : Nat} (h1 : it.ht.cap ≤ n) (h2 : n ≤ it.ht.cap * 2)
    (o : Orc) :
    (cloneItem cfg it n o = none ∧
      ¬ (o.ht = true ∧ (∀ i, o.clone i = true) ∧ 8 + n * cfg.es ≤ cfg.maxHT ∧ 8 + n * cfg.es ≤ cfg.maxItem)) ∨
    (∃ it', cloneItem cfg it n o = some it' ∧ MapRep cfg it' C ∧ it'.ht.cap = n ∧ it'.ht.num = it.ht.num ∧
      it'.bufs = it.bufs) := by
  have hcap := cap_le hc h
  have hitem := hc.item
  obtain ⟨t', c1, c2, c3, c4, c5⟩ := HT.copy_spec hc.hash h.inv h.nn (cap := n) h1 (by omega)
  have hu : u32 n = n := by unfold u32; omega
  have hrep : 8 + n * cfg.es ≤ cfg.maxItem → MapRep cfg ⟨t', it.bufs⟩ C := by
    intro hs
    exact ⟨c2, h.coh.congr c5, by rw [c3]; exact hs⟩
  unfold cloneItem copyHashTable computeStorageSize
  dsimp only
  by_cases g1 : 8 + n * cfg.es > 4294967295
  · left
    rw [if_pos g1]
    exact ⟨rfl, by rintro ⟨_, _, _, hh⟩; omega⟩
  · rw [if_neg g1]
    dsimp only
    by_cases g2 : 8 + n * cfg.es > cfg.maxHT
    · left
      rw [if_pos g2]
      exact ⟨rfl, by rintro ⟨_, _, hh, _⟩; omega⟩
    · rw [if_neg g2]
      by_cases g3 : 8 + n * cfg.es ≤ cfg.maxItem
      · cases g4 : o.ht with
        | false => left; simp
        | true =>
          have hcond : (true && decide (8 + n * cfg.es ≤ cfg.maxItem)) = true := by rw [decide_eq_true g3]; rfl
          rw [if_pos hcond, hu, c1]
          dsimp only
          cases g5 : BufMgr.clone it.bufs o with
          | none =>
            left
            refine ⟨rfl, ?_⟩
            rintro ⟨_, hh, _⟩
            rw [clone_ok hh] at g5; cases g5
          | some r =>
            right
            have := clone_some g5
            subst this
            exact ⟨_, rfl, hrep g3, c3, c4, rfl⟩
      · left
        have hcond : ¬ ((o.ht && decide (8 + n * cfg.es ≤ cfg.maxItem)) = true) := by
          rw [decide_eq_false g3, Bool.and_false]; exact Bool.false_ne_true
        rw [if_neg hcond]
        exact ⟨rfl, fun hh => g3 hh.2.2.2⟩

theorem reindex_spec (hc : CfgOK cfg) {bufs : List Buffer} (f : Nat → K) : ∀ (l : List Nat) (t : HT K),
    HT.Inv cfg.hash t → (∀ k a, HT.Has t k a → isNull a = false) →
    (∀ a ∈ l, ∃ p, BufMgr.get bufs a = some p ∧ f a = loadKey cfg.E bufs p) →
    (∀ a ∈ l, isNull a = false) → (l.map f).Nodup → (∀ a ∈ l, ∃ b, HT.Has t (f a) b) →
    (t.num + 1 = t.cap ∧ l ≠ [] ∧ reindex cfg bufs l t = .broken ⟨t, bufs⟩) ∨
    (∃ t', (t.num + 1 < t.cap ∨ l = []) ∧ reindex cfg bufs l t = .ok ⟨t', bufs⟩ ∧ HT.Inv cfg.hash t' ∧
      t'.cap = t.cap ∧ t'.num = t.num ∧
      ∀ k a, HT.Has t' k a ↔ (a ∈ l ∧ f a = k) ∨ (k ∉ l.map f ∧ HT.Has t k a)) := by
  intro l
  induction l with
  | nil =>
    intro t ht hnn _ _ _ _
    exact Or.inr ⟨t, Or.inr rfl, rfl, ht, rfl, rfl, by simp⟩
  | cons a l ih =>
    intro t ht hnn hget hnull hnd hhas
    obtain ⟨p, hp, hf⟩ := hget a List.mem_cons_self
    unfold reindex
    rw [hp]
    dsimp only
    rw [← hf]
    rcases HT.insertOrReplace_spec hc.hash ht (f a) a (hnull a List.mem_cons_self) hnn with
      ⟨g1, g2⟩ | ⟨g1, t1, old, g2, g3, g4, g5, g6⟩
    · left
      rw [g2]
      exact ⟨g1, by simp, rfl⟩
    · right
      rw [g2]
      dsimp only
      have hold : isNull old = false ∧ t1.num = t.num := by
        rcases g6 with ⟨_, h1, h2⟩ | ⟨h1, _, _⟩
        · exact ⟨h1, h2⟩
        · obtain ⟨b, hb⟩ := hhas a List.mem_cons_self
          exact absurd hb (h1 b)
      rw [hold.1]
      rw [List.map_cons, List.nodup_cons] at hnd
      have hne : ∀ a' ∈ l, f a' ≠ f a := by
        intro a' ha' he
        exact hnd.1 (List.mem_map.mpr ⟨a', ha', he⟩)
      have hnn1 : ∀ k b, HT.Has t1 k b → isNull b = false := by
        intro k b hb
        rcases (g5 k b).mp hb with ⟨_, rfl⟩ | ⟨_, hb⟩
        · exact hnull b List.mem_cons_self
        · exact hnn k b hb
      rcases ih t1 g3 hnn1 (fun x hx => hget x (List.mem_cons_of_mem _ hx))
        (fun x hx => hnull x (List.mem_cons_of_mem _ hx)) hnd.2
        (fun x hx => by
          obtain ⟨b, hb⟩ := hhas x (List.mem_cons_of_mem _ hx)
          exact ⟨b, (g5 _ _).mpr (Or.inr ⟨hne x hx, hb⟩)⟩) with ⟨k1, _, _⟩ | ⟨t', _, k2, k3, k4, k5, k6⟩
      · omega
      · refine ⟨t', Or.inl g1, ?_, k3, by rw [k4, g4], by rw [k5, hold.2], ?_⟩
        · rw [if_neg (by simp)]; exact k2
        · intro k b
          rw [k6, g5]
          simp only [List.mem_cons, List.map_cons, not_or]
          constructor
          · rintro (⟨h1, h2⟩ | ⟨h1, ⟨h2, h3⟩ | ⟨h2, h3⟩⟩)
            · exact Or.inl ⟨Or.inr h1, h2⟩
            · exact Or.inl ⟨Or.inl h3, by rw [h3, h2]⟩
            · exact Or.inr ⟨⟨h2, h1⟩, h3⟩
          · rintro (⟨h1 | h1, h2⟩ | ⟨⟨h1, h2⟩, h3⟩)
            · subst h1
              exact Or.inr ⟨by rw [← h2]; exact hnd.1, Or.inl ⟨h2.symm, rfl⟩⟩
            · exact Or.inl ⟨h1, h2⟩
            · exact Or.inr ⟨h2, Or.inr ⟨h1, h3⟩⟩

theorem compactItem_rep (hc : CfgOK cfg) (h : MapRep cfg it C) (junk : Mem) :
    (it.ht.num + 1 = it.ht.cap ∧ ∃ it', compactItem cfg it junk = .broken it') ∨
    (∃ it', compactItem cfg it junk = .ok it' ∧ MapRep cfg it' C ∧ it'.ht.cap = it.ht.cap ∧
      it'.ht.num = it.ht.num ∧ it'.bufs.length = it.bufs.length) := by
  obtain ⟨bufs', l, c1, c2, c3, c4, c5⟩ := h.coh.compacted junk
  let f : Nat → K := fun a => match BufMgr.get bufs' a with
    | some p => loadKey cfg.E bufs' p
    | none => cfg.E.dec []
  have hf : ∀ a p, BufMgr.get bufs' a = some p → f a = loadKey cfg.E bufs' p := by
    intro a p hp; simp only [f, hp]
  obtain ⟨d1, d2, d3, d4⟩ := c5 f (fun a _ p hp => hf a p hp)
  unfold compactItem
  rw [c1]
  dsimp only
  rw [c2]
  dsimp only
  rcases reindex_spec hc f l it.ht h.inv h.nn
    (fun a ha => by obtain ⟨p, hp⟩ := c4 a ha; exact ⟨p, hp, hf a p hp⟩) d3 d1
    (fun a ha => (d2 (f a)).mp ⟨a, ha, rfl⟩) with ⟨g1, _, g2⟩ | ⟨t', _, g2, g3, g4, g5, g6⟩
  · left
    exact ⟨g1, _, g2⟩
  · right
    refine ⟨_, g2, ⟨g3, ?_, by dsimp only; rw [g4]; exact h.size⟩, g4, g5, ?_⟩
    · apply d4
      intro k a
      rw [g6]
      constructor
      · rintro (hh | ⟨h1, h2⟩)
        · exact hh
        · obtain ⟨x, hx, hxk⟩ := (d2 k).mpr ⟨a, h2⟩
          exact absurd (List.mem_map.mpr ⟨x, hx, hxk⟩) h1
      · exact fun hh => Or.inl hh
    · have := congrArg List.length c3
      simpa using this

theorem autoCompact_rep (hc : CfgOK cfg) (h : MapRep cfg it C) (hs : it.ht.num + 1 < it.ht.cap) (junk : Mem) :
    ∃ it', autoCompact cfg it junk = .ok it' ∧ MapRep cfg it' C ∧ it'.ht.cap = it.ht.cap ∧
      it'.ht.num = it.ht.num ∧ it'.bufs.length = it.bufs.length := by
  obtain ⟨p, hp⟩ := h.coh.pct
  unfold autoCompact
  rw [hp]
  dsimp only
  split
  · rcases compactItem_rep hc h junk with ⟨h1, _⟩ | h1
    · omega
    · exact h1
  · exact ⟨it, rfl, h, rfl, rfl, rfl⟩

/-- The state between the allocation of the new entry and its use. -/
def Pend (cfg : MapCfg K) (it : MapItem K) (C : Contents K) (size addr : Nat) : Prop :=
  (isNull addr = true ∧ MapRep cfg it C) ∨
  (isNull addr = false ∧ ∃ b0, MapRep cfg ⟨it.ht, b0⟩ C ∧ BufMgr.allocate b0 size = (it.bufs, addr))

theorem pend_of_alloc (h : MapRep cfg it C) {size : Nat} (hs : 0 < size) (hu : size < 4294967292) :
    Pend cfg ⟨it.ht, (BufMgr.allocate it.bufs size).1⟩ C size (BufMgr.allocate it.bufs size).2 := by
  cases hn : isNull (BufMgr.allocate it.bufs size).2 with
  | false => exact Or.inr ⟨hn, it.bufs, h, rfl⟩
  | true =>
    refine Or.inl ⟨hn, ?_⟩
    obtain ⟨L, hL⟩ := h.coh
    rcases allocate_live hL.m hs hu with h1 | ⟨a', b', L1, d, h1, h2, _⟩
    · rw [h1]; exact h
    · rw [h1] at hn; rw [hn] at h2; cases h2

theorem null_eq {a : Nat} (h : isNull a = true) : a = nullAddr := by
  unfold isNull at h; exact eq_of_beq h

theorem expand_pend (h : MapRep cfg it C) {size : Nat} (hs : 0 < size) (hu : size < 4294967292) (o : Orc)
    {a0 : Nat} (ha0 : isNull a0 = true) :
    ∃ bufs' addr, (if (BufMgr.expand it.bufs size o).2 = true then
        (some (⟨it.ht, (BufMgr.allocate (BufMgr.expand it.bufs size o).1 size).1⟩,
          (BufMgr.allocate (BufMgr.expand it.bufs size o).1 size).2) : Option (MapItem K × Nat))
      else some (⟨it.ht, (BufMgr.expand it.bufs size o).1⟩, a0)) = some (⟨it.ht, bufs'⟩, addr) ∧
      Pend cfg ⟨it.ht, bufs'⟩ C size addr ∧
      (o.expand = true → o.add = true → 4 + size < kMaxBufferCapacity → it.bufs.length < 1023 → isNull addr = false) := by
  have he : MapRep cfg ⟨it.ht, (BufMgr.expand it.bufs size o).1⟩ C := ⟨h.inv, h.coh.expand size o hu, h.size⟩
  by_cases hx : (BufMgr.expand it.bufs size o).2 = true
  · rw [if_pos hx]
    refine ⟨_, _, rfl, pend_of_alloc he hs hu, ?_⟩
    intro h1 h2 h3 h4
    have := (h.coh.alloc_after_expand hs h3 h1 h2 h4).2
    exact beq_eq_false_iff_ne.mpr this
  · rw [if_neg hx]
    refine ⟨_, _, rfl, Or.inl ⟨ha0, he⟩, ?_⟩
    intro h1 h2 h3 h4
    exact absurd (h.coh.alloc_after_expand hs h3 h1 h2 h4).1 hx

theorem allocPhase_rep (hc : CfgOK cfg) (h : MapRep cfg it C) (cloned : Bool) {size : Nat} (hs : 0 < size)
    (hu : size < 4294967292) (o : Orc) :
    (cloned = false ∧ allocPhase cfg it cloned size o = none ∧
      ¬ (o.ht = true ∧ (∀ i, o.clone i = true) ∧ 8 + it.ht.cap * cfg.es ≤ cfg.maxHT)) ∨
    (∃ it2 moved addr, allocPhase cfg it cloned size o = some (it2, moved, addr) ∧ (moved = true → cloned = false) ∧
      it2.ht.cap = it.ht.cap ∧ it2.ht.num = it.ht.num ∧ Pend cfg it2 C size addr ∧
      (o.expand = true → o.add = true → 4 + size < kMaxBufferCapacity → it.bufs.length < 1023 → isNull addr = false)) := by
  unfold allocPhase
  dsimp only
  have hp := pend_of_alloc h hs hu
  cases hn : isNull (BufMgr.allocate it.bufs size).2 with
  | false =>
    right
    rw [if_neg (by simp)]
    exact ⟨_, _, _, rfl, by simp, rfl, rfl, hp, fun _ _ _ _ => hn⟩
  | true =>
    have hb : (BufMgr.allocate it.bufs size).1 = it.bufs := by
      obtain ⟨L, hL⟩ := h.coh
      rcases allocate_live hL.m hs hu with h1 | ⟨a', b', L1, d, h1, h2, _⟩
      · rw [h1]
      · rw [h1] at hn; rw [hn] at h2; cases h2
    rw [if_pos rfl, hb]
    cases cloned with
    | true =>
      right
      rw [if_pos rfl]
      obtain ⟨bufs', addr, e1, e2, e3⟩ := expand_pend h hs hu o hn
      refine ⟨⟨it.ht, bufs'⟩, false, addr, ?_, by simp, rfl, rfl, e2, e3⟩
      by_cases hx : (BufMgr.expand it.bufs size o).2 = true
      · rw [if_pos hx] at e1 ⊢
        obtain ⟨e4, e5⟩ := Prod.mk.inj (Option.some.inj e1)
        rw [e4, e5]
      · rw [if_neg hx] at e1 ⊢
        obtain ⟨e4, e5⟩ := Prod.mk.inj (Option.some.inj e1)
        rw [e4, e5]
    | false =>
      rw [if_neg (by simp)]
      rcases cloneItem_rep hc (it := ⟨it.ht, it.bufs⟩) h (Nat.le_refl _) (n := it.ht.cap) (by dsimp only; omega) o with
        ⟨g1, g2⟩ | ⟨it', g1, g2, g3, g4, g5⟩
      · left
        rw [g1]
        refine ⟨rfl, rfl, ?_⟩
        rintro ⟨k1, k2, k3⟩
        exact g2 ⟨k1, k2, k3, h.size⟩
      · right
        rw [g1]
        dsimp only
        obtain ⟨bufs', addr, e1, e2, e3⟩ := expand_pend g2 hs hu o hn
        refine ⟨⟨it'.ht, bufs'⟩, true, addr, ?_, by simp, g3, g4, e2, by rw [g5] at e3; exact e3⟩
        by_cases hx : (BufMgr.expand it'.bufs size o).2 = true
        · rw [if_pos hx] at e1 ⊢
          obtain ⟨e4, e5⟩ := Prod.mk.inj (Option.some.inj e1)
          rw [e4, e5]
        · rw [if_neg hx] at e1 ⊢
          obtain ⟨e4, e5⟩ := Prod.mk.inj (Option.some.inj e1)
          rw [e4, e5]

theorem putEntry_rep (hc : CfgOK cfg) {k : K} {v : List Byte} {addr : Nat}
    (hp : Pend cfg it C (cfg.E.ks + v.length) addr) (hn : isNull addr = false)
    (hu : cfg.E.ks + v.length < 4294967292) (hs : it.ht.num + 1 < it.ht.cap) :
    ∃ it' b, putEntry cfg it k v addr = (it', .bool b) ∧ (b = true ↔ ∃ v', C k = some v') ∧
      MapRep cfg it' (fun x => if x = k then some v else C x) := by
  rcases hp with ⟨h1, _⟩ | ⟨_, b0, h1, h2⟩
  · rw [hn] at h1; cases h1
  · obtain ⟨p, g1, g2, _⟩ := h1.coh.insert k v hu h2 hn
    unfold putEntry
    rw [g1]
    dsimp only
    rcases HT.insertOrReplace_spec hc.hash h1.inv k addr hn h1.nn with ⟨k1, _⟩ | ⟨_, t', old, k2, k3, k4, k5, k6⟩
    · exact absurd k1 (by dsimp only; omega)
    · dsimp only at k2 k4 k6
      rw [k2]
      dsimp only
      have hsz : 8 + t'.cap * cfg.es ≤ cfg.maxItem := by rw [k4]; exact h1.size
      obtain ⟨g3, g4⟩ := g2 (HT.Has t') k5
      rcases k6 with ⟨m1, m2, m3⟩ | ⟨m1, m2, m3⟩
      · rw [m2, if_neg (by simp)]
        obtain ⟨bufs3, r1, r2⟩ := g4 old m1
        rw [r1]
        refine ⟨_, _, rfl, ?_, k3, r2, hsz⟩
        simp only [true_iff]
        cases hck : C k with
        | none => exact absurd m1 ((h1.coh.none_iff k).mp hck old)
        | some v' => exact ⟨v', rfl⟩
      · have : isNull old = true := by rw [m2]; rfl
        rw [this, if_pos rfl]
        refine ⟨_, _, rfl, ?_, k3, g3 m1, hsz⟩
        rw [(h1.coh.none_iff k).mpr m1]
        simp

theorem insertTail_spec (hc : CfgOK cfg) {W : World (MapItem K)} {w : SpecW K} (hw : WRep (MapRep cfg) W w)
    (moved : Bool) {it2 : MapItem K} {k : K} {v : List Byte} {addr : Nat}
    (hp : Pend cfg it2 w.now (cfg.E.ks + v.length) addr) (hu : cfg.E.ks + v.length < 4294967292)
    (hs : it2.ht.num + 1 < it2.ht.cap) (W1 : World (MapItem K))
    (hW1 : W1 = if moved then W.push it2 else W.setCur it2) :
    ∃ W' out, insertTail cfg W1 W.accessible moved k v addr = (W', out) ∧
      ((out = .throws ∧ isNull addr = true ∧ ∃ w', Upd w w.now w' ∧ WRep (MapRep cfg) W' w') ∨
       (∃ b, out = .bool b ∧ (b = true ↔ ∃ v', w.now k = some v') ∧
          ∃ w', Upd w (fun x => if x = k then some v else w.now x) w' ∧ WRep (MapRep cfg) W' w')) := by
  have hpub : ∀ it, (if moved && W.accessible then (finW false W1 it).publish else finW false W1 it) =
      finW moved W it := by
    intro it
    cases moved with
    | false =>
      rw [hW1]
      simp [finW, World.setCur]
    | true =>
      rw [hW1]
      cases ha : W.accessible <;> simp [finW, World.setCur, World.push, World.publish, ha]
  have hset : finW false W1 it2 = W1 := by
    rw [hW1]
    cases moved <;> simp [finW, World.setCur, World.push]
  have hcur : (if moved && W.accessible then W1.publish else W1).curItem = some it2 := by
    have hl := hw.curlt
    rw [hW1]
    cases moved with
    | false => simp [World.curItem, World.setCur, hl]
    | true => cases ha : W.accessible <;> simp [World.curItem, World.push, World.publish]
  unfold insertTail
  dsimp only
  cases hn : isNull addr with
  | true =>
    rw [if_pos rfl]
    refine ⟨_, _, rfl, Or.inl ⟨rfl, rfl, ?_⟩⟩
    have hr : MapRep cfg it2 w.now := by
      rcases hp with ⟨_, h1⟩ | ⟨h1, _⟩
      · exact h1
      · rw [hn] at h1; cases h1
    have := finW_rep hw moved hr
    rw [← hpub, hset] at this
    exact this
  | false =>
    rw [if_neg (by simp), hcur]
    dsimp only
    obtain ⟨it', b, e1, e2, e3⟩ := putEntry_rep hc hp hn hu hs (k := k)
    rw [e1]
    refine ⟨_, _, rfl, Or.inr ⟨b, rfl, e2, ?_⟩⟩
    have := finW_rep hw moved e3
    rw [← hpub] at this
    have he : (if moved && W.accessible then W1.publish else W1).setCur it' =
        (if moved && W.accessible then (finW false W1 it').publish else finW false W1 it') := by
      split <;> rfl
    rw [he]
    exact this

/-- What a call of `insertOrReplace` guarantees. -/
def InsOK (cfg : MapCfg K) (w : SpecW K) (k : K) (v : List Byte) (r : World (MapItem K) × MapOut K) : Prop :=
  (r.2 = .throws ∧ ∃ w', Upd w w.now w' ∧ WRep (MapRep cfg) r.1 w') ∨
  (∃ b, r.2 = .bool b ∧ (b = true ↔ ∃ v', w.now k = some v') ∧
    ∃ w', Upd w (fun x => if x = k then some v else w.now x) w' ∧ WRep (MapRep cfg) r.1 w')

/-- The environment grants every allocation. -/
def Orc.grants (o : Orc) : Prop := o.ht = true ∧ (∀ i, o.clone i = true) ∧ o.expand = true ∧ o.add = true

theorem insertRest_inplace (hc : CfgOK cfg) {W : World (MapItem K)} {w : SpecW K} (hw : WRep (MapRep cfg) W w)
    (hcur : W.curItem = some it) (hr : MapRep cfg it w.now) (hs : it.ht.num + 1 < it.ht.cap) (o : Orc) (k : K)
    (v : List Byte) (hu : cfg.E.ks + v.length < 4294967292) :
    InsOK cfg w k v (insertRest cfg W W.accessible false o k v) ∧
    (Orc.grants o → 4 + cfg.E.ks + v.length < kMaxBufferCapacity → it.bufs.length < 1023 →
      8 + it.ht.cap * cfg.es ≤ cfg.maxHT → (insertRest cfg W W.accessible false o k v).2 ≠ .throws) := by
  have hpos := cfg.E.pos
  unfold insertRest
  rw [hcur]
  dsimp only
  obtain ⟨it1, a1, a2, a3, a4, a5⟩ := autoCompact_rep hc hr hs o.junk
  rw [a1]
  dsimp only
  have hw1 : WRep (MapRep cfg) (W.setCur it1) w := hw.keep a2
  have hsz : u32 (cfg.E.ks + v.length) = cfg.E.ks + v.length := by unfold u32; omega
  rw [hsz]
  rcases allocPhase_rep hc a2 false (size := cfg.E.ks + v.length) (by omega) hu o with
    ⟨_, g1, g2⟩ | ⟨it2, moved, addr, g1, g2, g3, g4, g5, g6⟩
  · rw [g1]
    dsimp only
    refine ⟨Or.inl ⟨rfl, w, hw.upd_self, hw1⟩, ?_⟩
    intro ho _ _ hm
    exact absurd ⟨ho.1, ho.2.1, by rw [a3]; exact hm⟩ g2
  · rw [g1]
    dsimp only
    have hacc : (W.setCur it1).accessible = W.accessible := rfl
    rw [← hacc]
    have hif : (if moved = true then insertTail cfg ((W.setCur it1).push it2) (W.setCur it1).accessible true k v addr
        else insertTail cfg ((W.setCur it1).setCur it2) (W.setCur it1).accessible false k v addr) =
        insertTail cfg (if moved then (W.setCur it1).push it2 else (W.setCur it1).setCur it2)
          (W.setCur it1).accessible moved k v addr := by
      cases moved <;> rfl
    rw [hif]
    obtain ⟨W', out, t1, t2⟩ := insertTail_spec hc hw1 moved g5 hu (by omega) _ rfl (k := k) (v := v)
    rw [t1]
    constructor
    · rcases t2 with ⟨t3, _, t4⟩ | t3
      · exact Or.inl ⟨t3, t4⟩
      · exact Or.inr t3
    · intro ho h1 h2 _
      rcases t2 with ⟨_, t3, _⟩ | ⟨b, t3, _⟩
      · rw [g6 ho.2.2.1 ho.2.2.2 (by omega) (by omega)] at t3; cases t3
      · dsimp only; rw [t3]; simp

theorem insertRest_pushed (hc : CfgOK cfg) {W : World (MapItem K)} {w : SpecW K} (hw : WRep (MapRep cfg) W w)
    (hr : MapRep cfg it w.now) (hs : it.ht.num + 1 < it.ht.cap) (o : Orc) (k : K)
    (v : List Byte) (hu : cfg.E.ks + v.length < 4294967292) :
    InsOK cfg w k v (insertRest cfg (W.push it) W.accessible true o k v) ∧
    (Orc.grants o → 4 + cfg.E.ks + v.length < kMaxBufferCapacity → it.bufs.length < 1023 →
      (insertRest cfg (W.push it) W.accessible true o k v).2 ≠ .throws) := by
  have hpos := cfg.E.pos
  unfold insertRest
  have hcur : (W.push it).curItem = some it := by simp [World.curItem, World.push]
  rw [hcur]
  dsimp only
  obtain ⟨it1, a1, a2, a3, a4, a5⟩ := autoCompact_rep hc hr hs o.junk
  rw [a1]
  dsimp only
  have hpp : ∀ x y, (W.push x).setCur y = W.push y := by
    intro x y; simp [World.setCur, World.push]
  have hsz : u32 (cfg.E.ks + v.length) = cfg.E.ks + v.length := by unfold u32; omega
  rw [hsz]
  rcases allocPhase_rep hc a2 true (size := cfg.E.ks + v.length) (by omega) hu o with
    ⟨g0, _⟩ | ⟨it2, moved, addr, g1, g2, g3, g4, g5, g6⟩
  · cases g0
  · have hm : moved = false := by
      cases moved with
      | false => rfl
      | true => cases g2 rfl
    subst hm
    rw [g1]
    dsimp only
    rw [if_neg (by simp), hpp, hpp]
    obtain ⟨W', out, t1, t2⟩ := insertTail_spec hc hw true g5 hu (by omega) (W.push it2) rfl (k := k) (v := v)
    rw [t1]
    constructor
    · rcases t2 with ⟨t3, _, t4⟩ | t3
      · exact Or.inl ⟨t3, t4⟩
      · exact Or.inr t3
    · intro ho h1 h2
      rcases t2 with ⟨_, t3, _⟩ | ⟨b, t3, _⟩
      · rw [g6 ho.2.2.1 ho.2.2.2 (by omega) (by omega)] at t3; cases t3
      · dsimp only; rw [t3]; simp

theorem insertImpl_ok (hc : CfgOK cfg) {W : World (MapItem K)} {w : SpecW K} (hw : WRep (MapRep cfg) W w) (o : Orc)
    (k : K) (v : List Byte) (hu : cfg.E.ks + v.length < 4294967292) :
    InsOK cfg w k v (insertImpl cfg W o k v) ∧
    (∀ it, W.curItem = some it → Orc.grants o → 4 + cfg.E.ks + v.length < kMaxBufferCapacity → it.bufs.length < 1023 →
      8 + it.ht.cap * 2 * cfg.es ≤ cfg.maxHT → cfg.maxHT ≤ cfg.maxItem →
      (insertImpl cfg W o k v).2 ≠ .throws) := by
  obtain ⟨it, hcur, hr⟩ := hw.here
  unfold insertImpl
  rw [hcur]
  dsimp only
  have hinv := hr.inv
  have hpos := hinv.pos
  have hcb := hinv.capb
  have hsp := hinv.space
  by_cases ho : overLimit cfg it.ht = true
  · rw [if_pos ho]
    rcases cloneItem_rep hc hr (n := it.ht.cap * 2) (by omega) (Nat.le_refl _) o with
      ⟨g1, g2⟩ | ⟨it', g1, g2, g3, g4, g5⟩
    · rw [g1]
      refine ⟨Or.inl ⟨rfl, w, hw.upd_self, hw⟩, ?_⟩
      intro it0 h0 hg h1 h2 h3 h4
      cases h0
      exact absurd ⟨hg.1, hg.2.1, h3, by omega⟩ g2
    · rw [g1]
      obtain ⟨h1, h2⟩ := insertRest_pushed hc hw g2 (by omega) o k v hu
      refine ⟨h1, ?_⟩
      intro it0 h0 hg h3 h4 h5 _
      cases h0
      exact h2 hg h3 (by rw [g5]; exact h4)
  · rw [if_neg ho]
    have hs : it.ht.num + 1 < it.ht.cap := by
      unfold overLimit at ho
      simp only [Bool.or_eq_true, decide_eq_true_eq, not_or] at ho
      have hu32 : u32 (4294967295 + it.ht.cap) = it.ht.cap - 1 := by unfold u32; omega
      rw [hu32] at ho
      omega
    obtain ⟨h1, h2⟩ := insertRest_inplace hc hw hcur hr hs o k v hu
    refine ⟨h1, ?_⟩
    intro it0 h0 hg h3 h4 h5 _
    cases h0
    have : it.ht.cap * cfg.es ≤ it.ht.cap * 2 * cfg.es := Nat.mul_le_mul_right _ (by omega)
    exact h2 hg h3 h4 (by omega)

end MapM
end Verif.Datatype
