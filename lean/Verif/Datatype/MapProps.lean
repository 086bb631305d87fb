import Verif.Datatype.MapLemmas

/-! # C37: a `Map` is a map

Specification, and the theorem that every sequence of calls conforms to it whatever the environment does.
-/

namespace Verif.Datatype
namespace MapM
variable {K : Type} [DecidableEq K]

/-! ## Specification -/

/-- What the user must respect: an entry fits 32 bits; only bytes that exist are read or written; a container
object is attached only to an existing item. -/
def Pre (ks : Nat) (w : SpecW K) : MapOp K → Prop
  | .insert _ v => ks + v.length < 4294967292
  | .insertOrReplace _ v => ks + v.length < 4294967292
  | .find k n => ∀ v, w.now k = some v → n ≤ v.length
  | .iterate n => ∀ k v, w.now k = some v → n k ≤ v.length
  | .poke k j _ => ∃ v, w.now k = some v ∧ j < v.length
  | .attach i => i < w.maps.length
  | _ => True

/-- What a call may do: `Step w op out w'` says that in `w` the call `op` may return `out` and lead to `w'`. -/
inductive Step (w : SpecW K) : MapOp K → MapOut K → SpecW K → Prop
  /-- an existing key is not inserted -/
  | insert_dup {k v v'} : w.now k = some v' → Step w (.insert k v) (.bool false) w
  /-- a new key is inserted, nothing else changes -/
  | insert_new {k v w'} : w.now k = none → Upd w (fun x => if x = k then some v else w.now x) w' →
      Step w (.insert k v) (.bool true) w'
  /-- when there is no memory, the contents stay the same -/
  | insert_throws {k v w'} : w.now k = none → Upd w w.now w' → Step w (.insert k v) .throws w'
  /-- the result of `insertOrReplace` tells whether the key existed -/
  | replace {k v b w'} : (b = true ↔ ∃ v', w.now k = some v') →
      Upd w (fun x => if x = k then some v else w.now x) w' → Step w (.insertOrReplace k v) (.bool b) w'
  | replace_throws {k v w'} : Upd w w.now w' → Step w (.insertOrReplace k v) .throws w'
  /-- the result of `erase` tells whether the key existed; the erasure is in place -/
  | erase {k b} : (b = true ↔ ∃ v', w.now k = some v') →
      Step w (.erase k) (.bool b) { w with maps := w.maps.set w.cur (fun x => if x = k then none else w.now x) }
  | find {k n} : Step w (.find k n) (.found ((w.now k).map (List.take n))) w
  /-- iteration meets every key once, with its value -/
  | iterate {n l} : Keys w.now (l.map Prod.fst) → (∀ k b, (k, b) ∈ l → (w.now k).map (List.take (n k)) = some b) →
      Step w (.iterate n) (.entries l) w
  | size {l} : Keys w.now l → Step w .size (.num l.length) w
  /-- compaction is invisible -/
  | compact : Step w .compact .unit w
  /-- … or breaks the container -/
  | broken {w'} : Step w .compact .broken w'
  | poke {k j x v} : w.now k = some v → Step w (.poke k j x) .unit
      { w with maps := w.maps.set w.cur (fun y => if y = k then some (v.set j x) else w.now y) }
  | publish : Step w .publish .unit { w with cached := some w.cur }
  | unpublish : Step w .unpublish .unit { w with cached := none }
  | attach {i} : Step w (.attach i) .unit { w with cur := i }

/-- A sequence of calls and results that a user may observe, as long as the user respects the preconditions and the
container has not reported to be broken. -/
def Conforms (ks : Nat) : SpecW K → List (MapOp K × MapOut K) → Prop
  | _, [] => True
  | w, (op, out) :: l => Pre ks w op → ∃ w', Step w op out w' ∧ (out ≠ .broken → Conforms ks w' l)

/-! ## Proofs -/

variable {cfg : MapCfg K}

theorem readAll_spec (bufs : List Buffer) (n : K → Nat) : ∀ (l : List Nat),
    (∀ a ∈ l, ∃ p, BufMgr.get bufs a = some p) →
    ∃ r, readAll cfg bufs n l = some r ∧ r.length = l.length ∧
      ∀ (i : Nat) (a : Nat) (p : Nat × Nat), l[i]? = some a → BufMgr.get bufs a = some p →
        r[i]? = some (loadKey cfg.E bufs p,
          BufMgr.load bufs (p.1, p.2 + cfg.E.ks) (n (loadKey cfg.E bufs p))) := by
  intro l
  induction l with
  | nil => intro _; exact ⟨[], rfl, rfl, by intro i a p h; simp at h⟩
  | cons a l ih =>
    intro h
    obtain ⟨p, hp⟩ := h a List.mem_cons_self
    obtain ⟨r, h1, h2, h3⟩ := ih (fun x hx => h x (List.mem_cons_of_mem _ hx))
    unfold readAll
    rw [hp]
    dsimp only
    rw [h1]
    refine ⟨_, rfl, by simp [h2], ?_⟩
    intro i b q hi hq
    cases i with
    | zero =>
      simp only [List.getElem?_cons_zero, Option.some.injEq] at hi ⊢
      subst hi
      rw [hp] at hq; cases hq
      rfl
    | succ i =>
      rw [List.getElem?_cons_succ] at hi ⊢
      exact h3 i b q hi hq

theorem MapRep.keys {it : MapItem K} {C : Contents K} (h : MapRep cfg it C) :
    ∃ l : List K, Keys C l ∧ l.length = it.ht.num := by
  refine ⟨(it.ht.ents.filterMap id).map Prod.fst, ⟨?_, ?_⟩, ?_⟩
  · have hnd : ∀ (es : List (Option (K × Nat))),
        (∀ (i j : Nat) (k : K) (a b : Nat), es[i]? = some (some (k, a)) → es[j]? = some (some (k, b)) → i = j) →
        ((es.filterMap id).map Prod.fst).Nodup := by
      intro es
      induction es with
      | nil => intro _; simp
      | cons e es ih =>
        intro hu
        have htl := ih (fun i j k a b h1 h2 => by
          have := hu (i + 1) (j + 1) k a b (by simpa using h1) (by simpa using h2)
          omega)
        cases e with
        | none => exact htl
        | some e =>
          obtain ⟨k, a⟩ := e
          show (k :: (es.filterMap id).map Prod.fst).Nodup
          rw [List.nodup_cons]
          refine ⟨?_, htl⟩
          intro hm
          obtain ⟨⟨k', b⟩, hb, hk⟩ := List.mem_map.mp hm
          dsimp only at hk; subst hk
          obtain ⟨x, hx, hxe⟩ := List.mem_filterMap.mp hb
          simp only [id] at hxe; subst hxe
          obtain ⟨j, hj⟩ := List.mem_iff_getElem?.mp hx
          have := hu 0 (j + 1) k' a b (by simp) (by simpa using hj)
          omega
    apply hnd
    intro i j k a b h1 h2
    have hi := (List.getElem?_eq_some_iff.mp h1).1
    have hj := (List.getElem?_eq_some_iff.mp h2).1
    have hl := h.inv.len
    exact h.inv.uniq i j k a b (by omega) (by omega) (by simp [HT.at', h1]) (by simp [HT.at', h2])
  · intro k
    have hh : (∃ v, C k = some v) ↔ ∃ a, HT.Has it.ht k a := by
      have := h.coh.none_iff k
      constructor
      · rintro ⟨v, hv⟩
        apply Classical.byContradiction
        intro hno
        rw [this.mpr (fun a ha => hno ⟨a, ha⟩)] at hv; cases hv
      · rintro ⟨a, ha⟩
        cases hc : C k with
        | none => exact absurd ha (this.mp hc a)
        | some v => exact ⟨v, rfl⟩
    rw [hh]
    constructor
    · intro hm
      obtain ⟨⟨k', b⟩, hb, hk⟩ := List.mem_map.mp hm
      dsimp only at hk; subst hk
      obtain ⟨x, hx, hxe⟩ := List.mem_filterMap.mp hb
      simp only [id] at hxe; subst hxe
      obtain ⟨j, hj⟩ := List.mem_iff_getElem?.mp hx
      refine ⟨b, j, ?_, by simp [HT.at', hj]⟩
      have := (List.getElem?_eq_some_iff.mp hj).1
      rw [h.inv.len] at this; exact this
    · rintro ⟨a, p, hp, hpa⟩
      refine List.mem_map.mpr ⟨(k, a), List.mem_filterMap.mpr ⟨some (k, a), ?_, rfl⟩, rfl⟩
      apply List.mem_iff_getElem?.mpr
      refine ⟨p, ?_⟩
      unfold HT.at' at hpa
      cases hg : it.ht.ents[p]? with
      | none => rw [hg] at hpa; cases hpa
      | some x => rw [hg] at hpa; dsimp only at hpa; rw [hpa]
  · rw [List.length_map, h.inv.num]
    unfold HT.occ
    generalize it.ht.ents = es
    induction es with
    | nil => rfl
    | cons e es ih =>
      cases e with
      | none => rw [List.countP_cons_of_neg (by simp)]; exact ih
      | some e =>
        rw [List.countP_cons_of_pos (by simp)]
        show (List.filterMap id es).length + 1 = _
        rw [ih]

theorem findPtr_spec (hc : CfgOK cfg) {it : MapItem K} {C : Contents K} (h : MapRep cfg it C) (k : K) :
    (C k = none ∧ findPtr cfg it k = some none ∧ it.ht.find cfg.hash k = some none) ∨
    (∃ a p v, HT.Has it.ht k a ∧ C k = some v ∧ findPtr cfg it k = some (some p) ∧ BufMgr.get it.bufs a = some p ∧
      (∃ i, it.ht.find cfg.hash k = some (some i)) ∧
      ∀ n, n ≤ v.length → BufMgr.load it.bufs (p.1, p.2 + cfg.E.ks) n = v.take n) := by
  obtain ⟨r, h1, h2, h3⟩ := HT.find_spec hc.hash h.inv k
  unfold findPtr
  rw [h1]
  cases r with
  | none =>
    left
    exact ⟨(h.coh.none_iff k).mpr (h3 rfl), rfl, rfl⟩
  | some i =>
    right
    obtain ⟨hi, a, ha⟩ := h2 i rfl
    have hhas : HT.Has it.ht k a := ⟨i, hi, ha⟩
    obtain ⟨L, hL⟩ := h.coh
    obtain ⟨p, v, r1, r2, r3, r4⟩ := hL.read hhas
    dsimp only
    have hg : it.ht.ents[i]? = some (some (k, a)) := by
      unfold HT.at' at ha
      cases hg : it.ht.ents[i]? with
      | none => rw [hg] at ha; cases ha
      | some x => rw [hg] at ha; dsimp only at ha; rw [ha]
    rw [hg]
    dsimp only
    rw [r2]
    exact ⟨a, p, v, hhas, r1, rfl, r2, ⟨i, rfl⟩, r4⟩

/-- One call conforms. -/
theorem step_ok (hc : CfgOK cfg) {W : World (MapItem K)} {w : SpecW K} (hw : WRep (MapRep cfg) W w) (o : Orc)
    (op : MapOp K) (hpre : Pre cfg.E.ks w op) :
    ∃ w', Step w op (step cfg W o op).2 w' ∧
      ((step cfg W o op).2 ≠ .broken → WRep (MapRep cfg) (step cfg W o op).1 w') := by
  obtain ⟨it, hcur, hr⟩ := hw.here
  cases op with
  | insert k v =>
    unfold step
    rw [hcur]
    dsimp only
    rcases findPtr_spec hc hr k with ⟨g1, _, g3⟩ | ⟨a, p, v', _, g2, _, _, ⟨i, g5⟩, _⟩
    · rw [g3]
      dsimp only
      obtain ⟨h1, _⟩ := insertImpl_ok hc hw o k v hpre
      rcases h1 with ⟨h2, w', h3, h4⟩ | ⟨b, h2, _, w', h4, h5⟩
      · rw [h2]; exact ⟨w', .insert_throws g1 h3, fun _ => h4⟩
      · rw [h2]; exact ⟨w', .insert_new g1 h4, fun _ => h5⟩
    · rw [g5]
      exact ⟨w, .insert_dup g2, fun _ => hw⟩
  | insertOrReplace k v =>
    obtain ⟨h1, _⟩ := insertImpl_ok hc hw o k v hpre
    show ∃ w', Step w (.insertOrReplace k v) (insertImpl cfg W o k v).2 w' ∧
      ((insertImpl cfg W o k v).2 ≠ .broken → WRep (MapRep cfg) (insertImpl cfg W o k v).1 w')
    rcases h1 with ⟨h2, w', h3, h4⟩ | ⟨b, h2, h3, w', h4, h5⟩
    · rw [h2]; exact ⟨w', .replace_throws h3, fun _ => h4⟩
    · rw [h2]; exact ⟨w', .replace h3 h4, fun _ => h5⟩
  | erase k =>
    unfold step
    rw [hcur]
    dsimp only
    obtain ⟨t', a, r1, r2, r3, r4, r5⟩ := HT.remove_spec hc.hash hr.inv k
    unfold eraseItem
    rw [r1]
    dsimp only
    have hsz : 8 + t'.cap * cfg.es ≤ cfg.maxItem := by rw [r3]; exact hr.size
    rcases r5 with ⟨h1, _⟩ | ⟨h1, h2, h3⟩
    · rw [hr.nn k a h1, if_neg (by simp)]
      obtain ⟨bufs', e1, e2⟩ := hr.coh.erase h1 r4
      rw [e1]
      dsimp only
      refine ⟨_, .erase (b := true) ?_, fun _ => hw.setCur ⟨r2, e2, hsz⟩⟩
      cases hck : w.now k with
      | none => exact absurd h1 ((hr.coh.none_iff k).mp hck a)
      | some v' => simp
    · have hn : isNull a = true := by rw [h2]; rfl
      have hck := (hr.coh.none_iff k).mpr h1
      rw [hn, if_pos rfl, h3]
      refine ⟨_, .erase (b := false) (by rw [hck]; simp), fun _ => hw.setCur ?_⟩
      have : (fun x => if x = k then none else w.now x) = w.now := by
        funext x; split
        · rename_i hx; rw [hx, hck]
        · rfl
      rw [this]; exact hr
  | find k n =>
    unfold step
    rw [hcur]
    dsimp only
    rcases findPtr_spec hc hr k with ⟨g1, g2, _⟩ | ⟨a, p, v', _, g2, g3, _, _, g6⟩
    · rw [g2]
      refine ⟨w, ?_, fun _ => hw⟩
      have := Step.find (w := w) (k := k) (n := n)
      rw [g1] at this; exact this
    · rw [g3]
      dsimp only
      refine ⟨w, ?_, fun _ => hw⟩
      have := Step.find (w := w) (k := k) (n := n)
      rw [g2] at this
      rw [g6 n (hpre v' g2)]; exact this
  | iterate n =>
    unfold step
    rw [hcur]
    dsimp only
    obtain ⟨l, i1, i2, i3⟩ := hr.coh.iterate
    rw [i1]
    dsimp only
    obtain ⟨L, hL⟩ := hr.coh
    have hread : ∀ a ∈ l, ∃ k p v, HT.Has it.ht k a ∧ w.now k = some v ∧ BufMgr.get it.bufs a = some p ∧
        loadKey cfg.E it.bufs p = k ∧ ∀ m, m ≤ v.length → BufMgr.load it.bufs (p.1, p.2 + cfg.E.ks) m = v.take m := by
      intro a ha
      obtain ⟨k, hk⟩ := (i3 a).mp ha
      obtain ⟨p, v, r1, r2, r3, r4⟩ := hL.read hk
      exact ⟨k, p, v, hk, r1, r2, r3, r4⟩
    obtain ⟨r, r1, r2, r3⟩ := readAll_spec (cfg := cfg) it.bufs n l
      (fun a ha => by obtain ⟨k, p, v, _, _, hp, _⟩ := hread a ha; exact ⟨p, hp⟩)
    rw [r1]
    dsimp only
    -- element `i` of the result describes address `i` of the iteration
    have hpt : ∀ (i : Nat) (e : K × List Byte), r[i]? = some e → ∃ a, l[i]? = some a ∧ HT.Has it.ht e.1 a ∧
        (w.now e.1).map (List.take (n e.1)) = some e.2 := by
      intro i e he
      have hi : i < l.length := by
        have := (List.getElem?_eq_some_iff.mp he).1; omega
      have hl : l[i]? = some l[i] := List.getElem?_eq_getElem hi
      obtain ⟨k, p, v, h1, h2, h3, h4, h5⟩ := hread l[i] (List.getElem_mem hi)
      have := r3 i _ p hl h3
      rw [he] at this
      cases this
      dsimp only
      rw [h4]
      refine ⟨_, hl, h1, ?_⟩
      rw [h2, h5 _ (hpre k v h2)]; rfl
    refine ⟨w, .iterate ⟨?_, ?_⟩ ?_, fun _ => hw⟩
    · apply List.nodup_iff_getElem?_ne_getElem?.mpr
      intro i j hij hj he
      rw [List.getElem?_map, List.getElem?_map] at he
      rw [List.length_map] at hj
      rw [List.getElem?_eq_getElem hj, List.getElem?_eq_getElem (by omega)] at he
      simp only [Option.map_some, Option.some.injEq] at he
      obtain ⟨a, e1, e2, _⟩ := hpt i _ (List.getElem?_eq_getElem (by omega))
      obtain ⟨b, e3, e4, _⟩ := hpt j _ (List.getElem?_eq_getElem hj)
      rw [he] at e2
      have hab := hr.inv.has_unique e2 e4
      subst hab
      have hlj : j < l.length := by omega
      have := (List.nodup_iff_getElem?_ne_getElem?.mp i2) i j hij hlj
      exact this (by rw [e1, e3])
    · intro k
      constructor
      · intro hk
        obtain ⟨⟨k', b⟩, hb, hbk⟩ := List.mem_map.mp hk
        dsimp only at hbk; subst hbk
        obtain ⟨i, hi⟩ := List.mem_iff_getElem?.mp hb
        obtain ⟨a, _, _, h3⟩ := hpt i _ hi
        cases hck : w.now k' with
        | none => rw [hck] at h3; cases h3
        | some v => exact ⟨v, rfl⟩
      · rintro ⟨v, hv⟩
        obtain ⟨a, ha, _⟩ := hL.h_of_c hv
        obtain ⟨i, hi⟩ := List.mem_iff_getElem?.mp ((i3 a).mpr ⟨k, ha⟩)
        have hilt : i < r.length := by
          have := (List.getElem?_eq_some_iff.mp hi).1; omega
        obtain ⟨a', e1, e2, _⟩ := hpt i _ (List.getElem?_eq_getElem hilt)
        rw [hi] at e1; cases e1
        have := hL.hinj ha e2
        rw [this]
        exact List.mem_map.mpr ⟨_, List.getElem_mem hilt, rfl⟩
    · intro k b hb
      obtain ⟨i, hi⟩ := List.mem_iff_getElem?.mp hb
      obtain ⟨a, _, _, h3⟩ := hpt i _ hi
      exact h3
  | size =>
    unfold step
    rw [hcur]
    dsimp only
    obtain ⟨l, h1, h2⟩ := hr.keys
    rw [← h2]
    exact ⟨w, .size h1, fun _ => hw⟩
  | compact =>
    unfold step
    rw [hcur]
    dsimp only
    rcases compactItem_rep hc hr o.junk with ⟨_, it', h1⟩ | ⟨it', h1, h2, _⟩
    · rw [h1]; exact ⟨w, .broken, fun hh => absurd rfl hh⟩
    · rw [h1]; exact ⟨w, .compact, fun _ => hw.keep h2⟩
  | poke k j x =>
    unfold step
    rw [hcur]
    dsimp only
    obtain ⟨v, hv, hj⟩ := hpre
    rcases findPtr_spec hc hr k with ⟨g1, _, _⟩ | ⟨a, p, v', g1, g2, g3, g4, _, g6⟩
    · rw [hv] at g1; cases g1
    · rw [hv] at g2; cases g2
      rw [g3]
      dsimp only
      obtain ⟨p', h1, h2⟩ := hr.coh.poke g1 hv hj x
      rw [g4] at h1; cases h1
      exact ⟨_, .poke hv, fun _ => hw.setCur ⟨hr.inv, h2, hr.size⟩⟩
  | publish =>
    refine ⟨_, .publish, fun _ => ⟨hw.len, hw.rep, hw.cur, hw.curlt, ?_⟩⟩
    show some W.cur = some w.cur
    rw [hw.cur]
  | unpublish => exact ⟨_, .unpublish, fun _ => ⟨hw.len, hw.rep, hw.cur, hw.curlt, rfl⟩⟩
  | attach i =>
    refine ⟨_, .attach, fun _ => ⟨hw.len, hw.rep, rfl, ?_, hw.cached⟩⟩
    show i < W.items.length
    rw [hw.len]; exact hpre

theorem step_not_ub {w w' : SpecW K} {op : MapOp K} {out : MapOut K} (h : Step w op out w') : out ≠ .ub := by
  cases h <;> simp

theorem run_conforms (hc : CfgOK cfg) : ∀ (l : List (Orc × MapOp K)) {W : World (MapItem K)} {w : SpecW K},
    WRep (MapRep cfg) W w → Conforms cfg.E.ks w (run cfg W l) := by
  intro l
  induction l with
  | nil => intro W w _; trivial
  | cons x l ih =>
    intro W w hw
    obtain ⟨o, op⟩ := x
    unfold run
    dsimp only
    by_cases hpre : Pre cfg.E.ks w op
    · obtain ⟨w', h1, h2⟩ := step_ok hc hw o op hpre
      have hnu := step_not_ub h1
      split
      · rename_i he; exact absurd he hnu
      · exact fun _ => ⟨w', h1, fun hb => ih (h2 hb)⟩
    · split <;> exact fun hp => absurd hp hpre

/-- A freshly created container. -/
theorem create_rep {cfg : MapCfg K} {numEntries numBytes : Nat} {o : Orc} {W : World (MapItem K)}
    (hc : CfgOK cfg) (h : create cfg numEntries numBytes o = some W) (h1 : 0 < numEntries) (h2 : 0 < numBytes) :
    WRep (MapRep cfg) W ⟨[fun _ => none], 0, none⟩ := by
  unfold create computeStorageSize at h
  dsimp only at h
  split at h
  · cases h
  · rename_i size hsize
    split at hsize
    · cases hsize
    · cases hsize
      split at h
      · rename_i hcond
        simp only [Bool.and_eq_true, decide_eq_true_eq] at hcond
        unfold BufMgr.create at h
        split at h
        · cases h
        · rename_i bufs hbufs
          split at hbufs
          · cases hbufs
          · rename_i hb
            split at hbufs
            · cases hbufs
              cases h
              have hitem := hc.item
              have hes := hc.es
              have hmul : numEntries * 1 ≤ numEntries * cfg.es := Nat.mul_le_mul_left _ hes
              obtain ⟨i1, i2⟩ := HT.new_inv (K := K) cfg.hash h1 (by omega)
              have hrep : MapRep cfg ⟨HT.new numEntries, [Buffer.fresh numBytes o.junk]⟩ (fun _ => none) :=
                ⟨i1, Coh.create h2 (by omega) o.junk i2, hcond.2⟩
              refine ⟨rfl, ?_, rfl, by simp, rfl⟩
              intro i it m e1 e2
              dsimp only at e1 e2
              rw [List.getElem?_singleton] at e1 e2
              by_cases hi : i = 0
              · rw [if_pos hi] at e1 e2; cases e1; cases e2; exact hrep
              · rw [if_neg hi] at e1; cases e1
            · cases hbufs
      · cases h

/-- **C37.**  Whatever the user does with a new `Map` (as long as the preconditions are respected) and whatever the
environment does, no call runs into undefined behaviour and all the results are those of a map: what was inserted
last under a key is found, iterated over and counted, erased keys are gone; a call that throws changes nothing; an
insertion that moves the container to a new item leaves the old item as it was and takes its place in the cache. -/
theorem map_is_a_map {cfg : MapCfg K} (hc : CfgOK cfg) {numEntries numBytes : Nat} {o : Orc}
    {W : World (MapItem K)} (h : create cfg numEntries numBytes o = some W) (h1 : 0 < numEntries) (h2 : 0 < numBytes)
    (calls : List (Orc × MapOp K)) :
    Conforms cfg.E.ks ⟨[fun _ => none], 0, none⟩ (run cfg W calls) :=
  run_conforms hc calls (create_rep hc h h1 h2)

/-- The worlds reachable from a new container by calls that respect the preconditions (`w` ranges over the
specification states that the world represents; `reach_rep` shows that there always is one). -/
inductive Reach (cfg : MapCfg K) : World (MapItem K) → Prop
  | create {n b o W} : 0 < n → 0 < b → create cfg n b o = some W → Reach cfg W
  | call {W o op} : Reach cfg W → (∀ w, WRep (MapRep cfg) W w → Pre cfg.E.ks w op) →
      (step cfg W o op).2 ≠ .broken → Reach cfg (step cfg W o op).1

theorem reach_rep (hc : CfgOK cfg) {W : World (MapItem K)} (h : Reach cfg W) : ∃ w, WRep (MapRep cfg) W w := by
  induction h with
  | create h1 h2 h3 => exact ⟨_, create_rep hc h3 h1 h2⟩
  | call _ hpre hb ih =>
    obtain ⟨w, hw⟩ := ih
    obtain ⟨w', _, h2⟩ := step_ok hc hw _ _ (hpre w hw)
    exact ⟨w', h2 hb⟩

/-- **C37**, progress: in every reachable state, an insertion does not throw if the cache grants the allocations, the
entry is below the buffer limit, the index may double and there are fewer than 1023 chained items. -/
theorem insert_succeeds (hc : CfgOK cfg) {W : World (MapItem K)} (h : Reach cfg W) {it : MapItem K}
    (hcur : W.curItem = some it) {o : Orc} (ho : o.ht = true ∧ (∀ i, o.clone i = true) ∧ o.expand = true ∧ o.add = true)
    (k : K) (v : List Byte) (hv : 4 + cfg.E.ks + v.length < 1048476) (hlen : it.bufs.length < 1023)
    (hm : 8 + it.ht.cap * 2 * cfg.es ≤ cfg.maxHT) (hmm : cfg.maxHT ≤ cfg.maxItem) :
    ∃ b, (step cfg W o (.insertOrReplace k v)).2 = .bool b := by
  obtain ⟨w, hw⟩ := reach_rep hc h
  obtain ⟨h1, h2⟩ := insertImpl_ok hc hw o k v (by omega)
  have h3 := h2 it hcur ho hv hlen hm hmm
  rcases h1 with ⟨h4, _⟩ | ⟨b, h4, _⟩
  · exact absurd h4 h3
  · exact ⟨b, h4⟩

/-- **C37**, compaction: in every reachable state an explicit `compact` succeeds when the index has room for one more
entry. -/
theorem compact_succeeds (hc : CfgOK cfg) {W : World (MapItem K)} (h : Reach cfg W) {it : MapItem K}
    (hcur : W.curItem = some it) (hroom : it.ht.num + 1 < it.ht.cap) (o : Orc) :
    (step cfg W o .compact).2 = .unit := by
  obtain ⟨w, hw⟩ := reach_rep hc h
  obtain ⟨it', hcur', hr⟩ := hw.here
  rw [hcur] at hcur'; cases hcur'
  unfold step
  rw [hcur]
  dsimp only
  rcases compactItem_rep hc hr o.junk with ⟨h1, _⟩ | ⟨it', h1, _⟩
  · omega
  · rw [h1]

end MapM
end Verif.Datatype
