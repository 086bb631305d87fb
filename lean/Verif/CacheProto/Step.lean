import Verif.CacheProto.Eff2
/-! Every step preserves the invariant. -/
namespace Verif.CacheProto
open Verif.Refcount

variable {s s' : State} {i : Nat} {p p' : PC} {a : Addr}

/-- unfold the observers of concrete program counters -/
macro "obs" : tactic => `(tactic| simp only [PC.own, PC.mo, PC.ex, PC.raw, PC.nacc, PC.nlnk, PC.stale, PC.one1, PC.exq,
  PC.iat, PC.kat, PC.dst, PC.lx, PC.ls, PC.borrow, PC.inserting, Cont.old, Cont.kat] at *)

macro "same" : tactic => `(tactic| (constructor <;> intro b <;> simp only [PC.own, PC.mo, PC.ex, PC.raw]))
macro "lks" : tactic => `(tactic| (constructor <;> intro b hb <;> obs <;> (try simp_all) <;> (try assumption) <;> (try grind)))
/-- fields of a structure of facts about concrete program counters -/
macro "fin" : tactic => `(tactic| (constructor <;> obs <;> (try simp_all) <;> (try assumption) <;> (try grind)))

theorem touch_eq {t : State} (h : s.mem a = true) : touch s a t = t := by simp [touch, h]

theorem Inv.facts (h : Inv s) (hp : s.thr[i]? = some p) : Facts s p := h.fct _ (List.mem_of_getElem? hp)

theorem Inv.bor_spec (h : Inv s) (hp : s.thr[i]? = some p) {x : Addr} (hb : p.borrow x = true) :
    1 ≤ s.rf x ∧ s.b20 x = false ∧ s.mem x = true := by
  have h1 := h.usr_spec (h.bor p (List.mem_of_getElem? hp) x hb)
  exact ⟨h1.1, h1.2, (h.live_mem (lv_one (Or.inl h1.1))).1⟩

theorem Inv.own_mem (h : Inv s) (hp : s.thr[i]? = some p) {x : Addr} (hb : 1 ≤ p.own x) :
    1 ≤ s.rf x ∧ s.b20 x = false ∧ s.mem x = true := by
  have h1 := h.own_spec hp hb
  exact ⟨h1.1, h1.2, (h.live_mem (lv_one (Or.inl h1.1))).1⟩

theorem Inv.ex_mem (h : Inv s) (hp : s.thr[i]? = some p) {x : Addr} (hb : 1 ≤ p.ex x) :
    s.b20 x = true ∧ s.mem x = true := by
  have h1 := h.ex_spec hp hb
  exact ⟨h1, (h.live_mem (lv_one (Or.inr (Or.inr (Or.inr h1))))).1⟩

theorem Inv.idx_mem (h : Inv s) {k : Key} {x : Addr} (hb : s.idx k = some x) :
    s.b19 x = true ∧ s.mem x = true ∧ s.key x = k := by
  have h1 := h.idk k x hb
  exact ⟨h1.2, (h.live_mem (lv_one (Or.inr (Or.inr (Or.inl h1.2))))).1, h1.1⟩

/-! ### steps that only touch the eviction container -/

theorem step_ev1 (h : Inv s) {v : Addr} {k : Key} {c : Cont} (hp : s.thr[i]? = some (.ev1 v k c)) :
    Inv (touch s v (at_ (mmRemove s v).1 i (.ev2 v k c))) := by
  have hx := h.ex_mem hp (x := v) (by simp [PC.ex, ind])
  rw [touch_eq hx.2]
  refine inv_mmRemove h hp v (by same) (by lks) (by intro x; rfl) (Or.inr hx.1) ?_
  obtain ⟨f1, f2, f3, f4, f5, f6, f7, f8⟩ := h.facts hp
  fin

theorem step_ev3 (h : Inv s) {v : Addr} {k : Key} {c : Cont} (hp : s.thr[i]? = some (.ev3 v k c)) :
    Inv (touch s v (at_ (mmRemove s v).1 i (.ev4 v k c))) := by
  have hx := h.ex_mem hp (x := v) (by simp [PC.ex, ind])
  rw [touch_eq hx.2]
  refine inv_mmRemove h hp v (by same) (by lks) (by intro x; rfl) (Or.inr hx.1) ?_
  obtain ⟨f1, f2, f3, f4, f5, f6, f7, f8⟩ := h.facts hp
  fin

theorem step_me3 (h : Inv s) {a : Addr} {k : Key} (hp : s.thr[i]? = some (.me3 k a)) :
    Inv (touch s a (at_ (mmRemove s a).1 i (.me4 k a))) := by
  have hx := h.ex_mem hp (x := a) (by simp [PC.ex, ind])
  rw [touch_eq hx.2]
  refine inv_mmRemove h hp a (by same) (by lks) (by intro x; rfl) (Or.inr hx.1) ?_
  obtain ⟨f1, f2, f3, f4, f5, f6, f7, f8⟩ := h.facts hp
  fin

theorem step_mv4 (h : Inv s) {a n : Addr} {k : Key} (hp : s.thr[i]? = some (.mv4 k a n)) :
    Inv (touch s a (at_ (mmRemove s a).1 i (.mv5 k a n))) := by
  have hx := h.ex_mem hp (x := a) (by simp [PC.ex, PC.mo, ind])
  rw [touch_eq hx.2]
  refine inv_mmRemove h hp a (by same) (by lks) (by intro x; rfl) (Or.inr hx.1) ?_
  obtain ⟨f1, f2, f3, f4, f5, f6, f7, f8⟩ := h.facts hp
  fin

theorem step_mvF (h : Inv s) {a n : Addr} {k : Key} (hp : s.thr[i]? = some (.mvF k a n)) :
    Inv (touch s n (at_ (mmRemove s n).1 i (.mvF2 k a n))) := by
  have hx := h.own_mem hp (x := n) (by simp [PC.own, ind])
  rw [touch_eq hx.2.2]
  refine inv_mmRemove h hp n (by same) (by lks) (by intro x; rfl) (Or.inl hx.1) ?_
  obtain ⟨f1, f2, f3, f4, f5, f6, f7, f8⟩ := h.facts hp
  fin

theorem step_ins4 (h : Inv s) {a : Addr} {k : Key} (hp : s.thr[i]? = some (.ins4 k a)) :
    Inv (touch s a (at_ (mmRemove s a).1 i .idle)) := by
  have hx := h.bor_spec hp (x := a) (by simp [PC.borrow])
  rw [touch_eq hx.2.2]
  refine inv_mmRemove h hp a (by same) (by lks) (by intro x; rfl) (Or.inl hx.1) ?_
  fin

theorem step_iorX (h : Inv s) {a : Addr} {k : Key} (hp : s.thr[i]? = some (.iorX k a)) :
    Inv (touch s a (at_ (mmRemove s a).1 i .idle)) := by
  have hx := h.bor_spec hp (x := a) (by simp [PC.borrow])
  rw [touch_eq hx.2.2]
  refine inv_mmRemove h hp a (by same) (by lks) (by intro x; rfl) (Or.inl hx.1) ?_
  fin

theorem step_rm2 (h : Inv s) {a : Addr} {k : Key} (hp : s.thr[i]? = some (.rm2 k a)) :
    Inv (touch s a (at_ (mmRemove s a).1 i .idle)) := by
  have hx := h.bor_spec hp (x := a) (by simp [PC.borrow])
  rw [touch_eq hx.2.2]
  refine inv_mmRemove h hp a (by same) (by lks) (by intro x; rfl) (Or.inl hx.1) ?_
  fin

theorem step_rx4 (h : Inv s) {a : Addr} {k : Key} (hp : s.thr[i]? = some (.rx4 k a)) :
    Inv (touch s a (at_ (mmRemove s a).1 i (.rx5 k a))) := by
  have hx := h.bor_spec hp (x := a) (by simp [PC.borrow])
  rw [touch_eq hx.2.2]
  refine inv_mmRemove h hp a (by same) (by lks) (by intro x; rfl) (Or.inl hx.1) ?_
  obtain ⟨f1, f2, f3, f4, f5, f6, f7, f8⟩ := h.facts hp
  fin

theorem step_rp7 (h : Inv s) {o n : Addr} {k : Key} (hp : s.thr[i]? = some (.rp7 k o n)) :
    Inv (touch s n (at_ (mmRemove s n).1 i .idle)) := by
  have hx := h.bor_spec hp (x := n) (by simp [PC.borrow])
  rw [touch_eq hx.2.2]
  refine inv_mmRemove h hp n (by same) (by lks) (by intro x; rfl) (Or.inl hx.1) ?_
  fin

theorem step_rp3 (h : Inv s) {o n : Addr} {k : Key} (hp : s.thr[i]? = some (.rp3 k o n)) :
    Inv (touch s o (let r := mmRemove s o; at_ r.1 i (if r.2 then .rp4 k o n else .rp5 k o n))) := by
  have hx := h.bor_spec hp (x := o) (by simp [PC.borrow])
  rw [touch_eq hx.2.2]
  dsimp only
  obtain ⟨f1, f2, f3, f4, f5, f6, f7, f8⟩ := h.facts hp
  split
  · exact inv_mmRemove h hp o (by same) (by lks) (by intro x; rfl) (Or.inl hx.1) (by fin)
  · exact inv_mmRemove h hp o (by same) (by lks) (by intro x; rfl) (Or.inl hx.1) (by fin)

theorem step_rp4 (h : Inv s) {o n : Addr} {k : Key} (hp : s.thr[i]? = some (.rp4 k o n)) :
    Inv (touch s n (let r := mmAdd s n; at_ r.1 i (if r.2 then .rp6 k o n else .rp5 k o n))) := by
  have hx := h.bor_spec hp (x := n) (by simp [PC.borrow])
  rw [touch_eq hx.2.2]
  dsimp only
  obtain ⟨f1, f2, f3, f4, f5, f6, f7, f8⟩ := h.facts hp
  split
  · exact inv_mmAdd h hp n (by same) (by lks) (by intro x; rfl) (Or.inl (by simp [PC.borrow])) (by fin)
  · exact inv_mmAdd h hp n (by same) (by lks) (by intro x; rfl) (Or.inl (by simp [PC.borrow])) (by fin)

theorem step_ins1 (h : Inv s) {a : Addr} {k : Key} (hp : s.thr[i]? = some (.ins1 k a)) :
    Inv (touch s a (let r := mmAdd s a; at_ r.1 i (if r.2 then .ins2 k a else .idle))) := by
  have hx := h.bor_spec hp (x := a) (by simp [PC.borrow])
  rw [touch_eq hx.2.2]
  dsimp only
  obtain ⟨f1, f2, f3, f4, f5, f6, f7, f8⟩ := h.facts hp
  split
  · exact inv_mmAdd h hp a (by same) (by lks) (by intro x; rfl) (Or.inl (by simp [PC.borrow])) (by fin)
  · exact inv_mmAdd h hp a (by same) (by lks) (by intro x; rfl) (Or.inl (by simp [PC.borrow])) (by fin)

theorem step_ior1 (h : Inv s) {a : Addr} {k : Key} (hp : s.thr[i]? = some (.ior1 k a)) :
    Inv (touch s a (let r := mmAdd s a; at_ r.1 i (if r.2 then .ior2 k a else .idle))) := by
  have hx := h.bor_spec hp (x := a) (by simp [PC.borrow])
  rw [touch_eq hx.2.2]
  dsimp only
  obtain ⟨f1, f2, f3, f4, f5, f6, f7, f8⟩ := h.facts hp
  split
  · exact inv_mmAdd h hp a (by same) (by lks) (by intro x; rfl) (Or.inl (by simp [PC.borrow])) (by fin)
  · exact inv_mmAdd h hp a (by same) (by lks) (by intro x; rfl) (Or.inl (by simp [PC.borrow])) (by fin)

theorem step_mv2 (h : Inv s) {a n : Addr} {k : Key} (c : Bool) (hp : s.thr[i]? = some (.mv2 k a n)) :
    Inv (touch s a (touch s n
      (if c = true then at_ (mmAdd s n).1 i (.mv3 k a n) else at_ s i (.mvF2 k a n)))) := by
  have hx := h.own_mem hp (x := n) (by simp [PC.own, ind])
  have hy := h.ex_mem hp (x := a) (by simp [PC.ex, PC.mo, ind])
  rw [touch_eq hx.2.2, touch_eq hy.2]
  obtain ⟨f1, f2, f3, f4, f5, f6, f7, f8⟩ := h.facts hp
  split
  · exact inv_mmAdd h hp n (by same) (by lks) (by intro x; rfl) (Or.inr (by simp [PC.own, ind])) (by fin)
  · exact inv_pc h hp (by same) (by lks) (by intro x; rfl) (by fin) s.mctx s.nextW

/-! ### steps that only move the program counter -/

theorem step_ins2 (h : Inv s) {a : Addr} {k : Key} (hp : s.thr[i]? = some (.ins2 k a)) :
    Inv (touch s a (at_ s i (if isBit kAccessible (s.word a) then .ins4 k a else .ins3 k a))) := by
  have hx := h.bor_spec hp (x := a) (by simp [PC.borrow])
  rw [touch_eq hx.2.2, isA]
  obtain ⟨f1, f2, f3, f4, f5, f6, f7, f8⟩ := h.facts hp
  split
  · exact inv_pc h hp (by same) (by lks) (by intro x; rfl) (by fin) s.mctx s.nextW
  · exact inv_pc h hp (by same) (by lks) (by intro x; rfl) (by fin) s.mctx s.nextW

theorem step_ior2 (h : Inv s) {a : Addr} {k : Key} (hp : s.thr[i]? = some (.ior2 k a)) :
    Inv (touch s a (at_ s i (if isBit kAccessible (s.word a) then .idle else .ior3 k a))) := by
  have hx := h.bor_spec hp (x := a) (by simp [PC.borrow])
  rw [touch_eq hx.2.2, isA]
  obtain ⟨f1, f2, f3, f4, f5, f6, f7, f8⟩ := h.facts hp
  split
  · exact inv_pc h hp (by same) (by lks) (by intro x; rfl) (by fin) s.mctx s.nextW
  · exact inv_pc h hp (by same) (by lks) (by intro x; rfl) (by fin) s.mctx s.nextW

theorem step_rx1 (h : Inv s) {a : Addr} {k : Key} (c : Prop) [Decidable c] (hp : s.thr[i]? = some (.rx1 k a)) :
    Inv (if canX s k then
      touch s a (at_ s i (if isBit kAccessible (s.word a) ∧ c then .rx2 k a else .idle)) else s) := by
  have hx := h.bor_spec hp (x := a) (by simp [PC.borrow])
  rw [touch_eq hx.2.2, isA]
  obtain ⟨f1, f2, f3, f4, f5, f6, f7, f8⟩ := h.facts hp
  split
  · rename_i hc
    have hk := f7 a k (by simp [PC.kat])
    split
    · rename_i hb
      refine inv_pc h hp (by same) (by lks) (by intro x; rfl) ?_ s.mctx s.nextW
      rcases h.acI a hb.1 with h1 | ⟨q, hq, h1⟩
      · rw [hk] at h1; fin
      · obtain ⟨k', h2, h3⟩ := stale_lock q a h1
        have h4 := (h.fct q hq).kat a k' h2
        rw [hk] at h4; subst h4
        rw [(canX_spec hc hq).1] at h3; cases h3
    · exact inv_pc h hp (by same) (by lks) (by intro x; rfl) (by fin) s.mctx s.nextW
  · exact h

theorem step_rp6 (h : Inv s) {o n : Addr} {k : Key} (hp : s.thr[i]? = some (.rp6 k o n)) :
    Inv (touch s n (at_ s i (if isBit kAccessible (s.word n) then .idle else .rp7 k o n))) := by
  have hx := h.bor_spec hp (x := n) (by simp [PC.borrow])
  rw [touch_eq hx.2.2, isA]
  obtain ⟨f1, f2, f3, f4, f5, f6, f7, f8⟩ := h.facts hp
  split
  · exact inv_pc h hp (by same) (by lks) (by intro x; rfl) (by fin) s.mctx s.nextW
  · exact inv_pc h hp (by same) (by lks) (by intro x; rfl) (by fin) s.mctx s.nextW

theorem step_mv1 (h : Inv s) {a : Addr} {k : Key} (c : Prop) [Decidable c] (hp : s.thr[i]? = some (.mv1 k a)) :
    Inv (at_ s i (if c then .alloc k (.move a) else .me1 k a)) := by
  obtain ⟨f1, f2, f3, f4, f5, f6, f7, f8⟩ := h.facts hp
  split
  · refine inv_pc h hp ?_ (by lks) (by intro x; rfl) (by fin) s.mctx s.nextW
    constructor <;> intro b <;> simp only [PC.own, PC.mo, PC.ex, PC.raw, Cont.old]
  · exact inv_pc h hp (by same) (by lks) (by intro x; rfl) (by fin) s.mctx s.nextW

theorem step_allocFail (h : Inv s) {k : Key} {c : Cont} (hp : s.thr[i]? = some (.alloc k c)) :
    Inv (at_ s i (allocFail k c)) := by
  obtain ⟨f1, f2, f3, f4, f5, f6, f7, f8⟩ := h.facts hp
  cases c with
  | user =>
    show Inv (at_ s i .idle)
    refine inv_pc h hp ?_ (by lks) (by intro x; rfl) (by fin) s.mctx s.nextW
    constructor <;> intro b <;> simp only [PC.own, PC.mo, PC.ex, PC.raw, Cont.old]
  | move a =>
    show Inv (at_ s i (.me1 k a))
    refine inv_pc h hp ?_ (by lks) (by intro x; rfl) (by fin) s.mctx s.nextW
    constructor <;> intro b <;> simp only [PC.own, PC.mo, PC.ex, PC.raw, Cont.old]

end Verif.CacheProto
