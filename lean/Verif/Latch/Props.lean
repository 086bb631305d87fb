import Verif.Latch.Model
import Verif.Atm.Props
/-
C63: a latch releases exactly after its count, under every schedule, and loses no wake-up.
-/
namespace Verif.Latch
open Verif
open Verif.Atm (total total_congr total_upd total_le total_ge)

/-! ### Specification -/

namespace Spec

/-- Calls of count_down and arrive_and_wait made. -/
def started : List Ev → Nat
  | [] => 0
  | .start _ .down :: h => started h + 1
  | .start _ .arrive :: h => started h + 1
  | _ :: h => started h

/-- Calls of count_down and arrive_and_wait that have returned. -/
def returned : List Ev → Nat
  | [] => 0
  | .ret _ .down _ :: h => returned h + 1
  | .ret _ .arrive _ :: h => returned h + 1
  | _ :: h => returned h

/-- A step that neither starts a call nor is a wake-up without cause. -/
def Own (N : Nat) (s s' : St) : Prop := ∃ t e, Step N s t e s' ∧ ∀ u c, e ≠ some (.start u c)

/-- `k` such steps. -/
inductive Steps (N : Nat) : Nat → St → St → Prop
  | nil (s : St) : Steps N 0 s s
  | snoc {k : Nat} {s s1 s2 : St} (h : Steps N k s s1) (h1 : Own N s1 s2) : Steps N (k + 1) s s2

end Spec

theorem started_append (a b : List Ev) : Spec.started (a ++ b) = Spec.started a + Spec.started b := by
  induction a with
  | nil => simp [Spec.started]
  | cons e a ih => cases e with
    | start t c => cases c <;> simp [Spec.started, ih] <;> omega
    | ret t c r => simp [Spec.started, ih]

theorem returned_append (a b : List Ev) : Spec.returned (a ++ b) = Spec.returned a + Spec.returned b := by
  induction a with
  | nil => simp [Spec.returned]
  | cons e a ih => cases e with
    | ret t c r => cases c <;> simp [Spec.returned, ih] <;> omega
    | start t c => simp [Spec.returned, ih]

/-! ### The invariant -/

def pendW : PC → Nat
  | .dCheck _ => 1
  | _ => 0

def notW : PC → Nat
  | .dNotify _ => 1
  | _ => 0

def pcW : PC → Nat
  | .idle => 0
  | .asleep _ => 1
  | .wCheck _ => 2
  | .dCheck _ => 3
  | .dNotify _ => 1
  | .tCheck => 1

structure Inv (n N : Nat) (h : List Ev) (s : St) : Prop where
  out : ∀ t, N ≤ t → s.pc t = .idle
  low : n + total N (fun t => pendW (s.pc t)) ≤ Spec.started h + s.count
  exact : 0 < s.count → Spec.started h + s.count = n + total N (fun t => pendW (s.pc t))
  ret : 0 < s.count → Spec.returned h + s.count ≤ n
  not : s.count + total N (fun t => notW (s.pc t)) ≤ n
  nz : ∀ t a, s.pc t = .dNotify a → s.count = 0
  sleep : ∀ t arr, s.pc t = .asleep arr → 0 < s.count ∨ ∃ u a, s.pc u = .dNotify a

theorem in_range {n N : Nat} {h : List Ev} {s : St} (hi : Inv n N h s) {t : Nat} (ht : s.pc t ≠ .idle) : t < N := by
  rcases Nat.lt_or_ge t N with h | h
  · exact h
  · exact absurd (hi.out t h) ht

theorem total_pc {N t : Nat} (ht : t < N) (w : PC → Nat) (pc : Nat → PC) (p : PC) :
    total N (fun u => w (upd pc t p u)) + w (pc t) = total N (fun u => w (pc u)) + w p := by
  have := total_upd ht (f := fun u => w (pc u)) (g := fun u => w (upd pc t p u)) (fun j hj => by rw [upd_ne _ _ hj])
  simpa [upd_same] using this

theorem total_wake {N : Nat} {w : PC → Nat} (hw : ∀ p, w p.wake = w p) (pc : Nat → PC) :
    total N (fun u => w ((pc u).wake)) = total N (fun u => w (pc u)) := total_congr fun i _ => hw _

theorem pend_wake (p : PC) : pendW p.wake = pendW p := by cases p <;> rfl
theorem not_wake (p : PC) : notW p.wake = notW p := by cases p <;> rfl

theorem out_upd {N t : Nat} {pc : Nat → PC} {p : PC} (h : ∀ u, N ≤ u → pc u = .idle) (ht : t < N) : ∀ u, N ≤ u → upd pc t p u = .idle := by
  intro u hu
  rw [upd_ne _ _ (by omega)]; exact h u hu

theorem step_inv {n N : Nat} {h : List Ev} {s s' : St} {t : Nat} {e : Option Ev} (hi : Inv n N h s) (hs : Step N s t e s') :
    Inv n N (h ++ e.toList) s' := by
  have htN : t < N := by
    cases hs with
    | start c ht _ => exact ht
    | dZero arr h _ => exact in_range hi (by rw [h]; simp)
    | dMore h _ => exact in_range hi (by rw [h]; simp)
    | aMore h _ => exact in_range hi (by rw [h]; simp)
    | dLast arr h _ => exact in_range hi (by rw [h]; simp)
    | notify arr h => exact in_range hi (by rw [h]; simp)
    | wDone arr h _ => exact in_range hi (by rw [h]; simp)
    | wSleep arr h _ => exact in_range hi (by rw [h]; simp)
    | tryWait h => exact in_range hi (by rw [h]; simp)
  have P := fun p => total_pc htN pendW s.pc p
  have Q := fun p => total_pc htN notW s.pc p
  have hlow := hi.low
  have hex := hi.exact
  have hret := hi.ret
  have hnot := hi.not
  -- threads asleep, if the count stays positive or a notification stays due
  have S : ∀ (cnt : Nat) (p : PC), (0 < s.count → cnt ≠ 0 ∨ ∃ a, p = .dNotify a) → notW (s.pc t) = 0 → (∀ a, p = .asleep a → 0 < cnt) →
      ∀ u arr, upd s.pc t p u = .asleep arr → 0 < cnt ∨ ∃ u a, upd s.pc t p u = .dNotify a := by
    intro cnt p h1 h2 h3 u arr hu
    by_cases e : u = t
    · subst e; rw [upd_same] at hu; exact .inl (h3 arr hu)
    · rw [upd_ne _ _ e] at hu
      rcases hi.sleep u arr hu with h4 | ⟨v, a, h4⟩
      · rcases h1 h4 with h5 | ⟨a, h5⟩
        · exact .inl (by omega)
        · exact .inr ⟨t, a, by rw [upd_same, h5]⟩
      · refine .inr ⟨v, a, ?_⟩
        rw [upd_ne _ _ (fun ev => by subst ev; rw [h4] at h2; cases h2)]; exact h4
  have Z : ∀ (cnt : Nat) (p : PC), cnt ≤ s.count → (∀ a, p = .dNotify a → cnt = 0) → ∀ u a, upd s.pc t p u = .dNotify a → cnt = 0 := by
    intro cnt p h1 h2 u a hu
    by_cases e : u = t
    · subst e; rw [upd_same] at hu; exact h2 a hu
    · rw [upd_ne _ _ e] at hu
      have := hi.nz u a hu
      omega
  cases hs with
  | start c ht hp =>
    have P := P (PC.first c); have Q := Q (PC.first c)
    rw [hp] at P Q
    refine ⟨out_upd hi.out htN, ?_, ?_, ?_, ?_, Z s.count (PC.first c) (by omega) (fun a ha => by cases c <;> cases ha), S s.count (PC.first c) (fun h => .inl (by omega)) (by rw [hp]; rfl) (fun a ha => by cases c <;> cases ha)⟩ <;>
      simp only [Option.toList, started_append, returned_append] <;> cases c <;>
      simp only [Spec.started, Spec.returned, PC.first, pendW, notW] at * <;> omega
  | dZero arr hp hc =>
    have P := P .idle; have Q := Q .idle
    rw [hp] at P Q
    refine ⟨out_upd hi.out htN, ?_, ?_, ?_, ?_, Z s.count .idle (by omega) (fun a ha => by cases ha), S s.count .idle (fun h => .inl (by omega)) (by rw [hp]; rfl) (fun a ha => by cases ha)⟩ <;>
      simp only [Option.toList, started_append, returned_append] <;> cases arr <;>
      simp only [Spec.started, Spec.returned, pendW, notW] at * <;> omega
  | dMore hp hc =>
    have P := P .idle; have Q := Q .idle
    rw [hp] at P Q
    refine ⟨out_upd hi.out htN, ?_, ?_, ?_, ?_, Z (s.count - 1) .idle (by omega) (fun a ha => by cases ha), S (s.count - 1) .idle (fun h => .inl (by omega)) (by rw [hp]; rfl) (fun a ha => by cases ha)⟩ <;>
      simp only [Option.toList, started_append, returned_append, Spec.started, Spec.returned, pendW, notW] at * <;> omega
  | aMore hp hc =>
    have P := P (.wCheck true); have Q := Q (.wCheck true)
    rw [hp] at P Q
    refine ⟨out_upd hi.out htN, ?_, ?_, ?_, ?_, Z (s.count - 1) (.wCheck true) (by omega) (fun a ha => by cases ha), S (s.count - 1) (.wCheck true) (fun h => .inl (by omega)) (by rw [hp]; rfl) (fun a ha => by cases ha)⟩ <;>
      simp only [Option.toList, List.append_nil, pendW, notW] at * <;> omega
  | dLast arr hp hc =>
    have P := P (.dNotify arr); have Q := Q (.dNotify arr)
    rw [hp] at P Q
    refine ⟨out_upd hi.out htN, ?_, ?_, ?_, ?_, Z 0 (.dNotify arr) (by omega) (fun a ha => rfl), S 0 (.dNotify arr) (fun h => .inr ⟨arr, rfl⟩) (by rw [hp]; rfl) (fun a ha => by cases ha)⟩ <;>
      simp only [Option.toList, List.append_nil, pendW, notW] at * <;> omega
  | notify arr hp =>
    have P := total_pc htN pendW (fun u => (s.pc u).wake) .idle
    have Q := total_pc htN notW (fun u => (s.pc u).wake) .idle
    rw [total_wake pend_wake, pend_wake, hp] at P
    rw [total_wake not_wake, not_wake, hp] at Q
    have hz := hi.nz t arr hp
    refine ⟨out_upd (fun u hu => by rw [hi.out u hu]; rfl) htN, ?_, ?_, ?_, ?_, fun _ _ _ => hz, ?_⟩
    rotate_left 4
    · intro u a hu
      simp only at hu
      by_cases e : u = t
      · subst e; rw [upd_same] at hu; cases hu
      · rw [upd_ne _ _ e] at hu
        revert hu; cases s.pc u <;> intro hu <;> cases hu
    all_goals simp only [Option.toList, started_append, returned_append]
    all_goals cases arr <;> simp only [Spec.started, Spec.returned, pendW, notW, downCall] at * <;> omega
  | wDone arr hp hc =>
    have P := P .idle; have Q := Q .idle
    rw [hp] at P Q
    refine ⟨out_upd hi.out htN, ?_, ?_, ?_, ?_, Z s.count .idle (by omega) (fun a ha => by cases ha), S s.count .idle (fun h => .inl (by omega)) (by rw [hp]; rfl) (fun a ha => by cases ha)⟩ <;>
      simp only [Option.toList, started_append, returned_append] <;> cases arr <;>
      simp only [Spec.started, Spec.returned, pendW, notW] at * <;> omega
  | wSleep arr hp hc =>
    have P := P (.asleep arr); have Q := Q (.asleep arr)
    rw [hp] at P Q
    refine ⟨out_upd hi.out htN, ?_, ?_, ?_, ?_, Z s.count (.asleep arr) (by omega) (fun a ha => by cases ha), S s.count (.asleep arr) (fun h => .inl (by omega)) (by rw [hp]; rfl) (fun a ha => by omega)⟩ <;>
      simp only [Option.toList, List.append_nil, pendW, notW] at * <;> omega
  | tryWait hp =>
    have P := P .idle; have Q := Q .idle
    rw [hp] at P Q
    refine ⟨out_upd hi.out htN, ?_, ?_, ?_, ?_, Z s.count .idle (by omega) (fun a ha => by cases ha), S s.count .idle (fun h => .inl (by omega)) (by rw [hp]; rfl) (fun a ha => by cases ha)⟩ <;>
      simp only [Option.toList, started_append, returned_append, Spec.started, Spec.returned, pendW, notW] at * <;> omega

theorem spurious_inv {n N : Nat} {h : List Ev} {s s' : St} (hi : Inv n N h s) (hs : Spurious s s') : Inv n N h s' := by
  obtain ⟨t, arr, hp⟩ := hs
  have htN : t < N := in_range hi (by rw [hp]; simp)
  have P := total_pc htN pendW s.pc (.wCheck arr)
  have Q := total_pc htN notW s.pc (.wCheck arr)
  rw [hp] at P Q
  have hlow := hi.low
  have hex := hi.exact
  have hret := hi.ret
  have hnot := hi.not
  have hne : ∀ u a, s.pc u = .dNotify a → u ≠ t := fun u a hu e => by subst e; rw [hp] at hu; cases hu
  refine ⟨out_upd hi.out htN, ?_, ?_, ?_, ?_, ?_, ?_⟩
  rotate_left 4
  · intro u a hu
    simp only at hu
    by_cases e : u = t
    · subst e; rw [upd_same] at hu; cases hu
    · rw [upd_ne _ _ e] at hu; exact hi.nz u a hu
  · intro u a hu
    simp only at hu ⊢
    by_cases e : u = t
    · subst e; rw [upd_same] at hu; cases hu
    · rw [upd_ne _ _ e] at hu
      rcases hi.sleep u a hu with h | ⟨v, b, h⟩
      · exact .inl h
      · exact .inr ⟨v, b, by rw [upd_ne _ _ (hne v b h)]; exact h⟩
  all_goals simp only [pendW, notW] at *
  all_goals omega

theorem new_inv (n N : Nat) : Inv n N [] (St.new n) := by
  have h0 : ∀ w : PC → Nat, w .idle = 0 → total N (fun _ => w .idle) = 0 := by
    intro w hw
    have := total_le (n := N) (b := 0) (f := fun _ => w .idle) (fun _ _ => by omega)
    omega
  have h1 : total N (fun t => pendW ((St.new n).pc t)) = 0 := h0 pendW rfl
  have h2 : total N (fun t => notW ((St.new n).pc t)) = 0 := h0 notW rfl
  refine ⟨fun _ _ => rfl, ?_, ?_, ?_, ?_, (fun t a h => by cases h), (fun t a h => by cases h)⟩
  · rw [h1]; simp [Spec.started, St.new]
  · rw [h1]; simp [Spec.started, St.new]
  · simp [Spec.returned, St.new]
  · rw [h2]; simp [St.new]

theorem reach_inv {n N : Nat} {h : List Ev} {s : St} (hr : Reach n N h s) : Inv n N h s := by
  induction hr with
  | new => exact new_inv n N
  | step _ hs ih => exact step_inv ih hs
  | spurious _ hs ih => exact spurious_inv ih hs

/-- The state in which an event of a history happened. -/
theorem reach_split {n N : Nat} {h : List Ev} {s : St} (hr : Reach n N h s) {a b : List Ev} {e : Ev} (hh : h = a ++ e :: b) :
    ∃ s1 s2 t, Reach n N a s1 ∧ Step N s1 t (some e) s2 := by
  induction hr generalizing b with
  | new => simp at hh
  | spurious _ _ ih => exact ih hh
  | @step h s s' t o hr hs ih =>
    cases o with
    | none => simp only [Option.toList, List.append_nil] at hh; exact ih hh
    | some e' =>
      simp only [Option.toList] at hh
      rcases List.eq_nil_or_concat b with hb | ⟨b', x, hb⟩
      · subst hb
        obtain ⟨rfl, h2⟩ := List.append_inj' hh rfl
        cases h2
        exact ⟨s, s', t, hr, hs⟩
      · subst hb
        rw [List.concat_eq_append, ← List.cons_append, ← List.append_assoc] at hh
        obtain ⟨h1, -⟩ := List.append_inj' hh rfl
        exact ih h1

/-! ### Safety -/

/-- **Nobody is released early**: when wait or arrive_and_wait returns, or count_down or try_wait answers true, count_down or
arrive_and_wait have been called at least `n` times. -/
theorem released_after_n {n N : Nat} {h : List Ev} {s : St} (hr : Reach n N h s) {a b : List Ev} {t : Nat} {c : Call}
    (hh : h = a ++ .ret t c true :: b) : n ≤ Spec.started a := by
  obtain ⟨s1, s2, u, h1, h2⟩ := reach_split hr hh
  have hi := reach_inv h1
  have key : s1.count = 0 → n ≤ Spec.started a := fun hc => by have := hi.low; omega
  generalize ho : some (Ev.ret t c true) = o at h2
  cases h2 with
  | dZero arr _ hc => exact key hc
  | notify arr hp => exact key (hi.nz u arr hp)
  | wDone arr _ hc => exact key hc
  | tryWait _ =>
    simp only [Option.some.injEq, Ev.ret.injEq] at ho
    exact key (by simpa using ho.2.2.symm)
  | _ => cases ho

/-- **The answer false is right**: try_wait answers false only before `n` calls of count_down and arrive_and_wait have returned, and
count_down only if at least one more call besides itself is missing then; wait and arrive_and_wait have no such answer. -/
theorem false_before_n {n N : Nat} {h : List Ev} {s : St} (hr : Reach n N h s) {a b : List Ev} {t : Nat} {c : Call}
    (hh : h = a ++ .ret t c false :: b) : c = .tryWait ∧ Spec.returned a < n ∨ c = .down ∧ Spec.returned a + 1 < n := by
  obtain ⟨s1, s2, u, h1, h2⟩ := reach_split hr hh
  have hi := reach_inv h1
  generalize ho : some (Ev.ret t c false) = o at h2
  cases h2 with
  | dMore _ hc =>
    cases ho
    have := hi.ret (by omega)
    exact .inr ⟨rfl, by omega⟩
  | tryWait _ =>
    simp only [Option.some.injEq, Ev.ret.injEq] at ho
    obtain ⟨-, rfl, hc⟩ := ho
    have hc : s1.count ≠ 0 := by simpa using hc.symm
    have := hi.ret (by omega)
    exact .inl ⟨rfl, by omega⟩
  | _ => cases ho

/-! ### Nobody waits for ever -/

/-- **No lost wake-up**: if count_down and arrive_and_wait have been called at least `n` times, an execution that cannot go on by itself
has returned from every call. -/
theorem no_lost_wakeup {n N : Nat} {h : List Ev} {s : St} (hr : Reach n N h s) (hn : n ≤ Spec.started h) (hstuck : ∀ s', ¬ Spec.Own N s s')
    (t : Nat) : s.pc t = .idle := by
  have hi := reach_inv hr
  have hD : ∀ u a, s.pc u ≠ .dCheck a := by
    intro u a hp
    rcases Nat.lt_trichotomy s.count 1 with hc | hc | hc
    · exact hstuck _ ⟨u, _, .dZero a hp (by omega), fun _ _ => by simp⟩
    · exact hstuck _ ⟨u, _, .dLast a hp hc, fun _ _ => by simp⟩
    · cases a with
      | false => exact hstuck _ ⟨u, _, .dMore hp hc, fun _ _ => by simp⟩
      | true => exact hstuck _ ⟨u, _, .aMore hp hc, fun _ _ => by simp⟩
  have hN : ∀ u a, s.pc u ≠ .dNotify a := fun u a hp => hstuck _ ⟨u, _, .notify a hp, fun _ _ => by simp⟩
  have hW : ∀ u a, s.pc u ≠ .wCheck a := by
    intro u a hp
    by_cases hc : s.count = 0
    · exact hstuck _ ⟨u, _, .wDone a hp hc, fun _ _ => by simp⟩
    · exact hstuck _ ⟨u, _, .wSleep a hp hc, fun _ _ => by simp⟩
  have hT : s.pc t ≠ .tCheck := fun hp => hstuck _ ⟨t, _, .tryWait hp, fun _ _ => by simp⟩
  have hp0 : total N (fun u => pendW (s.pc u)) = 0 := by
    have := total_le (n := N) (b := 0) (f := fun u => pendW (s.pc u)) (fun u _ => by
      have := hD u
      cases e : s.pc u <;> simp_all [pendW])
    omega
  have hS : ∀ a, s.pc t ≠ .asleep a := by
    intro a hp
    rcases hi.sleep t a hp with hc | ⟨u, b, hu⟩
    · have := hi.exact hc; omega
    · exact hN u b hu
  cases e : s.pc t with
  | idle => rfl
  | wCheck a => exact absurd e (hW t a)
  | asleep a => exact absurd e (hS a)
  | dCheck a => exact absurd e (hD t a)
  | dNotify a => exact absurd e (hN t a)
  | tCheck => exact absurd e hT

def meas (N : Nat) (s : St) : Nat := (s.count + total N (fun u => notW (s.pc u))) * (N + 1) + total N (fun u => pcW (s.pc u))

theorem wake_le {N : Nat} (pc : Nat → PC) : total N (fun u => pcW ((pc u).wake)) ≤ total N (fun u => pcW (pc u)) + N := by
  induction N with
  | zero => simp [total]
  | succ N ih =>
    rw [Verif.Atm.total_succ, Verif.Atm.total_succ]
    have : pcW ((pc N).wake) ≤ pcW (pc N) + 1 := by cases pc N <;> simp [PC.wake, pcW]
    omega

theorem own_less {n N : Nat} {h : List Ev} {s s' : St} (hi : Inv n N h s) (ho : Spec.Own N s s') : meas N s' < meas N s := by
  obtain ⟨t, e, hs, hne⟩ := ho
  have htN : s.pc t ≠ .idle → t < N := in_range hi
  have one : ∀ (p : PC) (cnt : Nat), s.pc t ≠ .idle → cnt + notW p ≤ s.count + notW (s.pc t) → pcW p < pcW (s.pc t) →
      meas N ⟨cnt, upd s.pc t p⟩ < meas N s := by
    intro p cnt h h1 h2
    have Q := total_pc (htN h) notW s.pc p
    have W := total_pc (htN h) pcW s.pc p
    unfold meas
    have h3 : cnt + total N (fun u => notW (upd s.pc t p u)) ≤ s.count + total N (fun u => notW (s.pc u)) := by omega
    have := Nat.mul_le_mul_right (N + 1) h3
    simp only
    omega
  cases hs with
  | start c _ _ => exact absurd rfl (hne _ _)
  | notify arr hp =>
    unfold meas
    have htN := htN (by rw [hp]; simp)
    have Q := total_pc htN notW (fun u => (s.pc u).wake) .idle
    have W := total_pc htN pcW (fun u => (s.pc u).wake) .idle
    have hw := wake_le (N := N) s.pc
    rw [total_wake not_wake, not_wake, hp] at Q
    rw [hp] at W
    have hb : notW (.dNotify arr) = 1 ∧ notW .idle = 0 ∧ pcW .idle = 0 := ⟨rfl, rfl, rfl⟩
    generalize total N (fun u => notW (upd (fun u => (s.pc u).wake) t PC.idle u)) = x1 at *
    generalize total N (fun u => pcW (upd (fun u => (s.pc u).wake) t PC.idle u)) = x2 at *
    generalize total N (fun u => notW (s.pc u)) = y1 at *
    have hy : y1 = x1 + 1 := by omega
    subst hy
    rw [← Nat.add_assoc, Nat.add_mul _ 1]
    simp only
    omega
  | dZero arr hp hc => exact one _ _ (by rw [hp]; simp) (by rw [hp]; simp [notW]) (by rw [hp]; simp [pcW])
  | dMore hp hc => exact one _ _ (by rw [hp]; simp) (by rw [hp]; simp [notW]) (by rw [hp]; simp [pcW])
  | aMore hp hc => exact one _ _ (by rw [hp]; simp) (by rw [hp]; simp [notW]) (by rw [hp]; simp [pcW])
  | dLast arr hp hc => exact one _ _ (by rw [hp]; simp) (by rw [hp]; simp [notW, hc]) (by rw [hp]; simp [pcW])
  | wDone arr hp hc => exact one _ _ (by rw [hp]; simp) (by rw [hp]; simp [notW]) (by rw [hp]; simp [pcW])
  | wSleep arr hp hc => exact one _ _ (by rw [hp]; simp) (by rw [hp]; simp [notW]) (by rw [hp]; simp [pcW])
  | tryWait hp => exact one _ _ (by rw [hp]; simp) (by rw [hp]; simp [notW]) (by rw [hp]; simp [pcW])

/-- **Calls end**: without new calls and wake-ups without cause, at most `n * (N + 1) + 3 * N` steps are possible for `N` threads. -/
theorem ends {n N : Nat} {h : List Ev} {s s' : St} (hr : Reach n N h s) {k : Nat} (hk : Spec.Steps N k s s') : k ≤ n * (N + 1) + 3 * N := by
  have key : ∃ h', Reach n N h' s' ∧ meas N s' + k ≤ meas N s := by
    induction hk with
    | nil s => exact ⟨h, hr, by omega⟩
    | snoc _ ho ih =>
      obtain ⟨h', h1, h2⟩ := ih hr
      have := own_less (reach_inv h1) ho
      obtain ⟨t, e, hs, -⟩ := ho
      exact ⟨_, h1.step hs, by omega⟩
  obtain ⟨-, -, hm⟩ := key
  have h1 := Nat.mul_le_mul_right (N + 1) (reach_inv hr).not
  have h2 : total N (fun u => pcW (s.pc u)) ≤ N * 3 := total_le fun u _ => by cases s.pc u <;> simp [pcW]
  unfold meas at hm
  omega

end Verif.Latch
