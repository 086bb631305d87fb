import Verif.Sched.Navy
import Mathlib.Data.List.Nodup
/-! Invariants of one dispatcher. -/
namespace Verif.Sched.Navy
open Verif

/-- Requests held by a `processLoop`. -/
def Loop.jobs : Loop → List Job
  | .top => []
  | .disp p => p
  | .wait j p => j :: p

structure DInv (m : Nat) (d : Disp) : Prop where
  l_one : d.toAdd + d.tasks + d.loops.length = if d.inc = [] ∧ d.claimed = false then 0 else 1
  l_top : d.claimed = false → ∀ l ∈ d.loops, l = .top
  l_claim : d.claimed = true → d.loops.length = 1
  l_out : d.outst = d.out.length
  l_run : d.running = d.tasks + d.loops.length + d.out.length + d.ended
  l_wait : ∀ j p, .wait j p ∈ d.loops → if d.baton = true then d.outst < m else d.outst = m
  l_max : d.outst ≤ m
  l_given : d.given = d.started ++ (d.loops.flatMap Loop.jobs ++ d.inc.reverse)
  l_nodup : d.given.Nodup
  l_outn : (d.out.map Prod.fst).Nodup
  l_outs : ∀ x ∈ d.out, x.1 ∈ d.started

/-- The request is waiting in the dispatcher or its fiber is running it. -/
def InD (d : Disp) (j : Job) : Prop := j ∈ d.loops.flatMap Loop.jobs ∨ j ∈ d.inc ∨ (j, Ph.exec) ∈ d.out

/-- The request returned `Done` and `notifyCompletion` has not been called. -/
def FinD (d : Disp) (j : Job) : Prop := (j, Ph.finished) ∈ d.out

theorem dinv_init (m : Nat) : DInv m {} := by
  constructor <;> simp

theorem give_inv {m : Nat} {d : Disp} (h : DInv m d) {j : Job} (hj : j ∉ d.given) :
    DInv m (d.give j) := by
  obtain ⟨h1, h2, h3, h4, h5, h6, h7, h8, h9, h10, h11⟩ := h
  constructor
  case l_one =>
    simp only [Disp.give, reduceCtorEq, false_and, if_false]
    split at h1
    · rename_i hc; rw [if_pos hc]; omega
    · rename_i hc; rw [if_neg hc]; exact h1
  case l_given => simp [Disp.give, h8]
  case l_nodup =>
    simp only [Disp.give]
    rw [List.nodup_append]
    exact ⟨h9, by simp, by rintro a ha b hb rfl; simp at hb; subst hb; exact hj ha⟩
  all_goals assumption

theorem give_in {d : Disp} {j x : Job} : InD (d.give j) x ↔ InD d x ∨ x = j := by
  simp [InD, Disp.give]; grind

theorem give_fin {d : Disp} {j x : Job} : FinD (d.give j) x ↔ FinD d x := Iff.rfl

theorem loop_unique {m : Nat} {d : Disp} (h : DInv m d) {i : Nat} {l : Loop} (hl : d.loops[i]? = some l) :
    d.loops = [l] ∧ i = 0 ∧ d.toAdd = 0 ∧ d.tasks = 0 ∧ ¬ (d.inc = [] ∧ d.claimed = false) := by
  have h1 := h.l_one
  obtain ⟨hi, he⟩ := List.getElem?_eq_some_iff.1 hl
  split at h1
  · omega
  · rename_i hc
    have : d.loops.length = 1 := by omega
    obtain ⟨a, ha⟩ := List.length_eq_one_iff.1 this
    have hi0 : i = 0 := by omega
    subst hi0
    simp only [ha, List.getElem_cons_zero] at he
    subst he
    exact ⟨ha, rfl, by omega, by omega, hc⟩

theorem loop_inv {m : Nat} {d d' : Disp} (h : DInv m d) {i : Nat} {l : Loop} (hl : d.loops[i]? = some l)
    (he : d.loopStep m i l = some d') : DInv m d' := by
  obtain ⟨hL, rfl, ha, ht, hne⟩ := loop_unique h hl
  obtain ⟨h1, h2, h3, h4, h5, h6, h7, h8, h9, h10, h11⟩ := h
  have hsw : ∀ j p, l.jobs = j :: p → j ∉ d.started := by
    intro j p hj hs
    rw [h8, List.nodup_append] at h9
    exact h9.2.2 j hs j (by simp [hL, hj]) rfl
  rw [hL] at h1 h2 h3 h5 h6 h8
  unfold Disp.loopStep at he
  split at he
  · simp only [Option.some.injEq] at he
    subst he
    rw [hL]
    constructor <;> dsimp only
    case l_given => simpa [Loop.jobs] using h8
    case l_one => simp [ha, ht]
    case l_wait => simp
    case l_run => simpa [ha, ht] using h5
    all_goals first | assumption | simp
  · rename_i j rest
    have hjs := hsw j rest rfl
    have hcl : d.claimed = true := by
      cases hcc : d.claimed with
      | true => rfl
      | false => have := h2 hcc; simp at this
    split at he
    · rename_i hm
      simp only [Option.some.injEq] at he
      subst he
      rw [hL]
      constructor <;> dsimp only
      case l_given => simpa [Loop.jobs] using h8
      case l_one => simp [ha, ht, hcl]
      case l_wait => simp [hm]
      case l_top => simp [hcl]
      case l_run => simpa [ha, ht] using h5
      all_goals first | assumption | simp
    · rename_i hm
      simp only [Option.some.injEq] at he
      subst he
      unfold Disp.start
      rw [hL]
      constructor <;> dsimp only
      case l_given => simpa [Loop.jobs] using h8
      case l_one => simp [ha, ht, hcl]
      case l_wait => simp
      case l_top => simp [hcl]
      case l_run => simp at h5 ⊢; omega
      case l_out => simp [h4]
      case l_max => omega
      case l_outn =>
        rw [List.map_append, List.nodup_append]
        refine ⟨h10, by simp, ?_⟩
        rintro a ha b hb rfl
        simp only [List.map_cons, List.map_nil, List.mem_singleton] at hb
        subst hb
        obtain ⟨x, hx, rfl⟩ := List.mem_map.1 ha
        exact hjs (h11 x hx)
      case l_outs => grind
      all_goals first | assumption | simp
  · have hcl : d.claimed = true := by
      cases hcc : d.claimed with
      | true => rfl
      | false => have := h2 hcc; simp at this
    split at he
    · rename_i hm
      simp only [Option.some.injEq] at he
      subst he
      rw [hL]
      constructor <;> dsimp only
      case l_given => simpa [Loop.jobs] using h8
      case l_one => simp [ha, ht, hm]
      case l_run => simp at h5 ⊢; omega
      all_goals first | assumption | simp
    · simp only [Option.some.injEq] at he
      subst he
      rw [hL]
      constructor <;> dsimp only
      case l_given => simpa [Loop.jobs] using h8
      case l_one => simp [ha, ht, hcl]
      case l_wait => simp
      case l_run => simpa using h5
      all_goals first | assumption | simp
  · rename_i j rest
    have hjs := hsw j rest rfl
    have hcl : d.claimed = true := by
      cases hcc : d.claimed with
      | true => rfl
      | false => have := h2 hcc; simp at this
    split at he
    · rename_i hb
      have hlt := h6 j rest (by simp)
      simp only [hb, if_true] at hlt
      simp only [Option.some.injEq] at he
      subst he
      unfold Disp.start
      rw [hL]
      constructor <;> dsimp only
      case l_given => simpa [Loop.jobs] using h8
      case l_one => simp [ha, ht, hcl]
      case l_wait => simp
      case l_top => simp [hcl]
      case l_run => simp at h5 ⊢; omega
      case l_out => simp [h4]
      case l_max => omega
      case l_outn =>
        rw [List.map_append, List.nodup_append]
        refine ⟨h10, by simp, ?_⟩
        rintro a ha b hb rfl
        simp only [List.map_cons, List.map_nil, List.mem_singleton] at hb
        subst hb
        obtain ⟨x, hx, rfl⟩ := List.mem_map.1 ha
        exact hjs (h11 x hx)
      case l_outs => grind
      all_goals first | assumption | simp
    · simp at he

theorem loop_in {m : Nat} {d d' : Disp} (h : DInv m d) {i : Nat} {l : Loop} (hl : d.loops[i]? = some l)
    (he : d.loopStep m i l = some d') (x : Job) :
    (InD d' x ↔ InD d x) ∧ (FinD d' x ↔ FinD d x) ∧ d'.given = d.given ∧ (d'.toAdd = d.toAdd) ∧
      (x ∈ d'.inc → x ∈ d.inc) := by
  obtain ⟨hL, rfl, ha, ht, hne⟩ := loop_unique h hl
  unfold Disp.loopStep at he
  split at he
  · simp only [Option.some.injEq] at he
    subst he
    simp [InD, FinD, hL, Loop.jobs]
  · split at he
    · simp only [Option.some.injEq] at he
      subst he
      simp [InD, FinD, hL, Loop.jobs]
    · simp only [Option.some.injEq] at he
      subst he
      simp [InD, FinD, hL, Loop.jobs, Disp.start]; grind
  · split at he
    · rename_i hh
      simp only [Option.some.injEq] at he
      subst he
      simp [InD, FinD, hL, Loop.jobs]
    · simp only [Option.some.injEq] at he
      subst he
      simp [InD, FinD, hL, Loop.jobs]
  · split at he
    · simp only [Option.some.injEq] at he
      subst he
      simp [InD, FinD, hL, Loop.jobs, Disp.start]; grind
    · simp at he

theorem addTask_inv {m : Nat} {d : Disp} (h : DInv m d) (hp : d.toAdd ≠ 0) :
    DInv m { d with toAdd := d.toAdd - 1, tasks := d.tasks + 1, running := d.running + 1 } := by
  obtain ⟨h1, h2, h3, h4, h5, h6, h7, h8, h9, h10, h11⟩ := h
  constructor <;> dsimp only
  case l_one => rw [← h1]; omega
  case l_run => omega
  all_goals assumption

theorem begin_inv {m : Nat} {d : Disp} (h : DInv m d) (hp : d.tasks ≠ 0) :
    DInv m { d with tasks := d.tasks - 1, loops := d.loops ++ [.top] } := by
  obtain ⟨h1, h2, h3, h4, h5, h6, h7, h8, h9, h10, h11⟩ := h
  have hl : d.claimed = false := by
    cases hc : d.claimed with
    | false => rfl
    | true => have := h3 hc; split at h1 <;> omega
  constructor <;> dsimp only
  case l_one => rw [← h1]; simp; omega
  case l_top => intro hc l hl; grind
  case l_claim => simp [hl]
  case l_run => simp; omega
  case l_wait => intro j p hjp; exact h6 j p (by simpa using hjp)
  case l_given => simpa [Loop.jobs] using h8
  all_goals assumption

theorem leave_inv {m : Nat} {d : Disp} (h : DInv m d) (hp : d.ended ≠ 0) :
    DInv m { d with ended := d.ended - 1, running := d.running - 1 } := by
  obtain ⟨h1, h2, h3, h4, h5, h6, h7, h8, h9, h10, h11⟩ := h
  constructor <;> dsimp only
  case l_run => omega
  all_goals assumption

theorem erase_fst {l : List (Job × Ph)} (hn : (l.map Prod.fst).Nodup) {j : Job} {p : Ph} (hm : (j, p) ∈ l) (x : Job × Ph) :
    x ∈ l.erase (j, p) ↔ x ∈ l ∧ x.1 ≠ j := by
  have hln : l.Nodup := List.Nodup.of_map _ hn
  rw [hln.mem_erase_iff]
  constructor
  · rintro ⟨hne, hx⟩
    refine ⟨hx, fun he => hne ?_⟩
    exact List.inj_on_of_nodup_map hn hx hm he
  · rintro ⟨hx, hne⟩
    exact ⟨fun he => hne (by rw [he]), hx⟩

theorem swap_inv {m : Nat} {d : Disp} (h : DInv m d) {j : Job} {p p' : Ph} (hm : (j, p) ∈ d.out) :
    DInv m { d with out := (j, p') :: d.out.erase (j, p) } := by
  obtain ⟨h1, h2, h3, h4, h5, h6, h7, h8, h9, h10, h11⟩ := h
  have hperm : ((j, p') :: d.out.erase (j, p)).map Prod.fst |>.Perm (d.out.map Prod.fst) := by
    have := (List.perm_cons_erase hm).map Prod.fst
    simp only [List.map_cons] at this ⊢
    exact this.symm
  have hlen : ((j, p') :: d.out.erase (j, p)).length = d.out.length := by
    simpa using hperm.length_eq
  constructor <;> dsimp only
  case l_out => rw [hlen]; exact h4
  case l_run => rw [hlen]; exact h5
  case l_outn => exact hperm.nodup_iff.2 h10
  case l_outs =>
    intro x hx
    rcases List.mem_cons.1 hx with rfl | hx
    · exact h11 (j, p) hm
    · exact h11 _ (List.mem_of_mem_erase hx)
  all_goals assumption

theorem dec_inv {m : Nat} {d : Disp} (h : DInv m d) {j : Job} (hm : (j, Ph.notified) ∈ d.out) :
    DInv m { d with
      out := d.out.erase (j, .notified)
      outst := d.outst - 1
      baton := if d.outst - 1 + 1 = m then true else d.baton
      ended := d.ended + 1 } := by
  obtain ⟨h1, h2, h3, h4, h5, h6, h7, h8, h9, h10, h11⟩ := h
  have hlen := List.length_erase_of_mem hm
  have hpos := List.length_pos_of_mem hm
  constructor <;> dsimp only
  case l_out => omega
  case l_run => omega
  case l_wait =>
    intro a p hap
    have := h6 a p hap
    split at this
    · rename_i hb; rw [if_pos (by split <;> simp [hb])]; omega
    · rw [if_pos (by rw [if_pos (by omega)])]; omega
  case l_max => omega
  case l_outn => exact h10.sublist ((List.erase_sublist).map _)
  case l_outs => intro x hx; exact h11 _ (List.mem_of_mem_erase hx)
  all_goals assumption

end Verif.Sched.Navy
