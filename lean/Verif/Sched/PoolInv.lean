import Verif.Sched.Pool
import Mathlib.Data.List.Nodup
/-! Invariants of the thread-pool scheduler model. -/
namespace Verif.Sched.Pool
open Verif

/-- The job of shard `sh` that is neither done nor pending. -/
def rest (done : List Job) : Option Job → List Job
  | some j => if j ∈ done then [] else [j]
  | none => []

/-- Busy workers. -/
def W.busy : W → Nat
  | .idle | .asleep => 0
  | _ => 1

structure Core (c : Cfg) (s : St) (cur : Nat → Option Job) : Prop where
  i_queue : ∀ q j, j ∈ s.queue q → c.queueOf j = q ∧ cur (c.shard j.key) = some j ∧ j ∉ s.done ∧
    j ∉ s.dropped ∧ s.worker q ≠ .exec j ∧ s.worker q ≠ .resched j
  i_nodup : ∀ q, (s.queue q).Nodup
  i_exec : ∀ q j, (s.worker q = .exec j ∨ s.worker q = .resched j) →
    c.queueOf j = q ∧ cur (c.shard j.key) = some j ∧ j ∉ s.done ∧ j ∉ s.dropped
  i_fin : ∀ q j, s.worker q = .finished j → c.queueOf j = q ∧ cur (c.shard j.key) = some j ∧ j ∈ s.done
  i_drop : ∀ j, j ∈ s.dropped → cur (c.shard j.key) = some j ∧ j ∉ s.done
  i_cur : ∀ sh j, cur sh = some j → c.shard j.key = sh ∧ (j ∈ s.queue (c.queueOf j) ∨
    s.worker (c.queueOf j) = .exec j ∨ s.worker (c.queueOf j) = .resched j ∨
    s.worker (c.queueOf j) = .finished j ∨ j ∈ s.dropped)
  i_spool : ∀ sh, s.spool sh = (cur sh).isSome
  i_pend : ∀ sh, s.spool sh = false → s.pend sh = []
  i_eq : ∀ sh, s.submitted.filter (fun j => c.shard j.key = sh) =
    s.done.filter (fun j => c.shard j.key = sh) ++ (rest s.done (cur sh) ++ s.pend sh)
  i_id : ∀ (i : Nat) (j : Job), s.submitted[i]? = some j → j.id = i
  i_proc : ∀ q, s.processing q = (s.worker q).busy
  i_sleep : ∀ q, s.worker q = .asleep → s.queue q ≠ [] → 0 < s.notifs q
  i_enq : ∀ q, s.enq q = 0 → s.queue q = [] ∧ s.processing q = 0

theorem core_init (c : Cfg) : Core c init (fun _ => none) := by
  constructor <;> simp [init, rest, W.busy]

macro "exec_simp" he:ident : tactic => `(tactic|
  (simp only [exec] at $he:ident <;> (repeat' split at $he:ident) <;>
    simp only [Option.some.injEq, reduceCtorEq] at $he:ident <;> subst $he:ident))

section facts
variable {c : Cfg} {s : St} {cur : Nat → Option Job}

theorem Core.nodup_sub (h : Core c s cur) : s.submitted.Nodup := by
  rw [List.Nodup, List.pairwise_iff_getElem]
  intro i j hi hj hij heq
  have h1 := h.i_id i _ (List.getElem?_eq_getElem hi)
  have h2 := h.i_id j _ (List.getElem?_eq_getElem hj)
  rw [heq] at h1
  omega

theorem Core.id_lt (h : Core c s cur) {j : Job} (hj : j ∈ s.submitted) : j.id < s.submitted.length := by
  obtain ⟨i, hi⟩ := List.mem_iff_getElem?.1 hj
  have := h.i_id i j hi
  have := (List.getElem?_eq_some_iff.1 hi).1
  omega

theorem Core.mem_eq (h : Core c s cur) (j : Job) : j ∈ s.submitted ↔
    j ∈ s.done ∨ j ∈ rest s.done (cur (c.shard j.key)) ∨ j ∈ s.pend (c.shard j.key) := by
  have := congrArg (j ∈ ·) (h.i_eq (c.shard j.key))
  simpa using this

theorem Core.done_sub (h : Core c s cur) {j : Job} (hj : j ∈ s.done) : j ∈ s.submitted :=
  (h.mem_eq j).2 (.inl hj)

theorem Core.cur_sub (h : Core c s cur) {sh : Nat} {j : Job} (hj : cur sh = some j) : j ∈ s.submitted := by
  by_cases hd : j ∈ s.done
  · exact h.done_sub hd
  · have := (h.i_cur sh j hj).1
    subst this
    exact (h.mem_eq j).2 (.inr (.inl (by simp [hj, rest, hd])))

theorem Core.pend_shard (h : Core c s cur) {sh : Nat} {j : Job} (hj : j ∈ s.pend sh) :
    c.shard j.key = sh ∧ j ∉ s.done ∧ cur sh ≠ some j := by
  have hm : j ∈ s.submitted.filter (fun j => c.shard j.key = sh) := by
    rw [h.i_eq sh]; simp [hj]
  have hs : c.shard j.key = sh := by simpa using (List.mem_filter.1 hm).2
  have hn : (s.submitted.filter (fun j => c.shard j.key = sh)).Nodup := h.nodup_sub.filter _
  rw [h.i_eq sh, List.nodup_append] at hn
  obtain ⟨_, h2, h3⟩ := hn
  refine ⟨hs, fun hd => ?_, fun hc => ?_⟩
  · exact h3 j (by simp [hd, hs]) j (by simp [hj]) rfl
  · by_cases hd : j ∈ s.done
    · exact h3 j (by simp [hd, hs]) j (by simp [hj]) rfl
    · rw [List.nodup_append] at h2
      exact h2.2.2 j (by simp [hc, rest, hd]) j hj rfl

theorem Core.fresh (h : Core c s cur) (key : Nat) (w : Bool) :
    (⟨s.submitted.length, key, w⟩ : Job) ∉ s.submitted := by
  intro hj
  have := h.id_lt hj
  simp at this

theorem Core.nodup_done (h : Core c s cur) : s.done.Nodup := by
  rw [List.nodup_iff_count_le_one]
  intro j
  have hn : (s.submitted.filter (fun j' => c.shard j'.key = c.shard j.key)).Nodup := h.nodup_sub.filter _
  rw [h.i_eq, List.nodup_append] at hn
  have := List.nodup_iff_count_le_one.1 hn.1 j
  rwa [List.count_filter (by simp)] at this

end facts

/-! Every action preserves the invariant. -/

theorem core_submit {c : Cfg} {s : St} {cur} (h : Core c s cur) (key : Nat) (w : Bool) :
    ∃ cur', Core c (submit c s key w) cur' := by
  have hf := h.fresh key w
  have hd : (⟨s.submitted.length, key, w⟩ : Job) ∉ s.done := fun hh => hf (h.done_sub hh)
  have hc : ∀ sh, cur sh ≠ some ⟨s.submitted.length, key, w⟩ := fun sh hh => hf (h.cur_sub hh)
  have hkey : (⟨s.submitted.length, key, w⟩ : Job).key = key := rfl
  have hid : ∀ (i : Nat) (j : Job), (s.submitted ++ [⟨s.submitted.length, key, w⟩])[i]? = some j → j.id = i := by
    intro i j hij
    rw [List.getElem?_append] at hij
    split at hij
    · exact h.i_id i j hij
    · rename_i hi
      obtain ⟨hi', hij⟩ := List.getElem?_eq_some_iff.1 hij
      simp at hi' hij; subst hij; show s.submitted.length = i; omega
  generalize hj : (⟨s.submitted.length, key, w⟩ : Job) = j at *
  have hqk : j.key = key := by rw [← hj]
  obtain ⟨h1, h2, h3, h4, h5, h6, h7, h8, h9, h10, h11, h12, h13⟩ := h
  have heq : ∀ sh, (s.submitted ++ [j]).filter (fun j => c.shard j.key = sh) =
      s.submitted.filter (fun j => c.shard j.key = sh) ++ (if sh = c.shard key then [j] else []) := by
    intro sh
    rw [List.filter_append]
    congr 1
    by_cases hs : sh = c.shard key
    · simp [hs, hqk]
    · simp [hs, hqk, Ne.symm hs]
  unfold submit
  rw [hj]; dsimp only
  by_cases hsp : s.spool (c.shard key) = true
  · rw [if_pos hsp]
    refine ⟨cur, ?_⟩
    constructor
    case i_eq =>
      intro sh; dsimp only
      rw [heq, h9]
      by_cases hs : sh = c.shard key
      · subst hs; simp
      · simp [hs, upd_ne]
    case i_pend => intro sh; dsimp only; grind [upd]
    case i_id => exact hid
    all_goals assumption
  · rw [if_neg hsp]
    have hsp : s.spool (c.shard key) = false := by simpa using hsp
    have hcn : cur (c.shard key) = none := by
      have := h7 (c.shard key); rw [hsp] at this
      exact Option.isSome_eq_false_iff.1 this.symm |> Option.isNone_iff_eq_none.1
    have hpn := h8 _ hsp
    refine ⟨upd cur (c.shard key) (some j), ?_⟩
    have heq' : ∀ sh, (s.submitted ++ [j]).filter (fun j => c.shard j.key = sh) =
        s.done.filter (fun j => c.shard j.key = sh) ++
          (rest s.done (upd cur (c.shard key) (some j) sh) ++ s.pend sh) := by
      intro sh
      rw [heq, h9]
      by_cases hs : sh = c.shard key
      · subst hs; simp [hcn, hpn, rest, hd]
      · simp [hs, upd_ne]
    have hbusy : s.worker (c.queueOf j) = .asleep → s.processing (c.queueOf j) = 0 := by
      intro hw; rw [h11, hw]; rfl
    unfold push; dsimp only
    have hnq : ∀ q, j ∉ s.queue q := fun q hq => hc _ (h1 q j hq).2.1
    have hndrop : j ∉ s.dropped := fun hq => hc _ (h5 j hq).1
    have hnw : ∀ q, s.worker q ≠ .exec j ∧ s.worker q ≠ .resched j ∧ s.worker q ≠ .finished j :=
      fun q => ⟨fun hq => hc _ (h3 q j (.inl hq)).2.1, fun hq => hc _ (h3 q j (.inr hq)).2.1,
        fun hq => hc _ (h4 q j hq).2.1⟩
    have hsh : ∀ j', cur (c.shard j'.key) = some j' → c.shard j'.key ≠ c.shard key := by
      intro j' h1 h2; rw [h2, hcn] at h1; simp at h1
    subst hqk
    split
    all_goals dsimp only
    all_goals split
    all_goals constructor
    case i_eq => exact heq'
    case i_eq => exact heq'
    case i_eq => exact heq'
    case i_eq => exact heq'
    case i_id => exact hid
    case i_id => exact hid
    case i_id => exact hid
    case i_id => exact hid
    all_goals clear heq heq' hid h9 h10 hj
    all_goals dsimp only
    all_goals first
      | assumption
      | (intro q; have h1q := h1 q; clear h1; grind [upd])
      | grind [upd]

theorem core_next {c : Cfg} {s : St} {cur} (h : Core c s cur) {q : QId} {j0 : Job}
    (hw : s.worker q = .finished j0) :
    ∃ cur', Core c { next c s (c.shard j0.key) with worker := upd (next c s (c.shard j0.key)).worker q (.retiring j0) } cur' := by
  have hps := fun j => @Core.pend_shard c s cur h (c.shard j0.key) j
  have hns := h.nodup_sub
  obtain ⟨h1, h2, h3, h4, h5, h6, h7, h8, h9, h10, h11, h12, h13⟩ := h
  obtain ⟨hq0, hc0, hd0⟩ := h4 _ _ hw
  have hp0 : s.processing q = 1 := by rw [h11, hw]; rfl
  unfold next
  split
  · rename_i hp
    refine ⟨upd cur (c.shard j0.key) none, ?_⟩
    have h9' : ∀ sh, s.submitted.filter (fun j => c.shard j.key = sh) =
      s.done.filter (fun j => c.shard j.key = sh) ++
        (rest s.done (upd cur (c.shard j0.key) none sh) ++ s.pend sh) := by
      intro sh
      rw [h9 sh]
      by_cases hs : sh = c.shard j0.key
      · subst hs; simp [hc0, rest, hd0]
      · simp [upd_ne _ _ hs]
    constructor
    case i_eq => exact h9'
    all_goals clear h9 h9'
    all_goals dsimp only
    all_goals first
      | assumption
      | grind [upd, W.busy]
  · rename_i j rst hp
    obtain ⟨hjs, hjd, hjc⟩ := hps j (by rw [hp]; simp)
    have hc : ∀ sh, cur sh ≠ some j := by
      intro sh hh
      have := (h6 sh j hh).1
      rw [hjs] at this; subst this; exact hjc hh
    refine ⟨upd cur (c.shard j0.key) (some j), ?_⟩
    have h9' : ∀ sh, s.submitted.filter (fun j => c.shard j.key = sh) =
      s.done.filter (fun j => c.shard j.key = sh) ++
        (rest s.done (upd cur (c.shard j0.key) (some j) sh) ++ upd s.pend (c.shard j0.key) rst sh) := by
      intro sh
      rw [h9 sh]
      by_cases hs : sh = c.shard j0.key
      · subst hs; simp [hc0, rest, hd0, hjd, hp]
      · simp [upd_ne _ _ hs]
    have hnq : ∀ q, j ∉ s.queue q := fun q hq => hc _ (h1 q j hq).2.1
    have hndrop : j ∉ s.dropped := fun hq => hc _ (h5 j hq).1
    have hnw : ∀ q, s.worker q ≠ .exec j ∧ s.worker q ≠ .resched j ∧ s.worker q ≠ .finished j :=
      fun q => ⟨fun hq => hc _ (h3 q j (.inl hq)).2.1, fun hq => hc _ (h3 q j (.inr hq)).2.1,
        fun hq => hc _ (h4 q j hq).2.1⟩
    have hbusy : s.worker (c.queueOf j) = .asleep → s.processing (c.queueOf j) = 0 := by
      intro hw; rw [h11, hw]; rfl
    have hsp : s.spool (c.shard j0.key) = true := by rw [h7, hc0]; rfl
    clear hps
    by_cases hst : s.stop (c.queueOf j) = true <;>
      by_cases hwe : ((s.queue (c.queueOf j)).isEmpty && s.processing (c.queueOf j) == 0) = true <;>
      simp only [push, hst, hwe, if_true, if_false, Bool.false_eq_true]
    all_goals constructor
    case i_eq => exact h9'
    case i_eq => exact h9'
    case i_eq => exact h9'
    case i_eq => exact h9'
    all_goals clear h9 h9' hns
    all_goals try dsimp only
    all_goals first
      | assumption
      | (intro q; have h1q := h1 q; clear h1; grind [upd, W.busy])
      | grind [upd, W.busy]

theorem core_fin {c : Cfg} {s s' : St} {cur} (h : Core c s cur) {i f} (he : finStep c s i f = some s') :
    Core c s' cur := by
  unfold finStep at he
  obtain ⟨h1, h2, h3, h4, h5, h6, h7, h8, h9, h10, h11, h12, h13⟩ := h
  repeat' split at he
  all_goals simp only [Option.some.injEq, reduceCtorEq] at he
  all_goals (subst he; constructor <;> assumption)

set_option maxHeartbeats 2000000 in
theorem core_step {c : Cfg} {s s' : St} {cur} (h : Core c s cur) {a : Act} (he : exec c s a = some s') :
    ∃ cur', Core c s' cur' := by
  cases a
  case submit key w => exec_simp he; exact core_submit h key w
  case next q =>
    exec_simp he
    rename_i j hw
    exact core_next h hw
  case fin i =>
    simp only [exec] at he
    split at he
    · exact ⟨cur, core_fin h he⟩
    · simp at he
  case finBegin =>
    exec_simp he
    obtain ⟨h1, h2, h3, h4, h5, h6, h7, h8, h9, h10, h11, h12, h13⟩ := h
    exact ⟨cur, by constructor <;> assumption⟩
  case retDone q =>
    exec_simp he
    rename_i j hw
    have hn := h.nodup_sub
    obtain ⟨h1, h2, h3, h4, h5, h6, h7, h8, h9, h10, h11, h12, h13⟩ := h
    obtain ⟨hq0, hc0, hd0, hdr⟩ := h3 _ _ (.inl hw)
    have h9' : ∀ sh, s.submitted.filter (fun j => c.shard j.key = sh) =
        (s.done ++ [j]).filter (fun j => c.shard j.key = sh) ++ (rest (s.done ++ [j]) (cur sh) ++ s.pend sh) := by
      intro sh
      rw [h9 sh]
      by_cases hs : sh = c.shard j.key
      · subst hs; simp [hc0, rest, hd0]
      · have : rest (s.done ++ [j]) (cur sh) = rest s.done (cur sh) := by
          cases hcs : cur sh with
          | none => rfl
          | some j' =>
            have := (h6 _ _ hcs).1
            have hne : j' ≠ j := by rintro rfl; exact hs this.symm
            simp [rest, hne]
        rw [this]
        simp [Ne.symm hs]
    refine ⟨cur, ?_⟩
    constructor
    case i_eq => exact h9'
    all_goals clear h9 h9'
    all_goals dsimp only
    all_goals first
      | assumption
      | grind [upd, W.busy]
  all_goals
    refine ⟨cur, ?_⟩
    obtain ⟨h1, h2, h3, h4, h5, h6, h7, h8, h9, h10, h11, h12, h13⟩ := h
    exec_simp he
  all_goals constructor
  all_goals dsimp only
  all_goals first
    | assumption
    | (clear h9; grind [upd, W.busy])

theorem Reach.core {c : Cfg} {s : St} (h : Reach c s) : ∃ cur, Core c s cur := by
  induction h with
  | init => exact ⟨_, core_init c⟩
  | step a _ he ih => obtain ⟨cur, h⟩ := ih; exact core_step h he

end Verif.Sched.Pool
