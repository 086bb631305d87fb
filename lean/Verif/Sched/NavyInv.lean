import Verif.Sched.NavyDisp
/-! Invariants of the fiber-based scheduler model. -/
namespace Verif.Sched.Navy
open Verif

/-- The request of a shard that is neither done nor pending. -/
def rest (done : List Job) : Option Job → List Job
  | some j => if j ∈ done then [] else [j]
  | none => []

structure Core (c : Cfg) (s : St) (cur : Nat → Option Job) : Prop where
  i_disp : ∀ d, DInv (c.maxOut d) (s.disp d)
  i_in : ∀ d j, InD (s.disp d) j → c.dispOf j = d ∧ cur (c.shard j.key) = some j ∧ j ∉ s.done ∧ j ∉ s.lost
  i_fin : ∀ d j, FinD (s.disp d) j → c.dispOf j = d ∧ cur (c.shard j.key) = some j ∧ j ∈ s.done
  i_given : ∀ d j, j ∈ (s.disp d).given → j ∈ s.done ∨ cur (c.shard j.key) = some j
  i_lost : ∀ j, j ∈ s.lost → cur (c.shard j.key) = some j ∧ j ∉ s.done
  i_cur : ∀ sh j, cur sh = some j → c.shard j.key = sh ∧
    (InD (s.disp (c.dispOf j)) j ∨ FinD (s.disp (c.dispOf j)) j ∨ j ∈ s.lost)
  i_spool : ∀ sh, s.spool sh = (cur sh).isSome
  i_pend : ∀ sh, s.spool sh = false → s.pend sh = []
  i_eq : ∀ sh, s.submitted.filter (fun j => c.shard j.key = sh) =
    s.done.filter (fun j => c.shard j.key = sh) ++ (rest s.done (cur sh) ++ s.pend sh)
  i_id : ∀ (i : Nat) (j : Job), s.submitted[i]? = some j → j.id = i

theorem core_init {c : Cfg} : Core c init (fun _ => none) := by
  constructor
  case i_disp => intro d; exact dinv_init _
  all_goals simp [init, rest, InD, FinD]

section facts
variable {c : Cfg} {s : St} {cur : Nat → Option Job}

theorem Core.nodup_sub (h : Core c s cur) : s.submitted.Nodup := by
  rw [List.Nodup, List.pairwise_iff_getElem]
  intro i j hi hj hij heq
  have h1 := h.i_id i _ (List.getElem?_eq_getElem hi)
  have h2 := h.i_id j _ (List.getElem?_eq_getElem hj)
  rw [heq] at h1
  omega

theorem Core.id_lt (h : Core c s cur) {j : Job} (hj : j ∈ s.submitted) : j.id < s.submitted.length := by
  obtain ⟨i, hi⟩ := List.mem_iff_getElem?.1 hj
  have := h.i_id i j hi
  have := (List.getElem?_eq_some_iff.1 hi).1
  omega

theorem Core.mem_eq (h : Core c s cur) (j : Job) : j ∈ s.submitted ↔
    j ∈ s.done ∨ j ∈ rest s.done (cur (c.shard j.key)) ∨ j ∈ s.pend (c.shard j.key) := by
  have := congrArg (j ∈ ·) (h.i_eq (c.shard j.key))
  simpa using this

theorem Core.done_sub (h : Core c s cur) {j : Job} (hj : j ∈ s.done) : j ∈ s.submitted :=
  (h.mem_eq j).2 (.inl hj)

theorem Core.cur_sub (h : Core c s cur) {sh : Nat} {j : Job} (hj : cur sh = some j) : j ∈ s.submitted := by
  by_cases hd : j ∈ s.done
  · exact h.done_sub hd
  · have := (h.i_cur sh j hj).1
    subst this
    exact (h.mem_eq j).2 (.inr (.inl (by simp [hj, rest, hd])))

theorem Core.pend_shard (h : Core c s cur) {sh : Nat} {j : Job} (hj : j ∈ s.pend sh) :
    c.shard j.key = sh ∧ j ∉ s.done ∧ cur sh ≠ some j := by
  have hm : j ∈ s.submitted.filter (fun j => c.shard j.key = sh) := by
    rw [h.i_eq sh]; simp [hj]
  have hs : c.shard j.key = sh := by simpa using (List.mem_filter.1 hm).2
  have hn : (s.submitted.filter (fun j => c.shard j.key = sh)).Nodup := h.nodup_sub.filter _
  rw [h.i_eq sh, List.nodup_append] at hn
  obtain ⟨_, h2, h3⟩ := hn
  refine ⟨hs, fun hd => ?_, fun hc => ?_⟩
  · exact h3 j (by simp [hd, hs]) j (by simp [hj]) rfl
  · by_cases hd : j ∈ s.done
    · exact h3 j (by simp [hd, hs]) j (by simp [hj]) rfl
    · rw [List.nodup_append] at h2
      exact h2.2.2 j (by simp [hc, rest, hd]) j hj rfl

theorem Core.fresh (h : Core c s cur) (key : Nat) (w : Bool) :
    (⟨s.submitted.length, key, w⟩ : Job) ∉ s.submitted := by
  intro hj
  have := h.id_lt hj
  simp at this

theorem Core.nodup_done (h : Core c s cur) : s.done.Nodup := by
  rw [List.nodup_iff_count_le_one]
  intro j
  have hn : (s.submitted.filter (fun j' => c.shard j'.key = c.shard j.key)).Nodup := h.nodup_sub.filter _
  rw [h.i_eq, List.nodup_append] at hn
  have := List.nodup_iff_count_le_one.1 hn.1 j
  rwa [List.count_filter (by simp)] at this

end facts

theorem core_submit {c : Cfg} {s : St} {cur} (h : Core c s cur) (key : Nat) (w : Bool) :
    ∃ cur', Core c (submit c s key w) cur' := by
  have hf := h.fresh key w
  have hd : (⟨s.submitted.length, key, w⟩ : Job) ∉ s.done := fun hh => hf (h.done_sub hh)
  have hc : ∀ sh, cur sh ≠ some ⟨s.submitted.length, key, w⟩ := fun sh hh => hf (h.cur_sub hh)
  have hid : ∀ (i : Nat) (j : Job), (s.submitted ++ [⟨s.submitted.length, key, w⟩])[i]? = some j → j.id = i := by
    intro i j hij
    rw [List.getElem?_append] at hij
    split at hij
    · exact h.i_id i j hij
    · rename_i hi
      obtain ⟨hi', hij⟩ := List.getElem?_eq_some_iff.1 hij
      simp at hi' hij; subst hij; show s.submitted.length = i; omega
  have hqk : (⟨s.submitted.length, key, w⟩ : Job).key = key := rfl
  unfold submit
  generalize hj : (⟨s.submitted.length, key, w⟩ : Job) = j at *
  obtain ⟨h1, h2, h3, h4, h5, h6, h7, h8, h9, h10⟩ := h
  have heq : ∀ sh, (s.submitted ++ [j]).filter (fun j => c.shard j.key = sh) =
      s.submitted.filter (fun j => c.shard j.key = sh) ++ (if sh = c.shard key then [j] else []) := by
    intro sh
    rw [List.filter_append]
    congr 1
    by_cases hs : sh = c.shard key
    · simp [hs, hqk]
    · simp [hs, hqk, Ne.symm hs]
  dsimp only
  by_cases hsp : s.spool (c.shard key) = true
  · rw [if_pos hsp]
    refine ⟨cur, ?_⟩
    constructor
    case i_eq =>
      intro sh; dsimp only
      rw [heq, h9]
      by_cases hs : sh = c.shard key
      · subst hs; simp
      · simp [hs, upd_ne]
    case i_pend => intro sh; dsimp only; grind [upd]
    case i_id => exact hid
    all_goals assumption
  · rw [if_neg hsp]
    have hsp : s.spool (c.shard key) = false := by simpa using hsp
    have hcn : cur (c.shard key) = none := by
      have := h7 (c.shard key); rw [hsp] at this
      exact Option.isSome_eq_false_iff.1 this.symm |> Option.isNone_iff_eq_none.1
    have hpn := h8 _ hsp
    refine ⟨upd cur (c.shard key) (some j), ?_⟩
    have heq' : ∀ sh, (s.submitted ++ [j]).filter (fun j => c.shard j.key = sh) =
        s.done.filter (fun j => c.shard j.key = sh) ++
          (rest s.done (upd cur (c.shard key) (some j) sh) ++ s.pend sh) := by
      intro sh
      rw [heq, h9]
      by_cases hs : sh = c.shard key
      · subst hs; simp [hcn, hpn, rest, hd]
      · simp [hs, upd_ne]
    have hng : ∀ d, j ∉ (s.disp d).given := fun d hg => (h4 d j hg).elim hd (hc _)
    have hndrop : j ∉ s.lost := fun hq => hc _ (h5 j hq).1
    have hsh : ∀ j', cur (c.shard j'.key) = some j' → c.shard j'.key ≠ c.shard key := by
      intro j' h1 h2; rw [h2, hcn] at h1; simp at h1
    subst hqk
    have hin : ∀ d x, InD (upd s.disp (c.dispOf j) ((s.disp (c.dispOf j)).give j) d) x ↔
        InD (s.disp d) x ∨ (x = j ∧ d = c.dispOf j) := by
      intro d x
      by_cases hdd : d = c.dispOf j
      · subst hdd; rw [upd_same, give_in]; simp
      · rw [upd_ne _ _ hdd]; simp [hdd]
    have hfin : ∀ d x, FinD (upd s.disp (c.dispOf j) ((s.disp (c.dispOf j)).give j) d) x ↔ FinD (s.disp d) x := by
      intro d x
      by_cases hdd : d = c.dispOf j
      · subst hdd; rw [upd_same]; exact give_fin
      · rw [upd_ne _ _ hdd]
    have hgv : ∀ d x, x ∈ (upd s.disp (c.dispOf j) ((s.disp (c.dispOf j)).give j) d).given →
        x ∈ (s.disp d).given ∨ x = j := by
      intro d x
      by_cases hdd : d = c.dispOf j
      · subst hdd; rw [upd_same]; simp [Disp.give]
      · rw [upd_ne _ _ hdd]; exact .inl
    constructor
    case i_disp =>
      intro d; dsimp only
      by_cases hdd : d = c.dispOf j
      · subst hdd; rw [upd_same]; exact give_inv (h1 _) (hng _)
      · rw [upd_ne _ _ hdd]; exact h1 d
    case i_eq => exact heq'
    case i_id => exact hid
    all_goals clear heq heq' hid h9 h10 hj h1
    all_goals dsimp only
    all_goals first
      | assumption
      | (simp only [hin, hfin]; grind [upd])
      | grind [upd]

theorem core_notify {c : Cfg} {s : St} {cur} {d0 : DId} {j0 : Job} (h : Core c s cur)
    (hm : (j0, Ph.finished) ∈ (s.disp d0).out) :
    ∃ cur', Core c (notify c { s with disp := upd s.disp d0 { s.disp d0 with
          out := (j0, .notified) :: (s.disp d0).out.erase (j0, .finished) } } j0.key) cur' := by
  have hps := fun j => @Core.pend_shard c s cur h (c.shard j0.key) j
  have hns := h.nodup_sub
  obtain ⟨h1, h2, h3, h4, h5, h6, h7, h8, h9, h10⟩ := h
  obtain ⟨hq0, hc0, hd0⟩ := h3 _ _ hm
  have hx := erase_fst (h1 d0).l_outn hm
  -- the dispatcher after the change of phase
  have hin1 : ∀ d x, InD (upd s.disp d0 { s.disp d0 with
      out := (j0, .notified) :: (s.disp d0).out.erase (j0, .finished) } d) x ↔ InD (s.disp d) x := by
    intro d x
    by_cases hdd : d = d0
    · subst hdd
      rw [upd_same]
      have : InD (s.disp d) j0 → False := fun hh => (h2 _ _ hh).2.2.1 hd0
      simp only [InD, List.mem_cons, hx] at this ⊢
      grind
    · rw [upd_ne _ _ hdd]
  have hfin1 : ∀ d x, FinD (upd s.disp d0 { s.disp d0 with
      out := (j0, .notified) :: (s.disp d0).out.erase (j0, .finished) } d) x ↔ FinD (s.disp d) x ∧ x ≠ j0 := by
    intro d x
    by_cases hdd : d = d0
    · subst hdd
      rw [upd_same]
      simp only [FinD, List.mem_cons, hx]
      grind
    · rw [upd_ne _ _ hdd]
      refine ⟨fun hh => ⟨hh, ?_⟩, fun hh => hh.1⟩
      rintro rfl
      exact hdd ((h3 _ _ hh).1.symm.trans hq0)
  have hgv1 : ∀ d, (upd s.disp d0 { s.disp d0 with
      out := (j0, .notified) :: (s.disp d0).out.erase (j0, .finished) } d).given = (s.disp d).given := by
    intro d
    by_cases hdd : d = d0
    · subst hdd; rw [upd_same]
    · rw [upd_ne _ _ hdd]
  have hdi1 : ∀ d, DInv (c.maxOut d) (upd s.disp d0 { s.disp d0 with
      out := (j0, .notified) :: (s.disp d0).out.erase (j0, .finished) } d) := by
    intro d
    by_cases hdd : d = d0
    · subst hdd; rw [upd_same]; exact swap_inv (h1 d) hm
    · rw [upd_ne _ _ hdd]; exact h1 d
  generalize upd s.disp d0 { s.disp d0 with
      out := (j0, .notified) :: (s.disp d0).out.erase (j0, .finished) } = D at *
  unfold notify
  split
  · rename_i hp
    dsimp only at hp
    refine ⟨upd cur (c.shard j0.key) none, ?_⟩
    have h9' : ∀ sh, s.submitted.filter (fun j => c.shard j.key = sh) =
      s.done.filter (fun j => c.shard j.key = sh) ++
        (rest s.done (upd cur (c.shard j0.key) none sh) ++ s.pend sh) := by
      intro sh
      rw [h9 sh]
      by_cases hs : sh = c.shard j0.key
      · subst hs; simp [hc0, rest, hd0]
      · simp [upd_ne _ _ hs]
    constructor
    case i_eq => exact h9'
    case i_disp => exact hdi1
    all_goals clear h9 h9' h1 hx
    all_goals dsimp only
    all_goals first
      | assumption
      | (simp only [hin1, hfin1, hgv1]; grind [upd])
      | grind [upd]
  · rename_i j rst hp
    dsimp only at hp
    obtain ⟨hjs, hjd, hjc⟩ := hps j (by rw [hp]; simp)
    have hc : ∀ sh, cur sh ≠ some j := by
      intro sh hh
      have := (h6 sh j hh).1
      rw [hjs] at this; subst this; exact hjc hh
    have hng : ∀ d, j ∉ (s.disp d).given := fun d hg => (h4 d j hg).elim hjd (hc _)
    have hndrop : j ∉ s.lost := fun hq => hc _ (h5 j hq).1
    have h9' : ∀ sh, s.submitted.filter (fun j => c.shard j.key = sh) =
      s.done.filter (fun j => c.shard j.key = sh) ++
        (rest s.done (upd cur (c.shard j0.key) (some j) sh) ++ upd s.pend (c.shard j0.key) rst sh) := by
      intro sh
      rw [h9 sh]
      by_cases hs : sh = c.shard j0.key
      · subst hs; simp [hc0, rest, hd0, hjd, hp]
      · simp [upd_ne _ _ hs]
    have hsp : s.spool (c.shard j0.key) = true := by rw [h7, hc0]; rfl
    clear hps
    refine ⟨upd cur (c.shard j0.key) (some j), ?_⟩
    split
    · constructor
      case i_eq => exact h9'
      case i_disp => exact hdi1
      all_goals clear h9 h9' h1 hx hns
      all_goals dsimp only
      all_goals first
        | assumption
        | (simp only [hin1, hfin1, hgv1]; grind [upd])
        | grind [upd]
    · have hin : ∀ d x, InD (upd D (c.dispOf j) ((D (c.dispOf j)).give j) d) x ↔
          InD (s.disp d) x ∨ (x = j ∧ d = c.dispOf j) := by
        intro d x
        by_cases hdd : d = c.dispOf j
        · subst hdd; rw [upd_same, give_in, hin1]; simp
        · rw [upd_ne _ _ hdd, hin1]; simp [hdd]
      have hfin : ∀ d x, FinD (upd D (c.dispOf j) ((D (c.dispOf j)).give j) d) x ↔ FinD (s.disp d) x ∧ x ≠ j0 := by
        intro d x
        by_cases hdd : d = c.dispOf j
        · subst hdd; rw [upd_same, give_fin, hfin1]
        · rw [upd_ne _ _ hdd, hfin1]
      have hgv : ∀ d x, x ∈ (upd D (c.dispOf j) ((D (c.dispOf j)).give j) d).given →
          x ∈ (s.disp d).given ∨ x = j := by
        intro d x
        by_cases hdd : d = c.dispOf j
        · subst hdd; rw [upd_same, ← hgv1]; simp [Disp.give]
        · rw [upd_ne _ _ hdd, hgv1]; exact .inl
      constructor
      case i_eq => exact h9'
      case i_disp =>
        intro d; dsimp only
        by_cases hdd : d = c.dispOf j
        · subst hdd; rw [upd_same]; exact give_inv (hdi1 _) (by rw [hgv1]; exact hng _)
        · rw [upd_ne _ _ hdd]; exact hdi1 d
      all_goals clear h9 h9' h1 hx hns hdi1 hin1 hfin1 hgv1
      all_goals dsimp only
      all_goals first
        | assumption
        | (simp only [hin, hfin]; grind [upd])
        | grind [upd]

/-- A change inside one dispatcher that moves no request in or out. -/
theorem core_upd {c : Cfg} {s : St} {cur} (h : Core c s cur) {d0 : DId} {D : Disp}
    (hi : DInv (c.maxOut d0) D) (hin : ∀ x, InD D x ↔ InD (s.disp d0) x)
    (hfin : ∀ x, FinD D x ↔ FinD (s.disp d0) x) (hgv : D.given = (s.disp d0).given) :
    Core c { s with disp := upd s.disp d0 D } cur := by
  have hin' : ∀ d x, InD (upd s.disp d0 D d) x ↔ InD (s.disp d) x := by
    intro d x; by_cases hd : d = d0
    · subst hd; rw [upd_same, hin]
    · rw [upd_ne _ _ hd]
  have hfin' : ∀ d x, FinD (upd s.disp d0 D d) x ↔ FinD (s.disp d) x := by
    intro d x; by_cases hd : d = d0
    · subst hd; rw [upd_same, hfin]
    · rw [upd_ne _ _ hd]
  have hgv' : ∀ d, (upd s.disp d0 D d).given = (s.disp d).given := by
    intro d; by_cases hd : d = d0
    · subst hd; rw [upd_same, hgv]
    · rw [upd_ne _ _ hd]
  obtain ⟨h1, h2, h3, h4, h5, h6, h7, h8, h9, h10⟩ := h
  constructor
  case i_disp =>
    intro d; dsimp only; by_cases hd : d = d0
    · subst hd; rw [upd_same]; exact hi
    · rw [upd_ne _ _ hd]; exact h1 d
  all_goals simp only [hin', hfin', hgv']
  all_goals assumption

theorem core_retDone {c : Cfg} {s : St} {cur} (h : Core c s cur) {d0 : DId} {j : Job}
    (hm : (j, Ph.exec) ∈ (s.disp d0).out) :
    Core c { s with
        done := s.done ++ [j]
        disp := upd s.disp d0 { s.disp d0 with
          out := (j, .finished) :: (s.disp d0).out.erase (j, .exec) } } cur := by
  obtain ⟨h1, h2, h3, h4, h5, h6, h7, h8, h9, h10⟩ := h
  have hx := erase_fst (h1 d0).l_outn hm
  obtain ⟨hq0, hc0, hd0, hl0⟩ := h2 d0 j (.inr (.inr hm))
  have hst : j ∈ (s.disp d0).started := (h1 d0).l_outs _ hm
  have hnl : j ∉ (s.disp d0).loops.flatMap Loop.jobs ∧ j ∉ (s.disp d0).inc := by
    have hn := (h1 d0).l_nodup
    rw [(h1 d0).l_given, List.nodup_append] at hn
    exact ⟨fun hh => hn.2.2 j hst j (List.mem_append_left _ hh) rfl,
      fun hh => hn.2.2 j hst j (List.mem_append_right _ (by simpa using hh)) rfl⟩
  have hin : ∀ d x, InD (upd s.disp d0 { s.disp d0 with
          out := (j, .finished) :: (s.disp d0).out.erase (j, .exec) } d) x ↔ InD (s.disp d) x ∧ x ≠ j := by
    intro d x
    by_cases hdd : d = d0
    · subst hdd
      rw [upd_same]
      simp only [InD, List.mem_cons, hx]
      grind
    · rw [upd_ne _ _ hdd]
      refine ⟨fun hh => ⟨hh, ?_⟩, fun hh => hh.1⟩
      rintro rfl
      exact hdd ((h2 _ _ hh).1.symm.trans hq0)
  have hfin : ∀ d x, FinD (upd s.disp d0 { s.disp d0 with
          out := (j, .finished) :: (s.disp d0).out.erase (j, .exec) } d) x ↔ FinD (s.disp d) x ∨ (x = j ∧ d = d0) := by
    intro d x
    by_cases hdd : d = d0
    · subst hdd
      rw [upd_same]
      have : FinD (s.disp d) j → False := fun hh => hd0 (h3 _ _ hh).2.2
      simp only [FinD, List.mem_cons, hx] at this ⊢
      grind
    · rw [upd_ne _ _ hdd]; simp [hdd]
  have hgv : ∀ d, (upd s.disp d0 { s.disp d0 with
          out := (j, .finished) :: (s.disp d0).out.erase (j, .exec) } d).given = (s.disp d).given := by
    intro d
    by_cases hdd : d = d0
    · subst hdd; rw [upd_same]
    · rw [upd_ne _ _ hdd]
  have h9' : ∀ sh, s.submitted.filter (fun j => c.shard j.key = sh) =
      (s.done ++ [j]).filter (fun j => c.shard j.key = sh) ++ (rest (s.done ++ [j]) (cur sh) ++ s.pend sh) := by
    intro sh
    rw [h9 sh]
    by_cases hs : sh = c.shard j.key
    · subst hs; simp [hc0, rest, hd0]
    · have : rest (s.done ++ [j]) (cur sh) = rest s.done (cur sh) := by
        cases hcs : cur sh with
        | none => rfl
        | some j' =>
          have := (h6 _ _ hcs).1
          have hne : j' ≠ j := by rintro rfl; exact hs this.symm
          simp [rest, hne]
      rw [this]
      simp [Ne.symm hs]
  constructor
  case i_eq => exact h9'
  case i_disp =>
    intro d; dsimp only; by_cases hd : d = d0
    · subst hd; rw [upd_same]; exact swap_inv (h1 d) hm
    · rw [upd_ne _ _ hd]; exact h1 d
  all_goals clear h9 h9' h1 hx
  all_goals simp only [hin, hfin, hgv, List.mem_append, List.mem_singleton]
  all_goals first
    | assumption
    | grind

theorem core_step {c : Cfg} {s s' : St} {cur} (h : Core c s cur) {a : Act} (he : exec c s a = some s') :
    ∃ cur', Core c s' cur' := by
  cases a with
  | submit key w =>
    simp only [exec, Option.some.injEq] at he; subst he; exact core_submit h key w
  | addTask d =>
    simp only [exec] at he
    split at he
    · simp at he
    · rename_i hp
      simp only [Option.some.injEq] at he; subst he
      exact ⟨cur, core_upd h (addTask_inv (h.i_disp d) hp) (fun _ => Iff.rfl) (fun _ => Iff.rfl) rfl⟩
  | begin d =>
    simp only [exec] at he
    split at he
    · simp at he
    · rename_i hp
      simp only [Option.some.injEq] at he; subst he
      exact ⟨cur, core_upd h (begin_inv (h.i_disp d) hp) (fun _ => by simp [InD, Loop.jobs]) (fun _ => Iff.rfl) rfl⟩
  | loop d i =>
    simp only [exec] at he
    split at he
    · simp at he
    · rename_i l hl
      split at he
      · rename_i d' hd'
        simp only [Option.some.injEq] at he; subst he
        have hL := loop_in (h.i_disp d) hl hd'
        exact ⟨cur, core_upd h (loop_inv (h.i_disp d) hl hd') (fun x => (hL x).1) (fun x => (hL x).2.1)
          (hL ⟨0, 0, false⟩).2.2.1⟩
      · simp at he
  | retDone d j =>
    simp only [exec] at he
    split at he
    · rename_i hm
      simp only [Option.some.injEq] at he; subst he
      exact ⟨cur, core_retDone h hm⟩
    · simp at he
  | notify d j =>
    simp only [exec] at he
    split at he
    · rename_i hm
      simp only [Option.some.injEq] at he; subst he
      exact core_notify h hm
    · simp at he
  | dec d j =>
    simp only [exec] at he
    split at he
    · rename_i hm
      simp only [Option.some.injEq] at he; subst he
      have hx := erase_fst (h.i_disp d).l_outn hm
      have hln := (h.i_disp d).l_outn
      refine ⟨cur, core_upd h (dec_inv (h.i_disp d) hm) (fun x => ?_) (fun x => ?_) rfl⟩
      · have : (x, Ph.exec) ∈ (s.disp d).out → x ≠ j := by
          rintro h1 rfl
          have := List.inj_on_of_nodup_map hln h1 hm rfl
          simp at this
        simp only [InD, hx]; grind
      · have : (x, Ph.finished) ∈ (s.disp d).out → x ≠ j := by
          rintro h1 rfl
          have := List.inj_on_of_nodup_map hln h1 hm rfl
          simp at this
        simp only [FinD, hx]; grind
    · simp at he
  | leave d =>
    simp only [exec] at he
    split at he
    · simp at he
    · rename_i hp
      simp only [Option.some.injEq] at he; subst he
      exact ⟨cur, core_upd h (leave_inv (h.i_disp d) hp) (fun _ => Iff.rfl) (fun _ => Iff.rfl) rfl⟩
  | stop =>
    simp only [exec, Option.some.injEq] at he; subst he
    obtain ⟨h1, h2, h3, h4, h5, h6, h7, h8, h9, h10⟩ := h
    exact ⟨cur, by constructor <;> assumption⟩
  | finBegin =>
    simp only [exec, Option.some.injEq] at he; subst he
    obtain ⟨h1, h2, h3, h4, h5, h6, h7, h8, h9, h10⟩ := h
    exact ⟨cur, by constructor <;> assumption⟩
  | fin i =>
    simp only [exec] at he
    obtain ⟨h1, h2, h3, h4, h5, h6, h7, h8, h9, h10⟩ := h
    repeat' split at he
    all_goals simp only [Option.some.injEq, reduceCtorEq] at he
    all_goals (subst he; exact ⟨cur, by constructor <;> assumption⟩)

theorem Reach.core {c : Cfg} {s : St} (h : Reach c s) : ∃ cur, Core c s cur := by
  induction h with
  | init => exact ⟨_, core_init⟩
  | step a _ he ih => obtain ⟨cur, h⟩ := ih; exact core_step h he

end Verif.Sched.Navy
