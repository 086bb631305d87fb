import Mathlib.Data.List.Nodup
import Mathlib.Data.List.Perm.Subperm
/-
Model of what `cachelib/navy/block_cache/RegionManager.cpp` writes to and reads from the metadata, with the eviction policy's part
(FifoPolicy.cpp:59-86; other policies throw, EvictionPolicy.h:59-68), and property C45 for it.

The eviction policy is the list of the regions in the order they were tracked, with the track times; that the policies choose by
that order is property C33.  Only FifoPolicy can persist.
-/
namespace Verif.Restart.RegionMgr

/-- Conversion of an unsigned value to a thrift i32 (objects.thrift:37-57). -/
def i32 (x : Nat) : Int := if x % 2 ^ 32 < 2 ^ 31 then (x % 2 ^ 32 : Nat) else (x % 2 ^ 32 : Nat) - (2 ^ 32 : Int)
/-- `static_cast<uint32_t>` of a thrift i32. -/
def u32 (x : Int) : Nat := (x % 2 ^ 32).toNat
/-- `static_cast<uint16_t>` of a thrift i32 (Region.h:70). -/
def u16 (x : Int) : Nat := (x % 2 ^ 16).toNat

/-- Region.h:70-72: the fields of a region that are saved. -/
structure Reg where
  last : Nat
  num : Nat
  prio : Nat
deriving DecidableEq, Inhabited

/-- RegionManager.h: the members that matter here; `fifo`: the policy is a FifoPolicy. -/
structure Mgr where
  n : Nat
  RS : Nat
  numPri : Nat
  numClean : Nat
  recoverPolicy : Bool
  fifo : Bool
  regs : List Reg
  queue : List (Nat × Nat)
  clean : List Nat

/-- objects.thrift:37-44 Region. -/
structure RegData where
  id : Int
  last : Int
  prio : Int
  num : Int
deriving DecidableEq

/-- objects.thrift:46-65 RegionData, with the FIFO variant of EvictionPolicyData. -/
structure Data where
  regions : List RegData
  RS : Int
  policy : Option (List (Int × Nat))
deriving DecidableEq

/-- RegionManager.cpp:528-534 -/
def persistRegs : Nat → List Reg → List RegData
  | _, [] => []
  | i, r :: l => ⟨i32 i, i32 r.last, i32 r.prio, i32 r.num⟩ :: persistRegs (i + 1) l

/-- RegionManager.cpp:524-547 persist; FifoPolicy.cpp:59-71. -/
def Mgr.persist (m : Mgr) : Data :=
  { regions := persistRegs 0 m.regs, RS := i32 m.RS,
    policy := if m.recoverPolicy ∧ m.fifo then some (m.queue.map fun x => (i32 x.1, x.2)) else none }

/-- RegionManager.cpp:557-573: the loop; `none` if it throws. -/
def recoverRegs (n RS numPri : Nat) : List RegData → List Reg → Option (List Reg)
  | [], regs => some regs
  | d :: l, regs =>
    if n ≤ u32 d.id ∨ RS < u32 d.last then none
    else
      let p : Int := if 0 < numPri ∧ (numPri : Int) ≤ d.prio then (numPri : Int) - 1 else d.prio
      recoverRegs n RS numPri l (regs.set (u32 d.id) ⟨u32 d.last, u32 d.num, u16 p⟩)

/-- RegionManager.cpp:101-105 track. -/
def Mgr.track (m : Mgr) (now i : Nat) : Mgr := { m with queue := m.queue ++ [(i, now)] }

/-- `regions_[i]->getNumItems()` -/
def Mgr.numItems (m : Mgr) (i : Nat) : Nat := (m.regs.getD i default).num

/-- RegionManager.cpp:633-643: the loop over the regions, `l` being those that remain. -/
def restoreLoop (now : Nat) (tracked : List Nat) : List Nat → Mgr → Mgr
  | [], m => m
  | i :: l, m =>
    if tracked.contains i then restoreLoop now tracked l m
    else if m.numItems i = 0 ∧ m.clean.length < m.numClean then restoreLoop now tracked l { m with clean := m.clean ++ [i] }
    else restoreLoop now tracked l (m.track now i)

/-- RegionManager.cpp:609-644 restoreUntrackedRegions; `none` if it throws. -/
def Mgr.restoreUntracked (m : Mgr) (now : Nat) (q : List (Int × Nat)) : Option Mgr :=
  if q.any fun x => m.n ≤ u32 x.1 then none
  else some (restoreLoop now (q.map fun x => u32 x.1) (List.range m.n) m)

/-- RegionManager.cpp:661-673: the regions tracked in this order. -/
def resetLoop (now : Nat) (want : Nat → Bool) : List Nat → Mgr → Mgr
  | [], m => m
  | i :: l, m => resetLoop now want l (if want i then m.track now i else m)

/-- RegionManager.cpp:654-674 resetEvictionPolicy (the fragmentation counter is left out). -/
def Mgr.resetPolicy (m : Mgr) (now : Nat) : Mgr :=
  let m0 : Mgr := { m with queue := [] }
  let m1 := resetLoop now (fun i => m.numItems i == 0) (List.range m.n) m0
  resetLoop now (fun i => m.numItems i != 0) (List.range m.n) m1

/-- RegionManager.cpp:578-597 and FifoPolicy.cpp:73-86: `none` if the policy is not recovered. -/
def Mgr.recoverPol (m : Mgr) (now : Nat) (d : Data) : Option Mgr :=
  match d.policy with
  | none => none
  | some q =>
    if m.recoverPolicy ∧ m.fifo then
      ({ m with queue := q.map fun x => (u32 x.1, x.2) } : Mgr).restoreUntracked now q
    else none

/-- RegionManager.cpp:549-607 recover; `none` if it throws. -/
def Mgr.recover (m : Mgr) (now : Nat) (d : Data) : Option Mgr :=
  if d.regions.length ≠ m.n ∨ u32 d.RS ≠ m.RS then none
  else
    match recoverRegs m.n m.RS m.numPri d.regions m.regs with
    | none => none
    | some regs =>
      match ({ m with regs := regs } : Mgr).recoverPol now d with
      | some m' => some m'
      | none => some (({ m with regs := regs } : Mgr).resetPolicy now)

/-- RegionManager.cpp:107-126 reset with 61-63: a manager just made, or reset: no region has items or is clean. -/
def Mgr.blank (m : Mgr) : Prop := m.regs.length = m.n ∧ m.clean = []

/-! ### Lemmas -/

theorem u32_i32 {x : Nat} (h : x < 2 ^ 32) : u32 (i32 x) = x := by
  unfold u32 i32
  rw [Nat.mod_eq_of_lt h]
  split <;> omega

theorem i32_small {x : Nat} (h : x < 2 ^ 31) : i32 x = x := by
  unfold i32
  rw [Nat.mod_eq_of_lt (by omega), if_pos h]

theorem u16_small {x : Nat} (h : x < 2 ^ 16) : u16 (x : Int) = x := by
  unfold u16; omega

/-- The saved fields are in the ranges of their types (regions are at most 2^30 bytes, BlockCache.cpp:75-79). -/
structure Ok (m : Mgr) : Prop where
  len : m.regs.length = m.n
  n : m.n < 2 ^ 31
  RS : m.RS ≤ 2 ^ 30
  last : ∀ r ∈ m.regs, r.last ≤ m.RS
  num : ∀ r ∈ m.regs, r.num < 2 ^ 32
  prio : ∀ r ∈ m.regs, r.prio < 2 ^ 16

/-- RegionManager.cpp:565-570: priorities that no longer exist become the highest one. -/
def clampPrio (numPri : Nat) (r : Reg) : Reg := { r with prio := if 0 < numPri ∧ numPri ≤ r.prio then numPri - 1 else r.prio }

theorem persistRegs_length (i : Nat) (l : List Reg) : (persistRegs i l).length = l.length := by
  induction l generalizing i with
  | nil => rfl
  | cons r l ih => simp [persistRegs, ih]

theorem recoverRegs_persist {n RS numPri : Nat} (hn : n < 2 ^ 31) (hRS : RS ≤ 2 ^ 30) (hp : numPri < 2 ^ 16) :
    ∀ (l done rest : List Reg), done.length + l.length = n → rest.length = l.length →
      (∀ r ∈ l, r.last ≤ RS ∧ r.num < 2 ^ 32 ∧ r.prio < 2 ^ 16) →
      recoverRegs n RS numPri (persistRegs done.length l) (done ++ rest) = some (done ++ l.map (clampPrio numPri)) := by
  intro l
  induction l with
  | nil =>
    intro done rest _ h2 _
    have : rest = [] := List.eq_nil_of_length_eq_zero h2
    subst this
    simp [persistRegs, recoverRegs]
  | cons r l ih =>
    intro done rest h1 h2 h3
    cases rest with
    | nil => simp at h2
    | cons r0 rest =>
      obtain ⟨a1, a2, a3⟩ := h3 r (List.mem_cons_self)
      simp only [List.length_cons] at h1 h2
      simp only [persistRegs, recoverRegs]
      rw [u32_i32 (show done.length < 2 ^ 32 by omega), u32_i32 (show r.last < 2 ^ 32 by omega), u32_i32 a2,
        i32_small (show r.prio < 2 ^ 31 by omega), if_neg (by omega)]
      have hset : (done ++ r0 :: rest).set done.length
          ⟨r.last, r.num, u16 (if 0 < numPri ∧ (numPri : Int) ≤ (r.prio : Int) then (numPri : Int) - 1 else (r.prio : Int))⟩ =
          (done ++ [clampPrio numPri r]) ++ rest := by
        rw [List.set_append_right _ _ (Nat.le_refl _), Nat.sub_self, List.set_cons_zero]
        have : (⟨r.last, r.num, u16 (if 0 < numPri ∧ (numPri : Int) ≤ (r.prio : Int) then (numPri : Int) - 1 else (r.prio : Int))⟩ : Reg)
            = clampPrio numPri r := by
          unfold clampPrio
          simp only [Reg.mk.injEq, true_and]
          by_cases hc : 0 < numPri ∧ numPri ≤ r.prio
          · rw [if_pos hc, if_pos ⟨hc.1, by omega⟩, show (numPri : Int) - 1 = ((numPri - 1 : Nat) : Int) by omega, u16_small (by omega)]
          · rw [if_neg hc, if_neg (by omega), u16_small a3]
        rw [this]; simp
      rw [hset]
      have := ih (done ++ [clampPrio numPri r]) rest (by simp; omega) (by omega) (fun x hx => h3 x (List.mem_cons_of_mem _ hx))
      rw [List.length_append, List.length_singleton] at this
      rw [this]; simp

theorem restoreLoop_regs (now : Nat) (tr : List Nat) : ∀ (l : List Nat) (m : Mgr), (restoreLoop now tr l m).regs = m.regs
  | [], _ => rfl
  | i :: l, m => by
    rw [restoreLoop]
    split
    · exact restoreLoop_regs now tr l m
    · split
      · exact restoreLoop_regs now tr l _
      · exact restoreLoop_regs now tr l _

theorem restoreLoop_numClean (now : Nat) (tr : List Nat) : ∀ (l : List Nat) (m : Mgr), (restoreLoop now tr l m).numClean = m.numClean
  | [], _ => rfl
  | i :: l, m => by
    rw [restoreLoop]
    split
    · exact restoreLoop_numClean now tr l m
    · split
      · exact restoreLoop_numClean now tr l _
      · exact restoreLoop_numClean now tr l _

theorem restoreLoop_spec (now : Nat) (tr : List Nat) : ∀ (l : List Nat) (m : Mgr),
    ∃ cl tl : List Nat, (restoreLoop now tr l m).clean = m.clean ++ cl ∧
      (restoreLoop now tr l m).queue = m.queue ++ tl.map (fun i => (i, now)) ∧
      (cl ++ tl).Perm (l.filter fun i => !tr.contains i) ∧ (∀ i ∈ cl, m.numItems i = 0) ∧
      (m.clean.length ≤ m.numClean → m.clean.length + cl.length ≤ m.numClean) ∧
      ((∃ i ∈ tl, m.numItems i = 0) → m.numClean ≤ m.clean.length + cl.length) ∧ cl.Sublist l ∧ tl.Sublist l
  | [], m => ⟨[], [], by simp [restoreLoop]⟩
  | i :: l, m => by
    rw [restoreLoop]
    split
    · rename_i hc
      obtain ⟨cl, tl, h1, h2, h3, h4, h5, h6, h7, h8⟩ := restoreLoop_spec now tr l m
      exact ⟨cl, tl, h1, h2, by rw [List.filter_cons_of_neg (by simpa using hc)]; exact h3, h4, h5, h6, h7.cons _, h8.cons _⟩
    · rename_i hc
      split
      · rename_i hn
        obtain ⟨cl, tl, h1, h2, h3, h4, h5, h6, h7, h8⟩ := restoreLoop_spec now tr l { m with clean := m.clean ++ [i] }
        refine ⟨i :: cl, tl, by rw [h1]; simp, h2, ?_, ?_, ?_, ?_, h7.cons_cons _, h8.cons _⟩
        · rw [List.filter_cons_of_pos (by simpa using hc), List.cons_append]; exact h3.cons _
        · intro j hj
          rcases List.mem_cons.1 hj with rfl | hj
          · exact hn.1
          · exact h4 j hj
        · intro h
          have := h5 (by simp only [List.length_append, List.length_singleton]; omega)
          simp only [List.length_append, List.length_cons, List.length_nil] at this ⊢
          omega
        · intro h
          have := h6 h
          simp only [List.length_append, List.length_cons, List.length_nil] at this ⊢
          omega
      · rename_i hn
        obtain ⟨cl, tl, h1, h2, h3, h4, h5, h6, h7, h8⟩ := restoreLoop_spec now tr l (m.track now i)
        refine ⟨cl, i :: tl, h1, by rw [h2]; simp [Mgr.track], ?_, h4, h5, ?_, h7.cons _, h8.cons_cons _⟩
        · rw [List.filter_cons_of_pos (by simpa using hc)]
          exact List.perm_middle.trans (h3.cons _)
        · rintro ⟨j, hj, hz⟩
          rcases List.mem_cons.1 hj with rfl | hj
          · omega
          · exact h6 ⟨j, hj, hz⟩

theorem resetLoop_queue (now : Nat) (want : Nat → Bool) : ∀ (l : List Nat) (m : Mgr),
    (resetLoop now want l m).queue = m.queue ++ (l.filter want).map (fun i => (i, now))
  | [], m => by simp [resetLoop]
  | i :: l, m => by
    rw [resetLoop, resetLoop_queue]
    cases h : want i <;> simp [h, Mgr.track, List.filter_cons]

theorem resetLoop_rest (now : Nat) (want : Nat → Bool) : ∀ (l : List Nat) (m : Mgr),
    (resetLoop now want l m).regs = m.regs ∧ (resetLoop now want l m).clean = m.clean ∧ (resetLoop now want l m).n = m.n ∧
    (resetLoop now want l m).numClean = m.numClean
  | [], m => by simp [resetLoop]
  | i :: l, m => by
    rw [resetLoop]
    obtain ⟨h1, h2, h3, h4⟩ := resetLoop_rest now want l (if want i then m.track now i else m)
    rw [h1, h2, h3, h4]
    cases want i <;> simp [Mgr.track]

/-! ### Specification and theorems -/

/-- Every region is in exactly one place, in the eviction policy or in the clean list; the clean ones have no items. -/
structure Placed (m : Mgr) : Prop where
  once : (m.clean ++ m.queue.map Prod.fst).Perm (List.range m.n)
  empty : ∀ i ∈ m.clean, m.numItems i = 0

theorem resetPolicy_spec (m : Mgr) (now : Nat) (hc : m.clean = []) :
    Placed (m.resetPolicy now) ∧ (m.resetPolicy now).clean = [] ∧ (m.resetPolicy now).regs = m.regs ∧
    (m.resetPolicy now).queue.map Prod.fst =
      (List.range m.n).filter (fun i => m.numItems i = 0) ++ (List.range m.n).filter (fun i => m.numItems i ≠ 0) := by
  unfold Mgr.resetPolicy
  dsimp only
  obtain ⟨a1, a2, a3, a4⟩ := resetLoop_rest now (fun i => m.numItems i != 0) (List.range m.n)
    (resetLoop now (fun i => m.numItems i == 0) (List.range m.n) { m with queue := [] })
  obtain ⟨b1, b2, b3, b4⟩ := resetLoop_rest now (fun i => m.numItems i == 0) (List.range m.n) { m with queue := [] }
  have q : (resetLoop now (fun i => m.numItems i != 0) (List.range m.n)
      (resetLoop now (fun i => m.numItems i == 0) (List.range m.n) { m with queue := [] })).queue.map Prod.fst =
      (List.range m.n).filter (fun i => m.numItems i = 0) ++ (List.range m.n).filter (fun i => m.numItems i ≠ 0) := by
    rw [resetLoop_queue, resetLoop_queue]
    simp only [List.nil_append, List.map_append, List.map_map]
    congr 1
    · rw [show (Prod.fst ∘ fun i : Nat => (i, now)) = id from rfl, List.map_id]
      congr 1
    · rw [show (Prod.fst ∘ fun i : Nat => (i, now)) = id from rfl, List.map_id]
      congr 1
      funext i
      cases h : decide (m.numItems i = 0) <;> simp_all
  refine ⟨⟨?_, ?_⟩, ?_, ?_, q⟩
  · rw [q, a2, b2, a3, b3]
    dsimp only
    rw [hc, List.nil_append]
    have := List.filter_append_perm (fun i => decide (m.numItems i = 0)) (List.range m.n)
    simpa using this
  · rw [a2, b2]; dsimp only; rw [hc]; simp
  · rw [a2, b2]; exact hc
  · rw [a1, b1]

/-- C45: whatever was saved, if it is accepted every region ends in exactly one place — none is lost and none twice — as long as
the saved queue names no region twice. -/
theorem recover_placed {m m' : Mgr} {now : Nat} {d : Data} (hb : m.blank) (hd : ∀ q, d.policy = some q → (q.map fun x => u32 x.1).Nodup)
    (h : m.recover now d = some m') : Placed m' ∧ (m'.clean.length ≤ m'.numClean) := by
  unfold Mgr.recover at h
  split at h
  · simp at h
  · split at h
    · simp at h
    · rename_i regs hregs
      split at h
      · rename_i m1 hm1
        simp only [Option.some.injEq] at h; subst h
        unfold Mgr.recoverPol at hm1
        split at hm1
        · simp at hm1
        · rename_i q hq
          split at hm1
          · unfold Mgr.restoreUntracked at hm1
            split at hm1
            · simp at hm1
            · rename_i hall
              simp only [Option.some.injEq] at hm1
              have hn : ∀ i ∈ q.map (fun x => u32 x.1), i < m.n := by
                intro i hi
                rw [List.mem_map] at hi
                obtain ⟨x, hx, rfl⟩ := hi
                simp only [List.any_eq_true, decide_eq_true_eq, not_exists, not_and, Nat.not_le] at hall
                exact hall x hx
              obtain ⟨cl, tl, h1, h2, h3, h4, h5, h6, h7, h8⟩ := restoreLoop_spec now (q.map fun x => u32 x.1) (List.range m.n)
                { m with regs := regs, queue := q.map fun x => (u32 x.1, x.2) }
              have hregs' := restoreLoop_regs now (q.map fun x => u32 x.1) (List.range m.n)
                { m with regs := regs, queue := q.map fun x => (u32 x.1, x.2) }
              have hnc := restoreLoop_numClean now (q.map fun x => u32 x.1) (List.range m.n)
                { m with regs := regs, queue := q.map fun x => (u32 x.1, x.2) }
              have hnn : m1.n = m.n := by
                rw [← hm1]
                have : ∀ (l : List Nat) (m : Mgr), (restoreLoop now (q.map fun x => u32 x.1) l m).n = m.n := by
                  intro l
                  induction l with
                  | nil => intro m; rfl
                  | cons i l ih => intro m; rw [restoreLoop]; split; exact ih m; split; exact ih _; exact ih _
                exact this _ _
              have hm1' : m1 = restoreLoop now (q.map fun x => u32 x.1) (List.range m.n)
                { m with regs := regs, queue := q.map fun x => (u32 x.1, x.2) } := hm1.symm
              rw [← hm1'] at h1 h2 hregs' hnc
              dsimp only at h1 h2 h4 h5 hregs' hnc
              rw [hb.2, List.nil_append] at h1
              refine ⟨⟨?_, ?_⟩, ?_⟩
              · rw [h1, h2, hnn, List.map_append, List.map_map, List.map_map]
                rw [show (Prod.fst ∘ fun x : Int × Nat => (u32 x.1, x.2)) = fun x : Int × Nat => u32 x.1 from rfl,
                  show (Prod.fst ∘ fun i : Nat => (i, now)) = id from rfl, List.map_id]
                have p1 : (cl ++ (q.map (fun x => u32 x.1) ++ tl)).Perm (q.map (fun x => u32 x.1) ++ (cl ++ tl)) := by
                  rw [← List.append_assoc, ← List.append_assoc]
                  exact List.perm_append_comm.append_right tl
                have p2 : (q.map (fun x => u32 x.1)).Perm ((List.range m.n).filter fun i => (q.map fun x => u32 x.1).contains i) := by
                  rw [List.perm_ext_iff_of_nodup (hd q hq) (List.nodup_range.filter _)]
                  intro i
                  rw [List.mem_filter, List.mem_range, List.contains_iff_mem]
                  exact ⟨fun hi => ⟨hn i hi, hi⟩, fun hi => hi.2⟩
                refine p1.trans ((p2.append h3).trans ?_)
                exact List.filter_append_perm _ _
              · intro i hi
                rw [h1] at hi
                have := h4 i hi
                unfold Mgr.numItems at this ⊢
                rw [hregs']
                exact this
              · rw [h1, hnc]
                have := h5 (by rw [hb.2]; simp)
                rw [hb.2] at this
                simpa using this
          · simp at hm1
      · simp only [Option.some.injEq] at h; subst h
        obtain ⟨a, b, _, _⟩ := resetPolicy_spec { m with regs := regs } now hb.2
        exact ⟨a, by rw [b]; simp⟩

theorem persist_nodup {m : Mgr} (hn : m.n < 2 ^ 31) (hq : ∀ x ∈ m.queue, x.1 < m.n) (hd : (m.queue.map Prod.fst).Nodup) :
    ∀ q, m.persist.policy = some q → (q.map fun x => u32 x.1).Nodup := by
  intro q h
  unfold Mgr.persist at h
  dsimp only at h
  split at h
  · simp only [Option.some.injEq] at h; subst h
    rw [List.map_map]
    have : m.queue.map ((fun x : Int × Nat => u32 x.1) ∘ fun x : Nat × Nat => (i32 x.1, x.2)) = m.queue.map Prod.fst := by
      apply List.map_congr_left
      intro x hx
      exact u32_i32 (by have := hq x hx; omega)
    rw [this]; exact hd
  · simp at h

/-- C45: what a manager saved is accepted by a new one with the same number and size of regions, and every region gets back its
fill level, its number of items and its priority (the highest one if there are fewer priorities now).  No region is lost or in
two places. -/
theorem recover_persist {m m0 : Mgr} {now : Nat} (ho : Ok m) (hq : ∀ x ∈ m.queue, x.1 < m.n) (hd : (m.queue.map Prod.fst).Nodup)
    (hb : m0.blank) (hn : m0.n = m.n) (hRS : m0.RS = m.RS) (hp : m0.numPri < 2 ^ 16) :
    ∃ m', m0.recover now m.persist = some m' ∧ m'.regs = m.regs.map (clampPrio m0.numPri) ∧ Placed m' ∧
      m'.clean.length ≤ m'.numClean := by
  have hregs : recoverRegs m0.n m0.RS m0.numPri m.persist.regions m0.regs = some (m.regs.map (clampPrio m0.numPri)) := by
    have := recoverRegs_persist (n := m0.n) (RS := m0.RS) (numPri := m0.numPri) (by rw [hn]; exact ho.n) (by rw [hRS]; exact ho.RS) hp
      m.regs [] m0.regs (by rw [hn, ← ho.len]; simp) (by rw [hb.1, hn, ho.len])
      (fun r hr => ⟨by rw [hRS]; exact ho.last r hr, ho.num r hr, ho.prio r hr⟩)
    simpa [Mgr.persist] using this
  have hac : ¬ (m.persist.regions.length ≠ m0.n ∨ u32 m.persist.RS ≠ m0.RS) := by
    have h1 : m.persist.regions.length = m0.n := by
      show (persistRegs 0 m.regs).length = m0.n
      rw [persistRegs_length, hn, ho.len]
    have h2 : u32 m.persist.RS = m0.RS := by
      show u32 (i32 m.RS) = m0.RS
      rw [hRS]
      exact u32_i32 (by have := ho.RS; omega)
    simp [h1, h2]
  have : ∃ m', m0.recover now m.persist = some m' ∧ m'.regs = m.regs.map (clampPrio m0.numPri) := by
    unfold Mgr.recover
    rw [if_neg hac, hregs]
    dsimp only
    split
    · rename_i m1 hm1
      refine ⟨m1, rfl, ?_⟩
      unfold Mgr.recoverPol at hm1
      split at hm1
      · simp at hm1
      · split at hm1
        · unfold Mgr.restoreUntracked at hm1
          split at hm1
          · simp at hm1
          · simp only [Option.some.injEq] at hm1
            rw [← hm1, restoreLoop_regs]
        · simp at hm1
    · exact ⟨_, rfl, (resetPolicy_spec { m0 with regs := m.regs.map (clampPrio m0.numPri) } now hb.2).2.2.1⟩
  obtain ⟨m', h1, h2⟩ := this
  have := recover_placed hb (persist_nodup ho.n hq hd) h1
  exact ⟨m', h1, h2, this⟩

/-- C45: a FIFO policy whose order is to survive gets it back: the regions it tracked are evicted next, in the same order and with
the same track times; if the regions it did not track are empty and fit in the clean list, they are the clean ones. -/
theorem recover_order {m m0 m' : Mgr} {now : Nat} (ho : Ok m) (hq : ∀ x ∈ m.queue, x.1 < m.n) (hb : m0.blank) (hn : m0.n = m.n)
    (hf : m.fifo = true ∧ m.recoverPolicy = true ∧ m0.fifo = true ∧ m0.recoverPolicy = true)
    (h : m0.recover now m.persist = some m') :
    (∃ rest, m'.queue = m.queue ++ rest) ∧
    ((∀ i, i < m.n → i ∉ m.queue.map Prod.fst → m'.numItems i = 0) →
      ((List.range m.n).filter fun i => !(m.queue.map Prod.fst).contains i).length ≤ m0.numClean →
      m'.queue = m.queue ∧ m'.clean = (List.range m.n).filter fun i => !(m.queue.map Prod.fst).contains i) := by
  unfold Mgr.recover at h
  split at h
  · simp at h
  · split at h
    · simp at h
    · rename_i regs hregs
      have hpol : m.persist.policy = some (m.queue.map fun x => (i32 x.1, x.2)) := by
        unfold Mgr.persist; simp [hf.1, hf.2.1]
      have hback : (m.queue.map fun x => (i32 x.1, x.2)).map (fun x : Int × Nat => (u32 x.1, x.2)) = m.queue := by
        rw [List.map_map]
        conv => rhs; rw [← List.map_id m.queue]
        apply List.map_congr_left
        intro x hx
        have := hq x hx
        have := ho.n
        simp only [Function.comp_apply, id_eq]
        rw [u32_i32 (by omega)]
      have hids : (m.queue.map fun x => (i32 x.1, x.2)).map (fun x : Int × Nat => u32 x.1) = m.queue.map Prod.fst := by
        rw [List.map_map]
        apply List.map_congr_left
        intro x hx
        have := hq x hx
        have := ho.n
        simp only [Function.comp_apply]
        rw [u32_i32 (by omega)]
      have hany : ((m.queue.map fun x => (i32 x.1, x.2)).any fun x : Int × Nat => decide (m0.n ≤ u32 x.1)) = false := by
        rw [List.any_eq_false]
        intro x hx
        have : u32 x.1 ∈ m.queue.map Prod.fst := by rw [← hids]; exact List.mem_map.2 ⟨x, hx, rfl⟩
        rw [List.mem_map] at this
        obtain ⟨y, hy, e⟩ := this
        have := hq y hy
        simp only [decide_eq_true_eq]
        omega
      have hrp : ({ m0 with regs := regs } : Mgr).recoverPol now m.persist = some (restoreLoop now (m.queue.map Prod.fst) (List.range m0.n)
          { m0 with regs := regs, queue := m.queue }) := by
        unfold Mgr.recoverPol
        rw [hpol]
        dsimp only
        rw [if_pos ⟨hf.2.2.2, hf.2.2.1⟩, hback]
        unfold Mgr.restoreUntracked
        dsimp only
        rw [hany, hids]
        rfl
      rw [hrp] at h
      simp only [Option.some.injEq] at h
      obtain ⟨cl, tl, h1, h2, h3, h4, h5, h6, h7, h8⟩ := restoreLoop_spec now (m.queue.map Prod.fst) (List.range m0.n)
        { m0 with regs := regs, queue := m.queue }
      have hr := restoreLoop_regs now (m.queue.map Prod.fst) (List.range m0.n) { m0 with regs := regs, queue := m.queue }
      rw [h] at h1 h2 hr
      dsimp only at h1 h2 h5 h6 hr
      rw [hb.2, List.nil_append] at h1
      rw [hn] at h3 h7 h8
      refine ⟨⟨_, h2⟩, fun hz hle => ?_⟩
      have htl : tl = [] := by
        cases tl with
        | nil => rfl
        | cons i tl =>
          exfalso
          have hi : i ∈ (List.range m.n).filter fun i => !(m.queue.map Prod.fst).contains i := h3.subset (by simp)
          rw [List.mem_filter, List.mem_range] at hi
          have hzi := hz i hi.1 (by simpa using hi.2)
          have := h6 ⟨i, by simp, by unfold Mgr.numItems at hzi ⊢; rw [hr] at hzi; exact hzi⟩
          rw [hb.2] at this
          have hlen := h3.length_eq
          simp only [List.length_append, List.length_cons, List.length_nil] at this hlen
          omega
      subst htl
      rw [List.append_nil] at h3
      refine ⟨by rw [h2]; simp, ?_⟩
      rw [h1]
      have hs : (List.range m.n).Pairwise (· < ·) := List.pairwise_lt_range
      refine List.Perm.eq_of_pairwise (le := (· < ·)) ?_ (hs.sublist h7) (hs.sublist List.filter_sublist) h3
      intro a b _ _ h h'
      exact absurd h (by omega)

/-- C45: otherwise (another policy, or no request to keep the order) the regions without items are evicted first, then the
others, each in the order of their numbers. -/
theorem recover_default_order {m m0 m' : Mgr} {now : Nat} (hb : m0.blank)
    (hf : m.fifo = false ∨ m.recoverPolicy = false ∨ m0.fifo = false ∨ m0.recoverPolicy = false)
    (h : m0.recover now m.persist = some m') :
    m'.clean = [] ∧ m'.queue.map Prod.fst =
      (List.range m0.n).filter (fun i => m'.numItems i = 0) ++ (List.range m0.n).filter (fun i => m'.numItems i ≠ 0) := by
  unfold Mgr.recover at h
  split at h
  · simp at h
  · split at h
    · simp at h
    · rename_i regs hregs
      have : ({ m0 with regs := regs } : Mgr).recoverPol now m.persist = none := by
        unfold Mgr.recoverPol
        split
        · rfl
        · rename_i q hq
          rw [if_neg]
          rintro ⟨e1, e2⟩
          dsimp only at e1 e2
          unfold Mgr.persist at hq
          dsimp only at hq
          split at hq
          · rename_i hm
            rcases hf with h | h | h | h
            · rw [h] at hm; simp at hm
            · rw [h] at hm; simp at hm
            · rw [h] at e2; simp at e2
            · rw [h] at e1; simp at e1
          · simp at hq
      rw [this] at h
      simp only [Option.some.injEq] at h
      obtain ⟨a, b, c, d⟩ := resetPolicy_spec { m0 with regs := regs } now hb.2
      rw [h] at b c d
      refine ⟨b, ?_⟩
      unfold Mgr.numItems
      rw [c]
      exact d

/-- C45: a manager with another number or size of regions refuses what was saved. -/
theorem recover_refuses {m m0 : Mgr} {now : Nat} (ho : Ok m) (h : m0.n ≠ m.n ∨ m0.RS ≠ m.RS) : m0.recover now m.persist = none := by
  unfold Mgr.recover
  rw [if_pos]
  rcases h with h | h
  · left
    show (persistRegs 0 m.regs).length ≠ m0.n
    rw [persistRegs_length, ho.len]; omega
  · right
    show u32 (i32 m.RS) ≠ m0.RS
    rw [u32_i32 (by have := ho.RS; omega)]; omega

/-! ### A case -/

/-- Four regions: 2 and 0 tracked in this order, 1 and 3 clean. -/
def ex : Mgr := ⟨4, 100, 1, 2, true, true, [⟨40, 3, 0⟩, ⟨0, 0, 0⟩, ⟨100, 7, 0⟩, ⟨0, 0, 0⟩], [(2, 5), (0, 6)], [3, 1]⟩
def ex0 : Mgr := ⟨4, 100, 1, 2, true, true, [default, default, default, default], [(0, 1), (1, 1), (2, 1), (3, 1)], []⟩

example : Ok ex ∧ (∀ x ∈ ex.queue, x.1 < ex.n) ∧ (ex.queue.map Prod.fst).Nodup ∧ ex0.blank :=
  ⟨⟨rfl, by decide, by decide, by decide, by decide, by decide⟩, by decide, by decide, rfl, rfl⟩

example : (ex0.recover 9 ex.persist).map (fun m => (m.queue, m.clean, m.regs)) = some ([(2, 5), (0, 6)], [1, 3], ex.regs) ∧
    (({ ex0 with recoverPolicy := false } : Mgr).recover 9 ex.persist).map (fun m => (m.queue.map Prod.fst, m.clean)) = some ([1, 3, 0, 2], []) ∧
    (({ ex0 with numClean := 1 } : Mgr).recover 9 ex.persist).map (fun m => (m.queue, m.clean)) = some ([(2, 5), (0, 6), (3, 9)], [1]) := by
  decide +kernel

end Verif.Restart.RegionMgr
