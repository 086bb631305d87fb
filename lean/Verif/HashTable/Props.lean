import Verif.HashTable.SimX
/-!
Property C07: the RAM index is a map.  Any number of threads may call insert, insertOrReplace,
replaceIf, remove, removeIf, find and bucket scans at the same time: what the callers observe (the order
of calls and returns and the answers) is what they could observe of a map on which every operation takes
effect atomically between its call and its return.
-/
namespace Verif.HashTable
variable {K : Type} {n : Nat}

theorem sim_init (c : Cfg K) : Sim c (init K n) (fun _ => []) ⟨fun _ => none, fun _ => .idle⟩ := by
  refine ⟨⟨?_, ?_, ?_, ?_, ?_, ?_, ?_, ?_⟩, ?_, ?_⟩
  · intro b; exact ⟨by simp, by simp⟩
  · intro t; trivial
  · intro b _; rfl
  · intro t t' o o' _ h; cases h
  · intro t t' o o' nd _ h; cases h
  · intro t nd h; cases h
  · intro p _; simp [init]
  · simp [init, PC.owed]
  · intro k p; simp
  · intro t; rfl

theorem sim_exec {c : Cfg K} {tr : List (Label K n)} {s : State K n} (h : Exec c tr s) :
    ∃ a L, AExec c.key c.bucket tr a ∧ Sim c s L a := by
  induction h with
  | init => exact ⟨_, _, .init, sim_init c⟩
  | @step tr s s' l _ hs ih =>
    obtain ⟨a, L, ha, hsim⟩ := ih
    obtain ⟨a', L', hsim', h⟩ := sim_step hsim hs
    refine ⟨a', L', ?_, hsim'⟩
    rcases h with ⟨rfl, rfl⟩ | h
    · exact ha
    · cases l with
      | tau => exact .silent ha h
      | call t o => exact .obs (by simp) ha h
      | ret t r => exact .obs (by simp) ha h

/-- C07: the table is linearizable: every observable behaviour of the table is one of the atomic map. -/
theorem linearizable {c : Cfg K} {tr : List (Label K n)} {s : State K n} (h : Exec c tr s) :
    ∃ a, AExec c.key c.bucket tr a := by
  obtain ⟨a, _, ha, _⟩ := sim_exec h
  exact ⟨a, ha⟩

/-- C07: when no operation is in progress, the table holds what the atomic map holds: the chain of
bucket `b` in memory lists its entries, each once; an item is flagged accessible exactly if its key
refers to it; and the number of keys reported is the number of entries. -/
theorem quiescent {c : Cfg K} {tr : List (Label K n)} {s : State K n} (h : Exec c tr s)
    (hq : ∀ t, s.pc t = .idle) :
    ∃ a, AExec c.key c.bucket tr a ∧
      (∀ b, ∃ l, Seg s.next (s.heads b) l none ∧ l.Nodup ∧
        ∀ p, p ∈ l ↔ a.map (c.key p) = some p ∧ c.bucket (c.key p) = b) ∧
      (∀ p, s.acc p = true ↔ a.map (c.key p) = some p) ∧
      (∀ l : List P, l.Nodup → (∀ p, p ∈ l ↔ a.map (c.key p) = some p) → s.numKeys = l.length) := by
  obtain ⟨a, L, ha, hsim⟩ := sim_exec h
  refine ⟨a, ha, ?_, ?_, ?_⟩
  · intro b
    refine ⟨L b, hsim.inv.clean b (fun t o ho => by rw [hq t] at ho; cases ho),
      good_nodup (hsim.inv.good b), ?_⟩
    intro p
    rw [mem_map hsim]
    constructor
    · intro hp
      have := (hsim.inv.good b).2 p hp
      exact ⟨by rw [this]; exact hp, this⟩
    · rintro ⟨h1, h2⟩
      have h2' : c.bkt p = b := h2
      rw [h2'] at h1; exact h1
  · intro p
    rw [mem_map hsim]
    exact hsim.inv.flag p (fun t => by rw [hq t]; simp [PC.flagNode])
  · intro l hn hl
    have hc := hsim.inv.count
    have h0 : ∑ t, (s.pc t).owed = 0 := by
      apply Finset.sum_eq_zero
      intro t _; rw [hq t]; rfl
    rw [h0] at hc
    have hperm : l.Perm ((List.range (2 ^ c.bucketsPower)).flatMap L) := by
      rw [List.perm_ext_iff_of_nodup hn]
      · intro p
        rw [hl, mem_map hsim, List.mem_flatMap]
        constructor
        · intro hp
          exact ⟨c.bkt p, List.mem_range.2 (bucket_lt c _), hp⟩
        · rintro ⟨b, -, hp⟩
          have := (hsim.inv.good b).2 p hp
          rw [this]; exact hp
      · rw [List.nodup_flatMap]
        refine ⟨fun b _ => good_nodup (hsim.inv.good b), ?_⟩
        refine List.Pairwise.imp ?_ List.nodup_range
        intro b b' hne p hp hp'
        exact hne (((hsim.inv.good b).2 p hp).symm.trans ((hsim.inv.good b').2 p hp'))
    have hlen : (l.length : Int) = ∑ b ∈ Finset.range (2 ^ c.bucketsPower), ((L b).length : Int) := by
      rw [hperm.length_eq, List.length_flatMap, ← List.sum_toFinset _ List.nodup_range,
        List.toFinset_range]
      push_cast; rfl
    rw [hlen, ← hc]; omega

/-- C07: operations do not block for ever: as long as one is in progress, some step that is not a new
call is possible (locks are always released and the search loops never reach a dangling state). -/
theorem no_deadlock {c : Cfg K} {tr : List (Label K n)} {s : State K n} (h : Exec c tr s)
    (hp : ∃ t, s.pc t ≠ .idle) : ∃ l s', Step c s l s' ∧ ∀ t o, l ≠ .call t o := by
  obtain ⟨a, L, -, hsim⟩ := sim_exec h
  -- a thread that is not waiting for a lock can move
  have move : ∀ t, s.pc t ≠ .idle → (∀ o, s.pc t ≠ .want o) →
      ∃ l s', Step c s l s' ∧ ∀ t o, l ≠ .call t o := by
    intro t h1 h2
    have hloc := hsim.inv.loc t
    cases hpc : s.pc t <;> rw [hpc] at hloc
    case idle => exact absurd hpc h1
    case want o => exact absurd hpc (h2 o)
    case pre o =>
      cases hr : resPre o with
      | none => exact ⟨_, _, .preSkip s t o hpc hr, by simp⟩
      | some x =>
        cases ha : s.acc x.1
        · exact ⟨_, _, .preGo s t o x.1 x.2 hpc hr ha, by simp⟩
        · exact ⟨_, _, .preHit s t o x.1 x.2 hpc hr ha, by simp⟩
    case locked o =>
      cases hr : resLocked o with
      | none => exact ⟨_, _, .noTest s t o hpc hr, by simp⟩
      | some x =>
        cases ha : s.acc x.1
        · exact ⟨_, _, .refuse s t o x.1 x.2 hpc hr (Or.inl ha), by simp⟩
        · cases hq : predOf o
          · exact ⟨_, _, .refuse s t o x.1 x.2 hpc hr (Or.inr hq), by simp⟩
          · cases ht : throwsEarly o
            · exact ⟨_, _, .accept s t o x.1 x.2 hpc hr ha hq ht, by simp⟩
            · exact ⟨_, _, .early s t o x.1 x.2 hpc hr ha hq ht, by simp⟩
    case start o =>
      cases hk : c.opKey o with
      | some k => exact ⟨_, _, .head s t o k hpc hk, by simp⟩
      | none =>
        cases o <;> simp only [Cfg.opKey, reduceCtorEq] at hk
        exact ⟨_, _, .scanHead s t _ hpc, by simp⟩
    case walk o prev cur =>
      obtain ⟨-, -, -, -, k, hk, -⟩ := hloc
      by_cases hx : ∃ x, cur = some x ∧ c.key x ≠ k
      · obtain ⟨x, rfl, hx⟩ := hx
        exact ⟨_, _, .walk s t o k prev x hpc hk hx, by simp⟩
      · have hx' : ∀ x, cur = some x → c.key x = k := by
          intro x e
          by_contra hne
          exact hx ⟨x, e, hne⟩
        cases o with
        | scan b => cases hk
        | find k' => cases hk; exact ⟨_, _, .found s t k prev cur hpc hx', by simp⟩
        | remove nd => cases hk; exact ⟨_, _, .prevFound s t _ nd _ prev cur hpc rfl rfl hx', by simp⟩
        | removeIf nd _ _ =>
          cases hk; exact ⟨_, _, .prevFound s t _ nd _ prev cur hpc rfl rfl hx', by simp⟩
        | insert nd =>
          cases hk
          cases cur with
          | none => exact ⟨_, _, .absent s t _ nd prev hpc rfl, by simp⟩
          | some x => exact ⟨_, _, .dup s t nd x prev hpc (hx' x rfl), by simp⟩
        | insertOrReplace nd _ =>
          cases hk
          cases cur with
          | none => exact ⟨_, _, .absent s t _ nd prev hpc rfl, by simp⟩
          | some x => exact ⟨_, _, .present s t _ nd x prev hpc rfl (by simp) (hx' x rfl), by simp⟩
        | replaceIf _ nd _ =>
          cases hk
          cases cur with
          | none => exact ⟨_, _, .absent s t _ nd prev hpc rfl, by simp⟩
          | some x => exact ⟨_, _, .present s t _ nd x prev hpc rfl (by simp) (hx' x rfl), by simp⟩
    case scanw o cur got =>
      cases cur with
      | none => exact ⟨_, _, .scanEnd s t o got hpc, by simp⟩
      | some x => exact ⟨_, _, .scanNext s t o x got hpc, by simp⟩
    case iHead o => exact ⟨_, _, .iHead s t o hpc, by simp⟩
    case iLink o hd =>
      obtain ⟨nd, r, hr, -⟩ := hloc
      exact ⟨_, _, .iLink s t o nd hd hpc (pre_new hr), by simp⟩
    case iNext o hd =>
      obtain ⟨nd, r, hr, -⟩ := hloc
      exact ⟨_, _, .iNext s t o nd hd hpc (pre_new hr), by simp⟩
    case iMark o =>
      obtain ⟨nd, r, hr, -⟩ := hloc
      exact ⟨_, _, .iMark s t o nd r hpc hr, by simp⟩
    case iCount o =>
      obtain ⟨nd, r, hr⟩ := hloc
      cases o <;> simp only [resPre, reduceCtorEq] at hr
      · exact ⟨_, _, .iCountIns s t _ hpc, by simp⟩
      · exact ⟨_, _, .iCountRepl s t _ _ hpc, by simp⟩
    case xLink o prev x =>
      obtain ⟨nd, _, _, ho, -⟩ := hloc
      exact ⟨_, _, .xLink s t o nd x prev hpc ho, by simp⟩
    case xNext o x =>
      obtain ⟨nd, _, _, ho, -⟩ := hloc
      exact ⟨_, _, .xNext s t o nd x hpc ho, by simp⟩
    case xDone o x =>
      obtain ⟨nd, _, _, ho, hi, -⟩ := hloc
      cases o with
      | insert nd' => cases ho; exact absurd rfl hi
      | insertOrReplace nd' thr =>
        cases thr
        · exact ⟨_, _, .xMark s t nd' x hpc, by simp⟩
        · exact ⟨_, _, .backStart s t nd' x hpc, by simp⟩
      | replaceIf old nd' p => exact ⟨_, _, .zOld s t old nd' x p hpc, by simp⟩
      | _ => cases ho
    case xOld o x => exact ⟨_, _, .xOld s t o x hpc, by simp⟩
    case zMark o =>
      obtain ⟨old, nd, rfl, -⟩ := hloc
      exact ⟨_, _, .zMark s t _ nd hpc rfl, by simp⟩
    case back o old prev cur =>
      obtain ⟨nd, pre, post, -, hk, -, -, hpos⟩ := hloc
      cases cur with
      | none => exact absurd rfl (pos_none hpos nd (by simp))
      | some x =>
        by_cases hx : c.key x = c.key old
        · exact ⟨_, _, .backFound s t o old x prev hpc hx, by simp⟩
        · exact ⟨_, _, .backWalk s t o old x prev hpc hx, by simp⟩
    case bLink o old prev x => exact ⟨_, _, .bLink s t o old x prev hpc, by simp⟩
    case bNext o old x => exact ⟨_, _, .bNext s t o old x hpc, by simp⟩
    case uLink o prev =>
      obtain ⟨nd, _, _, ht, hn, -⟩ := hloc
      cases o <;> simp only [Op.target, Op.newNode, reduceCtorEq] at ht hn
      · exact ⟨_, _, .uLink s t _ _ _ prev hpc rfl, by simp⟩
      · exact ⟨_, _, .uLink s t _ _ _ prev hpc rfl, by simp⟩
    case uMark o =>
      obtain ⟨nd, _, _, ht, hn, -⟩ := hloc
      cases o <;> simp only [Op.target, Op.newNode, reduceCtorEq] at ht hn
      · exact ⟨_, _, .uMark s t _ _ _ hpc rfl, by simp⟩
      · exact ⟨_, _, .uMark s t _ _ _ hpc rfl, by simp⟩
    case uCount o =>
      obtain ⟨nd, ht, hn, -⟩ := hloc
      cases o <;> simp only [Op.target, Op.newNode, reduceCtorEq] at ht hn
      · exact ⟨_, _, .uCountRem s t _ hpc, by simp⟩
      · exact ⟨_, _, .uCountIf s t _ _ _ hpc, by simp⟩
    case fin o r => exact ⟨_, _, .unlock s t o r hpc, by simp⟩
    case ret o r => exact ⟨_, _, .ret s t o r hpc, by simp⟩
  by_cases hw : ∃ t, s.pc t ≠ .idle ∧ ∀ o, s.pc t ≠ .want o
  · obtain ⟨t, h1, h2⟩ := hw
    exact move t h1 h2
  · obtain ⟨t, ht⟩ := hp
    have hw' : ∀ x, s.pc x = .idle ∨ ∃ o, s.pc x = .want o := by
      intro x
      by_cases e : s.pc x = .idle
      · exact Or.inl e
      · right
        by_contra hne
        exact hw ⟨x, e, fun o ho => hne ⟨o, ho⟩⟩
    rcases hw' t with h1 | ⟨o, ho⟩
    · exact absurd h1 ht
    · refine ⟨_, _, .lock s t o ho ?_, by simp⟩
      rintro x ⟨o', -, hl, -⟩
      rcases hw' x with h1 | ⟨o'', h1⟩ <;> rw [h1] at hl <;> cases hl

/-! Non-vacuity: a run in which thread 0 inserts item 5, thread 1 starts `insertOrReplace` of item 7 that
has the same key while thread 0 still runs, and a find returns item 7. -/

/-- items `p` and `q` have one key if `p / 4 = q / 4`; 2 buckets, 1 lock. -/
def exCfg : Cfg Nat := ⟨fun k => k, fun p => p / 4, 1, 0⟩

example : ∃ s : State Nat 2, Exec exCfg
    [.call 0 (.insert 5), .call 1 (.insertOrReplace 7 false), .ret 0 (.flag true),
     .ret 1 (.handle (some 5)), .call 0 (.find 1), .ret 0 (.handle (some 7))] s := by
  have e := Exec.init (c := exCfg) (n := 2)
  have free : ∀ (s : State Nat 2) b x, (s.pc 0).inLock = false → (s.pc 1).inLock = false →
      ∀ t, ¬ exCfg.conflict (s.pc t) b x := by
    intro s b x h0 h1 t
    rintro ⟨o, -, hl, -⟩
    match t with
    | 0 => rw [h0] at hl; cases hl
    | 1 => rw [h1] at hl; cases hl
  have e := e.step (.call _ 0 (.insert 5) rfl (by
    intro t o ho; cases ho))
  have e := e.step (.preGo _ 0 _ _ _ rfl rfl rfl)
  have e := e.step (.lock _ 0 _ rfl (free _ _ _ rfl rfl))
  have e := e.step (.noTest _ 0 _ rfl rfl)
  have e := e.step (.head _ 0 _ _ rfl rfl)
  have e := e.step (.absent _ 0 _ _ _ rfl rfl)
  have e := e.step (.call _ 1 (.insertOrReplace 7 false) rfl (by
    intro t o ho
    match t with
    | 0 => cases ho; decide
    | 1 => cases ho))
  have e := e.step (.preGo _ 1 _ _ _ rfl rfl rfl)
  have e := e.step (.iHead _ 0 _ rfl)
  have e := e.step (.iLink _ 0 _ _ _ rfl rfl)
  have e := e.step (.iNext _ 0 _ _ _ rfl rfl)
  have e := e.step (.iMark _ 0 _ _ _ rfl rfl)
  have e := e.step (.iCountIns _ 0 _ rfl)
  have e := e.step (.unlock _ 0 _ _ rfl)
  have e := e.step (.lock _ 1 _ rfl (free _ _ _ rfl rfl))
  have e := e.step (.ret _ 0 _ _ rfl)
  have e := e.step (.noTest _ 1 _ rfl rfl)
  have e := e.step (.head _ 1 _ _ rfl rfl)
  have e := e.step (.present _ 1 _ 7 5 _ rfl rfl (by simp) rfl)
  have e := e.step (.xLink _ 1 _ _ _ _ rfl rfl)
  have e := e.step (.xNext _ 1 _ _ _ rfl rfl)
  have e := e.step (.xMark _ 1 _ _ rfl)
  have e := e.step (.xOld _ 1 _ _ rfl)
  have e := e.step (.unlock _ 1 _ _ rfl)
  have e := e.step (.ret _ 1 _ _ rfl)
  have e := e.step (.call _ 0 (.find 1) rfl trivial)
  have e := e.step (.preSkip _ 0 _ rfl rfl)
  have e := e.step (.lock _ 0 _ rfl (free _ _ _ rfl rfl))
  have e := e.step (.noTest _ 0 _ rfl rfl)
  have e := e.step (.head _ 0 _ _ rfl rfl)
  have e := e.step (.found _ 0 1 none (some 7) rfl (by intro x hx; cases hx; rfl))
  have e := e.step (.unlock _ 0 _ _ rfl)
  have e := e.step (.ret _ 0 _ _ rfl)
  exact ⟨_, e⟩

end Verif.HashTable
