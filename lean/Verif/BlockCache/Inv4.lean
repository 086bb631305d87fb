import Verif.BlockCache.Inv3
/-
The contents invariant, continued: the index and the readers.
-/
set_option linter.unusedSectionVars false
set_option linter.unusedSimpArgs false
namespace Verif.BlockCache
open Verif

section
variable {K V H : Type} [DecidableEq K] [DecidableEq V] [DecidableEq H]
variable {c : Cfg K V H} {s s' : St K V H} {a : Act K V}

theorem removeIfMatch_sub {ix : H → Option Addr} {h h' : H} {b b' : Addr} (hh : removeIfMatch ix h b h' = some b') :
    ix h' = some b' ∧ (h' = h → b' ≠ b) := by
  unfold removeIfMatch at hh
  split at hh <;> grind [upd]

/-- Two index entries at one address have the same hash. -/
theorem good_same (h0 : Inv0 c s) {r e t t' : Nat} {h h' : H} (g : Good c s r e t h) (g' : Good c s r e t' h') : h = h' := by
  obtain ⟨x, hx, e1, e2, _⟩ := g
  obtain ⟨y, hy, f1, f2, _⟩ := g'
  have := contig_eq (h0.contig r) hx hy (by omega)
  subst this
  rw [← e2, f2]

theorem s_ix (he : exec c s a = some s') (hf : s'.fault = false) (h0 : Inv0 c s) (h1 : Inv1 s) (i2 : Inv2 c s) (fr : Fr s s') :
    ∀ h r e, s'.index h = some (r, e) → (s'.place r).live e = true ∧ Good c s' r e s'.log.length h := by
  have ix := i2.ix
  -- entries that stay
  have stay : ∀ h r e, s.index h = some (r, e) → s'.log = s.log → (s'.place r).live e = true →
      (s'.place r).live e = true ∧ Good c s' r e s'.log.length h := by
    intro h r e hi hl hv
    obtain ⟨g1, g2⟩ := ix h r e hi
    refine ⟨hv, ?_⟩
    rw [hl]
    exact good_keep fr (live_ne g1).1 (live_ne hv).1 (Nat.le_refl _) g2
  have same : ∀ h r e, s.index h = some (r, e) → s'.log = s.log → s'.place = s.place →
      (s'.place r).live e = true ∧ Good c s' r e s'.log.length h := by
    intro h r e hi hl hv
    exact stay h r e hi hl (by rw [hv]; exact (ix h r e hi).1)
  -- entries that stay while the log grows by an update of another hash
  have grow : ∀ h r e u, s.index h = some (r, e) → s'.log = s.log ++ [u] → c.hash u.1 ≠ h → s'.place = s.place →
      (s'.place r).live e = true ∧ Good c s' r e s'.log.length h := by
    intro h r e u hi hl hu hv
    obtain ⟨g1, g2⟩ := ix h r e hi
    have hv' : (s'.place r).live e = true := by rw [hv]; exact g1
    refine ⟨hv', ?_⟩
    obtain ⟨x, hx, e1, e2, e3, e4⟩ := g2
    obtain ⟨k1, k2⟩ := fr.keep r (live_ne g1).1 (live_ne hv').1 x hx e3
    refine ⟨x, k1, e1, e2, k2, ?_⟩
    rw [hl, valAt_snoc, if_neg (by rintro h; rw [h] at hu; exact hu e2)]
    exact e4
  -- the walk moves past the entry at `o`
  have past : ∀ {h r e o} {sl : Slot K V}, s.index h = some (r, e) → (s.place r = .rcEvict o ∨ s.place r = .rcBusy o) → o ≠ 0 →
      (s.reg r).dev o = some sl → e ≠ o → e ≤ o - c.sz sl.key sl.val := by
    intro h r e o sl hi hp ho hd hne
    obtain ⟨x, hx, e1, e2, e3⟩ := at_walk h0 h1 i2.pen i2.walk hp ho hd
    obtain ⟨g1, y, hy, f1, _⟩ := ix h r e hi
    have hle : e ≤ o := by rcases hp with h | h <;> rw [h] at g1 <;> simpa [Place.live] using g1
    have := contig_stop_le (h0.contig r) hx
    have := contig_stop_le (h0.contig r) hy
    rcases contig_disj (h0.contig r) hx hy with h | h | h
    · subst h; omega
    · omega
    · omega
  cases a
  case index w =>
    exec_simp he; rename_i hw
    intro h r e hi
    simp only [setW, upd] at hi
    split at hi
    · rename_i hh
      simp only [Option.some.injEq, Prod.mk.injEq] at hi
      obtain ⟨rfl, rfl⟩ := hi
      have hpl := h1.wPl w hw.1
      refine ⟨?_, ?_⟩
      · simp only [setW]; revert hpl; cases s.place w.rid <;> simp [Place.wr, Place.live]
      · refine ⟨w.al, i2.wIn w hw.1, rfl, hh.symm, i2.wHas w hw.1 (by simp [hw.2]), ?_⟩
        simp only [setW]
        rw [valAt_snoc]
        simp [W.al]
    · rename_i hh
      exact grow h r e _ hi rfl (by exact fun h => hh h.symm) rfl
  case remove k =>
    exec_simp he
    intro h r e hi
    simp only [upd] at hi
    split at hi
    · simp at hi
    · rename_i hh
      exact grow h r e _ hi rfl (by exact fun h => hh h.symm) rfl
  case replace w =>
    exec_simp he
    · rename_i hw hm
      intro h r e hi
      simp only [setW, upd] at hi
      split at hi
      · rename_i hh
        simp only [Option.some.injEq, Prod.mk.injEq] at hi
        obtain ⟨rfl, rfl⟩ := hi
        have hpl := h1.wPl w hw.1
        refine ⟨?_, ?_⟩
        · simp only [setW]; revert hpl; cases s.place w.rid <;> simp [Place.wr, Place.live]
        · refine ⟨w.al, i2.wIn w hw.1, rfl, hh.symm, i2.wHas w hw.1 (by simp [hw.2]), ?_⟩
          simp only [setW]
          cases ho : w.old with
          | none => exact absurd ho hw.2.2
          | some b =>
            rw [ho] at hm
            obtain ⟨g1, x, hx, f1, f2, f3, f4⟩ := ix _ b.1 b.2 hm
            have hd := (i2.old w hw.1 b ho).1
            have hb := h1.oldP w hw.1 b ho
            have := f3.2 (by rw [hb]; rfl)
            rw [f1, hd] at this
            simp only [Option.some.injEq] at this
            rw [← this] at f4
            exact f4
      · exact same h r e hi rfl rfl
    · intro h r e hi
      exact same h r e hi rfl rfl
  case repFail w =>
    exec_simp he
    intro h r e hi
    exact same h r e (removeIfMatch_sub hi).1 rfl rfl
  case rdDrop x =>
    exec_simp he
    · intro h r e hi
      exact same h r e (removeIfMatch_sub hi).1 rfl rfl
    · intro h r e hi
      exact same h r e hi rfl rfl
  case closeW w =>
    exec_simp he; rename_i hw
    intro h r e hi
    refine stay h r e hi rfl ?_
    have hl := (ix h r e hi).1
    simp only
    cases ho : w.old with
    | none => simp only [afterClose, ho]; exact hl
    | some b =>
      simp only [afterClose, ho]
      by_cases hr : r = b.1
      · subst hr
        simp only [upd_same, Place.live, decide_eq_true_eq]
        have hb := h1.oldP w hw.1 b ho
        obtain ⟨o1, o2⟩ := i2.old w hw.1 b ho
        have hne : e ≠ b.2 := by rintro rfl; exact o2 hw.2 h hi
        refine past hi (.inr hb) ?_ o1 hne
        rintro h00
        have h3 : e ≤ b.2 := by rw [hb] at hl; simpa [Place.live] using hl
        omega
      · rw [upd_ne _ _ hr]; exact hl
  case rcEvict r0 =>
    exec_simp he
    rename_i o0 hp _ sl hsl
    obtain ⟨hz, hd⟩ := entryDev_some hsl
    intro h r e hi
    obtain ⟨hi', hm⟩ := removeIfMatch_sub hi
    have hi := hi'
    refine stay h r e hi rfl ?_
    have hl := ix h r e hi
    simp only [setPlace]
    by_cases hr : r = r0
    · subst hr
      simp only [upd_same, Place.live, decide_eq_true_eq]
      refine past hi' (.inl hp) hz hd ?_
      rintro rfl
      obtain ⟨x, hx, e1, e2, e3⟩ := at_walk h0 h1 i2.pen i2.walk (.inl hp) hz hd
      obtain ⟨_, y, hy, f1, f2, _⟩ := hl
      have := contig_eq (h0.contig r) hx hy (by omega)
      subst this
      rw [e2] at f2
      exact hm f2.symm rfl
    · rw [upd_ne _ _ hr]; exact hl.1
  case rcRead r0 =>
    exec_simp he
    all_goals
      rename_i hp hn
      intro h r e hi
      refine stay h r e hi rfl ?_
      have hl := ix h r e hi
      simp only [setPlace]
      by_cases hr : r = r0
      · subst hr
        obtain ⟨l1, y, hy, f1, f2, _⟩ := hl
        have := contig_stop_le (h0.contig r) hy
        simp only [upd_same, Place.live, decide_eq_true_eq]
        first
        | (rw [h0.num] at hn; rw [List.length_eq_zero_iff.1 hn] at hy; simp at hy)
        | omega
      · rw [upd_ne _ _ hr]; exact hl.1
  case rcDone r0 =>
    exec_simp he
    rename_i hp
    intro h r e hi
    refine stay h r e hi rfl ?_
    have hl := ix h r e hi
    simp only [setPlace]
    by_cases hr : r = r0
    · subst hr
      obtain ⟨l1, y, hy, f1, f2, _⟩ := hl
      have := contig_stop_le (h0.contig r) hy
      rw [hp] at l1
      simp [Place.live] at l1
      omega
    · rw [upd_ne _ _ hr]; exact hl.1
  all_goals
    have nf := h1.nf
    exec_simp he <;> (try simp only [reduceCtorEq] at hf) <;> intro h r e hi <;>
    first
    | exact same h r e hi rfl rfl
    | (have hi' : s.index h = some (r, e) := hi
       refine stay h r e hi' rfl ?_
       have hl := (ix h r e hi').1
       clear stay same grow past hf fr i2 ix
       st_simp
       grind [upd, Place.live, Place.cu])
    | (have nfr := nf; clear stay same grow past hf fr i2 ix; grind [Place.cu])

theorem s_old (he : exec c s a = some s') (hf : s'.fault = false) (h0 : Inv0 c s) (h1 : Inv1 s) (i2 : Inv2 c s) :
    ∀ w ∈ s'.ws, ∀ a, w.old = some a → (s'.reg a.1).dev a.2 = some ⟨w.key, w.val⟩ ∧
      (w.pc = .indexed → ∀ h, s'.index h ≠ some a) := by
  have old := i2.old
  have ix := i2.ix
  have oldP := h1.oldP
  have hdev : ∀ w ∈ s.ws, ∀ b, w.old = some b → (s'.reg b.1).dev b.2 = some ⟨w.key, w.val⟩ := by
    intro w hw b hb
    have hp := oldP w hw b hb
    have := (old w hw b hb).1
    have hA := @alloc_frame2 K V H _ _ _ c s
    have hO := @open_frame K V H _ _ _ s
    clear old ix i2 h0 h1 oldP
    exec_cases a he <;> st_simp <;> first | exact this | grind [upd]
  -- an address under reclaim is at no hash but that of its entry
  have only : ∀ w ∈ s.ws, ∀ b, w.old = some b → ∀ h, s.index h = some b → h = c.hash w.key := by
    intro w hw b hb h hi
    obtain ⟨g1, x, hx, f1, f2, f3, f4⟩ := ix h b.1 b.2 hi
    have := f3.2 (by rw [oldP w hw b hb]; rfl)
    rw [f1, (old w hw b hb).1] at this
    simp only [Option.some.injEq] at this
    rw [← f2, ← this]
  have hne : ∀ w ∈ s.ws, ∀ b, w.old = some b → ∀ w' ∈ s.ws, (w'.rid, w'.stop) ≠ b := by
    rintro w hw b hb w' hw' rfl
    have := oldP w hw _ hb
    have h2 := h1.wPl w' hw'
    simp only at this
    rw [this] at h2
    simp [Place.wr] at h2
  have hix : ∀ w ∈ s.ws, ∀ b, w.old = some b → w.pc = .indexed → (∀ h, s'.index h = some b → s.index h = some b) →
      ∀ h, s'.index h ≠ some b := by
    intro w hw b hb hp hs h hi
    exact (old w hw b hb).2 hp h (hs h hi)
  cases a
  case index w =>
    exec_simp he; rename_i hw
    refine mem_upd ?_ ?_
    · intro b hb
      simp only [hw.2.2, reduceCtorEq] at hb
    · intro w' hw' b hb
      refine ⟨hdev w' hw' b hb, fun hp => hix w' hw' b hb hp ?_⟩
      intro h hi
      have := hne w' hw' b hb w hw.1
      simp only [setW] at hi
      grind [upd]
  case replace w =>
    exec_simp he
    · rename_i hw hm
      refine mem_upd ?_ ?_
      · intro b hb
        simp only at hb
        refine ⟨hdev w hw.1 b hb, fun hp h hi => ?_⟩
        simp only [setW] at hi
        have h3 := hne w hw.1 b hb w hw.1
        have h4 := only w hw.1 b hb h
        grind [upd]
      · intro w' hw' b hb
        refine ⟨hdev w' hw' b hb, fun hp => hix w' hw' b hb hp ?_⟩
        intro h hi
        have := hne w' hw' b hb w hw.1
        simp only [setW] at hi
        grind [upd]
    · rename_i hw hm
      refine mem_upd ?_ ?_
      · intro b hb
        exact ⟨hdev w hw.1 b hb, fun hp => by simp at hp⟩
      · intro w' hw' b hb
        exact ⟨hdev w' hw' b hb, fun hp => hix w' hw' b hb hp (fun _ hi => hi)⟩
  case repFail w =>
    exec_simp he
    rename_i hw _ b0 hb0
    refine mem_upd ?_ ?_
    · intro b hb
      have hbb : b = b0 := by simp only at hb; rw [hb0] at hb; exact (Option.some.inj hb).symm
      subst hbb
      refine ⟨hdev w hw.1 b hb0, fun hp h hi => ?_⟩
      simp only [setW] at hi
      obtain ⟨h5, h6⟩ := removeIfMatch_sub hi
      exact h6 (only w hw.1 b hb0 h h5) rfl
    · intro w' hw' b hb
      exact ⟨hdev w' hw' b hb, fun hp => hix w' hw' b hb hp (fun _ hi => (removeIfMatch_sub hi).1)⟩
  case write w =>
    exec_simp he
    rename_i hw _ b0 hb0
    refine mem_upd ?_ ?_
    · intro b hb
      exact ⟨hdev w hw.1 b hb, fun hp => by simp at hp⟩
    · intro w' hw' b hb
      exact ⟨hdev w' hw' b hb, fun hp => hix w' hw' b hb hp (fun _ hi => hi)⟩
  case alloc =>
    exec_simp he
    refine List.forall_mem_cons.2 ⟨by simp, ?_⟩
    intro w' hw' b hb
    exact ⟨hdev w' hw' b hb, fun hp => hix w' hw' b hb hp (fun _ hi => hi)⟩
  case rcReins r0 r2 =>
    exec_simp he
    rename_i hp _ sl hsl hra _ _ _ hg
    obtain ⟨n, hg⟩ := alloc_frame2 hg
    refine List.forall_mem_cons.2 ⟨?_, ?_⟩
    · intro b hb
      simp only [Option.some.injEq] at hb
      subst hb
      refine ⟨?_, fun h => by simp at h⟩
      simp only [setPlace, startW, setReg]
      have := (entryDev_some hsl).2
      rw [upd_ne _ _ (by rintro rfl; simp_all)]
      exact this
    · intro w' hw' b hb
      exact ⟨hdev w' hw' b hb, fun hp => hix w' hw' b hb hp (fun _ hi => hi)⟩
  case closeW w =>
    exec_simp he
    intro w' hw' b hb
    have hw' := List.mem_of_mem_erase hw'
    exact ⟨hdev w' hw' b hb, fun hp => hix w' hw' b hb hp (fun _ hi => hi)⟩
  case remove k =>
    exec_simp he
    intro w' hw' b hb
    refine ⟨hdev w' hw' b hb, fun hp => hix w' hw' b hb hp (fun h hi => ?_)⟩
    simp only [upd] at hi
    split at hi
    · simp at hi
    · exact hi
  all_goals
    exec_simp he <;> (try simp only [reduceCtorEq] at hf) <;> intro w' hw' b hb <;>
    first
    | exact ⟨hdev w' hw' b hb, fun hp => hix w' hw' b hb hp (fun _ hi => hi)⟩
    | exact ⟨hdev w' hw' b hb, fun hp => hix w' hw' b hb hp (fun _ hi => (removeIfMatch_sub hi).1)⟩

theorem readEntry_ok {g : Reg K V} {p : Place} {phys : Bool} {x : Alloc K V} {k : K} {v : V} (hx : Has g p x)
    (hp : phys = true → p.onDev = true) (h : readEntry g phys x.stop k = some (.ok v)) : x.slot = ⟨k, v⟩ := by
  unfold readEntry at h
  cases phys
  · simp only [Bool.false_eq_true, if_false] at h
    split at h
    · simp at h
    · rename_i b hb
      rw [hx.1 b hb] at h
      simp only at h
      split at h
      · rename_i hk; simp at h; cases hs : x.slot; simp_all
      · simp at h
  · simp only [if_true] at h
    rw [hx.2 (hp rfl)] at h
    simp only at h
    split at h
    · rename_i hk; simp at h; cases hs : x.slot; simp_all
    · simp at h

theorem open_dev {r : Nat} {g : Reg K V} {p : Bool} (h : (s.reg r).openForRead = some (g, p)) (h1 : Inv1 s)
    (hp : (s.place r).pre = true) : p = true → (s.place r).onDev = true := by
  intro hpt
  obtain ⟨h2, _⟩ := (openForRead_spec h).2.1 hpt
  have := h1.flg r
  have := h1.bufP r
  cases hpl : s.place r <;> simp_all [Place.pre, Place.onDev, Place.hasBuf, Place.preFlush, Place.cu]

theorem s_rd (he : exec c s a = some s') (hf : s'.fault = false) (h1 : Inv1 s) (i2 : Inv2 c s) (fr : Fr s s') :
    ∀ x ∈ s'.rds, RdOk c s' x := by
  have keep : ∀ x ∈ s.rds, RdOk c s' x := fun x hx => rd_keep fr h1 hx (i2.rd x hx)
  have rd := i2.rd
  cases a
  case rdBegin k =>
    exec_simp he
    exact List.forall_mem_cons.2 ⟨by simp [RdOk], keep⟩
  case rdSeq x =>
    exec_simp he
    rename_i hx
    refine mem_upd ?_ keep
    have := rd x hx.1
    simp only [RdOk, hx.2, setRd] at this ⊢
    omega
  case rdLook x =>
    exec_simp he
    · rename_i hx _ q hq _ hi
      refine mem_upd ?_ keep
      have := rd x hx
      simp only [RdOk, hq, setRd, ResOk] at this ⊢
      refine ⟨this.1, by omega, by omega, by simp⟩
    · rename_i hx _ q hq _ b hi
      refine mem_upd ?_ keep
      have := rd x hx
      have hg := i2.ix _ b.1 b.2 hi
      simp only [RdOk, hq, setRd] at this ⊢
      exact ⟨this.1, by omega, this.2, fun _ => ⟨(live_ne hg.1).2, hg.2⟩⟩
  case rdOpen x =>
    exec_simp he
    rename_i hx _ q r e t1 hq _ g p ho
    refine mem_upd ?_ keep
    have := keep x hx
    simp only [RdOk, hq] at this ⊢
    obtain ⟨a1, a2, a3, a4⟩ := this
    refine ⟨a1, a2, a3, fun hs => ?_⟩
    obtain ⟨b1, b2⟩ := a4 hs
    exact ⟨b1, b2, open_dev (s := s) ho h1 b1⟩
  case rdScan x r =>
    exec_simp he
    rename_i hx _ g p ho
    refine mem_upd ?_ keep
    have := keep x hx.1
    simp only [RdOk, hx.2] at this ⊢
    exact this
  case rdCheck x =>
    exec_simp he
    · rename_i hx _ q r e p t1 hq hs
      refine mem_upd ?_ keep
      have := rd x hx
      simp only [RdOk, hq] at this ⊢
      obtain ⟨a1, a2, a3, a4⟩ := this
      obtain ⟨b1, b2, b3⟩ := a4 hs
      exact ⟨a1, a2, pre_ne b1, b2, b3⟩
    · rename_i hx _ q r e p t1 hq hs
      refine mem_upd ?_ keep
      have := rd x hx
      simp only [RdOk, hq, setRd] at this ⊢
      omega
  case rdRead x =>
    exec_simp he
    rename_i hx _ r e p t1 hq _ res hr
    refine mem_upd ?_ keep
    have := rd x hx
    simp only [RdOk, hq] at this ⊢
    obtain ⟨a1, a2, a3, a4, a5⟩ := this
    refine ⟨a1, a2, a3, a4, a5, ?_⟩
    rintro v rfl
    obtain ⟨y, hy, rfl, f2, f3, f4⟩ := a4
    have := readEntry_ok f3 a5 hr
    rw [this] at f4
    exact f4
  case rdDevErr x =>
    exec_simp he
    rename_i hx _ r e t1 hq
    refine mem_upd ?_ keep
    have := rd x hx
    simp only [RdOk, hq] at this ⊢
    obtain ⟨a1, a2, a3, a4, a5⟩ := this
    exact ⟨a1, a2, a3, a4, a5, by simp [ResOk]⟩
  case rdAgain x =>
    exec_simp he
    rename_i hx _ r e p t1 hq
    refine mem_upd ?_ keep
    have := rd x hx
    simp only [RdOk, hq] at this ⊢
    obtain ⟨a1, a2, a3, a4, a5, _⟩ := this
    exact ⟨a1, a2, a3, a4, a5⟩
  case rdDrop x =>
    exec_simp he
    all_goals
      rename_i hx _ r e p t1 res hq _
      refine mem_upd ?_ keep
      have := rd x hx
      simp only [RdOk, hq] at this ⊢
      obtain ⟨a1, a2, a3, a4, a5, a6⟩ := this
      exact ⟨a1, a2, a6⟩
  case rdClose x =>
    exec_simp he
    rename_i hx _ r p t1 res hq
    refine mem_upd ?_ keep
    have := rd x hx
    simp only [RdOk, hq] at this ⊢
    obtain ⟨a1, a2, a6⟩ := this
    exact ⟨a1, a2, Nat.le_refl _, a6⟩
  case rdFail x ag =>
    exec_simp he
    all_goals
      refine mem_upd ?_ keep
      first
      | (rename_i hx _ r p hq _; have := rd x hx; simp only [RdOk, hq, setRd, ResOk] at this ⊢; simp; omega)
      | (rename_i hx _ q r e t1 hq _ _; have := rd x hx; simp only [RdOk, hq, setRd, ResOk] at this ⊢; simp; omega)
      | (rename_i hx _ r p hq _; have := rd x hx; simp only [RdOk, hq, setRd, setReg, ResOk] at this ⊢; first | exact this | simpa using this)
  all_goals
    exec_simp he <;> (try simp only [reduceCtorEq] at hf) <;> exact keep

theorem inv2_step (he : exec c s a = some s') (hf : s'.fault = false) (h0 : Inv0 c s) (h1 : Inv1 s) (i2 : Inv2 c s) :
    Inv2 c s' := by
  have fr := fr_step he hf h0 h1 i2.wIn
  exact ⟨s_wIn he hf h1 i2.wIn, s_wHas he hf h0 h1 fr i2.wIn i2.wHas, s_pen he hf h0 h1 fr i2.wIn i2.cln i2.pen,
    s_cln he hf h1 i2.cln, s_ix he hf h0 h1 i2 fr, s_old he hf h0 h1 i2, s_walk he hf h0 h1 i2.pen i2.old i2.walk,
    s_rd he hf h1 i2 fr⟩

theorem inv2_init (dev : Nat → Content K V) : Inv2 c (init dev : St K V H) := by
  constructor <;> simp [init]

theorem fault_mono (he : exec c s a = some s') : s'.fault = false → s.fault = false := by
  exec_cases a he <;> st_simp <;> simp

/-! ### Restarts -/

theorem quiet_open (hq : Quiet s) (r : Nat) (p : Bool) : s.rds.countP (openOn r p) = 0 := by
  rw [List.countP_eq_zero]
  intro x hx
  obtain ⟨t1, t2, res, h⟩ := hq.rds x hx
  simp [openOn, h]

theorem inv1_of_fresh (hq : Quiet s) (hw : s'.ws = s.ws) (hr : s'.rds = s.rds)
    (hp : ∀ r, s'.place r = .tracked ∨ s'.place r = .clean)
    (hg : ∀ r, (s'.reg r).writers = 0 ∧ (s'.reg r).phys = 0 ∧ (s'.reg r).inmem = 0 ∧ (s'.reg r).buf = none ∧
      (s'.reg r).flushed = false ∧ (s'.reg r).block = false ∧ (s'.reg r).being = false ∧ (s'.reg r).pend = false) : Inv1 s' := by
  have hcl : ∀ r p, s'.rds.countP (openOn r p) = 0 := by rw [hr]; exact quiet_open hq
  have hno : ∀ x ∈ s'.rds, ∀ r p, openOn r p x = false := by
    intro x hx r p
    have := List.countP_eq_zero.1 (hcl r p) x hx
    simpa using this
  have hws : s'.ws = [] := by rw [hw, hq.ws]
  constructor
  · intro r; rcases hp r with h | h <;> rw [h] <;> rfl
  · intro r; rw [hws, (hg r).1]; rfl
  · intro r; rw [hcl, (hg r).2.1]
  · intro r; rw [hcl, (hg r).2.2.1]
  · intro w h; rw [hws] at h; simp at h
  · intro x hx r h; rw [hno x hx] at h; simp at h
  · intro r; rw [(hg r).2.2.2.1]; rcases hp r with h | h <;> rw [h] <;> rfl
  · intro r _; exact (hg r).2.2.2.2.1
  · intro r _; exact (hg r).2.2.2.2.2
  · intro r; rw [(hg r).2.2.2.2.2.1]; rcases hp r with h | h <;> simp [h]
  · intro r _ x hx p; exact hno x hx r p
  · intro w h; rw [hws] at h; simp at h
  · rw [hws]; exact .nil

theorem restart_place (hr : Restart s s') (r : Nat) : s'.place r = .tracked ∨ s'.place r = .clean := by
  rcases hr.place r with h | h
  · exact .inl h
  · exact .inr h.1

theorem inv1_restart (_i1 : Inv1 s) (hq : Quiet s) (hr : Restart s s') : Inv1 s' := by
  refine inv1_of_fresh hq hr.ws hr.rds (restart_place hr) fun r => ?_
  rw [hr.reg r]; simp [Reg.restored]

theorem inv1_wipe (i1 : Inv1 s) (hq : Quiet s) (hr : Wipe s s') : Inv1 s' := by
  refine inv1_of_fresh hq hr.ws hr.rds (fun r => .inl (hr.place r)) fun r => ?_
  rw [hr.reg r]
  have : (s.reg r).buf = none := by
    have := i1.bufP r
    rcases hq.place r with h | h <;> rw [h] at this <;> simpa [Place.hasBuf] using this
  simp [Reg.reset, this]

theorem has_restored (_i1 : Inv1 s) (hq : Quiet s) (hr : Restart s s') {r : Nat} {a : Alloc K V} (i2 : Inv2 c s) (ha : a ∈ (s.reg r).alloc)
    (h : Has (s.reg r) (s.place r) a) : Has (s'.reg r) (s'.place r) a := by
  rw [hr.reg r]
  refine ⟨fun b hb => by simp [Reg.restored] at hb, fun _ => ?_⟩
  rcases hq.place r with hc | ht
  · rw [i2.cln r hc] at ha; simp at ha
  · exact h.2 (by rw [ht]; rfl)

theorem rd_quiet (hq : Quiet s) (hrd : s'.rds = s.rds) (hlog : s'.log = s.log) (h : ∀ x ∈ s.rds, RdOk c s x) :
    ∀ x ∈ s'.rds, RdOk c s' x := by
  intro x hx
  rw [hrd] at hx
  have := h x hx
  obtain ⟨t1, t2, res, e⟩ := hq.rds x hx
  simp only [RdOk, e, ResOk, hlog] at this ⊢
  exact this

theorem inv2_restart (h0 : Inv0 c s) (i1 : Inv1 s) (i2 : Inv2 c s) (hq : Quiet s) (hr : Restart s s') : Inv2 c s' := by
  have hws : s'.ws = [] := by rw [hr.ws, hq.ws]
  have hal : ∀ r, (s'.reg r).alloc = (s.reg r).alloc := fun r => by rw [hr.reg r]; rfl
  constructor
  · intro w h; rw [hws] at h; simp at h
  · intro w h; rw [hws] at h; simp at h
  · intro r a ha
    rw [hal] at ha
    rcases i2.pen r a ha with h | ⟨w, hw, _⟩
    · exact .inl (has_restored i1 hq hr i2 ha h)
    · rw [hq.ws] at hw; simp at hw
  · intro r hc
    rw [hal]
    rcases hr.place r with h | h
    · rw [h] at hc; simp at hc
    · have := h0.num r
      rw [h.2] at this
      exact List.eq_nil_of_length_eq_zero this.symm
  · intro h r e hi
    rw [hr.index] at hi
    obtain ⟨hl, a, ha, e1, e2, e3, e4⟩ := i2.ix h r e hi
    refine ⟨?_, a, by rw [hal]; exact ha, e1, e2, has_restored i1 hq hr i2 ha e3, by rw [hr.log]; exact e4⟩
    rcases hr.place r with h' | h'
    · rw [h']; rfl
    · have := h0.num r
      rw [h'.2] at this
      rw [List.eq_nil_of_length_eq_zero this.symm] at ha
      simp at ha
  · intro w h; rw [hws] at h; simp at h
  · intro r o h; rcases restart_place hr r with h' | h' <;> rw [h'] at h <;> simp at h
  · exact rd_quiet hq hr.rds hr.log i2.rd

theorem inv2_wipe (i2 : Inv2 c s) (hq : Quiet s) (hr : Wipe s s') : Inv2 c s' := by
  have hws : s'.ws = [] := by rw [hr.ws, hq.ws]
  constructor
  · intro w h; rw [hws] at h; simp at h
  · intro w h; rw [hws] at h; simp at h
  · intro r a ha; rw [hr.reg r] at ha; simp [Reg.reset] at ha
  · intro r hc; rw [hr.place r] at hc; simp at hc
  · intro h r e hi; rw [hr.index] at hi; simp at hi
  · intro w h; rw [hws] at h; simp at h
  · intro r o h; rw [hr.place r] at h; simp at h
  · exact rd_quiet hq hr.rds hr.log i2.rd

theorem inv_reach (hRS : c.RS ≤ 2 ^ 30) (h : Reach c s) : Inv0 c s ∧ (s.fault = false → Inv1 s ∧ Inv2 c s) := by
  induction h with
  | init dev => exact ⟨inv0_init c dev, fun _ => ⟨inv1_init dev, inv2_init dev⟩⟩
  | step a _ he ih =>
    refine ⟨inv0_step hRS ih.1 he, fun hf => ?_⟩
    obtain ⟨i1, i2⟩ := ih.2 (fault_mono he hf)
    exact ⟨inv1_step i1 he hf, inv2_step he hf ih.1 i1 i2⟩
  | restart _ hq hr ih =>
    refine ⟨inv0_restart ih.1 hr, fun hf => ?_⟩
    obtain ⟨i1, i2⟩ := ih.2 (hr.fault ▸ hf)
    exact ⟨inv1_restart i1 hq hr, inv2_restart ih.1 i1 i2 hq hr⟩
  | wipe _ hq hr ih =>
    refine ⟨inv0_wipe ih.1 hr, fun hf => ?_⟩
    obtain ⟨i1, i2⟩ := ih.2 (hr.fault ▸ hf)
    exact ⟨inv1_wipe i1 hq hr, inv2_wipe i2 hq hr⟩

end
end Verif.BlockCache
