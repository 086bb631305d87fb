import Verif.BlockCache.Inv2
/-
The contents invariant is kept by every step.
-/
set_option linter.unusedSectionVars false
set_option linter.unusedSimpArgs false
namespace Verif.BlockCache
open Verif

section
variable {K V H : Type} [DecidableEq K] [DecidableEq V] [DecidableEq H]
variable {c : Cfg K V H} {s s' : St K V H} {a : Act K V}

theorem wr_ne {p : Place} (h : p.wr = true) : p ≠ .clean ∧ p ≠ .rcFree ∧ p.onDev = false := by
  cases p <;> simp_all [Place.wr, Place.onDev]

theorem s_wIn (he : exec c s a = some s') (hf : s'.fault = false) (h1 : Inv1 s)
    (wIn : ∀ w ∈ s.ws, w.al ∈ (s.reg w.rid).alloc) : ∀ w ∈ s'.ws, w.al ∈ (s'.reg w.rid).alloc := by
  have nf := h1.nf; have wPl := h1.wPl
  clear h1
  have hA := @alloc_frame2 K V H _ _ _ c s
  have hO := @open_frame K V H _ _ _ s
  cases a
  all_goals
    exec_simp he <;> (try simp only [reduceCtorEq] at hf) <;> st_simp <;>
    first
    | exact wIn
    | (refine mem_upd ?_ ?_ <;> grind [upd, W.al])
    | grind [upd, W.al, Place.wr, Place.cu, List.mem_of_mem_erase]

theorem s_cln (he : exec c s a = some s') (hf : s'.fault = false) (h1 : Inv1 s)
    (cln : ∀ r, s.place r = .clean → (s.reg r).alloc = []) : ∀ r, s'.place r = .clean → (s'.reg r).alloc = [] := by
  have nf := h1.nf
  clear h1
  have hA := @alloc_frame2 K V H _ _ _ c s
  have hO := @open_frame K V H _ _ _ s
  cases a
  case closeW w =>
    exec_simp he; rename_i hw; intro r; st_simp
    cases ha : w.old <;> simp only [afterClose, ha] <;> grind [upd]
  all_goals
    exec_simp he <;> (try simp only [reduceCtorEq] at hf) <;> intro r <;> st_simp <;>
    first
    | exact cln r
    | grind [upd, Place.cu]

theorem s_wHas (he : exec c s a = some s') (hf : s'.fault = false) (h0 : Inv0 c s) (h1 : Inv1 s) (fr : Fr s s')
    (wIn : ∀ w ∈ s.ws, w.al ∈ (s.reg w.rid).alloc)
    (wHas : ∀ w ∈ s.ws, w.pc ≠ .alloc → Has (s.reg w.rid) (s.place w.rid) w.al) :
    ∀ w ∈ s'.ws, w.pc ≠ .alloc → Has (s'.reg w.rid) (s'.place w.rid) w.al := by
  have key : ∀ w ∈ s.ws, w.pc ≠ .alloc → Has (s'.reg w.rid) (s'.place w.rid) w.al := by
    intro w hw hp
    have h := wr_ne (h1.wPl w hw)
    exact (fr.keep w.rid h.1 (fun h' => h.2.1 (fr.cln _ h.1 h').1) _ (wIn w hw) (wHas w hw hp)).2
  cases a
  case write w =>
    exec_simp he; rename_i hw _ b hb
    simp only [writeW, setW, setReg] at key ⊢
    refine mem_upd ?_ key
    intro _
    simp only [upd_same]
    exact has_put (y := w.al) (x := w.al) (h0.contig w.rid) hb (wIn w hw.1) (wIn w hw.1) (.inr rfl) (wr_ne (h1.wPl w hw.1)).2.2
  case index w | replace w | repFail w =>
    exec_simp he
    all_goals
      intro y hy hp
      rcases List.mem_cons.1 hy with rfl | hy
      · exact key w (by grind) (by grind)
      · exact key y (List.mem_of_mem_erase hy) hp
  all_goals
    exec_simp he <;> (try simp only [reduceCtorEq] at hf) <;>
    first
    | exact key
    | (intro w hw; exact key w (List.mem_of_mem_erase hw))
    | exact List.forall_mem_cons.2 ⟨by simp, key⟩

theorem s_pen (he : exec c s a = some s') (hf : s'.fault = false) (h0 : Inv0 c s) (h1 : Inv1 s) (fr : Fr s s')
    (wIn : ∀ w ∈ s.ws, w.al ∈ (s.reg w.rid).alloc)
    (cln : ∀ r, s.place r = .clean → (s.reg r).alloc = [])
    (pen : ∀ r, ∀ a ∈ (s.reg r).alloc, Has (s.reg r) (s.place r) a ∨ ∃ w ∈ s.ws, w.rid = r ∧ w.stop = a.stop ∧ w.pc = .alloc) :
    ∀ r, ∀ a ∈ (s'.reg r).alloc, Has (s'.reg r) (s'.place r) a ∨ ∃ w ∈ s'.ws, w.rid = r ∧ w.stop = a.stop ∧ w.pc = .alloc := by
  have key : ∀ r, s'.place r ≠ .clean → ∀ a ∈ (s.reg r).alloc,
      Has (s'.reg r) (s'.place r) a ∨ ∃ w ∈ s.ws, w.rid = r ∧ w.stop = a.stop ∧ w.pc = .alloc := by
    intro r hr a ha
    have hn : s.place r ≠ .clean := by intro h; rw [cln r h] at ha; simp at ha
    rcases pen r a ha with h | h
    · exact .inl (fr.keep r hn hr a ha h).2
    · exact .inr h
  have hc := s_cln he hf h1 cln
  have hn : ∀ r, ∀ a ∈ (s'.reg r).alloc, s'.place r ≠ .clean := by
    intro r a ha h; rw [hc r h] at ha; simp at ha
  have hA := @alloc_frame2 K V H _ _ _ c s
  have hO := @open_frame K V H _ _ _ s
  have nf := h1.nf
  cases a
  case write w =>
    exec_simp he; rename_i hw _ b hb
    intro r x hx
    have hx' : x ∈ (s.reg r).alloc := by
      simp only [writeW, setW, setReg] at hx; grind [upd]
    have hxn := hn r x hx
    rcases key r hxn x hx' with h | ⟨y, hy, h2, h3, h4⟩
    · exact .inl h
    · by_cases hyw : y = w
      · subst hyw
        left
        subst h2
        have hxa : x = y.al := contig_eq (h0.contig y.rid) hx' (wIn y hy) (by rw [← h3]; rfl)
        subst hxa
        simp only [writeW, setW, setReg, upd_same]
        exact has_put (y := y.al) (x := y.al) (h0.contig y.rid) hb (wIn y hy) (wIn y hy) (.inr rfl) (wr_ne (h1.wPl y hy)).2.2
      · right
        refine ⟨y, ?_, h2, h3, h4⟩
        simp only [writeW, setW]
        exact List.mem_cons_of_mem _ ((List.mem_erase_of_ne hyw).2 hy)
  case alloc r0 =>
    exec_simp he
    rename_i hg
    obtain ⟨n, hg⟩ := hA hg
    intro r x hx
    have h := key r (hn r x hx) x
    simp only [startW, setReg, setPlace] at hx
    by_cases hr : r = r0
    · subst hr
      rw [upd_same, hg] at hx
      rcases List.mem_cons.1 hx with rfl | hx
      · exact .inr ⟨_, List.mem_cons_self, rfl, rfl, rfl⟩
      · exact (h hx).imp_right (fun ⟨w, hw, h⟩ => ⟨w, List.mem_cons_of_mem _ hw, h⟩)
    · rw [upd_ne _ _ hr] at hx
      exact (h hx).imp_right (fun ⟨w, hw, h⟩ => ⟨w, List.mem_cons_of_mem _ hw, h⟩)
  case rcReins r0 =>
    exec_simp he
    rename_i hg
    obtain ⟨n, hg⟩ := hA hg
    intro r x hx
    have h := key r (hn r x hx) x
    simp only [startW, setReg, setPlace] at hx
    by_cases hr : r = r0
    · subst hr
      rw [upd_same, hg] at hx
      rcases List.mem_cons.1 hx with rfl | hx
      · exact .inr ⟨_, List.mem_cons_self, rfl, rfl, rfl⟩
      · exact (h hx).imp_right (fun ⟨w, hw, h⟩ => ⟨w, List.mem_cons_of_mem _ hw, h⟩)
    · rw [upd_ne _ _ hr] at hx
      exact (h hx).imp_right (fun ⟨w, hw, h⟩ => ⟨w, List.mem_cons_of_mem _ hw, h⟩)
  case closeW w =>
    exec_simp he
    rename_i hw
    intro r x hx
    have h := key r (hn r x hx) x
    simp only [setReg, setPlace, Reg.closeWrite] at hx h ⊢
    have hx' : x ∈ (s.reg r).alloc := by grind [upd]
    rcases h hx' with h | ⟨y, hy, h2, h3, h4⟩
    · exact .inl h
    · exact .inr ⟨y, (List.mem_erase_of_ne (by grind)).2 hy, h2, h3, h4⟩
  case index w | replace w | repFail w =>
    exec_simp he
    all_goals
      intro r x hx
      rcases key r (hn r x hx) x hx with h | ⟨y, hy, h2, h3, h4⟩
      · exact .inl h
      · exact .inr ⟨y, List.mem_cons_of_mem _ ((List.mem_erase_of_ne (by grind)).2 hy), h2, h3, h4⟩
  all_goals
    exec_simp he <;> (try simp only [reduceCtorEq] at hf) <;> intro r x hx <;>
    first
    | exact key r (hn r x hx) x hx
    | (refine key r (hn r x hx) x ?_
       simp only [setPlace, setReg, setW, setRd, writeW, startW, Reg.closeWrite, Reg.reset, Reg.closeRead] at hx
       grind [upd, Place.cu])

/-- A region that is on the device holds all its entries there. -/
theorem complete (h1 : Inv1 s)
    (pen : ∀ r, ∀ a ∈ (s.reg r).alloc, Has (s.reg r) (s.place r) a ∨ ∃ w ∈ s.ws, w.rid = r ∧ w.stop = a.stop ∧ w.pc = .alloc)
    {r : Nat} (hr : (s.place r).onDev = true) {x : Alloc K V} (hx : x ∈ (s.reg r).alloc) : (s.reg r).dev x.stop = some x.slot := by
  rcases pen r x hx with h | ⟨w, hw, rfl, _⟩
  · exact h.2 hr
  · have := (wr_ne (h1.wPl w hw)).2.2
    simp_all

/-- The entry found at a boundary is the slot that ends there; the walk moves to its start. -/
theorem at_walk (h0 : Inv0 c s) (h1 : Inv1 s)
    (pen : ∀ r, ∀ a ∈ (s.reg r).alloc, Has (s.reg r) (s.place r) a ∨ ∃ w ∈ s.ws, w.rid = r ∧ w.stop = a.stop ∧ w.pc = .alloc)
    (walk : ∀ r o, s.place r = .rcEvict o ∨ s.place r = .rcBusy o → o = 0 ∨ ∃ a ∈ (s.reg r).alloc, a.stop = o)
    {r o : Nat} {sl : Slot K V} (hp : s.place r = .rcEvict o ∨ s.place r = .rcBusy o) (ho : o ≠ 0) (hd : (s.reg r).dev o = some sl) :
    ∃ x ∈ (s.reg r).alloc, x.stop = o ∧ x.slot = sl ∧ x.start = o - c.sz sl.key sl.val := by
  rcases walk r o hp with h | ⟨x, hx, rfl⟩
  · exact absurd h ho
  · have := complete h1 pen (by rcases hp with h | h <;> rw [h] <;> rfl) hx
    rw [hd] at this
    simp only [Option.some.injEq] at this
    subst this
    have := contig_stop_le (h0.contig r) hx
    exact ⟨x, hx, rfl, rfl, by omega⟩

theorem entryDev_some {g : Reg K V} {o : Nat} {sl : Slot K V} (h : g.entryDev o = some sl) : o ≠ 0 ∧ g.dev o = some sl := by
  unfold Reg.entryDev at h; split at h <;> simp_all

theorem alloc_mono (he : exec c s a = some s') (h1 : Inv1 s) {r : Nat} (hc : s'.place r ≠ .clean) {x : Alloc K V}
    (hx : x ∈ (s.reg r).alloc) : x ∈ (s'.reg r).alloc := by
  have hA := @alloc_frame2 K V H _ _ _ c s
  have hO := @open_frame K V H _ _ _ s
  have nf := h1.nf
  clear h1
  revert hc
  exec_cases a he <;> st_simp <;> grind [upd, Place.cu]

theorem s_walk (he : exec c s a = some s') (hf : s'.fault = false) (h0 : Inv0 c s) (h1 : Inv1 s)
    (pen : ∀ r, ∀ a ∈ (s.reg r).alloc, Has (s.reg r) (s.place r) a ∨ ∃ w ∈ s.ws, w.rid = r ∧ w.stop = a.stop ∧ w.pc = .alloc)
    (old : ∀ w ∈ s.ws, ∀ a, w.old = some a → (s.reg a.1).dev a.2 = some ⟨w.key, w.val⟩ ∧
      (w.pc = .indexed → ∀ h, s.index h ≠ some a))
    (walk : ∀ r o, s.place r = .rcEvict o ∨ s.place r = .rcBusy o → o = 0 ∨ ∃ a ∈ (s.reg r).alloc, a.stop = o) :
    ∀ r o, s'.place r = .rcEvict o ∨ s'.place r = .rcBusy o → o = 0 ∨ ∃ a ∈ (s'.reg r).alloc, a.stop = o := by
  have mono := @alloc_mono K V H _ _ _ c s s' a he h1
  have main : ∀ r o, s'.place r = .rcEvict o ∨ s'.place r = .rcBusy o → o = 0 ∨ ∃ a ∈ (s.reg r).alloc, a.stop = o := by
    clear mono
    cases a
    case closeW w =>
      exec_simp he; rename_i hw
      intro r o
      cases ha : w.old with
      | none => simp only [afterClose, ha]; exact walk r o
      | some b =>
        simp only [afterClose, ha]
        by_cases hr : r = b.1
        · subst hr
          simp only [upd_same, Place.rcEvict.injEq, reduceCtorEq, or_false]
          rintro rfl
          have hb := h1.oldP w hw.1 b ha
          by_cases h0' : b.2 = 0
          · left; omega
          · obtain ⟨x, hx, e1, e2, e3⟩ := at_walk h0 h1 pen walk (.inr hb) h0' (old w hw.1 b ha).1
            rw [← e3]
            exact contig_prev (h0.contig b.1) hx
        · rw [upd_ne _ _ hr]; exact walk r o
    case rcEvict r0 =>
      exec_simp he
      rename_i o0 hp _ sl hsl
      obtain ⟨hz, hd⟩ := entryDev_some hsl
      intro r o
      simp only [setPlace]
      by_cases hr : r = r0
      · subst hr
        simp only [upd_same, Place.rcEvict.injEq, reduceCtorEq, or_false]
        rintro rfl
        obtain ⟨x, hx, e1, e2, e3⟩ := at_walk h0 h1 pen walk (.inl hp) hz hd
        rw [← e3]
        exact contig_prev (h0.contig r) hx
      · rw [upd_ne _ _ hr]; exact walk r o
    case rcRead r0 =>
      exec_simp he
      all_goals
        intro r o
        simp only [setPlace]
        by_cases hr : r = r0
        · subst hr
          have := contig_last (h0.contig r)
          grind [upd]
        · rw [upd_ne _ _ hr]; exact walk r o
    all_goals
      exec_simp he <;> (try simp only [reduceCtorEq] at hf) <;> intro r o <;> st_simp <;>
      first
      | exact walk r o
      | grind [upd]
  intro r o h
  rcases main r o h with h' | ⟨x, hx, h'⟩
  · exact .inl h'
  · exact .inr ⟨x, mono (by rcases h with h | h <;> rw [h] <;> simp) hx, h'⟩

theorem good_keep (fr : Fr s s') {r e t : Nat} {h : H} (hc : s.place r ≠ .clean) (hc' : s'.place r ≠ .clean) (ht : t ≤ s.log.length)
    (g : Good c s r e t h) : Good c s' r e t h := by
  obtain ⟨x, hx, h1, h2, h3, h4⟩ := g
  obtain ⟨k1, k2⟩ := fr.keep r hc hc' x hx h3
  obtain ⟨u, hu⟩ := fr.log
  exact ⟨x, k1, h1, h2, k2, by rw [hu, valAt_append ht]; exact h4⟩

theorem res_keep (fr : Fr s s') {k : K} {t : Nat} {res : Res V} (ht : t ≤ s.log.length) (h : ResOk s k t res) :
    ResOk s' k t res := by
  intro v hv
  obtain ⟨u, hu⟩ := fr.log
  rw [hu, valAt_append ht]
  exact h v hv

theorem len_keep (fr : Fr s s') : s.log.length ≤ s'.log.length := by
  obtain ⟨u, hu⟩ := fr.log
  rw [hu]; simp

theorem pre_ne {p : Place} (h : p.pre = true) : p ≠ .clean := by
  rintro rfl; simp [Place.pre] at h

theorem rd_keep (fr : Fr s s') (h1 : Inv1 s) {x : Rd K V} (hx : x ∈ s.rds) (h : RdOk c s x) : RdOk c s' x := by
  have hl := len_keep fr
  have hs := fr.seq
  have hopen : ∀ r p, openOn r p x = true → s.place r ≠ .clean → s'.place r ≠ .clean := by
    intro r p ho hn hc
    obtain ⟨_, hp, hm⟩ := fr.cln r hn hc
    rw [h1.cP, List.countP_eq_zero] at hp
    rw [h1.cM, List.countP_eq_zero] at hm
    cases p
    · exact hm x hx ho
    · exact hp x hx ho
  unfold RdOk at h ⊢
  cases hpc : x.pc <;> simp only [hpc] at h ⊢
  case begin => omega
  case seq => omega
  case found q r e t1 =>
    obtain ⟨a1, a2, a3, a4⟩ := h
    refine ⟨a1, by omega, by omega, ?_⟩
    intro hq
    have hq' : s.seq = q := by omega
    obtain ⟨b1, b2⟩ := a4 hq'
    have c1 := fr.pre r b1 (by omega)
    exact ⟨c1, good_keep fr (pre_ne b1) (pre_ne c1) a2 b2⟩
  case opened q r e phys t1 =>
    obtain ⟨a1, a2, a3, a4⟩ := h
    refine ⟨a1, by omega, by omega, ?_⟩
    intro hq
    have hq' : s.seq = q := by omega
    obtain ⟨b1, b2, b3⟩ := a4 hq'
    have c1 := fr.pre r b1 (by omega)
    exact ⟨c1, good_keep fr (pre_ne b1) (pre_ne c1) a2 b2, fun hp => fr.dev r (b3 hp) (pre_ne c1)⟩
  case valid r e phys t1 =>
    obtain ⟨a1, a2, a3, a4, a5⟩ := h
    have c1 := hopen r phys (by simp [openOn, hpc]) a3
    exact ⟨a1, by omega, c1, good_keep fr a3 c1 a2 a4, fun hp => fr.dev r (a5 hp) c1⟩
  case failed => omega
  case read r e phys t1 res =>
    obtain ⟨a1, a2, a3, a4, a5, a6⟩ := h
    have c1 := hopen r phys (by simp [openOn, hpc]) a3
    exact ⟨a1, by omega, c1, good_keep fr a3 c1 a2 a4, fun hp => fr.dev r (a5 hp) c1, res_keep fr a2 a6⟩
  case close r phys t1 res =>
    obtain ⟨a1, a2, a6⟩ := h
    exact ⟨a1, by omega, res_keep fr a2 a6⟩
  case done t1 t2 res =>
    obtain ⟨a1, a2, a3, a6⟩ := h
    exact ⟨a1, a2, by omega, res_keep fr (by omega) a6⟩

theorem live_ne {p : Place} {e : Nat} (h : p.live e = true) : p ≠ .clean ∧ p.pre = true := by
  cases p <;> simp_all [Place.live, Place.pre, Place.cu]

end
end Verif.BlockCache
