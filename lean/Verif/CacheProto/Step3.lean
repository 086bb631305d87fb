import Verif.CacheProto.Step2
/-! Steps on reference words. -/
namespace Verif.CacheProto
open Verif.Refcount

variable {s s' : State} {i : Nat} {p p' : PC} {a : Addr}

theorem ucl_cons (g : Hdl) (us : List Hdl) (b : Addr) : ucl (g :: us) b = ucl us b + ind (g.a = b) := by
  unfold ucl
  rw [List.countP_cons]; simp [ind]

theorem mcl_cons_some (w : Nat) (k : Key) (a : Addr) (ml : List Mail) (b : Addr) :
    mcl (⟨w, k, some a⟩ :: ml) b = mcl ml b + ind (a = b) := by
  unfold mcl
  rw [List.countP_cons]; simp [ind]

theorem mcl_cons_none (w : Nat) (k : Key) (ml : List Mail) (b : Addr) : mcl (⟨w, k, none⟩ :: ml) b = mcl ml b := by
  unfold mcl
  rw [List.countP_cons]; simp

theorem lvw_pos {w : Word} (h : 1 ≤ acc w ∨ bit 18 w = true ∨ bit 19 w = true ∨ bit 20 w = true) : lvw w = 1 := by
  unfold lvw ind
  rw [if_pos]
  rintro ⟨h0, h1, h2, h3⟩
  rcases h with h | h | h | h
  · omega
  · rw [h1] at h; cases h
  · rw [h2] at h; cases h
  · rw [h3] at h; cases h

/-! ### one more handle -/

theorem inv_inc (h : Inv s) (hp : s.thr[i]? = some p) {v : Word} {us : List Hdl} {ml : List Mail}
    (hi : incRef (s.word a) = .ok (v, .ok))
    (hown : ∀ b, p'.own b + ucl us b + mcl ml b = p.own b + s.uc b + s.mc b + ind (a = b))
    (hmo : ∀ b, p'.mo b = p.mo b) (hex : ∀ b, p'.ex b = p.ex b)
    (hraw : ∀ b, b ≠ a → p'.raw b = p.raw b) (araw : p'.raw a + 1 = p.raw a + s.lv a)
    (bor : ∀ b, s.uc b ≤ ucl us b) (hus : ∀ g ∈ us, s.key g.a = g.k)
    (hml : ∀ g ∈ ml, ∀ x, g.r = some x → s.key x = g.k)
    (frf : 1 ≤ s.uc a ∨ s.b19 a = true ∨ 1 ≤ p.own a ∨ 1 ≤ p.raw a)
    (lk : Lk s p p') (hst : ∀ x, p.stale x = false) (hf : FactsW s p' a v) :
    Inv { s with word := upd s.word a v, usr := us, mail := ml, thr := s.thr.set i p' } := by
  obtain ⟨c1, c2, c3, c4, c5⟩ := inc_ok hi
  refine inv_w h hp s.mctx s.nextW ?_ lk hst hf
  have c5' : s.b20 a = false := c5
  refine ⟨c2, c3, fun b _ => hmo b, fun b _ => hex b, hraw, ?_, ?_, ?_, ?_, ?_, ?_, fun b => Or.inl (bor b), ?_, hus, hml, ?_⟩
  · intro b hb
    have := hown b
    have h0 : ind (a = b) = 0 := by simp [ind, Ne.symm hb]
    omega
  · have := hown a
    have h0 : ind (a = a) = 1 := by simp [ind]
    rw [hmo]
    simp only [State.rf] at *; omega
  · rw [c4, c5', hex]
  · intro hh; rw [c4] at hh; cases hh
  · rw [lvw_pos (Or.inl (by omega))]; exact araw
  · intro _; exact Or.inl c5'
  · intro b hb
    have := lk.borp h hp b hb
    have := bor b; omega
  · rcases frf with h1 | h1 | h1 | h1
    · exact Or.inr (Or.inl h1)
    · exact Or.inr (Or.inr (Or.inl h1))
    · exact Or.inr (Or.inr (Or.inr (Or.inl h1)))
    · exact Or.inr (Or.inr (Or.inr (Or.inr (Or.inl h1))))

theorem uc_eq (b : Addr) : ucl s.usr b = s.uc b := rfl
theorem mc_eq (b : Addr) : mcl s.mail b = s.mc b := rfl

theorem usr_cons_key (h : Inv s) {k : Key} (hk : s.key a = k) : ∀ g ∈ (⟨k, a⟩ : Hdl) :: s.usr, s.key g.a = g.k := by
  intro g hg
  rcases List.mem_cons.mp hg with e | e
  · subst e; exact hk
  · exact h.hk g e

theorem step_ctor (h : Inv s) {k : Key} {c : Cont} (hp : s.thr[i]? = some (.ctor a k c)) :
    Inv (touch s a (
      match incRef (s.word a) with
      | .ok (w, .ok) =>
        match (generalizing := false) c with
        | .user => at_ { setW s a w with usr := ⟨k, a⟩ :: s.usr } i .idle
        | .move old => at_ (setW s a w) i (.mv2 k old a)
      | _ => bad s)) := by
  have hx := h.raw_spec hp (x := a) (by simp [PC.raw, ind])
  rw [touch_eq hx.1]
  obtain ⟨z1, z2, z3, z4⟩ := lv_zero hx.2
  have hi : incRef (s.word a) = .ok (s.word a + 1, .ok) := by
    rw [incRef_eq]
    have z1' : acc (s.word a) = 0 := z1
    have z4' : bit 20 (s.word a) = false := z4
    rw [if_neg (by omega), z4']; rfl
  have c1 := (inc_ok hi).1
  obtain ⟨f1, f2, f3, f4, f5, f6, f7, f8⟩ := h.facts hp
  have hk := f7 a k (by simp [PC.kat])
  rw [hi]
  cases c with
  | user =>
    refine inv_inc (a := a) (us := ⟨k, a⟩ :: s.usr) (ml := s.mail) h hp hi ?_ (fun _ => rfl) (fun _ => rfl) ?_ ?_ ?_ (usr_cons_key h hk) h.mlk ?_ (by lks)
      (fun _ => rfl) (by fin)
    · intro b; rw [ucl_cons, uc_eq, mc_eq]; simp only [PC.own]; omega
    · intro b hb; simp [PC.raw, ind, Ne.symm hb]
    · simp [PC.raw, ind, hx.2]
    · intro b; rw [ucl_cons, uc_eq]; omega
    · simp [PC.raw, ind]
  | move old =>
    have ho := h.ex_mem hp (x := old) (by simp [PC.ex, PC.mo, Cont.old, ind])
    have hne : old ≠ a := by rintro rfl; rw [z4] at ho; cases ho.1
    refine inv_inc (a := a) (us := s.usr) (ml := s.mail) (p' := .mv2 k old a) h hp hi ?_ (fun _ => rfl) (fun _ => rfl) ?_ ?_ ?_ h.hk h.mlk ?_ (by lks)
      (fun _ => rfl) ?_
    · intro b; rw [uc_eq, mc_eq]; simp only [PC.own]; omega
    · intro b hb; simp [PC.raw, ind, Ne.symm hb]
    · simp [PC.raw, ind, hx.2]
    · intro b; rw [uc_eq]; omega
    · simp [PC.raw, ind]
    · constructor
      · intro x hx; simp [PC.nacc] at hx; subst hx; exact z3
      · intro x hx; simp [PC.nlnk] at hx
      · intro x hx; simp [PC.stale] at hx
      · intro x hx; simp [PC.one1] at hx; subst hx; left; refine ⟨rfl, ?_⟩
        simp only [State.rf] at z1; omega
      · intro x hx; simp [PC.exq] at hx
      · intro k v hv; simp [PC.iat] at hv
      · intro x k' hx; apply f7; simp [PC.kat, Cont.kat] at hx ⊢; grind
      · trivial

theorem step_find (h : Inv s) {k : Key} (hp : s.thr[i]? = some (.find k a)) :
    Inv (touch s a (
      match incRef (s.word a) with
      | .error _ => at_ s i .idle
      | .ok (w, .ok) => at_ { setW s a w with usr := ⟨k, a⟩ :: s.usr } i .idle
      | .ok (_, .failedEviction) => at_ s i .idle
      | .ok (_, .failedMoving) => at_ s i (.findW k a))) := by
  obtain ⟨f1, f2, f3, f4, f5, f6, f7, f8⟩ := h.facts hp
  have hix := f6 k (some a) (by simp [PC.iat])
  have hx := h.idx_mem hix
  rw [touch_eq hx.2.1]
  have hidle : Inv (at_ s i .idle) :=
    inv_pc h hp (by same) (by lks) (by intro x; rfl) (by fin) s.mctx s.nextW
  split
  · exact hidle
  · rename_i w hi
    refine inv_inc (a := a) (us := ⟨k, a⟩ :: s.usr) (ml := s.mail) h hp hi ?_ (fun _ => rfl) (fun _ => rfl) ?_ ?_ ?_ (usr_cons_key h hx.2.2) h.mlk ?_ (by lks)
      (fun _ => rfl) (by fin)
    · intro b; rw [ucl_cons, uc_eq, mc_eq]; simp only [PC.own]; omega
    · intro b hb; simp [PC.raw]
    · simp [PC.raw, lv_one (s := s) (a := a) (Or.inr (Or.inr (Or.inl hx.1)))]
    · intro b; rw [ucl_cons, uc_eq]; omega
    · exact Or.inr (Or.inl hx.1)
  · exact hidle
  · exact inv_pc h hp (by same) (by lks) (by intro x; rfl) (by fin) s.mctx s.nextW

theorem step_findW (h : Inv s) {k : Key} (hp : s.thr[i]? = some (.findW k a)) :
    Inv (touch s a (
      if isMoving (s.word a) then
        at_ { s with mctx := upd s.mctx (s.key a) (s.mctx (s.key a) ++ [s.nextW]), nextW := s.nextW + 1 } i .idle
      else at_ s i (.find k a))) := by
  obtain ⟨f1, f2, f3, f4, f5, f6, f7, f8⟩ := h.facts hp
  have hix := f6 k (some a) (by simp [PC.iat])
  have hx := h.idx_mem hix
  rw [touch_eq hx.2.1]
  split
  · exact inv_pc h hp (p' := .idle) (by same) (by lks) (by intro x; rfl) (by fin) _ _
  · exact inv_pc h hp (by same) (by lks) (by intro x; rfl) (by fin) s.mctx s.nextW

theorem step_ior4 (h : Inv s) {k : Key} {o : Addr} (hp : s.thr[i]? = some (.ior4 k a o)) :
    Inv (touch s o (
      match incRef (s.word o) with
      | .error _ => at_ s i (.iorX k a)
      | .ok (w, .ok) => at_ (setW s o w) i (.ior5 k a o .got)
      | .ok (_, .failedEviction) => at_ s i (.ior5 k a o .null)
      | .ok (_, .failedMoving) => at_ s i (.ior4w k a o))) := by
  obtain ⟨f1, f2, f3, f4, f5, f6, f7, f8⟩ := h.facts hp
  have hix := f6 k (some o) (by simp [PC.iat])
  have hx := h.idx_mem hix
  rw [touch_eq hx.2.1]
  split
  · exact inv_pc h hp (by same) (by lks) (by intro x; rfl) (by fin) s.mctx s.nextW
  · rename_i w hi
    refine inv_inc (a := o) (us := s.usr) (ml := s.mail) (p' := .ior5 k a o .got) h hp hi ?_ (fun _ => rfl) (fun _ => rfl) ?_ ?_ ?_ h.hk h.mlk ?_ (by lks)
      (fun _ => rfl) (by fin)
    · intro b; rw [uc_eq, mc_eq]; simp only [PC.own]; omega
    · intro b hb; simp [PC.raw]
    · simp [PC.raw, lv_one (s := s) (a := o) (Or.inr (Or.inr (Or.inl hx.1)))]
    · intro b; rw [uc_eq]; omega
    · exact Or.inr (Or.inl hx.1)
  · rename_i w hi
    have hb : s.b20 o = true := (inc_not_ok hi (by simp)).1
    exact inv_pc h hp (by same) (by lks) (by intro x; rfl) (by fin) s.mctx s.nextW
  · exact inv_pc h hp (by same) (by lks) (by intro x; rfl) (by fin) s.mctx s.nextW

theorem step_ior4w (h : Inv s) {k : Key} {o : Addr} (hp : s.thr[i]? = some (.ior4w k a o)) :
    Inv (touch s o (
      if isMoving (s.word o) then
        at_ { s with mctx := upd s.mctx (s.key o) (s.mctx (s.key o) ++ [s.nextW]), nextW := s.nextW + 1 } i
          (.ior5 k a o (.wait s.nextW))
      else at_ s i (.ior4 k a o))) := by
  obtain ⟨f1, f2, f3, f4, f5, f6, f7, f8⟩ := h.facts hp
  have hix := f6 k (some o) (by simp [PC.iat])
  have hx := h.idx_mem hix
  rw [touch_eq hx.2.1]
  split
  · rename_i hm
    have hb : s.b20 o = true := ((isMoving_iff _).mp hm).1
    exact inv_pc h hp (p' := .ior5 k a o (.wait s.nextW)) (by same) (by lks) (by intro x; rfl) (by fin) _ _
  · exact inv_pc h hp (by same) (by lks) (by intro x; rfl) (by fin) s.mctx s.nextW

theorem step_rx2 (h : Inv s) {k : Key} (hp : s.thr[i]? = some (.rx2 k a)) :
    Inv (touch s a (
      match incRef (s.word a) with
      | .error _ => at_ s i .idle
      | .ok (w, .ok) => at_ (setW s a w) i (.rx3 k a)
      | _ => bad s)) := by
  obtain ⟨f1, f2, f3, f4, f5, f6, f7, f8⟩ := h.facts hp
  have hx := h.bor_spec hp (x := a) (by simp [PC.borrow])
  rw [touch_eq hx.2.2]
  split
  · exact inv_pc h hp (by same) (by lks) (by intro x; rfl) (by fin) s.mctx s.nextW
  · rename_i w hi
    refine inv_inc (a := a) (us := s.usr) (ml := s.mail) (p' := .rx3 k a) h hp hi ?_ (fun _ => rfl) (fun _ => rfl) ?_ ?_ ?_ h.hk h.mlk ?_ (by lks)
      (fun _ => rfl) (by fin)
    · intro b; rw [uc_eq, mc_eq]; simp only [PC.own]; omega
    · intro b hb; simp [PC.raw]
    · simp [PC.raw, lv_one (s := s) (a := a) (Or.inl hx.1)]
    · intro b; rw [uc_eq]; omega
    · exact Or.inl (h.bor _ (List.mem_of_getElem? hp) a (by simp [PC.borrow]))
  · rename_i h1 h2
    exfalso
    cases hi : incRef (s.word a) with
    | error e => exact h1 e hi
    | ok r =>
      obtain ⟨w, r⟩ := r
      by_cases hr : r = .ok
      · subst hr; exact h2 w hi
      · have := (inc_not_ok hi hr).1
        have h3 := hx.2.1
        simp only [State.b20] at h3
        rw [h3] at this; cases this

theorem step_mv7 (h : Inv s) {k : Key} {n : Addr} {ws : List Nat} {ov : Bool}
    (hp : s.thr[i]? = some (.mv7 k a n ws ov)) :
    Inv (match (generalizing := false) ws with
    | [] => at_ s i (.mv8 k a n)
    | w :: ws =>
      if ov then at_ { s with mail := ⟨w, k, none⟩ :: s.mail } i (.mv7 k a n ws true)
      else
        touch s n <|
          match incRef (s.word n) with
          | .error _ => at_ { s with lost := w :: s.lost } i (.mv7 k a n ws true)
          | .ok (v, .ok) => at_ { setW s n v with mail := ⟨w, k, some n⟩ :: s.mail } i (.mv7 k a n ws false)
          | _ => bad s) := by
  obtain ⟨f1, f2, f3, f4, f5, f6, f7, f8⟩ := h.facts hp
  have hx := h.own_mem hp (x := n) (by simp [PC.own, ind])
  have hk := f7 n k (by simp [PC.kat])
  cases ws with
  | nil => exact inv_pc h hp (by same) (by lks) (by intro x; rfl) (by fin) s.mctx s.nextW
  | cons w ws =>
    dsimp only
    rw [touch_eq hx.2.2]
    split
    · have key := inv_w (a := n) (w := s.word n) (us := s.usr) (ml := ⟨w, k, none⟩ :: s.mail)
        (p' := .mv7 k a n ws true) h hp s.mctx s.nextW ?_ (by lks) (fun _ => rfl) ?_
      · have e : upd s.word n (s.word n) = s.word := by funext x; unfold upd; split <;> simp_all
        rw [e] at key; exact key
      · refine ⟨rfl, rfl, fun _ _ => rfl, fun _ _ => rfl, fun _ _ => rfl, ?_, ?_, ?_, ?_, ?_, ?_, ?_, ?_, h.hk, ?_, Or.inl rfl⟩
        · intro b _; rw [uc_eq, mcl_cons_none, mc_eq]; rfl
        · rw [uc_eq, mcl_cons_none, mc_eq]; rfl
        · rfl
        · intro hb; exact Or.inl ⟨hb, rfl⟩
        · rfl
        · intro hb; exact Or.inl hb
        · intro b; exact Or.inl (Nat.le_refl _)
        · intro b hb; simp [PC.borrow] at hb
        · intro g hg x hgx
          rcases List.mem_cons.mp hg with e | e
          · subst e; cases hgx
          · exact h.mlk g e x hgx
      · have hx1 := hx.2.1
        constructor <;> obs <;> simp_all
    · split
      · exact (inv_pc h hp (p' := .mv7 k a n ws true) (by same) (by lks) (by intro x; rfl) (by fin) s.mctx s.nextW).ghost s.done (w :: s.lost)
      · rename_i v hi
        refine inv_inc (a := n) (us := s.usr) (ml := ⟨w, k, some n⟩ :: s.mail) (p' := .mv7 k a n ws false) h hp hi ?_ (fun _ => rfl) (fun _ => rfl) ?_ ?_ ?_ h.hk ?_ ?_ (by lks)
          (fun _ => rfl) (by fin)
        · intro b; rw [uc_eq, mcl_cons_some, mc_eq]; simp only [PC.own]; omega
        · intro b hb; simp [PC.raw]
        · simp [PC.raw, lv_one (s := s) (a := n) (Or.inl hx.1)]
        · intro b; rw [uc_eq]; omega
        · intro g hg x hgx
          rcases List.mem_cons.mp hg with e | e
          · subst e; injection hgx with hgx; subst hgx; exact hk
          · exact h.mlk g e x hgx
        · exact Or.inr (Or.inr (Or.inl (by simp [PC.own, ind])))
      · rename_i h1 h2
        exfalso
        cases hi : incRef (s.word n) with
        | error e => exact h1 e hi
        | ok r =>
          obtain ⟨w, r⟩ := r
          by_cases hr : r = .ok
          · subst hr; exact h2 w hi
          · have := (inc_not_ok hi hr).1
            have h3 := hx.2.1
            simp only [State.b20] at h3
            rw [h3] at this; cases this

theorem step_me6 (h : Inv s) {k : Key} {ws : List Nat} (hp : s.thr[i]? = some (.me6 k a ws)) :
    Inv (match (generalizing := false) ws with
    | [] => at_ s i (.rel1 a .done)
    | w :: ws => at_ { s with mail := ⟨w, k, none⟩ :: s.mail } i (.me6 k a ws)) := by
  obtain ⟨f1, f2, f3, f4, f5, f6, f7, f8⟩ := h.facts hp
  cases ws with
  | nil => exact inv_pc h hp (by same) (by lks) (by intro x; rfl) (by fin) s.mctx s.nextW
  | cons w ws =>
    dsimp only
    have key := inv_w (a := a) (w := s.word a) (us := s.usr) (ml := ⟨w, k, none⟩ :: s.mail)
      (p' := .me6 k a ws) h hp s.mctx s.nextW ?_ (by lks) (fun _ => rfl) (by fin)
    · have e : upd s.word a (s.word a) = s.word := by funext x; unfold upd; split <;> simp_all
      rw [e] at key; exact key
    · refine ⟨rfl, rfl, fun _ _ => rfl, fun _ _ => rfl, fun _ _ => rfl, ?_, ?_, ?_, ?_, ?_, ?_, ?_, ?_, h.hk, ?_, Or.inl rfl⟩
      · intro b _; rw [uc_eq, mcl_cons_none, mc_eq]; rfl
      · rw [uc_eq, mcl_cons_none, mc_eq]; rfl
      · rfl
      · intro hb; exact Or.inl ⟨hb, rfl⟩
      · rfl
      · intro hb; exact Or.inl hb
      · intro b; exact Or.inl (Nat.le_refl _)
      · intro b hb; simp [PC.borrow] at hb
      · intro g hg x hgx
        rcases List.mem_cons.mp hg with e | e
        · subst e; cases hgx
        · exact h.mlk g e x hgx

/-! ### one handle less -/

theorem inv_drop (h : Inv s) (hp : s.thr[i]? = some p) {us : List Hdl} {p0 p1 : PC}
    (hb20 : s.b20 a = false) (hrf : 1 ≤ s.rf a)
    (hown : ∀ p', p' = p0 ∨ p' = p1 → ∀ b, p'.own b + ucl us b + ind (a = b) = p.own b + s.uc b)
    (hmo : ∀ p', p' = p0 ∨ p' = p1 → ∀ b, p'.mo b = p.mo b)
    (hex : ∀ p', p' = p0 ∨ p' = p1 → ∀ b, p'.ex b = p.ex b)
    (hraw : ∀ p', p' = p0 ∨ p' = p1 → ∀ b, b ≠ a → p'.raw b = p.raw b)
    (raw0 : p0.raw a = p.raw a + 1) (raw1 : p1.raw a = p.raw a)
    (bor : ∀ b, s.uc b ≤ ucl us b ∨ 1 ≤ ucl us b ∨ ∀ q ∈ s.thr, q.borrow b = false)
    (borp : ∀ p', p' = p0 ∨ p' = p1 → ∀ b, p'.borrow b = false)
    (hus : ∀ g ∈ us, s.key g.a = g.k)
    (frf : 1 ≤ s.uc a ∨ 1 ≤ p.own a)
    (lk : ∀ p', p' = p0 ∨ p' = p1 → Lk s p p') (hst : ∀ x, p.stale x = false)
    (hf : ∀ p' w, p' = p0 ∨ p' = p1 → FactsW s p' a w) :
    Inv (drop { s with usr := us } i a p0 p1) := by
  obtain ⟨v, r, hd, c1, c2, c3, c4, c5⟩ := dec_ok (w := s.word a) hrf
  have hb : bit 20 (s.word a) = false := hb20
  unfold drop
  rw [show decRef (({ s with usr := us } : State).word a) = .ok (v, r) from hd]
  dsimp only
  obtain ⟨p', hpe⟩ : ∃ p', p' = if r = 0 then p0 else p1 := ⟨_, rfl⟩
  rw [← hpe]
  have hp01 : p' = p0 ∨ p' = p1 := by rw [hpe]; split <;> simp
  have c1' : acc v + 1 = s.rf a := by
    have : 1 ≤ acc (s.word a) := hrf
    show acc v + 1 = acc (s.word a)
    omega
  refine inv_w (us := us) (ml := s.mail) (w := v) (p' := p') h hp s.mctx s.nextW ?_ (lk p' hp01) hst (hf p' v hp01)
  refine ⟨c2, c3, fun b _ => hmo p' hp01 b, fun b _ => hex p' hp01 b, hraw p' hp01, ?_, ?_, ?_, ?_, ?_, ?_, bor, ?_, hus, h.mlk, ?_⟩
  · intro b hb
    have := hown p' hp01 b
    have h0 : ind (a = b) = 0 := by simp [ind, Ne.symm hb]
    rw [mc_eq]; omega
  · have := hown p' hp01 a
    have h0 : ind (a = a) = 1 := by simp [ind]
    rw [hmo p' hp01, mc_eq]
    omega
  · rw [c4, hex p' hp01]
  · intro hh; rw [c4, hb] at hh; cases hh
  · rw [lv_one (s := s) (a := a) (Or.inl hrf)]
    by_cases hr : r = 0
    · rw [hpe, if_pos hr, raw0]
      have : lvw v = 0 := by unfold lvw ind; rw [if_neg]; exact fun hh => hh (c5.mp hr)
      omega
    · rw [hpe, if_neg hr, raw1]
      have : lvw v = 1 := by unfold lvw ind; rw [if_pos]; exact fun hh => hr (c5.mpr hh)
      omega
  · intro _; exact Or.inl hb
  · intro b hb; rw [borp p' hp01] at hb; cases hb
  · rcases frf with h1 | h1
    · exact Or.inr (Or.inl h1)
    · exact Or.inr (Or.inr (Or.inr (Or.inl h1)))

theorem step_rx5 (h : Inv s) {k : Key} (hp : s.thr[i]? = some (.rx5 k a)) :
    Inv (touch s a (drop s i a (.rel1 a .done) .idle)) := by
  have hx := h.bor_spec hp (x := a) (by simp [PC.borrow])
  rw [touch_eq hx.2.2]
  refine inv_drop (us := s.usr) h hp hx.2.1 hx.1 ?_ ?_ ?_ ?_ ?_ ?_ (fun b => Or.inl (Nat.le_refl _)) ?_ h.hk ?_ ?_ (fun _ => rfl) ?_
  · rintro p' (rfl | rfl) b <;> rw [uc_eq] <;> simp only [PC.own] <;> omega
  · rintro p' (rfl | rfl) b <;> rfl
  · rintro p' (rfl | rfl) b <;> rfl
  · rintro p' (rfl | rfl) b hb <;> simp [PC.raw, ind, Ne.symm hb]
  · simp [PC.raw, ind]
  · simp [PC.raw]
  · rintro p' (rfl | rfl) b <;> rfl
  · right; simp [PC.own, ind]
  · rintro p' (rfl | rfl) <;> lks
  · rintro p' w (rfl | rfl) <;> fin

theorem step_mvF2 (h : Inv s) {k : Key} {n : Addr} (hp : s.thr[i]? = some (.mvF2 k a n)) :
    Inv (touch s n (drop s i n (.rel1 n (.evictOld k a)) (.me1 k a))) := by
  have hx := h.own_mem hp (x := n) (by simp [PC.own, ind])
  rw [touch_eq hx.2.2]
  obtain ⟨f1, f2, f3, f4, f5, f6, f7, f8⟩ := h.facts hp
  refine inv_drop (us := s.usr) h hp hx.2.1 hx.1 ?_ ?_ ?_ ?_ ?_ ?_ (fun b => Or.inl (Nat.le_refl _)) ?_ h.hk ?_ ?_ (fun _ => rfl) ?_
  · rintro p' (rfl | rfl) b <;> rw [uc_eq] <;> simp only [PC.own] <;> omega
  · rintro p' (rfl | rfl) b <;> rfl
  · rintro p' (rfl | rfl) b <;> rfl
  · rintro p' (rfl | rfl) b hb <;> simp [PC.raw, ind, Ne.symm hb]
  · simp [PC.raw, ind]
  · simp [PC.raw]
  · rintro p' (rfl | rfl) b <;> rfl
  · right; simp [PC.own, ind]
  · rintro p' (rfl | rfl) <;> lks
  · rintro p' w (rfl | rfl) <;> fin

theorem step_mv8 (h : Inv s) {k : Key} {n : Addr} (hp : s.thr[i]? = some (.mv8 k a n)) :
    Inv (touch s n (drop s i n (.rel1 n (.freeOld a)) (.mv9 a))) := by
  have hx := h.own_mem hp (x := n) (by simp [PC.own, ind])
  rw [touch_eq hx.2.2]
  have hr := h.raw_spec hp (x := a) (by simp [PC.raw, ind])
  have hne : a ≠ n := by
    rintro rfl
    have := lv_one (s := s) (a := a) (Or.inl hx.1)
    omega
  obtain ⟨f1, f2, f3, f4, f5, f6, f7, f8⟩ := h.facts hp
  refine inv_drop (us := s.usr) h hp hx.2.1 hx.1 ?_ ?_ ?_ ?_ ?_ ?_ (fun b => Or.inl (Nat.le_refl _)) ?_ h.hk ?_ ?_ (fun _ => rfl) ?_
  · rintro p' (rfl | rfl) b <;> rw [uc_eq] <;> simp only [PC.own] <;> omega
  · rintro p' (rfl | rfl) b <;> rfl
  · rintro p' (rfl | rfl) b <;> rfl
  · rintro p' (rfl | rfl) b hb <;> simp [PC.raw, ind, Ne.symm hb]
  · simp [PC.raw, ind]; omega
  · simp [PC.raw]
  · rintro p' (rfl | rfl) b <;> rfl
  · right; simp [PC.own, ind]
  · rintro p' (rfl | rfl) <;> lks
  · rintro p' w (rfl | rfl) <;> fin

end Verif.CacheProto
