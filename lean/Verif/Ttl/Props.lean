import Verif.Ttl.Model
/-!
C19: expiration.

The specification: every key has at most one deadline, given by the calls of the user alone (`Spec.due`, a fold over the calls
and what they returned), 0 for "never".  Where the item is (RAM, NVM, moved by a slab release) does not matter.
-/
namespace Verif.Ttl
open Verif

/-! ### specification -/
namespace Spec

/-- deadlines after one call -/
def next (now : Nat) (d : Key → Option Nat) : Op → Res → Key → Option Nat
  | .insert k ttl ctime, _ => upd d k (some (if ttl = 0 then 0 else ((if ctime % 2 ^ 32 = 0 then now % 2 ^ 32 else ctime % 2 ^ 32) + ttl) % 2 ^ 32))
  | .update _ k _ e, .done true => upd d k (some (e % 2 ^ 32))
  | .extend _ k _ ttl, .done true => upd d k (some ((((now % 2 ^ 32 : Nat) : Int) + ttl) % (2 ^ 32 : Int)).toNat)
  | .remove k, _ => upd d k none
  | _, _ => d

/-- the clock after one call -/
def clock (now : Nat) : Op → Nat
  | .tick d => now + d
  | .setClock n => n
  | _ => now

/-- clock and deadlines after a history -/
def due (now : Nat) (d : Key → Option Nat) : List (Op × Res) → Nat × (Key → Option Nat)
  | [] => (now, d)
  | (o, r) :: h => due (clock now o) (next now d o r) h

/-- past its deadline -/
def Past (now e : Nat) : Prop := 0 < e ∧ e < now

end Spec

/-- The clock is never set back. -/
def Mono : List Op → Prop
  | [] => True
  | .setClock _ :: _ => False
  | _ :: os => Mono os

/-! ### the invariant -/

/-- `d` gives the deadline of every stored item; a RAM item that is not marked clean has no NVM copy. -/
structure Inv (s : State) (d : Key → Option Nat) : Prop where
  ram : ∀ k (it : Item), s.ram k = some it → d k = some it.exp
  nvm : ∀ k (n : NItem), s.nvm k = some n → d k = some n.exp
  excl : ∀ k (it : Item), s.ram k = some it → it.clean = false → s.nvm k = none
  off : s.nvmOn = false → ∀ k, s.nvm k = none

variable {s : State} {d : Key → Option Nat}

theorem isExpired_frame (s : State) (t e : Nat) :
    (isExpired s t e).2.now = s.now ∧ (isExpired s t e).2.ram = s.ram ∧ (isExpired s t e).2.nvm = s.nvm ∧
    (isExpired s t e).2.nvmOn = s.nvmOn := by
  unfold isExpired; grind

/-- A check that says "not expired" is right, whatever the clock did. -/
theorem isExpired_false {t e : Nat} (h : (isExpired s t e).1 = false) : e = 0 ∨ cur s ≤ e := by
  unfold isExpired at h; grind

theorem isExpired_zero (s : State) (t : Nat) : (isExpired s t 0).1 = false := by simp [isExpired]

/-- A check that says "expired" is right if the cached times are not ahead of the clock. -/
theorem isExpired_true {t e : Nat} (hs : s.stale t ≤ cur s) (h : (isExpired s t e).1 = true) : 0 < e ∧ e < cur s := by
  unfold isExpired at h; grind

theorem Inv.frame {s' : State} (h : Inv s d) (hr : s'.ram = s.ram) (hn : s'.nvm = s.nvm) (ho : s'.nvmOn = s.nvmOn) : Inv s' d := by
  constructor
  · rw [hr]; exact h.ram
  · rw [hn]; exact h.nvm
  · rw [hr, hn]; exact h.excl
  · rw [ho, hn]; exact h.off

theorem Inv.isExpired (h : Inv s d) (t e : Nat) : Inv (isExpired s t e).2 d :=
  let f := isExpired_frame s t e
  h.frame f.2.1 f.2.2.1 f.2.2.2

/-- the clock is not touched -/
theorem findRam_spec (h : Inv s d) (t : Nat) (k : Key) :
    Inv (findRam s t k).1 d ∧ (findRam s t k).1.now = s.now ∧ (findRam s t k).1.nvmOn = s.nvmOn ∧ (findRam s t k).1.ram = s.ram ∧
    (findRam s t k).1.nvm = s.nvm ∧
    (∀ c e, (findRam s t k).2 = .hit c e → (e = 0 ∨ cur s ≤ e) ∧ d k = some e ∧ ∃ it, s.ram k = some it ∧ it.exp = e) := by
  unfold findRam
  cases e : s.ram k with
  | none => exact ⟨h, rfl, rfl, rfl, rfl, by simp⟩
  | some it =>
    have f := isExpired_frame s t it.exp
    have hi := h.isExpired t it.exp
    dsimp only
    split
    · refine ⟨hi, f.1, f.2.2.2, f.2.1, f.2.2.1, by simp⟩
    · rename_i hx
      refine ⟨hi, f.1, f.2.2.2, f.2.1, f.2.2.1, ?_⟩
      intro c e' hh
      simp only [Res.hit.injEq] at hh
      have := isExpired_false (s := s) (t := t) (e := it.exp) (by simpa using hx)
      rw [← hh.2]
      exact ⟨this, h.ram k it e, it, rfl, rfl⟩

theorem nvmFind_spec (h : Inv s d) (t : Nat) (k : Key) (al : Bool) :
    Inv (nvmFind s t k al).1 d ∧ (nvmFind s t k al).1.now = s.now ∧ (nvmFind s t k al).1.nvmOn = s.nvmOn ∧
    (∀ c e, (nvmFind s t k al).2 = .hit c e → (e = 0 ∨ cur s ≤ e) ∧ d k = some e ∧ ∃ it, (nvmFind s t k al).1.ram k = some it ∧ it.exp = e) := by
  unfold nvmFind
  cases e : s.ram k with
  | some it =>
    have f := isExpired_frame s t it.exp
    have hi := h.isExpired t it.exp
    dsimp only
    split
    · refine ⟨hi, f.1, f.2.2.2, by simp⟩
    · rename_i hx
      refine ⟨hi, f.1, f.2.2.2, ?_⟩
      intro c e' hh
      simp only [Res.hit.injEq] at hh
      have := isExpired_false (s := s) (t := t) (e := it.exp) (by simpa using hx)
      rw [← hh.2]
      exact ⟨this, h.ram k it e, it, by rw [f.2.1]; exact e, rfl⟩
  | none =>
    dsimp only
    cases e2 : s.nvm k with
    | none => exact ⟨h, rfl, rfl, by simp⟩
    | some n =>
      dsimp only
      split
      · exact ⟨h, rfl, rfl, by simp⟩
      · rename_i hx
        have hd := h.nvm k n e2
        split
        · refine ⟨⟨?_, h.nvm, ?_, h.off⟩, rfl, rfl, ?_⟩
          · intro q it; have := h.ram q it; simp only [upd]; grind
          · intro q it; have := h.excl q it; simp only [upd]; grind
          · intro c e' hh
            simp only [Res.hit.injEq] at hh
            rw [← hh.2]
            refine ⟨?_, hd, ⟨_, by simp [upd]; rfl, rfl⟩⟩
            simp [nvmIsExpired] at hx
            omega
        · refine ⟨⟨h.ram, ?_, ?_, ?_⟩, rfl, rfl, by simp⟩
          · intro q n; have := h.nvm q n; simp only [upd]; grind
          · intro q it; have := h.excl q it; simp only [upd]; grind
          · intro ho q; have := h.off ho q; simp only [upd]; grind

theorem find_spec (h : Inv s d) (t : Nat) (k : Key) (al : Bool) :
    Inv (find s t k al).1 d ∧ (find s t k al).1.now = s.now ∧ (find s t k al).1.nvmOn = s.nvmOn ∧
    (∀ c e, (find s t k al).2 = .hit c e → (e = 0 ∨ cur s ≤ e) ∧ d k = some e ∧ ∃ it, (find s t k al).1.ram k = some it ∧ it.exp = e) := by
  obtain ⟨h1, h2, h3, h4, h5, h6⟩ := findRam_spec h t k
  unfold find
  generalize findRam s t k = r at *
  obtain ⟨s1, r⟩ := r
  have hc : cur s1 = cur s := by simp only [cur]; simp only at h2; rw [h2]
  have key : ∀ r : Res, (∀ c e, r ≠ .hit c e) →
      Inv (if s1.nvmOn then nvmFind s1 t k al else (s1, r)).1 d ∧
      (if s1.nvmOn then nvmFind s1 t k al else (s1, r)).1.now = s.now ∧
      (if s1.nvmOn then nvmFind s1 t k al else (s1, r)).1.nvmOn = s.nvmOn ∧
      (∀ c e, (if s1.nvmOn then nvmFind s1 t k al else (s1, r)).2 = .hit c e →
        (e = 0 ∨ cur s ≤ e) ∧ d k = some e ∧ ∃ it, (if s1.nvmOn then nvmFind s1 t k al else (s1, r)).1.ram k = some it ∧ it.exp = e) := by
    intro r hr
    split
    · obtain ⟨g1, g2, g3, g4⟩ := nvmFind_spec h1 t k al
      rw [hc] at g4
      exact ⟨g1, g2.trans h2, g3.trans h3, g4⟩
    · exact ⟨h1, h2, h3, fun c e hh => absurd hh (hr c e)⟩
  cases r with
  | hit c e =>
    refine ⟨h1, h2, h3, ?_⟩
    intro c' e' hh
    obtain ⟨g1, g2, it, g3, g4⟩ := h6 c' e' hh
    exact ⟨g1, g2, it, by simp only at h4 ⊢; rw [h4]; exact g3, g4⟩
  | miss => exact key .miss (by simp)
  | expired => exact key .expired (by simp)
  | done b => exact key (.done b) (by simp)

theorem invalidate_spec (h : Inv s d) (k : Key) :
    Inv (invalidateNvm s k) d ∧ (invalidateNvm s k).now = s.now ∧ (invalidateNvm s k).nvmOn = s.nvmOn ∧
    (∀ it, s.ram k = some it → (∃ it', (invalidateNvm s k).ram k = some it' ∧ it'.exp = it.exp) ∧ (invalidateNvm s k).nvm k = none) := by
  unfold invalidateNvm
  cases e : s.ram k with
  | none => exact ⟨h, rfl, rfl, by simp⟩
  | some it =>
    dsimp only
    split
    · rename_i hx
      refine ⟨⟨?_, ?_, ?_, ?_⟩, rfl, rfl, ?_⟩
      · intro q i; have := h.ram q; have := h.ram k it e; simp only [upd, Spec.next]; grind
      · intro q i; have := h.nvm q i; simp only [upd]; grind
      · intro q i; have := h.excl q i; simp only [upd]; grind
      · intro ho q; have := h.off ho q; simp only [upd]; grind
      · intro i hi; simp only [Option.some.injEq] at hi; subst hi; simp [upd]
    · rename_i hx
      refine ⟨h, rfl, rfl, ?_⟩
      intro i hi
      simp only [Option.some.injEq] at hi; subst hi
      refine ⟨⟨it, e, rfl⟩, ?_⟩
      cases hc : it.clean with
      | false => exact h.excl k it e hc
      | true =>
        have : s.nvmOn = false := by simpa [hc] using hx
        exact h.off this k

theorem setRam (h : Inv s d) (k : Key) (i : Item) (hn : s.nvm k = none) : Inv { s with ram := upd s.ram k (some i) } (upd d k (some i.exp)) := by
  refine ⟨?_, ?_, ?_, h.off⟩
  · intro q it; have := h.ram q it; simp only [upd]; grind
  · intro q n; have := h.nvm q n; simp only [upd]; grind
  · intro q it; have := h.excl q it; simp only [upd]; grind

theorem evict_spec (h : Inv s d) (t : Nat) (k : Key) (it : Item) (hi : s.ram k = some it) (acc : Bool) :
    Inv (evictItem s t k it acc) d ∧ (evictItem s t k it acc).now = s.now ∧ (evictItem s t k it acc).nvmOn = s.nvmOn := by
  have drop : ∀ s : State, Inv s d → Inv { s with ram := upd s.ram k none } d := by
    intro s h
    refine ⟨?_, h.nvm, ?_, h.off⟩
    · intro q it; have := h.ram q it; simp only [upd]; grind
    · intro q it; have := h.excl q it; simp only [upd]; grind
  have hd := h.ram k it hi
  unfold evictItem
  split
  · rename_i hon
    have f := isExpired_frame s t it.exp
    have g1 := h.isExpired t it.exp
    have f2 := isExpired_frame (isExpired s t it.exp).2 t it.exp
    have g2 := g1.isExpired t it.exp
    dsimp only
    split
    · exact ⟨drop _ g1, f.1, f.2.2.2⟩
    · split
      · split
        · exact ⟨drop _ g2, f2.1.trans f.1, f2.2.2.2.trans f.2.2.2⟩
        · refine ⟨⟨?_, ?_, ?_, ?_⟩, f2.1.trans f.1, f2.2.2.2.trans f.2.2.2⟩
          · intro q i; have := g2.ram q i; simp only [upd]; grind
          · intro q i; have := g2.nvm q i; simp only [upd]; grind
          · intro q i; have := g2.excl q i; simp only [upd]; grind
          · intro ho q
            have : s.nvmOn = false := by rw [← f.2.2.2, ← f2.2.2.2]; exact ho
            rw [hon] at this; cases this
      · exact ⟨drop _ g1, f.1, f.2.2.2⟩
  · exact ⟨drop _ h, rfl, rfl⟩

theorem nvmDel_spec (h : Inv s d) (k : Key) : nvmDel s k k = none ∧ ∀ q, q ≠ k → nvmDel s k q = s.nvm q := by
  unfold nvmDel
  cases hon : s.nvmOn with
  | false => exact ⟨by simpa using h.off hon k, fun q _ => by simp⟩
  | true =>
    cases hr : s.ram k with
    | none => simp [upd]; grind
    | some old =>
      cases hc : old.clean with
      | true => simp [upd, hc]; grind
      | false => simpa [hc] using h.excl k old hr hc

/-- Every call keeps the invariant, with the deadlines of the specification. -/
theorem step_inv (h : Inv s d) (o : Op) :
    Inv (step s o).1 (Spec.next s.now d o (step s o).2) ∧ (step s o).1.now = Spec.clock s.now o := by
  have hW : (2 : Nat) ^ 32 = W := rfl
  have hWi : (2 : Int) ^ 32 = (W : Int) := rfl
  cases o with
  | tick dt => exact ⟨h.frame rfl rfl rfl, rfl⟩
  | setClock n => exact ⟨h.frame rfl rfl rfl, rfl⟩
  | insert k ttl ctime =>
    refine ⟨?_, rfl⟩
    have e : (allocate s ttl (ctime % W)).exp = (if ttl = 0 then 0 else ((if ctime % 2 ^ 32 = 0 then s.now % 2 ^ 32 else ctime % 2 ^ 32) + ttl) % 2 ^ 32) := by
      simp only [hW, allocate, cur]
    have hc : (allocate s ttl (ctime % W)).clean = false := rfl
    simp only [step, Spec.next]
    rw [← e]
    generalize allocate s ttl (ctime % W) = i at *
    obtain ⟨hn, hq⟩ := nvmDel_spec h k
    generalize nvmDel s k = nv at *
    refine ⟨?_, ?_, ?_, ?_⟩
    · intro q it; have := h.ram q it; simp only [upd]; grind
    · intro q n; have := h.nvm q n; have := hq q; simp only [upd]; grind
    · intro q it; have := h.excl q it; have := hq q; simp only [upd]; grind
    · intro ho q; have := h.off ho q; have := hq q; grind
  | find t k al => exact ⟨(find_spec h t k al).1, (find_spec h t k al).2.1⟩
  | findFast t k => exact ⟨(findRam_spec h t k).1, (findRam_spec h t k).2.1⟩
  | update t k al e =>
    obtain ⟨h1, h2, h3, h4⟩ := find_spec h t k al
    simp only [step]
    generalize find s t k al = r at *
    obtain ⟨s1, r⟩ := r
    cases r with
    | hit c e' =>
      obtain ⟨_, _, it, g3, g4⟩ := h4 c e' rfl
      obtain ⟨i1, i2, i3, i4⟩ := invalidate_spec h1 k
      obtain ⟨⟨it', j1, j2⟩, j3⟩ := i4 it g3
      dsimp only
      rw [j1]
      simp only [updateExpiryTime, heldFlags]
      refine ⟨?_, i2.trans h2⟩
      exact setRam i1 k _ j3
    | miss => exact ⟨h1, h2⟩
    | expired => exact ⟨h1, h2⟩
    | done b => exact ⟨h1, h2⟩
  | extend t k al ttl =>
    obtain ⟨h1, h2, h3, h4⟩ := find_spec h t k al
    simp only [step]
    generalize find s t k al = r at *
    obtain ⟨s1, r⟩ := r
    cases r with
    | hit c e' =>
      obtain ⟨_, _, it, g3, g4⟩ := h4 c e' rfl
      obtain ⟨i1, i2, i3, i4⟩ := invalidate_spec h1 k
      obtain ⟨⟨it', j1, j2⟩, j3⟩ := i4 it g3
      dsimp only
      rw [j1]
      have hm : ∀ x : Int, (x % (W : Int)).toNat % W = (x % (W : Int)).toNat := by
        intro x; unfold W; omega
      have hcur : cur (invalidateNvm s1 k) = s.now % 2 ^ 32 := by
        simp only at h2
        rw [cur, i2, h2]; rfl
      have := setRam i1 k { it' with exp := (((s.now % 2 ^ 32 : Nat) : Int) + ttl) % (2 ^ 32 : Int) |>.toNat } j3
      simp only [extendTTL, updateExpiryTime, heldFlags, hm, hcur]
      exact ⟨this, i2.trans h2⟩
    | miss => exact ⟨h1, h2⟩
    | expired => exact ⟨h1, h2⟩
    | done b => exact ⟨h1, h2⟩
  | remove k =>
    refine ⟨?_, rfl⟩
    simp only [step, Spec.next]
    obtain ⟨hn, hq⟩ := nvmDel_spec h k
    generalize nvmDel s k = nv at *
    refine ⟨?_, ?_, ?_, ?_⟩
    · intro q it; have := h.ram q it; simp only [upd]; grind
    · intro q n; have := h.nvm q n; have := hq q; simp only [upd]; grind
    · intro q it; have := h.excl q it; have := hq q; simp only [upd]; grind
    · intro ho q; have := h.off ho q; have := hq q; grind
  | evict t k acc =>
    simp only [step]
    cases e : s.ram k with
    | none => exact ⟨h, rfl⟩
    | some it =>
      obtain ⟨h1, h2, h3⟩ := evict_spec h t k it e acc
      exact ⟨h1, h2⟩
  | nvmDrop k =>
    have drop : Inv { s with nvm := upd s.nvm k none } d := by
      refine ⟨h.ram, ?_, ?_, ?_⟩
      · intro q n; have := h.nvm q n; simp only [upd]; grind
      · intro q i; have := h.excl q i; simp only [upd]; grind
      · intro ho q; have := h.off ho q; simp only [upd]; grind
    simp only [step]
    cases e : s.nvm k with
    | none => exact ⟨h, rfl⟩
    | some n =>
      dsimp only
      cases e2 : s.ram k with
      | none => exact ⟨drop, rfl⟩
      | some it =>
        dsimp only
        split
        · refine ⟨⟨?_, drop.nvm, ?_, drop.off⟩, rfl⟩
          · intro q i; have := h.ram q i; have := h.ram k it e2; simp only [upd, Spec.next]; grind
          · intro q i; have := drop.excl q i; simp only [upd] at *; grind
        · exact ⟨drop, rfl⟩
  | move t k acc =>
    simp only [step]
    cases e : s.ram k with
    | none => exact ⟨h, rfl⟩
    | some it =>
      have f := isExpired_frame s t it.exp
      have g1 := h.isExpired t it.exp
      dsimp only
      split
      · obtain ⟨h1, h2, h3⟩ := evict_spec g1 t k it (by rw [f.2.1]; exact e) acc
        exact ⟨h1, h2.trans f.1⟩
      · refine ⟨⟨?_, g1.nvm, ?_, g1.off⟩, f.1⟩
        · intro q i; have := g1.ram q i; have := h.ram k it e; simp only [upd, Spec.next]; grind
        · intro q i; have := g1.excl q i; have := h.excl k it e; rw [← f.2.2.1] at this; simp only [upd]; grind
  | reap t k =>
    simp only [step]
    cases e : s.ram k with
    | none => exact ⟨h, rfl⟩
    | some it =>
      have f := isExpired_frame s t it.exp
      have g1 := h.isExpired t it.exp
      dsimp only
      split
      · split
        · refine ⟨⟨?_, g1.nvm, ?_, g1.off⟩, f.1⟩
          · intro q i; have := g1.ram q i; simp only [upd, Spec.next]; grind
          · intro q i; have := g1.excl q i; simp only [upd]; grind
        · exact ⟨g1, f.1⟩
      · exact ⟨h, rfl⟩
  | sample t k =>
    simp only [step]
    cases e : s.ram k with
    | none => exact ⟨h, rfl⟩
    | some it =>
      have f := isExpired_frame s t it.exp
      have g1 := h.isExpired t it.exp
      dsimp only
      split
      · exact ⟨g1, f.1⟩
      · exact ⟨g1, f.1⟩

end Verif.Ttl
