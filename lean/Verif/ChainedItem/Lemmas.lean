import Verif.ChainedItem.Model
import Mathlib.Data.List.Nodup
import Mathlib.Data.List.Perm.Subperm
/-! Invariant of the chained-item model. -/
namespace Verif.ChainedItem
open Verif

/-- `ch` gives the children of every parent, last added first. -/
structure Rep (s : State) (ch : Addr → List Addr) : Prop where
  nf : s.fault = false
  ndl : s.live.Nodup
  hsl : ∀ a ∈ s.hs, a ∈ s.live
  tab : ∀ p, s.tab p = (ch p).head?
  chn : ∀ p, Chain s.nxt (ch p) none
  nd : ∀ p, (ch p).Nodup
  mem : ∀ p c, c ∈ ch p ↔ c ∈ s.live ∧ s.chd c = true ∧ s.mm c = true ∧ s.par c = p
  acc : ∀ c ∈ s.live, s.chd c = true → (s.ac c = true ↔ s.tab (s.par c) = some c)
  has : ∀ p ∈ s.live, s.chd p = false → (s.has p = true ↔ ch p ≠ [])
  own : ∀ p, ch p ≠ [] → p ∈ s.live ∧ s.chd p = false
  rc : ∀ a ∈ s.live, s.rc a = s.hs.count a + if s.chd a = true ∧ s.mm a = true then 1 else 0
  lnk : ∀ a ∈ s.live, s.chd a = true → s.mm a = true → s.hs.count a = 0
  unl : ∀ a ∈ s.live, s.chd a = true → s.mm a = false → s.nxt a = none

/-- every allocated item is referenced, linked or accessible -/
def Drn (s : State) : Prop := ∀ a ∈ s.live, s.rc a = 0 → s.mm a = true ∨ s.ac a = true

variable {s s' : State} {ch : Addr → List Addr} {p a c h : Addr} {l : List Addr}

theorem upd_ap {V : Type} (f : Addr → V) (x y : Addr) (v : V) : upd f x v y = if y = x then v else f y := rfl

theorem Rep.len (r : Rep s ch) (p : Addr) : (ch p).length ≤ s.live.length := by
  have : (ch p) ⊆ s.live := fun c hc => ((r.mem p c).mp hc).1
  exact ((r.nd p).subperm this).length_le

theorem init_rep : Rep init (fun _ => []) := by
  constructor <;> simp [init]

/-! ### loops -/

theorem changeKeys_spec (n : Nat) (l : List Addr) : ∀ (s : State), Chain s.nxt l none →
    (∀ c ∈ l, c ∈ s.live ∧ s.ac c = false) → l.length ≤ n →
    changeKeys n s l.head? p = { s with par := fun a => if a ∈ l then p else s.par a } := by
  induction l generalizing n with
  | nil => intro s _ _ _; cases n <;> simp [changeKeys]
  | cons c l ih =>
    intro s hc hl hn
    cases n with
    | zero => simp at hn
    | succ n =>
      obtain ⟨h1, h2⟩ := hl c (by simp)
      obtain ⟨h3, h4⟩ := hc
      simp only [Option.or_none] at h3
      simp only [List.head?_cons, changeKeys, h1, h2, true_and, if_true]
      rw [h3]
      refine (ih n _ ?_ ?_ ?_).trans ?_
      · exact h4
      · exact fun x hx => hl x (by simp [hx])
      · simpa using hn
      congr 1
      funext x
      simp only [upd_ap, List.mem_cons]
      grind

theorem freeLoop_spec (n : Nat) (l : List Addr) : ∀ (s : State), s.live.Nodup → Chain s.nxt l none → l.Nodup →
    (∀ c ∈ l, c ∈ s.live ∧ s.rc c = 1) → l.length ≤ n →
    freeLoop n s l.head? = { s with live := s.live.filter (fun a => a ∉ l), mm := (fun a => if a ∈ l then false else s.mm a), rc := (fun a => if a ∈ l then 0 else s.rc a) } := by
  induction l generalizing n with
  | nil => intro s _ _ _ _ _; cases n <;> simp [freeLoop]
  | cons c l ih =>
    intro s hnd hc hl hm hn
    cases n with
    | zero => simp at hn
    | succ n =>
      obtain ⟨h1, h2⟩ := hm c (by simp)
      obtain ⟨h3, h4⟩ := hc
      simp only [Option.or_none] at h3
      obtain ⟨hcl, hl⟩ := List.nodup_cons.mp hl
      have e : free (dec0 { s with mm := upd s.mm c false } c) c =
          { s with mm := upd s.mm c false, rc := upd s.rc c 0, live := s.live.erase c } := by
        simp [dec0, h1, h2, free]
      simp only [List.head?_cons, freeLoop, h1, if_true, e]
      rw [h3]
      refine (ih n _ ?_ ?_ hl ?_ ?_).trans ?_
      · exact hnd.erase c
      · exact h4
      rotate_left
      · simpa using hn
      · congr 1
        · simp only
          rw [hnd.erase_eq_filter, List.filter_filter]
          congr 1; funext x; grind
        · funext x; simp only [upd_ap]; grind
        · funext x; simp only [upd_ap]; grind
      · intro x hx
        have hxc : x ≠ c := fun e => hcl (e ▸ hx)
        obtain ⟨g1, g2⟩ := hm x (by simp [hx])
        exact ⟨(List.mem_erase_of_ne hxc).mpr g1, by simp [upd_ap, hxc, g2]⟩

theorem findPrev_spec (n : Nat) {old prev : Addr} {b : List Addr} (a : List Addr) : ∀ (h : Addr), (a ++ prev :: old :: b).head? = some h →
    Chain s.nxt (a ++ prev :: old :: b) none → (a ++ prev :: old :: b).Nodup → (a ++ prev :: old :: b).length ≤ n →
    findPrev n s h old = some prev := by
  induction a generalizing n with
  | nil =>
    intro h hh hc hn hl
    cases n with
    | zero => simp at hl
    | succ n =>
      simp at hh; subst hh
      have := hc.1
      simp at this
      simp [findPrev, this]
  | cons x a ih =>
    intro h hh hc hn hl
    cases n with
    | zero => simp at hl
    | succ n =>
      simp at hh; subst hh
      obtain ⟨h1, h2⟩ := hc
      rw [Option.or_none] at h1
      obtain ⟨y, hy⟩ : ∃ y, (a ++ prev :: old :: b).head? = some y := by
        cases a <;> simp
      change s.nxt x = (a ++ prev :: old :: b).head? at h1
      rw [hy] at h1
      have hn' : (a ++ prev :: old :: b).Nodup := (List.nodup_cons.mp hn).2
      have hne : y ≠ old := by
        rintro rfl
        cases a with
        | nil => simp at hy; subst hy; simp at hn'
        | cons z a => simp at hy; subst hy; simp at hn'
      simp only [findPrev, h1, hne, if_false]
      exact ih n y hy h2 hn' (by simpa using hl)

end Verif.ChainedItem
