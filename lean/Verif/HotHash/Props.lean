import Verif.HotHash.Model
import Verif.Atm.Props
/-
C62: the hot hash detector always terminates without a failed assertion, and reports only hashes that were bumped often.
-/
namespace Verif.HotHash
open Verif
open Verif.Atm (total total_succ total_congr total_upd total_le)

/-! ### Specification -/

namespace Spec

/-- The record a hash belongs to. -/
def home (n h : Nat) : Nat := h * 351551 % 2 ^ 64 % n

/-- The hashes bumped by calls. -/
def bumped : List Op → List Nat
  | [] => []
  | .bump h :: os => h :: bumped os
  | .maint :: os => bumped os

/-- `h` was bumped, and the hashes of its record were bumped at least `m` times together. -/
def Warm (n m : Nat) (os : List Op) (h : Nat) : Prop :=
  h ∈ bumped os ∧ m ≤ ((bumped os).filter fun x => home n x = home n h).length

end Spec

/-! ### Indices -/

theorem mask_eq {c : Cfg} {p : Nat} (hn : c.n = 2 ^ p) (x : Nat) : c.mask x = x % c.n := by
  unfold Cfg.mask; rw [hn, Nat.and_two_pow_sub_one_eq_mod]

theorem l2_eq {c : Cfg} {p : Nat} (hn : c.n = 2 ^ p) (h : Nat) : c.l2Hash h = Spec.home c.n h := by
  unfold Cfg.l2Hash Spec.home; rw [mask_eq hn]

theorem delta_eq {n a j : Nat} (ha : a < n) (hj : j < n) : ((a + j) % n + n - a) % n = j := by
  by_cases h : a + j < n
  · rw [Nat.mod_eq_of_lt h]
    have : a + j + n - a = j + n := by omega
    rw [this, Nat.add_mod_right, Nat.mod_eq_of_lt hj]
  · have h1 : (a + j) % n = a + j - n := by
      rw [Nat.mod_eq_sub_mod (by omega), Nat.mod_eq_of_lt (by omega)]
    rw [h1]
    have : a + j - n + n - a = j := by omega
    rw [this, Nat.mod_eq_of_lt hj]

theorem add_delta {n a i : Nat} (ha : a < n) (hi : i < n) : (a + (i + n - a) % n) % n = i := by
  rw [Nat.add_mod_mod]
  have : a + (i + n - a) = i + n := by omega
  rw [this, Nat.add_mod_right, Nat.mod_eq_of_lt hi]

/-! ### The invariant -/

/-- How far the hash at `i` is from its record. -/
def delta (n : Nat) (hash : Nat → Nat) (i : Nat) : Nat := (i + n - Spec.home n (hash i)) % n

def weight (n : Nat) (hash : Nat → Nat) (i : Nat) : Nat := if hash i = 0 then 0 else 1 + delta n hash i

def pot (n : Nat) (hash : Nat → Nat) : Nat := total n (weight n hash)

/-- The hashes stored are in range, at most 4 cells from their record, and satisfy `Q`. -/
def Near (n : Nat) (Q : Nat → Prop) (hash : Nat → Nat) : Prop := ∀ i, hash i ≠ 0 → i < n ∧ delta n hash i < 5 ∧ Q (hash i)

theorem pot_le {n : Nat} {Q : Nat → Prop} {hash : Nat → Nat} (h : Near n Q hash) : pot n hash ≤ n * 5 := by
  refine total_le fun i _ => ?_
  unfold weight
  split
  · omega
  · next e => have := (h i e).2.1; omega

theorem near_clear {n : Nat} {Q : Nat → Prop} {hash : Nat → Nat} (h : Near n Q hash) (i : Nat) : Near n Q (upd hash i 0) := by
  intro j hj
  unfold upd at hj
  split at hj
  · exact absurd rfl hj
  · next e =>
    obtain ⟨h1, h2, h3⟩ := h j hj
    refine ⟨h1, ?_, ?_⟩
    · unfold delta at *; rw [upd_ne _ _ e]; exact h2
    · rw [upd_ne _ _ e]; exact h3

theorem near_set {n : Nat} {Q : Nat → Prop} {hash : Nat → Nat} (h : Near n Q hash) {x j : Nat} (hn : 0 < n) (hj : j < 5) (hQ : Q x) :
    Near n Q (upd hash ((Spec.home n x + j) % n) x) := by
  intro i hi
  have hh : Spec.home n x < n := Nat.mod_lt _ hn
  by_cases e : i = (Spec.home n x + j) % n
  · subst e
    refine ⟨Nat.mod_lt _ hn, ?_, by rw [upd_same]; exact hQ⟩
    unfold delta
    rw [upd_same]
    have h1 : (Spec.home n x + j) % n = (Spec.home n x + j % n) % n := by rw [Nat.add_mod_mod]
    rw [h1, delta_eq hh (Nat.mod_lt _ hn)]
    exact Nat.lt_of_le_of_lt (Nat.mod_le _ _) hj
  · rw [upd_ne _ _ e] at hi
    obtain ⟨h1, h2, h3⟩ := h i hi
    refine ⟨h1, ?_, by rw [upd_ne _ _ e]; exact h3⟩
    unfold delta at *; rw [upd_ne _ _ e]; exact h2

theorem pot_upd {n : Nat} {hash : Nat → Nat} {i x : Nat} (hi : i < n) :
    pot n (upd hash i x) + weight n hash i = pot n hash + weight n (upd hash i x) i := by
  refine total_upd hi fun j hj => ?_
  unfold weight delta; rw [upd_ne _ _ hj]

/-- What one call of fixL2Holes does. -/
structure Fixed (n : Nat) (Q : Nat → Prop) (s s' : St) (m : Bool) : Prop where
  near : Near n Q s'.hash
  pot : pot n s'.hash + (if m then 1 else 0) ≤ pot n s.hash
  thr : s'.thr = s.thr
  count : s'.count = s.count
  l1 : s'.l1 = s.l1
  bumps : s'.bumps = s.bumps

theorem scan_spec {c : Cfg} {p : Nat} (hn : c.n = 2 ^ p) {Q : Nat → Prop} {s : St} (h : Near c.n Q s.hash) {idx : Nat} (hi : s.hash idx ≠ 0)
    {js : List Nat} (hs : js.Pairwise (· < ·)) (hm : delta c.n s.hash idx ∈ js) :
    ∃ s' m, c.scanFix s (s.hash idx) idx js = some (s', m) ∧ Fixed c.n Q s s' m := by
  have hn0 : 0 < c.n := by rw [hn]; exact Nat.two_pow_pos p
  obtain ⟨g1, g2, g3⟩ := h idx hi
  have hh : Spec.home c.n (s.hash idx) < c.n := Nat.mod_lt _ hn0
  have hD := add_delta hh g1
  have hDn : delta c.n s.hash idx < c.n := Nat.mod_lt _ hn0
  induction js with
  | nil => cases hm
  | cons j js ih =>
    rw [List.pairwise_cons] at hs
    unfold Cfg.scanFix
    simp only [mask_eq hn, l2_eq hn]
    by_cases e : (Spec.home c.n (s.hash idx) + j) % c.n = idx
    · rw [if_pos e]
      exact ⟨s, false, rfl, ⟨h, by simp, rfl, rfl, rfl, rfl⟩⟩
    · rw [if_neg e]
      have hjm : delta c.n s.hash idx ∈ js := by
        rcases List.mem_cons.1 hm with e' | e'
        · exfalso; apply e; rw [← e']; exact hD
        · exact e'
      have hlt := hs.1 _ hjm
      by_cases e0 : s.hash ((Spec.home c.n (s.hash idx) + j) % c.n) = 0
      · rw [if_pos e0]
        generalize hc : (Spec.home c.n (s.hash idx) + j) % c.n = cand at *
        have hcn : cand < c.n := by rw [← hc]; exact Nat.mod_lt _ hn0
        refine ⟨_, true, rfl, ⟨?_, ?_, rfl, rfl, rfl, rfl⟩⟩
        · exact near_clear (by rw [← hc]; exact near_set h hn0 (by omega) g3) idx
        · simp only [if_true]
          have p1 := pot_upd (hash := s.hash) (x := s.hash idx) hcn
          have p2 := pot_upd (hash := upd s.hash cand (s.hash idx)) (x := 0) g1
          have w1 : weight c.n s.hash cand = 0 := by unfold weight; rw [if_pos e0]
          have w2 : weight c.n (upd s.hash cand (s.hash idx)) cand = 1 + j := by
            unfold weight delta
            rw [upd_same, if_neg hi, ← hc, delta_eq hh (by omega)]
          have w3 : weight c.n (upd (upd s.hash cand (s.hash idx)) idx 0) idx = 0 := by unfold weight; rw [upd_same, if_pos rfl]
          have w4 : weight c.n (upd s.hash cand (s.hash idx)) idx = 1 + delta c.n s.hash idx := by
            unfold weight delta
            rw [upd_ne _ _ (fun e' => e e'.symm), if_neg hi]
          omega
      · rw [if_neg e0]
        exact ih hs.2 hjm

theorem fix_spec {c : Cfg} {p : Nat} (hn : c.n = 2 ^ p) {Q : Nat → Prop} {s : St} (h : Near c.n Q s.hash) (idx : Nat) :
    ∃ s' m, c.fix s idx = some (s', m) ∧ Fixed c.n Q s s' m := by
  have hn0 : 0 < c.n := by rw [hn]; exact Nat.two_pow_pos p
  unfold Cfg.fix
  simp only
  by_cases e0 : s.hash idx = 0
  · rw [if_pos e0]
    exact ⟨s, false, rfl, ⟨h, by simp, rfl, rfl, rfl, rfl⟩⟩
  · rw [if_neg e0]
    obtain ⟨g1, g2, g3⟩ := h idx e0
    split
    · refine ⟨_, true, rfl, ⟨near_clear h idx, ?_, rfl, rfl, rfl, rfl⟩⟩
      simp only [if_true]
      have p1 := pot_upd (hash := s.hash) (x := 0) g1
      have w1 : weight c.n (upd s.hash idx 0) idx = 0 := by unfold weight; rw [upd_same, if_pos rfl]
      have w2 : weight c.n s.hash idx = 1 + delta c.n s.hash idx := by unfold weight; rw [if_neg e0]
      omega
    · split
      · exact ⟨s, false, rfl, ⟨h, by simp, rfl, rfl, rfl, rfl⟩⟩
      · next hne =>
        refine scan_spec hn h e0 (by decide) ?_
        have hh : Spec.home c.n (s.hash idx) < c.n := Nat.mod_lt _ hn0
        have : delta c.n s.hash idx ≠ 0 := by
          intro e
          have := add_delta hh g1
          unfold delta at e
          rw [e, Nat.add_zero, Nat.mod_eq_of_lt hh] at this
          exact hne (by rw [l2_eq hn]; exact this.symm)
        simp only [List.mem_cons, List.not_mem_nil, or_false]
        omega

/-! ### The loop ends -/

/-- Iterations until the last move leaves the window. -/
def wait (a b c d e : Nat) : Nat := if e ≠ 0 then 5 else if d ≠ 0 then 4 else if c ≠ 0 then 3 else if b ≠ 0 then 2 else if a ≠ 0 then 1 else 0

theorem wait_zero {a b c d e : Nat} (h : wait a b c d e = 0) : a + b + c + d + e = 0 := by
  unfold wait at h; grind

theorem wait_shift (a b c d e : Nat) : wait b c d e 0 ≤ wait a b c d e - 1 := by
  unfold wait; grind

theorem loop_ends {c : Cfg} {p : Nat} (hn : c.n = 2 ^ p) {Q : Nat → Prop} {s : St} (h : Near c.n Q s.hash) {fuel i sum a b x d e : Nat}
    (hsum : sum = a + b + x + d + e) (hle : a ≤ 1 ∧ b ≤ 1 ∧ x ≤ 1 ∧ d ≤ 1 ∧ e ≤ 1)
    (hf : 6 * pot c.n s.hash + (c.n - i) + wait a b x d e ≤ fuel) :
    ∃ s', c.loop fuel i sum [a, b, x, d, e] s = .done s' ∧ Near c.n Q s'.hash ∧ s'.thr = s.thr ∧ s'.count = s.count ∧ s'.bumps = s.bumps := by
  induction fuel generalizing s i sum a b x d e with
  | zero =>
    unfold Cfg.loop
    have hw : wait a b x d e = 0 := by omega
    have h0 := wait_zero hw
    rw [if_neg (by omega)]
    exact ⟨s, rfl, h, rfl, rfl, rfl⟩
  | succ fuel ih =>
    unfold Cfg.loop
    by_cases hg : i < c.n ∨ 0 < sum
    · rw [if_pos hg]
      obtain ⟨s', m, h1, h2⟩ := fix_spec hn h (c.mask i)
      simp only [h1]
      have hp := h2.pot
      have hw5 : wait b x d e 1 = 5 := by simp [wait]
      have hw0 : wait b x d e 0 ≤ wait a b x d e - 1 := wait_shift a b x d e
      have hwp : 0 < sum → 0 < wait a b x d e := by
        intro h
        rcases Nat.eq_zero_or_pos (wait a b x d e) with hw | hw
        · have := wait_zero hw; omega
        · exact hw
      have key : ∀ mv, mv = (if m then 1 else 0) → mv ≤ 1 → 6 * pot c.n s'.hash + (c.n - (i + 1)) + wait b x d e mv ≤ fuel := by
        intro mv hmv _
        cases m with
        | true =>
          simp only [if_true] at hmv hp
          subst hmv; omega
        | false =>
          simp only [Bool.false_eq_true, if_false] at hmv hp
          subst hmv
          rcases hg with hg | hg
          · omega
          · have := hwp hg; omega
      have hmv : (if m then 1 else 0) ≤ 1 := by split <;> omega
      generalize (if m then 1 else 0 : Nat) = mv at *
      obtain ⟨s2, k1, k2, k3, k4, k5⟩ := ih (s := s') h2.near (i := i + 1) (sum := (sum + mv + 2 ^ 64 - a) % 2 ^ 64) (a := b) (b := x) (x := d) (d := e) (e := mv)
        (by omega) ⟨hle.2.1, hle.2.2.1, hle.2.2.2.1, hle.2.2.2.2, hmv⟩ (key mv rfl hmv)
      refine ⟨s2, ?_, k2, by rw [k3, h2.thr], by rw [k4, h2.count], by rw [k5, h2.bumps]⟩
      exact k1
    · rw [if_neg hg]
      exact ⟨s, rfl, h, rfl, rfl, rfl⟩

/-! ### Calls -/

/-- The invariant after the calls `os`. -/
structure Inv (c : Cfg) (os : List Op) (s : St) : Prop where
  near : Near c.n (Spec.Warm c.n c.mult os) s.hash
  count : ∀ i, s.count i ≤ ((Spec.bumped os).filter fun x => Spec.home c.n x = i).length
  thr : 0 < s.thr ∨ s.interval = 0 ∧ ∀ i, s.count i = 0

theorem bumped_append (a b : List Op) : Spec.bumped (a ++ b) = Spec.bumped a ++ Spec.bumped b := by
  induction a with
  | nil => rfl
  | cons o a ih => cases o <;> simp [Spec.bumped, ih]

theorem warm_mono {n m : Nat} {a b : List Op} {h : Nat} (hw : Spec.Warm n m a h) : Spec.Warm n m (a ++ b) h := by
  obtain ⟨h1, h2⟩ := hw
  unfold Spec.Warm
  rw [bumped_append]
  refine ⟨by simp [h1], ?_⟩
  rw [List.filter_append, List.length_append]; omega

theorem near_mono {n : Nat} {P Q : Nat → Prop} {hash : Nat → Nat} (hPQ : ∀ x, P x → Q x) (h : Near n P hash) : Near n Q hash :=
  fun i hi => ⟨(h i hi).1, (h i hi).2.1, hPQ _ (h i hi).2.2⟩

theorem maint_inv {c : Cfg} {p : Nat} (hn : c.n = 2 ^ p) {fuel : Nat} (hf : 31 * c.n ≤ fuel) {os : List Op} {s : St} (h : Inv c os s) :
    ∃ s', c.maint fuel s = some s' ∧ Inv c os s' ∧ 0 < s'.thr := by
  have hd : Near c.n (Spec.Warm c.n c.mult os) (c.decay s).hash := h.near
  have hp := pot_le hd
  obtain ⟨s1, h1, h2, h3, h4, -⟩ := loop_ends hn hd (fuel := fuel) (i := 0) (sum := 0) (a := 0) (b := 0) (x := 0) (d := 0) (e := 0) rfl (by omega)
    (by simp [wait]; omega)
  unfold Cfg.maint
  rw [h1]
  have hpos : 0 < (c.adjust s1).thr := by
    have h3' : s1.thr = s.thr := h3
    simp only [Cfg.adjust]
    rcases h.thr with ht | ⟨-, hz⟩
    · split
      · omega
      · split <;> omega
    · rw [if_pos]
      · omega
      · rw [List.length_eq_zero_iff, List.filter_eq_nil_iff]
        intro i _
        simp [h4, Cfg.decay, hz]
  refine ⟨_, rfl, ⟨h2, ?_, .inl hpos⟩, hpos⟩
  intro i
  have := h.count i
  simp only [Cfg.adjust, h4, Cfg.decay]
  omega

theorem find_spec {c : Cfg} {s : St} {h cell : Nat} {is : List Nat} (hf : c.findCell s h is = some cell) : s.hash cell = h ∧ h ≠ 0 := by
  induction is with
  | nil => cases hf
  | cons i is ih =>
    unfold Cfg.findCell at hf
    simp only at hf
    split at hf
    · cases hf
    · split at hf
      · next e0 e => cases hf; exact ⟨e, by rw [← e]; exact e0⟩
      · exact ih hf

theorem record_spec {c : Cfg} {p : Nat} (hn : c.n = 2 ^ p) {Q : Nat → Prop} {s : St} (h : Near c.n Q s.hash) {x : Nat} (hQ : Q x) {is : List Nat}
    (hi : ∀ i ∈ is, i < 5) :
    Near c.n Q (c.record s x is).hash ∧ (c.record s x is).count = s.count ∧ (c.record s x is).thr = s.thr := by
  have hn0 : 0 < c.n := by rw [hn]; exact Nat.two_pow_pos p
  induction is with
  | nil => exact ⟨h, rfl, rfl⟩
  | cons i is ih =>
    unfold Cfg.record
    simp only [mask_eq hn, l2_eq hn]
    split
    · exact ⟨near_set h hn0 (hi i (by simp)) hQ, rfl, rfl⟩
    · split
      · exact ⟨h, rfl, rfl⟩
      · exact ih fun i h => hi i (by simp [h])

theorem core_inv {c : Cfg} {p : Nat} (hn : c.n = 2 ^ p) (hm : 0 < c.mult) {os : List Op} {s : St} (h : Inv c os s) (ht : 0 < s.thr) (x : Nat) :
    ∃ s' r, c.bumpCore s x = some (s', r) ∧ Inv c (os ++ [.bump x]) s' ∧ r ≤ 255 ∧ (r ≠ 0 → x ≠ 0 ∧ Spec.Warm c.n c.mult os x) := by
  have hb : Spec.bumped (os ++ [.bump x]) = Spec.bumped os ++ [x] := bumped_append os [.bump x]
  have hnear := near_mono (fun y hy => warm_mono (b := [.bump x]) hy) h.near
  have hcnt : ∀ i, s.count i ≤ ((Spec.bumped (os ++ [.bump x])).filter fun y => Spec.home c.n y = i).length := by
    intro i
    have := h.count i
    rw [hb, List.filter_append, List.length_append]; omega
  have hcnt2 : s.count (Spec.home c.n x) + 1 ≤ ((Spec.bumped (os ++ [.bump x])).filter fun y => Spec.home c.n y = Spec.home c.n x).length := by
    have := h.count (Spec.home c.n x)
    rw [hb, List.filter_append, List.length_append]
    simp; omega
  unfold Cfg.bumpCore
  simp only
  split
  · exact ⟨_, 0, rfl, ⟨hnear, hcnt, .inl ht⟩, by omega, fun e => absurd rfl e⟩
  · rw [if_neg (by omega)]
    generalize hfd : (if 0 < s.count (c.l2Hash x) then c.findCell { s with l1 := upd s.l1 (c.l1Hash x) ((s.l1 (c.l1Hash x) + 1) % 2 ^ 32) } x [0, 1, 2, 3, 4] else none) = found
    have hres : ∀ r, r = (if found.isSome then min 255 (max 1 (s.count (c.l2Hash x) / c.mult)) else 0) →
        r ≤ 255 ∧ (r ≠ 0 → x ≠ 0 ∧ Spec.Warm c.n c.mult os x) := by
      intro r hr
      subst hr
      split
      · next hs =>
        refine ⟨by omega, fun _ => ?_⟩
        obtain ⟨cell, rfl⟩ := Option.isSome_iff_exists.1 hs
        split at hfd
        · obtain ⟨e1, e2⟩ := find_spec hfd
          simp only at e1
          have := (h.near cell (by rw [e1]; exact e2)).2.2
          rw [e1] at this
          exact ⟨e2, this⟩
        · cases hfd
      · exact ⟨by omega, fun e => absurd rfl e⟩
    generalize hr : (if found.isSome then min 255 (max 1 (s.count (c.l2Hash x) / c.mult)) else 0) = r at *
    have hres := hres r rfl
    have tail : ∀ (s1 : St) (l1count : Nat), s1.hash = s.hash → s1.count = s.count → s1.thr = s.thr → ∃ s',
        (if l1count % s1.thr ≠ 0 then some (s1, r)
          else if (s1.count (c.l2Hash x) + 1) % 2 ^ 32 < c.mult then
            some ({ s1 with count := upd s1.count (c.l2Hash x) ((s1.count (c.l2Hash x) + 1) % 2 ^ 32) }, r)
          else some (c.record { s1 with count := upd s1.count (c.l2Hash x) ((s1.count (c.l2Hash x) + 1) % 2 ^ 32) } x [0, 1, 2, 3, 4], r)) =
          some (s', r) ∧ Inv c (os ++ [.bump x]) s' := by
      intro s1 l1count q1 q2 q3
      split
      · exact ⟨s1, rfl, ⟨by rw [q1]; exact hnear, by rw [q2]; exact hcnt, by rw [q3]; exact .inl ht⟩⟩
      · have hcnt' : ∀ i, upd s1.count (c.l2Hash x) ((s1.count (c.l2Hash x) + 1) % 2 ^ 32) i ≤
            ((Spec.bumped (os ++ [.bump x])).filter fun y => Spec.home c.n y = i).length := by
          intro i
          rw [q2, l2_eq hn]
          by_cases e : i = Spec.home c.n x
          · subst e; rw [upd_same]
            exact Nat.le_trans (Nat.mod_le _ _) hcnt2
          · rw [upd_ne _ _ e]; exact hcnt i
        split
        · exact ⟨_, rfl, ⟨by simp only; rw [q1]; exact hnear, hcnt', by simp only; rw [q3]; exact .inl ht⟩⟩
        · next hge =>
          have hw : Spec.Warm c.n c.mult (os ++ [.bump x]) x := by
            refine ⟨by rw [hb]; simp, ?_⟩
            rw [q2, l2_eq hn] at hge
            have := Nat.mod_le (s.count (Spec.home c.n x) + 1) (2 ^ 32)
            omega
          obtain ⟨k1, k2, k3⟩ := record_spec hn (s := { s1 with count := upd s1.count (c.l2Hash x) ((s1.count (c.l2Hash x) + 1) % 2 ^ 32) })
            (Q := Spec.Warm c.n c.mult (os ++ [.bump x])) (by simp only; rw [q1]; exact hnear) hw (is := [0, 1, 2, 3, 4]) (by decide)
          exact ⟨_, rfl, ⟨k1, by rw [k2]; exact hcnt', by rw [k3]; simp only; rw [q3]; exact .inl ht⟩⟩
    cases found with
    | none =>
      obtain ⟨s', g1, g2⟩ := tail { s with l1 := upd s.l1 (c.l1Hash x) ((s.l1 (c.l1Hash x) + 1) % 2 ^ 32) } ((s.l1 (c.l1Hash x) + 1) % 2 ^ 32) rfl rfl rfl
      exact ⟨s', r, g1, g2, hres⟩
    | some cell =>
      obtain ⟨s', g1, g2⟩ := tail { s with l1 := upd s.l1 (c.l1Hash x) ((s.l1 (c.l1Hash x) + 1) % 2 ^ 32), hits := upd s.hits cell ((s.hits cell + 1) % 2 ^ 32) }
        ((s.l1 (c.l1Hash x) + 1) % 2 ^ 32) rfl rfl rfl
      exact ⟨s', r, g1, g2, hres⟩

theorem step_inv {c : Cfg} {p : Nat} (hn : c.n = 2 ^ p) (hm : 0 < c.mult) {fuel : Nat} (hf : 31 * c.n ≤ fuel) {os : List Op} {s : St} (h : Inv c os s)
    (o : Op) :
    ∃ s' r, c.step fuel s o = some (s', r) ∧ Inv c (os ++ [o]) s' ∧ r ≤ 255 ∧ ∀ x, o = .bump x → r ≠ 0 → x ≠ 0 ∧ Spec.Warm c.n c.mult os x := by
  cases o with
  | maint =>
    obtain ⟨s', h1, h2, -⟩ := maint_inv hn hf h
    refine ⟨s', 0, by simp [Cfg.step, h1], ⟨near_mono (fun y hy => warm_mono hy) h2.near, ?_, h2.thr⟩, by omega, fun x e => by cases e⟩
    intro i
    have := h2.count i
    rw [bumped_append]; simpa [Spec.bumped] using this
  | bump x =>
    have h0 : Inv c os { s with bumps := s.bumps + 1 } := ⟨h.near, h.count, h.thr⟩
    have core : ∀ s1, Inv c os s1 → 0 < s1.thr → ∃ s' r, c.bumpCore s1 x = some (s', r) ∧ Inv c (os ++ [.bump x]) s' ∧ r ≤ 255 ∧
        ∀ y, Op.bump x = .bump y → r ≠ 0 → y ≠ 0 ∧ Spec.Warm c.n c.mult os y := by
      intro s1 hs1 ht1
      obtain ⟨s', r, g1, g2, g3, g4⟩ := core_inv hn hm hs1 ht1 x
      exact ⟨s', r, g1, g2, g3, fun y e => by cases e; exact g4⟩
    simp only [Cfg.step, Cfg.bump]
    split
    · obtain ⟨s1, h1, h2, h3⟩ := maint_inv hn hf h0
      rw [h1]
      exact core s1 h2 h3
    · next hi =>
      refine core _ h0 ?_
      rcases h.thr with ht | ⟨ht, -⟩
      · exact ht
      · rw [ht] at hi; omega

theorem run_inv {c : Cfg} {p : Nat} (hn : c.n = 2 ^ p) (hm : 0 < c.mult) {fuel : Nat} (hf : 31 * c.n ≤ fuel) {pre : List Op} {s : St} (h : Inv c pre s)
    (os : List Op) : ∃ s' rs, c.run fuel s os = some (s', rs) ∧ Inv c (pre ++ os) s' ∧ rs.length = os.length ∧
      ∀ a x b r, os = a ++ .bump x :: b → rs[a.length]? = some r → r ≤ 255 ∧ (r ≠ 0 → x ≠ 0 ∧ Spec.Warm c.n c.mult (pre ++ a) x) := by
  induction os generalizing pre s with
  | nil => exact ⟨s, [], rfl, by simpa using h, rfl, fun a x b r e => by simp at e⟩
  | cons o os ih =>
    obtain ⟨s1, r1, h1, h2, h3, h4⟩ := step_inv hn hm hf h o
    obtain ⟨s2, rs, k1, k2, k3, k4⟩ := ih h2
    refine ⟨s2, r1 :: rs, by simp [Cfg.run, h1, k1], by simpa using k2, by simp [k3], ?_⟩
    intro a x b r e hr
    cases a with
    | nil =>
      simp only [List.nil_append, List.cons.injEq] at e
      simp only [List.length_nil, List.getElem?_cons_zero, Option.some.injEq] at hr
      subst hr
      refine ⟨h3, fun hr => ?_⟩
      rw [List.append_nil]
      exact h4 x e.1 hr
    | cons o' a =>
      simp only [List.cons_append, List.cons.injEq] at e
      simp only [List.length_cons, List.getElem?_cons_succ] at hr
      have := k4 a x b r e.2 hr
      rw [e.1] at this
      simpa using this

theorem new_inv {c : Cfg} {thr : Nat} : Inv c [] (c.new thr) := by
  refine ⟨fun i hi => absurd rfl hi, fun i => Nat.zero_le _, ?_⟩
  rcases Nat.eq_zero_or_pos thr with h | h
  · subst h; exact .inr ⟨by simp [Cfg.new, Cfg.calc], fun _ => rfl⟩
  · exact .inl h

/-- **Every call ends**: for any number of buckets that is a power of 2, any initial threshold (even 0), any calls in any order are defined, divide by nothing that is
0 and fail no assertion; each maintenance takes at most 31 iterations per bucket. -/
theorem calls_end {c : Cfg} {p : Nat} (hn : c.n = 2 ^ p) (hm : 0 < c.mult) (thr : Nat) (os : List Op) :
    ∃ s rs, c.run (31 * c.n) (c.new thr) os = some (s, rs) ∧ rs.length = os.length := by
  obtain ⟨s, rs, h1, -, h3, -⟩ := run_inv hn hm (Nat.le_refl _) new_inv os
  exact ⟨s, rs, h1, h3⟩

/-- **Only bumped hashes are reported by bumpHash**: a result other than 0 is at most 255, and is only given for a hash that was bumped
before, when hashes of its record had been bumped at least `hotnessMultiplier` times. -/
theorem bump_sound {c : Cfg} {p : Nat} (hn : c.n = 2 ^ p) (hm : 0 < c.mult) {thr : Nat} {fuel : Nat} (hf : 31 * c.n ≤ fuel)
    {a b : List Op} {x r : Nat} {s : St} {rs : List Nat} (hr : c.run fuel (c.new thr) (a ++ .bump x :: b) = some (s, rs))
    (hx : rs[a.length]? = some r) : r ≤ 255 ∧ (r ≠ 0 → Spec.Warm c.n c.mult a x) := by
  obtain ⟨s', rs', h1, -, -, h4⟩ := run_inv hn hm hf new_inv (a ++ .bump x :: b)
  rw [hr] at h1
  cases h1
  have := h4 a x b r rfl hx
  exact ⟨this.1, fun h => by simpa using (this.2 h).2⟩

/-- **Only bumped hashes are reported by isHotHash**, except for 0. -/
theorem hot_sound {c : Cfg} {p : Nat} (hn : c.n = 2 ^ p) (hm : 0 < c.mult) {thr : Nat} {fuel : Nat} (hf : 31 * c.n ≤ fuel)
    {os : List Op} {s : St} {rs : List Nat} (hr : c.run fuel (c.new thr) os = some (s, rs)) {x : Nat} (hx : x ≠ 0) (hh : c.isHot s x = true) :
    Spec.Warm c.n c.mult os x := by
  obtain ⟨s', rs', h1, h2, -⟩ := run_inv hn hm hf new_inv os
  rw [hr] at h1
  cases h1
  unfold Cfg.isHot at hh
  split at hh
  · cases hh
  · split at hh
    · cases hh
    · rw [List.any_eq_true] at hh
      obtain ⟨i, -, h3⟩ := hh
      rw [beq_iff_eq] at h3
      have := (h2.near _ (by rw [h3]; exact hx)).2.2
      rw [h3] at this
      simpa using this

end Verif.HotHash
