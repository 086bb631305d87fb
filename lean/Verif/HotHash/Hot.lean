import Verif.HotHash.Props
import Mathlib.Data.Nat.ModEq
/-
C62: a hash that is bumped often enough is reported, and the two levels group the hashes in the same way.
-/
namespace Verif.HotHash
open Verif

/-- The state after `k` bumps of `x` alone, before it is recorded. -/
structure Solo (c : Cfg) (thr x k : Nat) (s : St) : Prop where
  l1 : s.l1 (c.l1Hash x) = k
  count : s.count (c.l2Hash x) = k / thr
  hash : ∀ i, s.hash i = 0
  bumps : s.bumps = k
  interval : s.interval = c.calc thr
  thr : s.thr = thr

theorem findCell_none {c : Cfg} {s : St} {x : Nat} (h : ∀ i, s.hash i = 0) (is : List Nat) : c.findCell s x is = none := by
  cases is with
  | nil => rfl
  | cons i is => unfold Cfg.findCell; simp [h]

theorem solo_step {c : Cfg} {thr x k fuel : Nat} {s : St} (ht : 0 < thr) (hm : 0 < c.mult) (hi : thr * c.mult < c.calc thr)
    (h32 : thr * c.mult < 2 ^ 32) (h : Solo c thr x k s) (hk : k < thr * c.mult) :
    ∃ s', c.bump fuel s x = some (s', 0) ∧ (k + 1 < thr * c.mult → Solo c thr x (k + 1) s') ∧
      (k + 1 = thr * c.mult → x ≠ 0 → c.isHot s' x = true) := by
  have hmul : k + 1 = thr * c.mult → (k + 1) / thr = c.mult := by
    intro e; rw [e, Nat.mul_div_cancel_left _ ht]
  have hlt : k + 1 < thr * c.mult → (k + 1) / thr < c.mult := by
    intro e; rw [Nat.div_lt_iff_lt_mul ht, Nat.mul_comm]; exact e
  have hdvd : k + 1 = thr * c.mult → (k + 1) % thr = 0 := by
    intro e; rw [e, Nat.mul_mod_right]
  have hsucc : (k + 1) / thr = k / thr + if (k + 1) % thr = 0 then 1 else 0 := by
    rw [Nat.succ_div]; simp only [Nat.dvd_iff_mod_eq_zero]
  have hthr : thr ≤ thr * c.mult := Nat.le_mul_of_pos_right _ hm
  unfold Cfg.bump
  simp only
  rw [if_neg (by rw [h.interval, h.bumps]; omega)]
  unfold Cfg.bumpCore
  simp only [h.l1, h.thr, h.count]
  rw [Nat.mod_eq_of_lt (show k + 1 < 2 ^ 32 by omega)]
  have hf : ∀ a b d e f g, c.findCell ⟨a, b, s.hash, d, e, f, g⟩ x [0, 1, 2, 3, 4] = none := fun a b d e f g => findCell_none (s := ⟨a, b, s.hash, d, e, f, g⟩) (fun i => h.hash i) _
  split
  · refine ⟨_, rfl, fun hk' => ⟨by simp only; rw [upd_same], ?_, h.hash, by simp only; rw [h.bumps], h.interval, rfl⟩, fun e _ => ?_⟩
    · next hq =>
      simp only
      rw [h.count, Nat.div_eq_of_lt (show k < thr by omega), Nat.div_eq_of_lt (show k + 1 < thr by omega)]
    · omega
  · rw [if_neg (by omega)]
    simp only [hf, ite_self, Option.isSome_none, Bool.false_eq_true, if_false]
    split
    · next hq =>
      refine ⟨_, rfl, fun hk' => ⟨by simp only; rw [upd_same], ?_, h.hash, by simp only; rw [h.bumps], h.interval, rfl⟩, fun e _ => ?_⟩
      · simp only; rw [h.count, hsucc, if_neg hq]; omega
      · exact absurd (hdvd e) hq
    · next hq =>
      have hq : (k + 1) % thr = 0 := by omega
      rw [if_pos hq] at hsucc
      have hb : k / thr + 1 ≤ k + 1 := by rw [← hsucc]; exact Nat.div_le_self _ _
      rw [h.count, Nat.mod_eq_of_lt (show k / thr + 1 < 2 ^ 32 by omega), ← hsucc]
      split
      · next hc =>
        refine ⟨_, rfl, fun hk' => ⟨by simp only; rw [upd_same], by simp only; rw [upd_same], h.hash, by simp only; rw [h.bumps], h.interval, rfl⟩, fun e _ => ?_⟩
        have := hmul e; omega
      · next hc =>
        refine ⟨_, rfl, fun hk' => absurd (hlt hk') hc, fun e hx => ?_⟩
        unfold Cfg.record
        simp only [h.hash, if_true]
        unfold Cfg.isHot
        simp only
        rw [upd_same, upd_same, if_neg (by omega), if_neg (by have := hmul e; omega)]
        simp [upd_same]

theorem solo_run {c : Cfg} {thr x : Nat} (ht : 0 < thr) (hm : 0 < c.mult) (hi : thr * c.mult < c.calc thr) (h32 : thr * c.mult < 2 ^ 32)
    (hx : x ≠ 0) {fuel : Nat} (d : Nat) : ∀ {k : Nat} {s : St}, Solo c thr x k s → k + d + 1 = thr * c.mult →
    ∃ s', c.run fuel s (List.replicate (d + 1) (.bump x)) = some (s', List.replicate (d + 1) 0) ∧ c.isHot s' x = true := by
  induction d with
  | zero =>
    intro k s h hk
    obtain ⟨s', h1, -, h3⟩ := solo_step (fuel := fuel) ht hm hi h32 h (by omega)
    exact ⟨s', by simp [Cfg.run, Cfg.step, h1], h3 (by omega) hx⟩
  | succ d ih =>
    intro k s h hk
    obtain ⟨s1, h1, h2, -⟩ := solo_step (fuel := fuel) ht hm hi h32 h (by omega)
    obtain ⟨s', k1, k2⟩ := ih (h2 (by omega)) (by omega)
    refine ⟨s', ?_, k2⟩
    rw [List.replicate_succ, Cfg.run, Cfg.step, h1, Option.bind_some, k1, Option.map_some, List.replicate_succ (n := d + 1)]

/-- **A hash bumped often enough is hot**: with a new detector whose maintenance is not due earlier, after `initialL1Threshold *
hotnessMultiplier` bumps of one hash other than 0 (all of which answer 0), isHotHash reports that hash. -/
theorem hot_complete {c : Cfg} {thr x : Nat} (ht : 0 < thr) (hm : 0 < c.mult) (hi : c.mult < c.n + c.warm * c.mult / 2)
    (h32 : thr * c.mult < 2 ^ 32) (hx : x ≠ 0) (fuel : Nat) :
    ∃ s, c.run fuel (c.new thr) (List.replicate (thr * c.mult) (.bump x)) = some (s, List.replicate (thr * c.mult) 0) ∧ c.isHot s x = true := by
  have hpos : 0 < thr * c.mult := Nat.mul_pos ht hm
  have hc : thr * c.mult < c.calc thr := by
    unfold Cfg.calc; rw [Nat.mul_comm thr]; exact Nat.mul_lt_mul_of_pos_right hi ht
  have h0 : Solo c thr x 0 (c.new thr) := ⟨rfl, by simp [Cfg.new], fun _ => rfl, rfl, rfl, rfl⟩
  have := solo_run (fuel := fuel) ht hm hc h32 hx (thr * c.mult - 1) h0 (by omega)
  rwa [Nat.sub_add_cancel hpos] at this

/-- **The second level does not separate the hashes**: for at most 2^64 buckets two hashes share a counter of the second level exactly if
they share one of the first. -/
theorem levels_collide {c : Cfg} {p : Nat} (hn : c.n = 2 ^ p) (hp : p ≤ 64) (x y : Nat) :
    c.l2Hash x = c.l2Hash y ↔ c.l1Hash x = c.l1Hash y := by
  have hd : c.n ∣ 2 ^ 64 := by rw [hn]; exact Nat.pow_dvd_pow 2 hp
  unfold Cfg.l2Hash Cfg.l1Hash
  rw [mask_eq hn, mask_eq hn, mask_eq hn, mask_eq hn, Nat.mod_mod_of_dvd _ hd, Nat.mod_mod_of_dvd _ hd]
  constructor
  · intro h
    have hg : Nat.gcd c.n 351551 = 1 := by
      rw [hn]; exact Nat.Coprime.pow_left p (by decide)
    exact Nat.ModEq.cancel_right_of_coprime hg h
  · intro h
    exact Nat.ModEq.mul_right 351551 h

/-! ### Cooling -/

theorem maint_count {c : Cfg} {p : Nat} (hn : c.n = 2 ^ p) {fuel : Nat} (hf : 31 * c.n ≤ fuel) {os : List Op} {s : St} (h : Inv c os s) :
    ∃ s', c.maint fuel s = some s' ∧ Inv c os s' ∧ ∀ i, s'.count i = min (c.mult - 1) (s.count i / 2) := by
  obtain ⟨s', h1, h2, -⟩ := maint_inv hn hf h
  refine ⟨s', h1, h2, fun i => ?_⟩
  have hd : Near c.n (Spec.Warm c.n c.mult os) (c.decay s).hash := h.near
  have hp := pot_le hd
  obtain ⟨s1, k1, -, -, k4, -⟩ := loop_ends hn hd (fuel := fuel) (i := 0) (sum := 0) (a := 0) (b := 0) (x := 0) (d := 0) (e := 0) rfl (by omega)
    (by simp [wait]; omega)
  unfold Cfg.maint at h1
  rw [k1] at h1
  cases h1
  simp only [Cfg.adjust, k4, Cfg.decay]

theorem cool_run {c : Cfg} {p : Nat} (hn : c.n = 2 ^ p) {fuel : Nat} (hf : 31 * c.n ≤ fuel) {os : List Op} (m : Nat) :
    ∀ {s : St}, Inv c os s → (∀ i, s.count i < 2 ^ m) →
    ∃ s' rs, c.run fuel s (List.replicate m .maint) = some (s', rs) ∧ ∀ i, s'.count i = 0 := by
  induction m with
  | zero => intro s _ h; exact ⟨s, [], rfl, fun i => by have := h i; simpa using this⟩
  | succ m ih =>
    intro s hs h
    obtain ⟨s1, h1, h2, h3⟩ := maint_count hn hf hs
    obtain ⟨s2, rs, k1, k2⟩ := ih h2 (fun i => by
      have := h i
      rw [Nat.pow_succ] at this
      rw [h3]; omega)
    exact ⟨s2, 0 :: rs, by simp [List.replicate_succ, Cfg.run, Cfg.step, h1, k1], k2⟩

/-- **Hashes cool down**: whatever was bumped before, after `m + 1` maintenances in a row, with `hotnessMultiplier ≤ 2^m`, no hash is
reported as hot. -/
theorem cools {c : Cfg} {p : Nat} (hn : c.n = 2 ^ p) (hm : 0 < c.mult) {thr : Nat} {fuel : Nat} (hf : 31 * c.n ≤ fuel)
    {os : List Op} {s : St} {rs : List Nat} (hr : c.run fuel (c.new thr) os = some (s, rs)) {m : Nat} (h2 : c.mult ≤ 2 ^ m) :
    ∃ s' rs', c.run fuel s (List.replicate (m + 1) .maint) = some (s', rs') ∧ ∀ x, c.isHot s' x = false := by
  obtain ⟨s0, rs0, h1, hinv, -⟩ := run_inv hn hm hf (new_inv (thr := thr)) os
  rw [hr] at h1
  cases h1
  obtain ⟨s1, k1, k2, k3⟩ := maint_count hn hf hinv
  obtain ⟨s2, rs2, g1, g2⟩ := cool_run hn hf m k2 (fun i => by rw [k3]; omega)
  refine ⟨s2, 0 :: rs2, by simp [List.replicate_succ, Cfg.run, Cfg.step, k1, g1], fun x => ?_⟩
  unfold Cfg.isHot
  split
  · rfl
  · rw [if_pos (g2 _)]

end Verif.HotHash
