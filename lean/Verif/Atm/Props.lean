import Verif.Atm.Model
import Mathlib.Data.List.Nodup
/-
C61: the map of access times reports only current times, keeps its limits, counts exactly, and survives a restart.
-/
namespace Verif.Atm
open Verif

/-! ### Specification: histories, the newest event first -/

namespace Spec

/-- The time last given to `k` and not removed since; `base` is what the map began with. -/
def last (base : Nat → Option Nat) : List Ev → Nat → Option Nat
  | [], k => base k
  | .set k' v :: t, k => if k' = k then some v else last base t k
  | .remove k' :: t, k => if k' = k then none else last base t k
  | .getAndRemove k' _ :: t, k => if k' = k then none else last base t k
  | _ :: t, k => last base t k

/-- After the last time given to `k`, one was given to another hash of the same remainder. -/
def Crowded (n : Nat) : List Ev → Nat → Prop
  | [], _ => False
  | .set k' _ :: t, k => k' ≠ k ∧ (k' % n = k % n ∨ Crowded n t k)
  | _ :: t, k => Crowded n t k

/-- No call that changes the map has taken effect since persist was called. -/
def Quiet : List Ev → Prop
  | [] => False
  | .pBegin :: _ => True
  | .set _ _ :: _ => False
  | .remove _ :: _ => False
  | .getAndRemove _ _ :: _ => False
  | _ :: t => Quiet t

/-- At some moment since persist was called, `v` was the time of `k`. -/
def During (base : Nat → Option Nat) : List Ev → Nat → Nat → Prop
  | [], _, _ => False
  | e :: t, k, v => last base (e :: t) k = some v ∨ (e ≠ .pBegin ∧ During base t k v)

/-- Entries per remainder: `maxSize / n`, rounded up. -/
def Limit (n maxSize cap : Nat) : Prop := maxSize ≤ n * cap ∧ n * cap < maxSize + n

end Spec

/-- The histories of a map that begins empty, or with what recover found; `base` is what it begins with. -/
inductive Reach (c : Cfg) : (Nat → Option Nat) → List Ev → St → Prop
  | fresh : Reach c (fun _ => none) [] St.new
  | recovered {h : Shm} {s : St} (hr : Recovers c St.new h s) : Reach c (fun k => (s.sh (c.shard k)).lookup k) [] s
  | step {base : Nat → Option Nat} {tr : List Ev} {s s' : St} {e : Ev} (hr : Reach c base tr s) (hs : Step c s e s') : Reach c base (e :: tr) s'

/-! ### Maps as lists -/

def Nd (m : M) : Prop := (m.map (·.1)).Nodup

theorem lookup_mem {m : M} (h : Nd m) {k v : Nat} : m.lookup k = some v ↔ (k, v) ∈ m := by
  induction m with
  | nil => simp
  | cons a m ih =>
    obtain ⟨x, y⟩ := a
    unfold Nd at h
    rw [List.map_cons, List.nodup_cons] at h
    have ih := ih h.2
    by_cases e : k = x
    · subst e
      simp only [List.lookup_cons, beq_self_eq_true, if_true, Option.some.injEq, List.mem_cons, Prod.mk.injEq, true_and]
      constructor
      · exact fun e => .inl e.symm
      · rintro (e | e)
        · exact e.symm
        · exact absurd (List.mem_map_of_mem (f := (·.1)) e) h.1
    · have : (k == x) = false := by simpa using e
      simp only [List.lookup_cons, this, List.mem_cons, Prod.mk.injEq, e, false_and, false_or]
      exact ih

theorem lookup_none {m : M} (h : Nd m) {k : Nat} : m.lookup k = none ↔ ∀ v, (k, v) ∉ m := by
  constructor
  · intro e v hv; rw [← lookup_mem h, e] at hv; cases hv
  · intro e
    cases e' : m.lookup k with
    | none => rfl
    | some v => exact absurd ((lookup_mem h).1 e') (e v)

theorem del_mem {m : M} {k : Nat} {e : Nat × Nat} : e ∈ del m k ↔ e ∈ m ∧ e.1 ≠ k := by simp [del]

theorem put_mem {m : M} {k v : Nat} {e : Nat × Nat} : e ∈ put m k v ↔ e = (k, v) ∨ (e ∈ m ∧ e.1 ≠ k) := by simp [put, del_mem]

theorem del_nd {m : M} (h : Nd m) (k : Nat) : Nd (del m k) := by
  unfold Nd del at *
  exact List.Nodup.sublist (List.Sublist.map _ List.filter_sublist) h

theorem put_nd {m : M} (h : Nd m) (k v : Nat) : Nd (put m k v) := by
  have := del_nd h k
  unfold Nd put at *
  rw [List.map_cons, List.nodup_cons]
  refine ⟨?_, this⟩
  rw [List.mem_map]
  rintro ⟨e, he, h2⟩
  exact (del_mem.1 he).2 h2

theorem del_none {m : M} (h : Nd m) {k : Nat} (e : m.lookup k = none) : del m k = m := by
  rw [lookup_none h] at e
  unfold del
  rw [List.filter_eq_self]
  intro a ha
  obtain ⟨x, y⟩ := a
  simp only [bne_iff_ne, ne_eq]
  rintro rfl
  exact e y ha

theorem del_len {m : M} (h : Nd m) {k v : Nat} (e : (k, v) ∈ m) : (del m k).length + 1 = m.length := by
  induction m with
  | nil => cases e
  | cons a m ih =>
    obtain ⟨x, y⟩ := a
    have h' := h
    unfold Nd at h
    rw [List.map_cons, List.nodup_cons] at h
    by_cases ex : x = k
    · subst ex
      have hn : m.lookup x = none := by
        rw [lookup_none h.2]; intro v hv; exact h.1 (List.mem_map_of_mem (f := (·.1)) hv)
      have := del_none h.2 hn
      unfold del at this ⊢
      simp only [List.filter_cons, bne_self_eq_false, Bool.false_eq_true, if_false, this, List.length_cons]
    · have hm : (k, v) ∈ m := by
        rcases List.mem_cons.1 e with e | e
        · cases e; exact absurd rfl ex
        · exact e
      have := ih h.2 hm
      unfold del at this ⊢
      have hx : (x != k) = true := by simpa using ex
      simp only [List.filter_cons, hx, if_true, List.length_cons]
      omega

theorem put_len_new {m : M} (h : Nd m) {k v : Nat} (e : m.lookup k = none) : (put m k v).length = m.length + 1 := by
  simp [put, del_none h e]

theorem put_len_old {m : M} (h : Nd m) {k v : Nat} (e : (m.lookup k).isSome) : (put m k v).length = m.length := by
  obtain ⟨w, hw⟩ := Option.isSome_iff_exists.1 e
  have := del_len h ((lookup_mem h).1 hw)
  simp [put, this]

theorem perm_nd {l m : M} (h : l.Perm m) (hm : Nd m) : Nd l := (List.Perm.nodup_iff (List.Perm.map (fun e : Nat × Nat => e.1) h)).2 hm

/-! ### Sums over shards -/

def total (n : Nat) (f : Nat → Nat) : Nat := ((List.range n).map f).sum

theorem total_succ (n : Nat) (f : Nat → Nat) : total (n + 1) f = total n f + f n := by
  simp [total, List.range_succ]

theorem total_congr {n : Nat} {f g : Nat → Nat} (h : ∀ i, i < n → f i = g i) : total n f = total n g := by
  induction n with
  | zero => rfl
  | succ n ih => rw [total_succ, total_succ, ih fun i hi => h i (by omega), h n (by omega)]

theorem total_upd {n i : Nat} (hi : i < n) {f g : Nat → Nat} (h : ∀ j, j ≠ i → g j = f j) : total n g + f i = total n f + g i := by
  induction n with
  | zero => omega
  | succ n ih =>
    rw [total_succ, total_succ]
    by_cases e : i = n
    · subst e
      rw [total_congr (g := f) fun j hj => h j (by omega)]; omega
    · have := ih (by omega)
      rw [h n (by omega)]; omega

theorem total_le {n b : Nat} {f : Nat → Nat} (h : ∀ i, i < n → f i ≤ b) : total n f ≤ n * b := by
  induction n with
  | zero => simp [total]
  | succ n ih =>
    have := ih fun i hi => h i (by omega)
    have := h n (by omega)
    rw [total_succ, Nat.succ_mul]; omega

theorem total_ge {n i : Nat} (hi : i < n) (f : Nat → Nat) : f i ≤ total n f := by
  induction n with
  | zero => omega
  | succ n ih =>
    rw [total_succ]
    by_cases e : i = n
    · subst e; omega
    · have := ih (by omega); omega

/-- The entries of a shard that size_ counts. -/
def counted (m : M) : Option Bool → Nat
  | none => m.length
  | some true => m.length - 1
  | some false => m.length + 1

/-! ### The invariant -/

/-- What persist knows. -/
def PInv (c : Cfg) (base : Nat → Option Nat) (tr : List Ev) (s : St) : Prop :=
  match s.pers with
  | none => True
  | some (.counting i acc) => i ≤ c.n ∧ (Spec.Quiet tr → acc = total i fun j => (s.sh j).length) ∧ (∃ a b, tr = a ++ .pBegin :: b)
  | some (.copying i room out) =>
    i ≤ c.n ∧ out.length ≤ room ∧ Nd out ∧ (∀ k v, (k, v) ∈ out → k % c.n < i ∧ Spec.During base tr k v) ∧
      (Spec.Quiet tr → (room = total c.n fun j => (s.sh j).length) ∧ (out.length = total i fun j => (s.sh j).length) ∧
        (∀ j k v, j < i → (k, v) ∈ s.sh j → (k, v) ∈ out) ∧ ∀ k v, (k, v) ∈ out → (k, v) ∈ s.sh (k % c.n)) ∧ (∃ a b, tr = a ++ .pBegin :: b)

structure Inv (c : Cfg) (base : Nat → Option Nat) (tr : List Ev) (s : St) : Prop where
  nd : ∀ i, Nd (s.sh i)
  cls : ∀ i k v, (k, v) ∈ s.sh i → k % c.n = i
  val : ∀ k v, (k, v) ∈ s.sh (k % c.n) → Spec.last base tr k = some v
  keep : ∀ k v, Spec.last base tr k = some v → (k, v) ∈ s.sh (k % c.n) ∨ (0 < c.cap ∧ Spec.Crowded c.n tr k)
  bound : 0 < c.cap → ∀ i, counted (s.sh i) (s.lk i) ≤ c.cap ∧ (s.sh i).length ≤ c.cap
  pend : ∀ i, s.lk i = some true → 0 < (s.sh i).length
  size : s.size = total c.n fun i => counted (s.sh i) (s.lk i)
  pers : PInv c base tr s

theorem limit (c : Cfg) (hn : 0 < c.n) (hm : 0 < c.maxSize) : Spec.Limit c.n c.maxSize c.cap := by
  unfold Spec.Limit Cfg.cap
  rw [if_pos hm]
  have h1 := Nat.div_add_mod (c.maxSize + c.n - 1) c.n
  have h2 := Nat.mod_lt (c.maxSize + c.n - 1) hn
  generalize c.n * ((c.maxSize + c.n - 1) / c.n) = q at *
  omega

theorem victim_spec {l m : M} (hp : l.Perm m) (hm : Nd m) {k v : Nat} (hk : (k, v) ∈ m) (h2 : 2 ≤ m.length) :
    ∃ x y, victim l k = some x ∧ x ≠ k ∧ (x, y) ∈ m := by
  have hl := hp.length_eq
  have hn := perm_nd hp hm
  unfold Nd at hn
  match l, hl with
  | [], hl => simp at hl; omega
  | [a], hl => simp at hl; omega
  | a :: b :: l, _ =>
    simp only [victim]
    by_cases e : a.1 = k
    · refine ⟨b.1, b.2, if_pos e, ?_, hp.subset (by simp)⟩
      simp only [List.map_cons, List.nodup_cons, List.mem_cons, not_or] at hn
      rw [← e]; exact fun e => hn.1.1 e.symm
    · exact ⟨a.1, a.2, if_neg e, e, hp.subset (by simp)⟩

/-- What `set` does to a shard within its limit. -/
theorem set_spec (c : Cfg) {m order : M} {k v : Nat} (hm : Nd m) (hb : 0 < c.cap → m.length ≤ c.cap) (ho : order.Perm (put m k v)) :
    ∃ m' d, c.set m k v order = some (m', d) ∧ Nd m' ∧ (k, v) ∈ m' ∧ (∀ e, e ∈ m' → e = (k, v) ∨ (e ∈ m ∧ e.1 ≠ k)) ∧
      (c.cap = 0 → ∀ e, e ∈ m → e.1 ≠ k → e ∈ m') ∧ counted m' d = m.length ∧ (d = some true ∨ d = none) ∧ (0 < c.cap → m'.length ≤ c.cap) ∧
      ((m.lookup k).isSome ∨ m.length < c.cap → ∀ e, e ∈ m → e.1 ≠ k → e ∈ m') := by
  unfold Cfg.set
  by_cases h1 : (m.lookup k).isSome
  · rw [if_pos h1]
    have := put_len_old (v := v) hm h1
    exact ⟨_, _, rfl, put_nd hm k v, put_mem.2 (.inl rfl), fun e he => put_mem.1 he, fun _ e h2 h3 => put_mem.2 (.inr ⟨h2, h3⟩), this, .inr rfl,
      fun h => by rw [this]; exact hb h, fun _ e h2 h3 => put_mem.2 (.inr ⟨h2, h3⟩)⟩
  · rw [if_neg h1]
    have h1' : m.lookup k = none := by rw [← Option.not_isSome_iff_eq_none]; exact h1
    have hl := put_len_new (v := v) hm h1'
    by_cases h2 : 0 < c.cap ∧ c.cap < (put m k v).length
    · rw [if_pos h2]
      obtain ⟨x, y, hx, hxk, hxm⟩ := victim_spec ho (put_nd hm k v) (put_mem.2 (.inl rfl)) (by omega)
      rw [hx]
      have h3 := del_len (put_nd hm k v) hxm
      refine ⟨_, _, rfl, del_nd (put_nd hm k v) x, del_mem.2 ⟨put_mem.2 (.inl rfl), fun e => hxk e.symm⟩, fun e he => put_mem.1 (del_mem.1 he).1,
        fun h => by omega, ?_, .inr rfl, fun h => ?_, ?_⟩
      · simp only [counted]; omega
      · have := hb h; omega
      · rintro (h | h)
        · exact absurd h h1
        · omega
    · rw [if_neg h2]
      refine ⟨_, _, rfl, put_nd hm k v, put_mem.2 (.inl rfl), fun e he => put_mem.1 he, fun _ e h2 h3 => put_mem.2 (.inr ⟨h2, h3⟩), ?_, .inl rfl,
        fun h => by omega, fun _ e h2 h3 => put_mem.2 (.inr ⟨h2, h3⟩)⟩
      simp only [counted]; omega

/-- Removing, by either call. -/
theorem rem_spec {m : M} (hm : Nd m) (k : Nat) :
    ∃ m' d, remove m k = (m', d) ∧ getAndRemove m k = (m', d, m.lookup k) ∧ (∀ e, e ∈ m' ↔ e ∈ m ∧ e.1 ≠ k) ∧ Nd m' ∧
      counted m' d = m.length ∧ (d = some false ∨ d = none) ∧ m'.length ≤ m.length := by
  unfold remove getAndRemove
  cases e : m.lookup k with
  | none =>
    refine ⟨m, none, rfl, rfl, fun x => ?_, hm, rfl, .inr rfl, Nat.le_refl _⟩
    rw [lookup_none hm] at e
    constructor
    · intro h
      refine ⟨h, ?_⟩
      rintro rfl
      exact e x.2 h
    · exact fun h => h.1
  | some v =>
    have := del_len hm ((lookup_mem hm).1 e)
    refine ⟨del m k, some false, rfl, rfl, fun x => del_mem, del_nd hm k, ?_, .inl rfl, by omega⟩
    simp only [counted]; omega

theorem copyLoop_eq (room : Nat) (out l : M) : copyLoop room out l = out ++ l.take (room - out.length) := by
  induction l generalizing out with
  | nil => simp [copyLoop]
  | cons e l ih =>
    unfold copyLoop
    split
    · next h => simp [Nat.sub_eq_zero_of_le h]
    · next h =>
      rw [ih]
      have : room - out.length = (room - (out ++ [e]).length) + 1 := by simp; omega
      rw [this, List.take_succ_cons]; simp

theorem last_congr {base : Nat → Option Nat} {e : Ev} {t : List Ev} (h : ∀ k v, e ≠ .set k v) (h2 : ∀ k, e ≠ .remove k)
    (h3 : ∀ k r, e ≠ .getAndRemove k r) : Spec.last base (e :: t) = Spec.last base t := by
  funext k
  cases e <;> first | rfl | (exfalso; first | exact h _ _ rfl | exact h2 _ rfl | exact h3 _ _ rfl)

theorem crowded_congr {n : Nat} {e : Ev} {t : List Ev} (h : ∀ k v, e ≠ .set k v) (k : Nat) : Spec.Crowded n (e :: t) k ↔ Spec.Crowded n t k := by
  cases e <;> first | exact Iff.rfl | (exfalso; exact h _ _ rfl)

theorem quiet_congr {e : Ev} {t : List Ev} (h0 : e ≠ .pBegin) (h : Spec.Quiet (e :: t)) : Spec.Quiet t := by
  cases e <;> simp_all [Spec.Quiet]

theorem during_mono {base : Nat → Option Nat} {e : Ev} {t : List Ev} (h0 : e ≠ .pBegin) {k v : Nat} (h : Spec.During base t k v) :
    Spec.During base (e :: t) k v := .inr ⟨h0, h⟩

theorem during_now {base : Nat → Option Nat} {t : List Ev} (ht : t ≠ []) {k v : Nat} (h : Spec.last base t k = some v) :
    Spec.During base t k v := by
  cases t with
  | nil => exact absurd rfl ht
  | cons e t => exact .inl h

/-- An event that changes the shards does not disturb persist. -/
theorem PInv.change {c : Cfg} {base : Nat → Option Nat} {tr : List Ev} {s : St} {e : Ev} {sh : Nat → M} {lk : Nat → Option Bool} {z : Nat}
    (h : PInv c base tr s) (he : e ≠ .pBegin) (hq : ¬ Spec.Quiet (e :: tr) ∨ sh = s.sh) :
    PInv c base (e :: tr) ⟨sh, lk, z, s.pers⟩ := by
  have hb : (∃ a b, tr = a ++ .pBegin :: b) → ∃ a b, e :: tr = a ++ .pBegin :: b := fun ⟨a, b, h⟩ => ⟨e :: a, b, by rw [h]; rfl⟩
  unfold PInv at *
  cases hp : s.pers with
  | none => trivial
  | some p =>
    rw [hp] at h
    cases p with
    | counting i acc =>
      simp only at h ⊢
      refine ⟨h.1, fun q => ?_, hb h.2.2⟩
      rcases hq with hq | rfl
      · exact absurd q hq
      · exact h.2.1 (quiet_congr he q)
    | copying i room out =>
      simp only at h ⊢
      refine ⟨h.1, h.2.1, h.2.2.1, fun k v hk => ⟨(h.2.2.2.1 k v hk).1, during_mono he (h.2.2.2.1 k v hk).2⟩, fun q => ?_, hb h.2.2.2.2.2⟩
      rcases hq with hq | rfl
      · exact absurd q hq
      · exact h.2.2.2.2.1 (quiet_congr he q)

theorem step_inv {c : Cfg} (hn : 0 < c.n) {base : Nat → Option Nat} {tr : List Ev} {s s' : St} {e : Ev} (h : Inv c base tr s)
    (hs : Step c s e s') : Inv c base (e :: tr) s' := by
  cases hs with
  | set k v order m d hl ho hset =>
    unfold Cfg.shard at *
    obtain ⟨m', d', e1, nd', mem', sub', old', cnt', hd', bnd', -⟩ := set_spec c (h.nd (k % c.n)) (fun hc => (h.bound hc (k % c.n)).2) ho
    rw [hset] at e1
    simp only [Option.some.injEq, Prod.mk.injEq] at e1
    obtain ⟨rfl, rfl⟩ := e1
    have hi : k % c.n < c.n := Nat.mod_lt _ hn
    refine ⟨?_, ?_, ?_, ?_, ?_, ?_, ?_, h.pers.change (by simp) (.inl (by simp [Spec.Quiet]))⟩
    · intro i; simp only [upd]; split
      · exact nd'
      · exact h.nd i
    · intro i k' v' hk'
      simp only [upd] at hk'; split at hk'
      · next e =>
        subst e
        rcases sub' _ hk' with e | e
        · cases e; rfl
        · exact h.cls _ _ _ e.1
      · exact h.cls i k' v' hk'
    · intro k' v' hk'
      simp only [upd] at hk'
      simp only [Spec.last]
      split at hk'
      · rcases sub' _ hk' with e | e
        · cases e; simp
        · next e2 =>
          rw [if_neg (fun e' => e.2 e'.symm)]
          exact h.val k' v' (by rw [e2]; exact e.1)
      · next e2 =>
        rw [if_neg (by rintro rfl; exact e2 rfl)]
        exact h.val k' v' hk'
    · intro k' v' hk'
      simp only [Spec.last] at hk'
      simp only [upd, Spec.Crowded]
      split at hk'
      · next e => subst e; cases hk'; simp only [if_true]; exact .inl mem'
      · next e =>
        by_cases e2 : k' % c.n = k % c.n
        · rw [if_pos e2]
          by_cases hc : 0 < c.cap
          · exact .inr ⟨hc, e, .inl e2.symm⟩
          · rcases h.keep k' v' hk' with h1 | h1
            · rw [e2] at h1
              exact .inl (old' (by omega) _ h1 (fun e' => e e'.symm))
            · exact absurd h1.1 hc
        · rw [if_neg e2]
          rcases h.keep k' v' hk' with h1 | h1
          · exact .inl h1
          · exact .inr ⟨h1.1, e, .inr h1.2⟩
    · intro hc i
      simp only [upd]; split
      · next e => subst e; rw [cnt']; exact ⟨(h.bound hc _).2, bnd' hc⟩
      · exact h.bound hc i
    · intro i hp
      simp only [upd] at hp ⊢; split at hp
      · next e => rw [if_pos e]; exact List.length_pos_of_mem mem'
      · next e => rw [if_neg e]; exact h.pend i hp
    · simp only
      rw [h.size]
      refine total_congr fun i _ => ?_
      simp only [upd]; split
      · next e => subst e; rw [cnt', hl]; rfl
      · rfl
  | get k hl =>
    have hlast := last_congr (base := base) (t := tr) (e := .get k ((s.sh (c.shard k)).lookup k)) (by simp) (by simp) (by simp)
    refine ⟨h.nd, h.cls, by rw [hlast]; exact h.val, ?_, h.bound, h.pend, h.size, h.pers.change (by simp) (.inr rfl)⟩
    rw [hlast]; exact h.keep
  | getAndRemove k m d r hl hrem =>
    unfold Cfg.shard at *
    obtain ⟨m', d', -, e1, sub', nd', cnt', hd', le'⟩ := rem_spec (h.nd (k % c.n)) k
    rw [hrem] at e1
    simp only [Prod.mk.injEq] at e1
    obtain ⟨rfl, rfl, rfl⟩ := e1
    have hi : k % c.n < c.n := Nat.mod_lt _ hn
    refine ⟨?_, ?_, ?_, ?_, ?_, ?_, ?_, h.pers.change (by simp) (.inl (by simp [Spec.Quiet]))⟩
    · intro i; simp only [upd]; split
      · exact nd'
      · exact h.nd i
    · intro i k' v' hk'
      simp only [upd] at hk'; split at hk'
      · next e => subst e; exact h.cls _ _ _ ((sub' _).1 hk').1
      · exact h.cls i k' v' hk'
    · intro k' v' hk'
      simp only [upd] at hk'
      simp only [Spec.last]
      split at hk'
      · next e2 =>
        have e := (sub' _).1 hk'
        rw [if_neg (fun e' => e.2 e'.symm)]
        exact h.val k' v' (by rw [e2]; exact e.1)
      · next e2 =>
        rw [if_neg (by rintro rfl; exact e2 rfl)]
        exact h.val k' v' hk'
    · intro k' v' hk'
      simp only [Spec.last] at hk'
      simp only [upd, Spec.Crowded]
      split at hk'
      · cases hk'
      · next e =>
        rcases h.keep k' v' hk' with h1 | h1
        · split
          · next e2 => exact .inl ((sub' _).2 ⟨by rw [← e2]; exact h1, fun e' => e e'.symm⟩)
          · exact .inl h1
        · exact .inr h1
    · intro hc i
      have := h.bound hc i
      simp only [upd]; split
      · next e => subst e; rw [cnt']; omega
      · exact this
    · intro i hp
      simp only [upd] at hp ⊢; split at hp
      · rcases hd' with e | e <;> rw [e] at hp <;> cases hp
      · next e => rw [if_neg e]; exact h.pend i hp
    · simp only
      rw [h.size]
      refine total_congr fun i _ => ?_
      simp only [upd]; split
      · next e => subst e; rw [cnt', hl]; rfl
      · rfl
  | remove k m d hl hrem =>
    unfold Cfg.shard at *
    obtain ⟨m', d', e1, -, sub', nd', cnt', hd', le'⟩ := rem_spec (h.nd (k % c.n)) k
    rw [hrem] at e1
    simp only [Prod.mk.injEq] at e1
    obtain ⟨rfl, rfl⟩ := e1
    have hi : k % c.n < c.n := Nat.mod_lt _ hn
    refine ⟨?_, ?_, ?_, ?_, ?_, ?_, ?_, h.pers.change (by simp) (.inl (by simp [Spec.Quiet]))⟩
    · intro i; simp only [upd]; split
      · exact nd'
      · exact h.nd i
    · intro i k' v' hk'
      simp only [upd] at hk'; split at hk'
      · next e => subst e; exact h.cls _ _ _ ((sub' _).1 hk').1
      · exact h.cls i k' v' hk'
    · intro k' v' hk'
      simp only [upd] at hk'
      simp only [Spec.last]
      split at hk'
      · next e2 =>
        have e := (sub' _).1 hk'
        rw [if_neg (fun e' => e.2 e'.symm)]
        exact h.val k' v' (by rw [e2]; exact e.1)
      · next e2 =>
        rw [if_neg (by rintro rfl; exact e2 rfl)]
        exact h.val k' v' hk'
    · intro k' v' hk'
      simp only [Spec.last] at hk'
      simp only [upd, Spec.Crowded]
      split at hk'
      · cases hk'
      · next e =>
        rcases h.keep k' v' hk' with h1 | h1
        · split
          · next e2 => exact .inl ((sub' _).2 ⟨by rw [← e2]; exact h1, fun e' => e e'.symm⟩)
          · exact .inl h1
        · exact .inr h1
    · intro hc i
      have := h.bound hc i
      simp only [upd]; split
      · next e => subst e; rw [cnt']; omega
      · exact this
    · intro i hp
      simp only [upd] at hp ⊢; split at hp
      · rcases hd' with e | e <;> rw [e] at hp <;> cases hp
      · next e => rw [if_neg e]; exact h.pend i hp
    · simp only
      rw [h.size]
      refine total_congr fun i _ => ?_
      simp only [upd]; split
      · next e => subst e; rw [cnt', hl]; rfl
      · rfl
  | addSize i d hi hl =>
    have hlast := last_congr (base := base) (t := tr) (e := .tau) (by simp) (by simp) (by simp)
    refine ⟨h.nd, h.cls, by rw [hlast]; exact h.val, by rw [hlast]; exact h.keep, ?_, ?_, ?_, h.pers.change (by simp) (.inr rfl)⟩
    · intro hc j
      have := h.bound hc j
      simp only [upd]; split
      · exact ⟨this.2, this.2⟩
      · exact this
    · intro j hp
      simp only [upd] at hp ⊢; split at hp
      · cases hp
      · exact h.pend j hp
    · have h1 := total_upd hi (f := fun j => counted (s.sh j) (s.lk j)) (g := fun j => counted (s.sh j) (upd s.lk i none j))
        (by intro j hj; simp only [upd, hj, if_false])
      have h2 := total_ge hi (fun j => counted (s.sh j) (s.lk j))
      rw [← h.size] at h1 h2
      simp only [upd_same, hl] at h1 h2
      simp only [addSize]
      cases d with
      | true =>
        have := h.pend i hl
        simp only [counted, if_true] at h1 h2 ⊢
        omega
      | false =>
        simp only [counted, Bool.false_eq_true, if_false] at h1 h2 ⊢
        rw [if_neg (by omega)]
        omega
  | size =>
    have hlast := last_congr (base := base) (t := tr) (e := .size s.size) (by simp) (by simp) (by simp)
    exact ⟨h.nd, h.cls, by rw [hlast]; exact h.val, by rw [hlast]; exact h.keep, h.bound, h.pend, h.size, h.pers.change (by simp) (.inr rfl)⟩
  | pBegin hp =>
    have hlast := last_congr (base := base) (t := tr) (e := .pBegin) (by simp) (by simp) (by simp)
    refine ⟨h.nd, h.cls, by rw [hlast]; exact h.val, by rw [hlast]; exact h.keep, h.bound, h.pend, h.size, ?_⟩
    exact ⟨by omega, fun _ => rfl, [], tr, rfl⟩
  | pCount i acc hp hi hl =>
    have hlast := last_congr (base := base) (t := tr) (e := .tau) (by simp) (by simp) (by simp)
    refine ⟨h.nd, h.cls, by rw [hlast]; exact h.val, by rw [hlast]; exact h.keep, h.bound, h.pend, h.size, ?_⟩
    have := h.pers
    unfold PInv at this ⊢
    rw [hp] at this
    simp only at this ⊢
    obtain ⟨h1, h2, a, b, h3⟩ := this
    refine ⟨hi, fun q => ?_, .tau :: a, b, by rw [h3]; rfl⟩
    rw [total_succ, h2 (quiet_congr (by simp) q)]
  | pEmpty hp =>
    have hlast := last_congr (base := base) (t := tr) (e := .pEnd none) (by simp) (by simp) (by simp)
    exact ⟨h.nd, h.cls, by rw [hlast]; exact h.val, by rw [hlast]; exact h.keep, h.bound, h.pend, h.size, trivial⟩
  | pStart acc hp ha =>
    have hlast := last_congr (base := base) (t := tr) (e := .tau) (by simp) (by simp) (by simp)
    refine ⟨h.nd, h.cls, by rw [hlast]; exact h.val, by rw [hlast]; exact h.keep, h.bound, h.pend, h.size, ?_⟩
    have := h.pers
    unfold PInv at this ⊢
    rw [hp] at this
    simp only at this ⊢
    obtain ⟨h1, h2, a, b, h3⟩ := this
    refine ⟨by omega, by simp, by simp [Nd], by simp, fun q => ⟨h2 (quiet_congr (by simp) q), rfl, by simp, by simp⟩, .tau :: a, b, by rw [h3]; rfl⟩
  | pCopy i room out order hp hi hr hl ho =>
    have hlast := last_congr (base := base) (t := tr) (e := .tau) (by simp) (by simp) (by simp)
    refine ⟨h.nd, h.cls, by rw [hlast]; exact h.val, by rw [hlast]; exact h.keep, h.bound, h.pend, h.size, ?_⟩
    have := h.pers
    unfold PInv at this ⊢
    rw [hp] at this
    simp only [copyLoop_eq] at this ⊢
    obtain ⟨h1, h2, h3, h4, h5, a, b, h6⟩ := this
    have hno : Nd order := perm_nd ho (h.nd i)
    have htm : ∀ {e : Nat × Nat}, e ∈ order.take (room - out.length) → e ∈ s.sh i := fun he => ho.subset (List.mem_of_mem_take he)
    refine ⟨hi, ?_, ?_, ?_, ?_, .tau :: a, b, by rw [h6]; rfl⟩
    · simp only [List.length_append, List.length_take]; omega
    · unfold Nd at *
      rw [List.map_append, List.nodup_append]
      refine ⟨h3, List.Nodup.sublist (List.Sublist.map _ (List.take_sublist _ _)) hno, ?_⟩
      intro x hx y hy
      rw [List.mem_map] at hx hy
      obtain ⟨⟨x, vx⟩, hx, rfl⟩ := hx
      obtain ⟨⟨y, vy⟩, hy, rfl⟩ := hy
      have g1 := (h4 _ _ hx).1
      have g2 := h.cls i _ _ (htm hy)
      simp only
      rintro rfl
      omega
    · intro k v hk
      rw [List.mem_append] at hk
      rcases hk with hk | hk
      · exact ⟨by have := (h4 k v hk).1; omega, during_mono (by simp) (h4 k v hk).2⟩
      · have g := h.cls i _ _ (htm hk)
        refine ⟨by omega, .inl ?_⟩
        rw [hlast]
        exact h.val k v (by rw [g]; exact htm hk)
    · intro q
      obtain ⟨q1, q2, q3, q4⟩ := h5 (quiet_congr (by simp) q)
      have hle : total (i + 1) (fun j => (s.sh j).length) ≤ total c.n fun j => (s.sh j).length := by
        clear * - hi
        generalize c.n = n at hi
        induction n with
        | zero => omega
        | succ n ih =>
          by_cases e : i = n
          · subst e; exact Nat.le_refl _
          · have := ih (by omega)
            rw [total_succ n]; omega
      rw [total_succ] at hle
      have hlen := ho.length_eq
      have htk : order.take (room - out.length) = order := List.take_of_length_le (by omega)
      rw [htk]
      refine ⟨q1, ?_, ?_, ?_⟩
      · rw [List.length_append, total_succ, q2, hlen]
      · intro j k v hj hk
        rw [List.mem_append]
        by_cases e : j = i
        · subst e; exact .inr (ho.symm.subset hk)
        · exact .inl (q3 j k v (by omega) hk)
      · intro k v hk
        rw [List.mem_append] at hk
        rcases hk with hk | hk
        · exact q4 k v hk
        · have hk := ho.subset hk
          rw [h.cls i k v hk]; exact hk
  | pEnd i room out hp hi =>
    have hlast := last_congr (base := base) (t := tr) (e := .pEnd (some out)) (by simp) (by simp) (by simp)
    exact ⟨h.nd, h.cls, by rw [hlast]; exact h.val, by rw [hlast]; exact h.keep, h.bound, h.pend, h.size, trivial⟩

end Verif.Atm
