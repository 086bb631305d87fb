/-!
Helper: chains of optional pointers.  `Chain f l n` says that following the pointer field `f` from the first
element of `l` visits exactly `l` in order and then arrives at `n`.  Used by the linked-list models.
-/
namespace Verif

variable {N : Type} [DecidableEq N]

/-- Functional update of a field: `upd f x v` is `f` with the entry of `x` set to `v`. -/
def upd {V : Type} (f : N → V) (x : N) (v : V) : N → V := fun y => if y = x then v else f y

@[simp] theorem upd_same {V : Type} (f : N → V) (x : N) (v : V) : upd f x v x = v := by simp [upd]
theorem upd_ne {V : Type} (f : N → V) {x y : N} (v : V) (h : y ≠ x) : upd f x v y = f y := by simp [upd, h]
theorem upd_self {V : Type} (f : N → V) {x : N} : upd f x (f x) = f := by
  funext y; by_cases h : y = x <;> simp [upd, h]

/-- Following `f` through the nodes of `l` in order and ending at `n`. -/
def Chain (f : N → Option N) : List N → Option N → Prop
  | [], _ => True
  | x :: xs, n => f x = xs.head?.or n ∧ Chain f xs n

omit [DecidableEq N] in
@[simp] theorem chain_nil (f : N → Option N) (n) : Chain f [] n := trivial
omit [DecidableEq N] in
theorem chain_cons (f : N → Option N) (x xs n) : Chain f (x :: xs) n ↔ f x = xs.head?.or n ∧ Chain f xs n := Iff.rfl

omit [DecidableEq N] in
theorem head?_append_or (a b : List N) (n : Option N) : (a ++ b).head?.or n = a.head?.or (b.head?.or n) := by
  cases a <;> simp

omit [DecidableEq N] in
theorem chain_append (f : N → Option N) (a b : List N) (n : Option N) :
    Chain f (a ++ b) n ↔ Chain f a (b.head?.or n) ∧ Chain f b n := by
  induction a with
  | nil => simp
  | cons x xs ih =>
    rw [List.cons_append, chain_cons, chain_cons, ih, head?_append_or]
    constructor
    · rintro ⟨h1, h2, h3⟩; exact ⟨⟨h1, h2⟩, h3⟩
    · rintro ⟨⟨h1, h2⟩, h3⟩; exact ⟨h1, h2, h3⟩

omit [DecidableEq N] in
/-- only the values of `f` on the members matter -/
theorem chain_congr {f g : N → Option N} {l : List N} {n : Option N} (h : ∀ x ∈ l, f x = g x) :
    Chain f l n ↔ Chain g l n := by
  induction l with
  | nil => simp
  | cons x xs ih =>
    rw [chain_cons, chain_cons, h x (by simp), ih (fun y hy => h y (by simp [hy]))]

theorem chain_upd_of_not_mem {f : N → Option N} {l : List N} {n : Option N} {x : N} {v : Option N} (h : x ∉ l) :
    Chain (upd f x v) l n ↔ Chain f l n :=
  chain_congr (fun _ hy => upd_ne f v (fun e => h (e ▸ hy)))

/-- redirect the last element -/
theorem chain_upd_last {f : N → Option N} {a : List N} {x : N} {n m : Option N} (hx : x ∉ a)
    (h : Chain f (a ++ [x]) n) : Chain (upd f x m) (a ++ [x]) m := by
  rw [chain_append] at h ⊢
  refine ⟨(chain_upd_of_not_mem hx).mpr (by simpa using h.1), ?_⟩
  simp [chain_cons]

/-- `if (p != nullptr) p->f = v`. -/
def updO {V : Type} (f : N → V) (p : Option N) (v : V) : N → V :=
  match p with | some x => upd f x v | none => f

@[simp] theorem updO_none {V : Type} (f : N → V) (v : V) : updO f none v = f := rfl
@[simp] theorem updO_some {V : Type} (f : N → V) (x : N) (v : V) : updO f (some x) v = upd f x v := rfl

omit [DecidableEq N] in
@[simp] theorem getLast?_mid (a b : List N) (x q : N) : (a ++ x :: (b ++ [q])).getLast? = some q := by
  rw [show a ++ x :: (b ++ [q]) = (a ++ x :: b) ++ [q] by simp]; exact List.getLast?_concat

/-- redirect the last element (list given by its `getLast?`) -/
theorem chain_redirect {f : N → Option N} {l : List N} {n m : Option N} (hnd : l.Nodup) (h : Chain f l n) :
    Chain (updO f l.getLast? m) l m := by
  rcases List.eq_nil_or_concat l with rfl | ⟨a, x, rfl⟩
  · simp
  · simp only [List.concat_eq_append] at *
    simp only [List.getLast?_append, List.getLast?_singleton, Option.some_or, updO]
    refine chain_upd_last ?_ h
    intro hx; rw [List.nodup_append] at hnd; exact hnd.2.2 x hx x (by simp) rfl

omit [DecidableEq N] in
theorem chain_next {f : N → Option N} {a b : List N} {x : N} {n : Option N} (h : Chain f (a ++ x :: b) n) :
    f x = b.head?.or n := ((chain_append f a (x :: b) n).mp h).2.1

/-- Walk along `f` from `s`, at most `k` steps. -/
def walk (f : N → Option N) : Nat → Option N → List N
  | _, none => []
  | 0, some _ => []
  | k + 1, some x => x :: walk f k (f x)

omit [DecidableEq N] in
/-- A null-terminated chain is walked exactly, and the walk stops by itself. -/
theorem walk_chain {f : N → Option N} {l : List N} (h : Chain f l none) (k : Nat) (hk : l.length ≤ k) :
    walk f k l.head? = l := by
  induction l generalizing k with
  | nil => cases k <;> simp [walk]
  | cons x xs ih =>
    obtain ⟨h1, h2⟩ := h
    cases k with
    | zero => simp at hk
    | succ k =>
      simp only [List.head?_cons, walk]
      rw [h1, Option.or_none, ih h2 k (by simpa using hk)]

end Verif
