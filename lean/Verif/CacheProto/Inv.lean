import Verif.CacheProto.Model
import Verif.Refcount.Lemmas
/-! Invariant of the item life-cycle protocol and the general preservation lemma. -/
namespace Verif.CacheProto
open Verif.Refcount

/-- 0/1 -/
abbrev ind (p : Prop) [Decidable p] : Nat := if p then 1 else 0

/-- the item being moved on whose behalf an allocation runs -/
def Cont.old : Cont → Addr → Nat
  | .user, _ => 0
  | .move a, x => ind (a = x)

/-- references (handles) owned by the running call -/
def PC.own : PC → Addr → Nat
  | .ior5 _ _ o .got, x | .ior6 _ _ o .got, x | .ior7 _ _ o, x => ind (o = x)
  | .rx3 _ a, x | .rx4 _ a, x | .rx5 _ a, x => ind (a = x)
  | .mv2 _ _ n, x | .mv3 _ _ n, x | .mv3b _ _ n, x | .mvF _ _ n, x | .mvF2 _ _ n, x | .mv4 _ _ n, x
  | .mv5 _ _ n, x | .mv6 _ _ n, x | .mv7 _ _ n _ _, x | .mv8 _ _ n, x => ind (n = x)
  | _, _ => 0

/-- the internal reference of a moving item -/
def PC.mo : PC → Addr → Nat
  | .alloc _ c, x | .mem _ _ c, x | .ctor _ _ c, x | .ev1 _ _ c, x | .ev2 _ _ c, x | .ev3 _ _ c, x
  | .ev4 _ _ c, x | .rel1 _ (.recycle _ c), x | .rel2 _ (.recycle _ c), x => c.old x
  | .rel1 _ (.evictOld _ a), x | .rel2 _ (.evictOld _ a), x => ind (a = x)
  | .mv1 _ a, x | .mv2 _ a _, x | .mv3 _ a _, x | .mv3b _ a _, x | .mvF _ a _, x | .mvF2 _ a _, x
  | .mv4 _ a _, x | .mv5 _ a _, x | .me1 _ a, x => ind (a = x)
  | _, _ => 0

/-- the exclusive right -/
def PC.ex : PC → Addr → Nat
  | .ev1 v _ c, x | .ev2 v _ c, x | .ev3 v _ c, x | .ev4 v _ c, x => ind (v = x) + c.old x
  | .me2 _ a, x | .me3 _ a, x | .me4 _ a, x => ind (a = x)
  | p, x => p.mo x

/-- memory of a drained item that only this thread can touch -/
def PC.raw : PC → Addr → Nat
  | .mem a _ _, x | .ctor a _ _, x => ind (a = x)
  | .rel1 a (.freeOld o), x | .rel2 a (.freeOld o), x => ind (a = x) + ind (o = x)
  | .rel1 a _, x | .rel2 a _, x => ind (a = x)
  | .mv6 _ a _, x | .mv7 _ a _ _ _, x | .mv8 _ a _, x | .mv9 a, x | .me5 _ a, x | .me6 _ a _, x => ind (a = x)
  | _, _ => 0

/-- accessible flag must be off -/
def PC.nacc : PC → Addr → Bool
  | .ins3 _ a, x | .ior3 _ a, x | .ior4 _ a _, x | .ior4w _ a _, x | .ior5 _ a _ _, x => decide (a = x)
  | .rp1 _ _ n, x | .rp2 _ _ n, x => decide (n = x)
  | .mv2 _ _ n, x | .mv3 _ _ n, x => decide (n = x)
  | .mv3b _ a n, x => decide (a = x) || decide (n = x)
  | .mv4 _ a _, x | .mv5 _ a _, x => decide (a = x)
  | .ev3 v _ _, x | .ev4 v _ _, x => decide (v = x)
  | .me3 _ a, x | .me4 _ a, x => decide (a = x)
  | _, _ => false

/-- linked flag must be off -/
def PC.nlnk : PC → Addr → Bool
  | .ev2 v _ _, x | .ev3 v _ _, x | .ev4 v _ _, x => decide (v = x)
  | .mv5 _ a _, x | .me4 _ a, x => decide (a = x)
  | _, _ => false

/-- accessible flag still on although the item has left the index -/
def PC.stale : PC → Addr → Bool
  | .ior6 _ _ o _, x => decide (o = x)
  | _, _ => false

/-- the only handle is the one of the running call -/
def PC.one1 : PC → Addr → Bool
  | .mv2 _ _ n, x | .mv3 _ _ n, x | .mv3b _ _ n, x => decide (n = x)
  | _, _ => false

/-- the item is exclusively owned by another thread (the handle maker said so, ChainedHashTable.h:1201) -/
def PC.exq : PC → Addr → Bool
  | .ior5 _ _ o r, x | .ior6 _ _ o r, x => decide (o = x) && decide (r ≠ .got)
  | _, _ => false

/-- required index entry (under the bucket lock) -/
def PC.iat : PC → Key → Option (Option Addr)
  | .find k a, x | .findW k a, x => if k = x then some (some a) else none
  | .ior4 k _ o, x | .ior4w k _ o, x | .ior5 k _ o _, x => if k = x then some (some o) else none
  | .ior6 k a _ _, x => if k = x then some (some a) else none
  | .rx2 k a, x | .rx3 k a, x => if k = x then some (some a) else none
  | .rp2 k _ _, x | .mv3b k _ _, x => if k = x then some none else none
  | _, _ => none

/-- required key of the item being moved -/
def Cont.kat (k : Key) : Cont → Addr → Key → Bool
  | .user, _, _ => false
  | .move a, x, y => decide (a = x) && decide (k = y)

/-- required key of an item -/
def PC.kat : PC → Addr → Key → Bool
  | .alloc k c, x, y | .mem _ k c, x, y | .ev1 _ k c, x, y | .ev2 _ k c, x, y | .ev3 _ k c, x, y
  | .ev4 _ k c, x, y | .rel1 _ (.recycle k c), x, y | .rel2 _ (.recycle k c), x, y => c.kat k x y
  | .ctor a k c, x, y => (decide (a = x) && decide (k = y)) || c.kat k x y
  | .rel1 _ (.evictOld k a), x, y | .rel2 _ (.evictOld k a), x, y => decide (a = x) && decide (k = y)
  | .ins1 k a, x, y | .ins2 k a, x, y | .ins3 k a, x, y | .ins4 k a, x, y | .ior1 k a, x, y | .ior2 k a, x, y
  | .ior3 k a, x, y | .ior4 k a _, x, y | .ior4w k a _, x, y | .iorWait k a _, x, y | .iorX k a, x, y
  | .rm1 k a, x, y | .rm2 k a, x, y | .rx1 k a, x, y | .rx2 k a, x, y | .rx3 k a, x, y | .rx4 k a, x, y
  | .rx5 k a, x, y => decide (a = x) && decide (k = y)
  | .ior5 k a o _, x, y | .ior6 k a o _, x, y | .ior7 k a o, x, y =>
    (decide (a = x) || decide (o = x)) && decide (k = y)
  | .rp1 k o n, x, y | .rp2 k o n, x, y | .rp3 k o n, x, y | .rp4 k o n, x, y | .rp5 k o n, x, y
  | .rp6 k o n, x, y | .rp7 k o n, x, y => (decide (o = x) || decide (n = x)) && decide (k = y)
  | .mv1 k a, x, y | .me1 k a, x, y | .me2 k a, x, y | .me3 k a, x, y | .me4 k a, x, y | .me5 k a, x, y
  | .me6 k a _, x, y => decide (a = x) && decide (k = y)
  | .mv2 k a n, x, y | .mv3 k a n, x, y | .mv3b k a n, x, y | .mvF k a n, x, y | .mvF2 k a n, x, y
  | .mv4 k a n, x, y | .mv5 k a n, x, y | .mv6 k a n, x, y | .mv7 k a n _ _, x, y | .mv8 k a n, x, y =>
    (decide (a = x) || decide (n = x)) && decide (k = y)
  | _, _, _ => false

/-- required distinctness -/
def PC.dst : PC → Prop
  | .ior6 _ a o _ => a ≠ o
  | .rp1 _ o n => o ≠ n
  | _ => True

/-- sum over the threads -/
def tot (f : PC → Nat) (l : List PC) : Nat := (l.map f).sum

section abbrevs
variable (s : State) (a : Addr)
/-- access reference count -/
abbrev State.rf : Nat := acc (s.word a)
/-- linked bit -/
abbrev State.b18 : Bool := bit 18 (s.word a)
/-- accessible bit -/
abbrev State.b19 : Bool := bit 19 (s.word a)
/-- exclusive bit -/
abbrev State.b20 : Bool := bit 20 (s.word a)
/-- some reference or admin bit -/
def State.lv : Nat := ind (¬ (s.rf a = 0 ∧ s.b18 a = false ∧ s.b19 a = false ∧ s.b20 a = false))
/-- user handles -/
def State.uc : Nat := s.usr.countP fun h => h.a = a
/-- handles in ready wait contexts -/
def State.mc : Nat := s.mail.countP fun m => m.r = some a
end abbrevs

/-- What a thread relies on. -/
structure Facts (s : State) (p : PC) : Prop where
  nacc : ∀ x, p.nacc x = true → s.b19 x = false
  nlnk : ∀ x, p.nlnk x = true → s.b18 x = false
  stale : ∀ x, p.stale x = true → s.b19 x = true
  one1 : ∀ x, p.one1 x = true → s.rf x = 1
  exq : ∀ x, p.exq x = true → s.b20 x = true
  iat : ∀ k v, p.iat k = some v → s.idx k = v
  kat : ∀ x k, p.kat x k = true → s.key x = k
  dst : p.dst

structure Inv (s : State) : Prop where
  cnt : ∀ a, s.rf a = s.uc a + s.mc a + tot (·.own a) s.thr + tot (·.mo a) s.thr
  exc : ∀ a, ind (s.b20 a = true) = tot (·.ex a) s.thr
  exh : ∀ a, s.b20 a = true → s.rf a = tot (·.mo a) s.thr
  liv : ∀ a, tot (·.raw a) s.thr + s.lv a = ind (s.mem a = true)
  lnk : ∀ a, s.b18 a = s.mm a
  idk : ∀ k a, s.idx k = some a → s.key a = k ∧ s.b19 a = true
  acI : ∀ a, s.b19 a = true → s.idx (s.key a) = some a ∨ ∃ q ∈ s.thr, q.stale a = true
  one : ∀ a, tot (fun p => ind (p.inserting a = true)) s.thr ≤ 1
  lx1 : ∀ k, tot (fun p => ind (p.lx k = true)) s.thr ≤ 1
  lxs : ∀ k, 1 ≤ tot (fun p => ind (p.lx k = true)) s.thr → tot (fun p => ind (p.ls k = true)) s.thr = 0
  bor : ∀ q ∈ s.thr, ∀ a, q.borrow a = true → 1 ≤ s.uc a
  hk : ∀ h ∈ s.usr, s.key h.a = h.k
  mlk : ∀ m ∈ s.mail, ∀ a, m.r = some a → s.key a = m.k
  fct : ∀ q ∈ s.thr, Facts s q
  nf : s.fault = false

/-! ### sums -/

theorem tot_set (f : PC → Nat) {l : List PC} {i : Nat} {p : PC} (h : l[i]? = some p) (p' : PC) :
    tot f (l.set i p') + f p = tot f l + f p' := by
  induction l generalizing i with
  | nil => simp at h
  | cons x l ih =>
    cases i with
    | zero => simp at h; subst h; simp [tot]; omega
    | succ i =>
      have := ih (i := i) (by simpa using h)
      simp [tot] at this ⊢; omega

theorem tot_ge (f : PC → Nat) {l : List PC} {i : Nat} {p : PC} (h : l[i]? = some p) : f p ≤ tot f l := by
  induction l generalizing i with
  | nil => simp at h
  | cons x l ih =>
    cases i with
    | zero => simp at h; subst h; simp [tot]
    | succ i =>
      have := ih (i := i) (by simpa using h)
      simp [tot] at this ⊢; omega

theorem tot_ge2 (f : PC → Nat) {l : List PC} {i j : Nat} {p q : PC} (h : l[i]? = some p) (hj : l[j]? = some q)
    (hij : j ≠ i) : f p + f q ≤ tot f l := by
  induction l generalizing i j with
  | nil => simp at h
  | cons x l ih =>
    cases i with
    | zero =>
      cases j with
      | zero => exact absurd rfl hij
      | succ j =>
        have := tot_ge f (l := l) (i := j) (p := q) (by simpa using hj)
        simp at h; subst h
        simp [tot] at this ⊢; omega
    | succ i =>
      cases j with
      | zero =>
        have := tot_ge f (l := l) (i := i) (p := p) (by simpa using h)
        simp at hj; subst hj
        simp [tot] at this ⊢; omega
      | succ j =>
        have := ih (i := i) (j := j) (by simpa using h) (by simpa using hj) (by omega)
        simp [tot] at this ⊢; omega

theorem tot_zero_of_all (f : PC → Nat) {l : List PC} (h : ∀ q ∈ l, f q = 0) : tot f l = 0 := by
  induction l with
  | nil => rfl
  | cons x l ih =>
    have := h x (by simp)
    have := ih (fun q hq => h q (by simp [hq]))
    simp [tot] at this ⊢; omega

theorem mem_get {l : List PC} {q : PC} (h : q ∈ l) : ∃ j : Nat, l[j]? = some q := by
  obtain ⟨j, hj, e⟩ := List.getElem_of_mem h
  exact ⟨j, by rw [List.getElem?_eq_getElem hj, e]⟩

theorem set_get {l : List PC} {i : Nat} {p p' q : PC} (h : l[i]? = some p) {j : Nat}
    (hj : (l.set i p')[j]? = some q) : (j = i ∧ q = p') ∨ (j ≠ i ∧ l[j]? = some q) := by
  by_cases hji : j = i
  · subst hji
    obtain ⟨hlt, _⟩ := List.getElem?_eq_some_iff.mp h
    simp [hlt] at hj
    exact Or.inl ⟨rfl, hj.symm⟩
  · rw [List.getElem?_set_ne (by omega)] at hj
    exact Or.inr ⟨hji, hj⟩

/-! ### relations between the observers of a program counter -/

theorem ind_le (p : Prop) [Decidable p] : ind p ≤ 1 := by unfold ind; split <;> omega

theorem ind_pos {p : Prop} [Decidable p] (h : p) : ind p = 1 := by simp [ind, h]

theorem nacc_cases (q : PC) (x : Addr) (h : q.nacc x = true) :
    q.inserting x = true ∨ (q.one1 x = true) ∨ 1 ≤ q.ex x := by
  cases q <;> simp [PC.nacc, PC.inserting, PC.one1, PC.ex, PC.mo, ind] at h ⊢ <;> grind

theorem nlnk_ex (q : PC) (x : Addr) (h : q.nlnk x = true) : 1 ≤ q.ex x := by
  cases q <;> simp [PC.nlnk, PC.ex, PC.mo, ind] at h ⊢ <;> grind

theorem one1_own (q : PC) (x : Addr) (h : q.one1 x = true) : q.own x = 1 ∧ q.nacc x = true := by
  cases q <;> simp [PC.one1, PC.own, PC.nacc, ind] at h ⊢ <;> simp [h]

theorem ins_borrow (q : PC) (x : Addr) (h : q.inserting x = true) : q.borrow x = true := by
  cases q <;> simp [PC.inserting, PC.borrow] at h ⊢ <;> simp [h]

theorem exq_cases (q : PC) (x : Addr) (h : q.exq x = true) : q.stale x = true ∨ ∃ k, q.iat k = some (some x) := by
  cases q <;> simp [PC.exq, PC.stale, PC.iat] at h ⊢ <;> simp [h]

theorem iat_lock (q : PC) (k : Key) (v : Option Addr) (h : q.iat k = some v) : q.lx k = true ∨ q.ls k = true := by
  cases q <;> simp [PC.iat, PC.lx, PC.ls] at h ⊢ <;> simp [h]

theorem stale_lock (q : PC) (x : Addr) (h : q.stale x = true) : ∃ k, q.kat x k = true ∧ q.lx k = true := by
  cases q <;> simp [PC.stale, PC.kat, PC.lx] at h ⊢ <;> simp [h]

theorem kat_cases (q : PC) (x : Addr) (k : Key) (h : q.kat x k = true) :
    q.borrow x = true ∨ 1 ≤ q.own x ∨ 1 ≤ q.ex x ∨ 1 ≤ q.raw x ∨ q.iat k = some (some x) ∨ q.stale x = true := by
  have hc : ∀ (k' : Key) (c : Cont), c.kat k' x k = true → 1 ≤ c.old x := by
    intro k' c hh
    cases c <;> simp_all [Cont.kat, Cont.old, ind]
  have hr : ∀ (a : Addr) (rc : RCont), (PC.rel1 a rc).kat x k = true → 1 ≤ (PC.rel1 a rc).ex x := by
    intro a rc hh
    cases rc <;> simp [PC.kat, PC.ex, PC.mo, ind] at hh ⊢
    · simp [hh]
    · exact hc _ _ hh
  have hr2 : ∀ (a : Addr) (rc : RCont), (PC.rel2 a rc).kat x k = true → 1 ≤ (PC.rel2 a rc).ex x := by
    intro a rc hh
    cases rc <;> simp [PC.kat, PC.ex, PC.mo, ind] at hh ⊢
    · simp [hh]
    · exact hc _ _ hh
  cases q with
  | rel1 a rc => exact Or.inr (Or.inr (Or.inl (hr a rc h)))
  | rel2 a rc => exact Or.inr (Or.inr (Or.inl (hr2 a rc h)))
  | alloc k' c | mem a k' c | ev1 v k' c | ev2 v k' c | ev3 v k' c | ev4 v k' c =>
    have := hc _ _ h
    refine Or.inr (Or.inr (Or.inl ?_))
    simp only [PC.ex, PC.mo]; omega
  | ctor a k' c =>
    simp only [PC.kat, Bool.or_eq_true, Bool.and_eq_true, decide_eq_true_eq] at h
    rcases h with h | h
    · simp [PC.raw, ind, h]
    · have := hc _ _ h
      refine Or.inr (Or.inr (Or.inl ?_))
      simp only [PC.ex, PC.mo]; omega
  | _ =>
    simp [PC.kat] at h
    all_goals simp [PC.kat, PC.borrow, PC.own, PC.ex, PC.mo, PC.raw, PC.iat, PC.stale, ind] at h ⊢
    all_goals grind

end Verif.CacheProto
