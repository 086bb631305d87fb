/-
The invariant behind "exactly one call of the destructor": who is to call it for each inserted value, and its preservation by every
step.
-/
import Verif.Destructor.Model
namespace Verif.Destructor

/-- Inserts run when the engine has no copy: `b` tells whether it has one before the queue runs. -/
def wf : Bool → List Job → Prop
  | _, [] => True
  | b, .insert _ :: q => b = false ∧ wf true q
  | _, .remove :: q => wf false q
  | b, .lookup :: q => wf b q

/-- Whether the engine has a copy after the queue, if nothing fails or is dropped. -/
def endLive : Bool → List Job → Bool
  | b, [] => b
  | _, .insert _ :: q => endLive true q
  | _, .remove :: q => endLive false q
  | b, .lookup :: q => endLive b q

theorem wf_mono : ∀ {q : List Job} {b : Bool}, wf b q → wf false q
  | [], _, _ => trivial
  | .insert _ :: _, _, h => ⟨rfl, h.2⟩
  | .remove :: _, _, h => h
  | .lookup :: q, _, h => wf_mono (q := q) h

theorem endLive_mono : ∀ {q : List Job} {b : Bool}, endLive b q = false → endLive false q = false
  | [], _, _ => rfl
  | .insert _ :: _, _, h => h
  | .remove :: _, _, h => h
  | .lookup :: q, _, h => endLive_mono (q := q) h

theorem wf_append_insert {v : Nat} : ∀ {q : List Job} {b : Bool}, wf b q → endLive b q = false → wf b (q ++ [.insert v])
  | [], _, _, he => ⟨he, trivial⟩
  | .insert _ :: q, _, h, he => ⟨h.1, wf_append_insert (q := q) h.2 he⟩
  | .remove :: q, _, h, he => wf_append_insert (q := q) (b := false) h he
  | .lookup :: q, _, h, he => wf_append_insert (q := q) h he

theorem wf_append_remove : ∀ {q : List Job} {b : Bool}, wf b q → wf b (q ++ [.remove])
  | [], _, _ => trivial
  | .insert _ :: q, _, h => ⟨h.1, wf_append_remove (q := q) h.2⟩
  | .remove :: q, _, h => wf_append_remove (q := q) (b := false) h
  | .lookup :: q, _, h => wf_append_remove (q := q) h

theorem wf_append_lookup : ∀ {q : List Job} {b : Bool}, wf b q → wf b (q ++ [.lookup])
  | [], _, _ => trivial
  | .insert _ :: q, _, h => ⟨h.1, wf_append_lookup (q := q) h.2⟩
  | .remove :: q, _, h => wf_append_lookup (q := q) (b := false) h
  | .lookup :: q, _, h => wf_append_lookup (q := q) h

theorem endLive_append_remove : ∀ {q : List Job} {b : Bool}, endLive b (q ++ [.remove]) = false
  | [], _ => rfl
  | .insert _ :: q, _ => endLive_append_remove (q := q)
  | .remove :: q, _ => endLive_append_remove (q := q)
  | .lookup :: q, _ => endLive_append_remove (q := q)

theorem endLive_append_lookup : ∀ {q : List Job} {b : Bool}, endLive b (q ++ [.lookup]) = endLive b q
  | [], _ => rfl
  | .insert _ :: q, _ => endLive_append_lookup (q := q)
  | .remove :: q, _ => endLive_append_lookup (q := q)
  | .lookup :: q, _ => endLive_append_lookup (q := q)

theorem endLive_no_insert : ∀ {q : List Job}, (∀ v, Job.insert v ∉ q) → endLive false q = false
  | [], _ => rfl
  | .insert v :: _, h => absurd List.mem_cons_self (h v)
  | .remove :: q, h => endLive_no_insert (q := q) fun v hv => h v (List.mem_cons_of_mem _ hv)
  | .lookup :: q, h => endLive_no_insert (q := q) fun v hv => h v (List.mem_cons_of_mem _ hv)

theorem endLive_no_remove : ∀ {q : List Job}, Job.remove ∉ q → endLive true q = true
  | [], _ => rfl
  | .insert _ :: q, h => endLive_no_remove (q := q) fun hv => h (List.mem_cons_of_mem _ hv)
  | .remove :: _, h => absurd List.mem_cons_self h
  | .lookup :: q, h => endLive_no_remove (q := q) fun hv => h (List.mem_cons_of_mem _ hv)

theorem wf_no_remove : ∀ {q : List Job}, wf true q → Job.remove ∉ q → ∀ v, Job.insert v ∉ q
  | [], _, _, _, h => nomatch h
  | .insert _ :: _, h, _, _, _ => nomatch h.1
  | .remove :: _, _, h, _, _ => absurd List.mem_cons_self h
  | .lookup :: q, h, hr, v, hv => by
    rcases List.mem_cons.mp hv with e | e
    · cases e
    · exact wf_no_remove (q := q) h (fun hx => hr (List.mem_cons_of_mem _ hx)) v e

theorem no_insert_of_any {q : List Job} (h : q.any Job.isInsert = false) (v : Nat) : Job.insert v ∉ q := fun hv => by
  have := List.any_eq_false.mp h _ hv; exact this rfl

theorem countP_erase {α : Type} (p : α → Bool) : ∀ {l : List α} {i : Nat} {a : α}, l[i]? = some a →
    l.countP p = (l.eraseIdx i).countP p + (if p a then 1 else 0)
  | [], i, a, h => by simp at h
  | x :: l, 0, a, h => by simp at h; subst h; simp [List.countP_cons]
  | x :: l, i + 1, a, h => by
    simp only [List.getElem?_cons_succ] at h
    have := countP_erase p h
    simp only [List.eraseIdx_cons_succ, List.countP_cons, this]; omega

theorem countP_set' {α : Type} (p : α → Bool) : ∀ {l : List α} {i : Nat} {a b : α}, l[i]? = some a →
    (l.set i b).countP p + (if p a then 1 else 0) = l.countP p + (if p b then 1 else 0)
  | [], i, a, b, h => by simp at h
  | x :: l, 0, a, b, h => by simp at h; subst h; simp [List.countP_cons]; omega
  | x :: l, i + 1, a, b, h => by
    simp only [List.getElem?_cons_succ] at h
    have := countP_set' p (b := b) h
    simp only [List.set_cons_succ, List.countP_cons]; omega

/-! Who is to call the destructor of `v`, counted. -/

def Item.cnt (v : Nat) (it : Item) : Nat := if it.ver = v then 1 else 0
def Ev.own (v : Nat) (e : Ev) : Bool := !e.it.inNvm && e.it.ver == v
def Job.own (v : Nat) : Job → Bool
  | .insert u => u == v
  | _ => false
def ramCnt (v : Nat) : Option Item → Nat
  | some it => it.cnt v
  | none => 0
def ramIn : Option Item → Bool
  | some it => it.inNvm
  | none => false
def nvmCnt (v : Nat) (nvm : Option Nat) (removed rin : Bool) : Nat :=
  match nvm with
  | some u => if removed || rin then 0 else if u = v then 1 else 0
  | none => 0

def State.total (s : State) (v : Nat) : Nat :=
  s.dtor.count v + ramCnt v s.ram + s.gone.countP (fun it => it.ver == v) + s.ev.countP (Ev.own v)
    + nvmCnt v s.nvm s.removed (ramIn s.ram) + s.queue.countP (Job.own v)

def Writer.pend : Writer → Bool
  | .tail true _ _ => true
  | _ => false

/-- The write in progress agrees with what is in RAM. -/
def Writer.ok (ram : Option Item) : Writer → Prop
  | .rmCrit => True
  | .tail _ t none => t = true ∧ ram = none
  | .tail _ _ (some id) => ∃ it, ram = some it ∧ it.id = id ∧ 1 ≤ it.refs ∧ it.clean = false

def State.pend (s : State) : Bool := s.writers.any Writer.pend

/-- The token is valid. -/
def State.tv (s : State) : Prop := s.token = some true

structure Inv (s : State) : Prop where
  acc : ∀ v, s.total v = if v < s.next then 1 else 0
  one : s.writers.length ≤ 1
  cbs : s.cbs = []
  quiet : s.threw = false
  wfq : wf s.nvm.isSome s.queue
  rem : s.removed = true → s.nvm.isSome = true ∧ (Job.remove ∈ s.queue ∨ s.pend = true)
  clean : ∀ it, s.ram = some it → it.clean = true →
    s.nvm = (if it.nvmEv then none else some it.ver) ∧ (∀ v, Job.insert v ∉ s.queue) ∧ s.removed = false
  tokE : s.tv → endLive s.nvm.isSome s.queue = false
  ramE : ∀ it, s.ram = some it → it.inNvm = false → s.pend = false → endLive s.nvm.isSome s.queue = false
  tokR : s.tv → s.ram = none ∨ s.pend = true
  wok : ∀ w ∈ s.writers, w.ok s.ram
  fil : ∀ f v, s.fill = some f → f.valid = true → f.run = some (some v) → s.nvm = some v
  filQ : ∀ f, s.fill = some f → f.run ≠ none → s.queue.head? = some .lookup
  candR : ∀ c ∈ s.cand, ∀ it, s.ram = some it → c = (it.id, true) → it.inNvm = false
  candN : ∀ c ∈ s.cand, c.1 < s.nextId
  ramN : ∀ it, s.ram = some it → it.id < s.nextId
  evt : ∀ e ∈ s.ev, e.tok = true → e.done = false → e.it.inNvm = false

end Verif.Destructor
