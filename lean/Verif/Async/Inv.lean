import Verif.Async.Model
import Verif.Destructor.Inv
/-! The invariant about the memory, the references and the movers. -/
namespace Verif.Async
open Verif.Destructor (countP_erase countP_set')

@[simp] theorem upd_same {α : Type} (f : Nat → α) (a : Nat) (x : α) : upd f a x a = x := by simp [upd]
theorem upd_ne {α : Type} (f : Nat → α) {a b : Nat} (x : α) (h : b ≠ a) : upd f a x b = f b := by simp [upd, h]

/-! The steps `join`, `wake`, `unref`. -/

@[simp] theorem join_mem (s : State) (a : Nat) : (s.join a).mem = s.mem := by unfold State.join; split <;> rfl
@[simp] theorem join_spell (s : State) (a : Nat) : (s.join a).spell = s.spell := by unfold State.join; split <;> rfl
@[simp] theorem join_index (s : State) (a : Nat) : (s.join a).index = s.index := by unfold State.join; split <;> rfl
@[simp] theorem join_movers (s : State) (a : Nat) : (s.join a).movers = s.movers := by unfold State.join; split <;> rfl
@[simp] theorem join_handles (s : State) (a : Nat) : (s.join a).handles = s.handles := by unfold State.join; split <;> rfl
@[simp] theorem join_fill (s : State) (a : Nat) : (s.join a).fill = s.fill := by unfold State.join; split <;> rfl
@[simp] theorem join_got (s : State) (a : Nat) : (s.join a).got = s.got := by unfold State.join; split <;> rfl
@[simp] theorem join_lost (s : State) (a : Nat) : (s.join a).lost = s.lost := by unfold State.join; split <;> rfl
@[simp] theorem join_nextW (s : State) (a : Nat) : (s.join a).nextW = s.nextW + 1 := by unfold State.join; split <;> rfl
@[simp] theorem join_nextV (s : State) (a : Nat) : (s.join a).nextV = s.nextV := by unfold State.join; split <;> rfl

@[simp] theorem unref_spell (s : State) (a : Nat) : (s.unref a).spell = s.spell := by unfold State.unref; split <;> rfl
@[simp] theorem unref_index (s : State) (a : Nat) : (s.unref a).index = s.index := by unfold State.unref; split <;> rfl
@[simp] theorem unref_map (s : State) (a : Nat) : (s.unref a).map = s.map := by unfold State.unref; split <;> rfl
@[simp] theorem unref_movers (s : State) (a : Nat) : (s.unref a).movers = s.movers := by unfold State.unref; split <;> rfl
@[simp] theorem unref_handles (s : State) (a : Nat) : (s.unref a).handles = s.handles := by unfold State.unref; split <;> rfl
@[simp] theorem unref_fill (s : State) (a : Nat) : (s.unref a).fill = s.fill := by unfold State.unref; split <;> rfl
@[simp] theorem unref_got (s : State) (a : Nat) : (s.unref a).got = s.got := by unfold State.unref; split <;> rfl
@[simp] theorem unref_lost (s : State) (a : Nat) : (s.unref a).lost = s.lost := by unfold State.unref; split <;> rfl
@[simp] theorem unref_nextW (s : State) (a : Nat) : (s.unref a).nextW = s.nextW := by unfold State.unref; split <;> rfl
@[simp] theorem unref_nextV (s : State) (a : Nat) : (s.unref a).nextV = s.nextV := by unfold State.unref; split <;> rfl

/-- What `wake` does. -/
structure Woken (c : Cfg) (s : State) (ws : List Waiter) (h : Option Nat) (s' : State) : Prop where
  spell : s'.spell = s.spell
  index : s'.index = s.index
  map : s'.map = s.map
  movers : s'.movers = s.movers
  fill : s'.fill = s.fill
  nextW : s'.nextW = s.nextW
  nextV : s'.nextV = s.nextV
  mem : ∀ x, if h = some x then ∃ (it : Item) (k : Nat), s.mem x = some it ∧ s'.mem x = some { it with refs := it.refs + k } ∧
      s'.handles.count x = s.handles.count x + k
    else s'.mem x = s.mem x ∧ s'.handles.count x = s.handles.count x
  got : ∃ g, s'.got = s.got ++ g ∧ (∃ l, s'.lost = s.lost ++ l ∧ (c.noOverflow = true → l = []) ∧ (g.map (·.1) ++ l).Perm ws) ∧
      ∀ p ∈ g, ∀ v, p.2 = some v → ∃ (b : Nat) (it : Item), h = some b ∧ s.mem b = some it ∧ it.ver = v
  hands : s'.handles.length + (s.got.filter (·.2.isSome)).length = s.handles.length + (s'.got.filter (·.2.isSome)).length

theorem wakeLoop_perm (max : Nat) : ∀ (ws : List Waiter) (refs : Nat) (o : Bool),
    ((wakeLoop max refs o ws).1.map (·.1) ++ (wakeLoop max refs o ws).2.1).Perm ws
  | [], refs, o => by simp [wakeLoop]
  | w :: ws, refs, true => by simpa [wakeLoop] using wakeLoop_perm max ws refs true
  | w :: ws, refs, false => by
    unfold wakeLoop; split
    · simpa using wakeLoop_perm max ws (refs + 1) false
    · exact List.perm_middle.trans ((wakeLoop_perm max ws refs true).cons w)

theorem wakeLoop_refs (max : Nat) : ∀ (ws : List Waiter) (refs : Nat) (o : Bool),
    (wakeLoop max refs o ws).2.2 = refs + ((wakeLoop max refs o ws).1.filter (·.2)).length
  | [], refs, o => by simp [wakeLoop]
  | w :: ws, refs, true => by simpa [wakeLoop] using wakeLoop_refs max ws refs true
  | w :: ws, refs, false => by
    unfold wakeLoop; split
    · have := wakeLoop_refs max ws (refs + 1) false; simp at this ⊢; omega
    · simpa using wakeLoop_refs max ws refs true

theorem wakeLoop_room (max : Nat) : ∀ (ws : List Waiter) (refs : Nat), refs + ws.length ≤ max →
    wakeLoop max refs false ws = (ws.map fun w => (w, true), [], refs + ws.length)
  | [], refs, _ => by simp [wakeLoop]
  | w :: ws, refs, h => by
    simp at h; unfold wakeLoop; rw [if_pos (by omega), wakeLoop_room max ws (refs + 1) (by omega)]; simp; omega

theorem count_map_const {α : Type} (b x : Nat) (l : List α) : (l.map fun _ => b).count x = if b = x then l.length else 0 := by
  induction l with
  | nil => simp
  | cons a l ih => simp only [List.map_cons, List.count_cons, ih]; by_cases h : b = x <;> simp [h]

theorem wake_spec {c : Cfg} {s s' : State} {ws : List Waiter} {h : Option Nat} (he : s.wake c ws h = some s') : Woken c s ws h s' := by
  cases h with
  | none =>
    simp only [State.wake, Option.some.injEq] at he; subst he
    refine ⟨rfl, rfl, rfl, rfl, rfl, rfl, rfl, by simp, ⟨_, rfl, ⟨[], by simp, by simp, by simp [Function.comp_def]⟩, ?_⟩, by simp [List.filter_map, Function.comp_def]⟩
    intro p hp v hv
    obtain ⟨w, _, rfl⟩ := List.mem_map.mp hp
    cases hv
  | some b =>
    cases hm : s.mem b with
    | none => simp [State.wake, hm] at he
    | some it =>
      simp only [State.wake, hm] at he
      split at he
      · cases he
      · next ho =>
        simp only [Option.some.injEq] at he; subst he
        refine ⟨rfl, rfl, rfl, rfl, rfl, rfl, rfl, ?_, ⟨_, rfl, ⟨_, rfl, ?_, ?_⟩, ?_⟩, ?_⟩
        · intro x
          by_cases hx : b = x
          · subst hx
            rw [if_pos rfl]
            refine ⟨it, ((wakeLoop c.max it.refs false ws).1.filter (·.2)).length, hm, ?_, ?_⟩
            · simp only [upd_same, wakeLoop_refs]
            · simp only [List.count_append, count_map_const]; simp
          · rw [if_neg (by simpa using hx)]
            refine ⟨upd_ne _ _ (fun h => hx h.symm), ?_⟩
            simp only [List.count_append, count_map_const, hx]; simp
        · intro hn; simp [hn] at ho; exact ho
        · have := wakeLoop_perm c.max ws it.refs false
          simpa [Function.comp_def] using this
        · intro p hp v hv
          obtain ⟨q, _, rfl⟩ := List.mem_map.mp hp
          refine ⟨b, it, rfl, hm, ?_⟩
          cases hq : q.2 <;> simp [hq] at hv
          exact hv
        · simp only [List.length_append, List.length_map, List.filter_append, List.filter_map]
          have : ((fun x : Waiter × Option Nat => x.2.isSome) ∘ fun p : Waiter × Bool => (p.1, if p.2 then some it.ver else none)) = (·.2) := by
            funext p; cases hp : p.2 <;> simp [hp]
          rw [this]; omega

/-! Counting. -/

def Mover.marks (x : Nat) : Mover → Bool
  | .moving a => a == x
  | .moved a _ => a == x
  | _ => false
def Mover.first (x : Nat) : Mover → Bool
  | .moving a => a == x
  | _ => false
def Mover.holds (x : Nat) : Mover → Bool
  | .moved _ b => b == x
  | .unmarked _ b => b == x
  | _ => false
def Mover.chained : Mover → Bool
  | .chUnmarked => true
  | .chWaits _ => true
  | .chFound _ => true
  | _ => false
def Mover.waker (x : Nat) : Mover → Bool
  | .moving a => a == x
  | .moved a _ => a == x
  | .unmarked a _ => a == x
  | .evicting a => a == x
  | _ => false

structure Addr (s : State) (x : Nat) : Prop where
  free : s.mem x = none → s.movers.countP (Mover.owns x) = 0 ∧ s.handles.count x = 0 ∧ s.movers.countP (Mover.holds x) = 0 ∧ s.index ≠ some x
  used : ∀ (it : Item), s.mem x = some it → s.spell x = true ∧ it.refs = s.handles.count x + s.movers.countP (Mover.holds x) ∧
    s.movers.countP (Mover.owns x) ≤ 1 ∧ (it.moving = true ↔ s.movers.countP (Mover.marks x) = 1) ∧
    (s.movers.countP (Mover.owns x) = 1 → it.refs = 0) ∧
    (s.index = some x → s.movers.countP (Mover.owns x) = s.movers.countP (Mover.first x))

theorem first_le_marks (l : List Mover) (x : Nat) : l.countP (Mover.first x) ≤ l.countP (Mover.marks x) :=
  List.countP_mono_left fun m _ h => by cases m <;> simp_all [Mover.first, Mover.marks]
theorem marks_le_waker (l : List Mover) (x : Nat) : l.countP (Mover.marks x) ≤ l.countP (Mover.waker x) :=
  List.countP_mono_left fun m _ h => by cases m <;> simp_all [Mover.waker, Mover.marks]
theorem waker_le_owns (l : List Mover) (x : Nat) : l.countP (Mover.waker x) ≤ l.countP (Mover.owns x) :=
  List.countP_mono_left fun m _ h => by cases m <;> simp_all [Mover.waker, Mover.owns]

structure Inv (s : State) : Prop where
  addr : ∀ x, Addr s x
  noch : ∀ m ∈ s.movers, m.chained = false
  len : s.map.length ≤ 1
  ent : ∀ e ∈ s.map, 0 < s.movers.countP (Mover.waker e.keyAt)

theorem Inv.init : Inv {} := by
  refine ⟨fun x => ⟨by simp, by simp⟩, by simp, by simp, by simp⟩

/-- An entry of the map is always found. -/
theorem Inv.found {s : State} (hi : Inv s) : s.entry = s.map.head? := by
  obtain ⟨hl, he⟩ := (⟨hi.len, hi.ent⟩ : _ ∧ _)
  unfold State.entry
  match hm : s.map with
  | [] => simp
  | e :: l =>
    have hpos := he e (by simp [hm])
    have hx := hi.addr e.keyAt
    have hu := waker_le_owns s.movers e.keyAt
    cases hmem : s.mem e.keyAt with
    | none => have := (hx.free hmem).1; omega
    | some it => have := (hx.used it hmem).1; simp [this]

theorem Inv.join {s : State} (hi : Inv s) {a : Nat} {it : Item} (hm : s.mem a = some it) (hv : it.moving = true) : Inv (s.join a) := by
  refine ⟨fun x => ⟨by simpa using (hi.addr x).free, by simpa using (hi.addr x).used⟩, by simpa using hi.noch, ?_, ?_⟩
  all_goals
    have hl := hi.len; have he := hi.ent; have hf := hi.found
    have hk := ((hi.addr a).used it hm).2.2.2.1.mp hv
    have hk2 := marks_le_waker s.movers a
    unfold State.join
    match hmp : s.map with
    | [] => simp [hmp] at hf; rw [hf]; simp; try exact List.countP_pos_iff.mp (by omega)
    | e :: l =>
      rw [hmp] at hl he
      simp [hmp] at hf; rw [hf]
      have : l = [] := by simpa using hl
      subst this
      simp [hmp]; try (have := he e (by simp); simpa using this)

end Verif.Async
