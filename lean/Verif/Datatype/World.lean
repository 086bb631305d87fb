import Verif.Datatype.Coh

/-! # The world of a cached container, and what the user may rely on

The specification part of this file (`SpecW`, `Upd`, `Keys`, …) knows nothing about buffers, addresses or indexes.
-/

namespace Verif.Datatype

/-! ## Specification -/

/-- The contents of a container: the bytes of the value of every key. -/
abbrev Contents (K : Type) := K → Option (List Byte)

/-- What the user sees: a number of cache items, each of them holding a container (`maps`), the item the user's
container object is attached to, and the item that is reachable in the cache under the container's cache key. -/
structure SpecW (K : Type) where
  maps : List (Contents K)
  cur : Nat
  cached : Option Nat

/-- The contents of the container the user's object is attached to. -/
def SpecW.now {K : Type} (w : SpecW K) : Contents K := (w.maps[w.cur]?).getD (fun _ => none)

/-- `w'` is `w` after the contents became `m`, either in place, or in a new item that takes the old one's place (also
in the cache, if the old one was there) while the old one keeps the contents it had. -/
def Upd {K : Type} (w : SpecW K) (m : Contents K) (w' : SpecW K) : Prop :=
  (w'.maps = w.maps.set w.cur m ∧ w'.cur = w.cur ∧ w'.cached = w.cached) ∨
  (w'.maps = w.maps ++ [m] ∧ w'.cur = w.maps.length ∧
    w'.cached = if w.cached = some w.cur then some w.maps.length else w.cached)

/-- `l` lists the keys of `m`, each once. -/
def Keys {K : Type} (m : Contents K) (l : List K) : Prop := l.Nodup ∧ ∀ k, k ∈ l ↔ ∃ v, m k = some v

/-! ## Model -/

/-- All the cache items holding a container that exist in memory; the item of the container object
(`hashtable_` / `handle_`), and the item that `cache.find(key)` returns, if any.  Items to which somebody still has
a handle are never freed by the cache, so the model never forgets an item. -/
structure World (I : Type) where
  items : List I
  cur : Nat
  cached : Option Nat

namespace World
variable {I : Type}

/-- The item of the container object. -/
def curItem (W : World I) : Option I := W.items[W.cur]?
/-- A modification of the memory of that item. -/
def setCur (W : World I) (it : I) : World I := { W with items := W.items.set W.cur it }
/-- `hashtable_ = std::move(newHashTable)` / `handle_ = std::move(newHandle)`: attach to a new item
(Map.h:646-647, 757-758; RangeMap.h:793-794). -/
def push (W : World I) (it : I) : World I := { W with items := W.items ++ [it], cur := W.items.length }
/-- `isAccessible()` of the item (Map.h:610, RangeMap.h:790). -/
def accessible (W : World I) : Bool := W.cached == some W.cur
/-- `cache_->insertOrReplace(handle)` (Map.h:655, RangeMap.h:791). -/
def publish (W : World I) : World I := { W with cached := some W.cur }

end World

/-! ## Relating the two -/

structure WRep {I K : Type} (R : I → Contents K → Prop) (W : World I) (w : SpecW K) : Prop where
  len : W.items.length = w.maps.length
  rep : ∀ (i : Nat) (it : I) (m : Contents K), W.items[i]? = some it → w.maps[i]? = some m → R it m
  cur : W.cur = w.cur
  curlt : W.cur < W.items.length
  cached : W.cached = w.cached

namespace WRep
variable {I K : Type} {R : I → Contents K → Prop} {W : World I} {w : SpecW K}

theorem here (h : WRep R W w) : ∃ it, W.curItem = some it ∧ R it w.now := by
  have h1 := List.getElem?_eq_getElem h.curlt
  have hl : w.cur < w.maps.length := by rw [← h.cur, ← h.len]; exact h.curlt
  have h2 := List.getElem?_eq_getElem hl
  refine ⟨_, h1, ?_⟩
  unfold SpecW.now
  rw [h2]
  exact h.rep W.cur _ _ h1 (by rw [h.cur]; exact h2)

theorem setCur (h : WRep R W w) {it : I} {m : Contents K} (hr : R it m) :
    WRep R (W.setCur it) { w with maps := w.maps.set w.cur m } := by
  refine ⟨by simp [World.setCur, h.len], ?_, h.cur, by simpa [World.setCur] using h.curlt, h.cached⟩
  intro i it' m' h1 h2
  simp only [World.setCur] at h1
  rw [List.getElem?_set] at h1 h2
  by_cases hi : W.cur = i
  · rw [if_pos hi] at h1
    rw [if_pos (by rw [← h.cur]; exact hi)] at h2
    split at h1
    · split at h2
      · cases h1; cases h2; exact hr
      · cases h2
    · cases h1
  · rw [if_neg hi] at h1
    rw [if_neg (by rw [← h.cur]; exact hi)] at h2
    exact h.rep i it' m' h1 h2

theorem push (h : WRep R W w) {it : I} {m : Contents K} (hr : R it m) (c : Option Nat) :
    WRep R { W.push it with cached := c } ⟨w.maps ++ [m], w.maps.length, c⟩ := by
  refine ⟨by simp [World.push, h.len], ?_, by simp [World.push, h.len], by simp [World.push], rfl⟩
  intro i it' m' h1 h2
  simp only [World.push] at h1
  dsimp only at h2
  rw [List.getElem?_append] at h1 h2
  rw [h.len] at h1
  split at h1
  · rename_i hi
    rw [if_pos hi] at h2
    exact h.rep i it' m' h1 h2
  · rename_i hi
    rw [if_neg hi] at h2
    rw [List.getElem?_singleton] at h1 h2
    split at h1
    · rename_i h0
      rw [if_pos h0] at h2
      cases h1; cases h2; exact hr
    · cases h1

theorem set_now (h : WRep R W w) : w.maps.set w.cur w.now = w.maps := by
  have hl : w.cur < w.maps.length := by rw [← h.cur, ← h.len]; exact h.curlt
  apply List.ext_getElem?
  intro i
  rw [List.getElem?_set]
  unfold SpecW.now
  by_cases hi : w.cur = i
  · subst hi; rw [if_pos rfl, if_pos hl, List.getElem?_eq_getElem hl]; rfl
  · rw [if_neg hi]

theorem keep (h : WRep R W w) {it : I} (hr : R it w.now) : WRep R (W.setCur it) w := by
  have := h.setCur hr
  rw [h.set_now] at this
  exact this

theorem upd_self (h : WRep R W w) : Upd w w.now w := Or.inl ⟨h.set_now.symm, rfl, rfl⟩

end WRep

/-- The world in which the container has been modified in place, or moved to a new item. -/
def finW {I : Type} (moved : Bool) (W : World I) (it : I) : World I :=
  if moved then { W.push it with cached := if W.accessible then some W.items.length else W.cached } else W.setCur it

theorem finW_rep {I K : Type} {R : I → Contents K → Prop} {W : World I} {w : SpecW K} (h : WRep R W w) (moved : Bool)
    {it : I} {m : Contents K} (hr : R it m) : ∃ w', Upd w m w' ∧ WRep R (finW moved W it) w' := by
  cases moved with
  | false => exact ⟨{ w with maps := w.maps.set w.cur m }, Or.inl ⟨rfl, rfl, rfl⟩, h.setCur hr⟩
  | true =>
    refine ⟨⟨w.maps ++ [m], w.maps.length, if w.cached = some w.cur then some w.maps.length else w.cached⟩,
      Or.inr ⟨rfl, rfl, rfl⟩, ?_⟩
    have := h.push hr (if W.accessible then some W.items.length else W.cached)
    unfold finW
    rw [if_pos rfl]
    have he : (if W.accessible = true then some W.items.length else W.cached) =
        (if w.cached = some w.cur then some w.maps.length else w.cached) := by
      unfold World.accessible
      rw [h.cached, h.cur, h.len]
      simp
    rw [he] at this ⊢
    exact this

end Verif.Datatype
