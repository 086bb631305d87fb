/-!
Byte-addressed memory, little-endian integers. Generic vocabulary for the byte-level models; models no
particular file (little-endian layout of integers is a fact about the platforms CacheLib supports).
-/
namespace Verif

/-- A memory: address to byte. -/
abbrev Mem := Nat → UInt8

namespace Mem

/-- `memcpy(dst := o, src, src.size())`. -/
def write (m : Mem) (o : Nat) (bs : List UInt8) : Mem :=
  fun a => if o ≤ a ∧ a < o + bs.length then bs.getD (a - o) 0 else m a

/-- The `n` bytes starting at `o`. -/
def read (m : Mem) (o n : Nat) : List UInt8 := (List.range n).map fun i => m (o + i)

/-- Little-endian encoding of `v` in `n` bytes (`v` is truncated to `n` bytes). -/
def le : Nat → Nat → List UInt8
  | 0, _ => []
  | n + 1, v => UInt8.ofNat (v % 256) :: le n (v / 256)

/-- Value of a little-endian byte list. -/
def ofLe : List UInt8 → Nat
  | [] => 0
  | b :: bs => b.toNat + 256 * ofLe bs

/-- Load of an `n`-byte unsigned integer. -/
def load (m : Mem) (o n : Nat) : Nat := ofLe (m.read o n)

/-- Store of an `n`-byte unsigned integer. -/
def store (m : Mem) (o n v : Nat) : Mem := m.write o (le n v)

@[simp] theorem length_read (m : Mem) (o n) : (m.read o n).length = n := by simp [read]

@[simp] theorem length_le (n v) : (le n v).length = n := by
  induction n generalizing v with
  | zero => rfl
  | succ n ih => simp [le, ih]

theorem ofLe_le_mod (n v) : ofLe (le n v) = v % 256 ^ n := by
  induction n generalizing v with
  | zero => simp [le, ofLe, Nat.mod_one]
  | succ n ih =>
    simp only [le, ofLe, ih]
    have h1 : (UInt8.ofNat (v % 256)).toNat = v % 256 := by
      simp [UInt8.toNat_ofNat']
    rw [h1, Nat.pow_succ, Nat.mul_comm (256 ^ n) 256, Nat.mod_mul]

theorem ofLe_le {n v} (h : v < 256 ^ n) : ofLe (le n v) = v := by
  rw [ofLe_le_mod, Nat.mod_eq_of_lt h]

theorem ofLe_lt (bs : List UInt8) : ofLe bs < 256 ^ bs.length := by
  induction bs with
  | nil => simp [ofLe]
  | cons b bs ih =>
    simp only [ofLe, List.length_cons, Nat.pow_succ]
    have := b.toNat_lt
    omega

theorem read_getElem? (m : Mem) (o n i) : (m.read o n)[i]? = if i < n then some (m (o + i)) else none := by
  simp only [read, List.getElem?_map]
  by_cases h : i < n
  · simp [h]
  · simp [h]

theorem read_congr {m m' : Mem} {o n} (h : ∀ a, o ≤ a → a < o + n → m a = m' a) : m.read o n = m'.read o n := by
  apply List.ext_getElem?
  intro i
  simp only [read_getElem?]
  by_cases hi : i < n
  · simp only [hi, if_true]; rw [h (o + i) (by omega) (by omega)]
  · simp only [hi, if_false]

theorem read_eq_iff {m m' : Mem} {o n} : m.read o n = m'.read o n ↔ ∀ a, o ≤ a → a < o + n → m a = m' a := by
  refine ⟨fun h a h1 h2 => ?_, read_congr⟩
  have := congrArg (fun l => l[a - o]?) h
  simp only [read_getElem?] at this
  rw [if_pos (by omega), if_pos (by omega)] at this
  have e : o + (a - o) = a := by omega
  rw [e] at this
  exact Option.some.inj this

theorem read_write_same (m : Mem) (o) (bs : List UInt8) : (m.write o bs).read o bs.length = bs := by
  apply List.ext_getElem?
  intro i
  simp only [read_getElem?, write]
  by_cases hi : i < bs.length
  · rw [if_pos hi, if_pos (by omega)]
    have : o + i - o = i := by omega
    rw [this]; simp [hi]
  · rw [if_neg hi]; simp [Nat.le_of_not_lt hi]

theorem read_write_same' {m : Mem} {o n} {bs : List UInt8} (h : bs.length = n) : (m.write o bs).read o n = bs := by
  subst h; exact read_write_same ..

theorem write_outside {m : Mem} {o a} {bs : List UInt8} (h : a < o ∨ o + bs.length ≤ a) : m.write o bs a = m a := by
  simp only [write]; rw [if_neg (by omega)]

theorem read_write_disj {m : Mem} {o p n} {bs : List UInt8} (h : p + n ≤ o ∨ o + bs.length ≤ p) :
    (m.write o bs).read p n = m.read p n :=
  read_congr fun a _ _ => write_outside (by omega)

theorem load_store {m : Mem} {o n v} (h : v < 256 ^ n) : (m.store o n v).load o n = v := by
  simp only [load, store]
  rw [read_write_same' (length_le n v), ofLe_le h]

theorem load_write_disj {m : Mem} {o p n} {bs : List UInt8} (h : p + n ≤ o ∨ o + bs.length ≤ p) :
    (m.write o bs).load p n = m.load p n := by
  simp only [load]; rw [read_write_disj h]

theorem load_store_disj {m : Mem} {o p n k v} (h : p + n ≤ o ∨ o + k ≤ p) :
    (m.store o k v).load p n = m.load p n := by
  simp only [store]; exact load_write_disj (by simpa using h)

theorem read_store_disj {m : Mem} {o p n k v} (h : p + n ≤ o ∨ o + k ≤ p) :
    (m.store o k v).read p n = m.read p n := by
  simp only [store]; exact read_write_disj (by simpa using h)

theorem store_outside {m : Mem} {o k v a} (h : a < o ∨ o + k ≤ a) : m.store o k v a = m a := by
  simp only [store]; exact write_outside (by simpa using h)

theorem load_lt (m : Mem) (o n) : m.load o n < 256 ^ n := by
  have := ofLe_lt (m.read o n); simpa [load] using this

theorem read_append (m : Mem) (o a b) : m.read o (a + b) = m.read o a ++ m.read (o + a) b := by
  apply List.ext_getElem?
  intro i
  simp only [read_getElem?, List.getElem?_append, length_read]
  by_cases h : i < a
  · rw [if_pos (by omega), if_pos h, if_pos h]
  · rw [if_neg h]
    by_cases h2 : i < a + b
    · rw [if_pos h2, if_pos (by omega)]
      have : o + a + (i - a) = o + i := by omega
      rw [this]
    · rw [if_neg h2, if_neg (by omega)]

theorem read_sub {m : Mem} {o n k l} (h : k + l ≤ n) : m.read (o + k) l = ((m.read o n).drop k).take l := by
  apply List.ext_getElem?
  intro i
  simp only [read_getElem?, List.getElem?_take, List.getElem?_drop]
  by_cases hi : i < l
  · rw [if_pos hi, if_pos hi, if_pos (by omega), Nat.add_assoc]
  · rw [if_neg hi, if_neg hi]

theorem take_read {m : Mem} {o n k} (h : k ≤ n) : (m.read o n).take k = m.read o k := by
  have := read_sub (m := m) (o := o) (n := n) (k := 0) (l := k) (by omega)
  simpa using this.symm

theorem drop_read {m : Mem} {o n k} (h : k ≤ n) : (m.read o n).drop k = m.read (o + k) (n - k) := by
  have := read_sub (m := m) (o := o) (n := n) (k := k) (l := n - k) (by omega)
  rw [this, List.take_of_length_le (by simp)]

/-- Reading a range into which a write fell. -/
theorem read_write_inside {m : Mem} {o k n} {bs : List UInt8} (h : k + bs.length ≤ n) :
    (m.write (o + k) bs).read o n = (m.read o n).take k ++ bs ++ (m.read o n).drop (k + bs.length) := by
  rw [take_read (by omega), drop_read h]
  conv => lhs; rw [show n = k + bs.length + (n - (k + bs.length)) by omega]
  rw [read_append, read_append, read_write_disj (by omega), read_write_same, read_write_disj (by omega)]

/-- Two adjacent writes are one. -/
theorem write_write_adj (m : Mem) (o : Nat) (a b : List UInt8) : (m.write o a).write (o + a.length) b = m.write o (a ++ b) := by
  funext x
  simp only [write, List.length_append, List.getD_eq_getElem?_getD]
  by_cases h1 : o ≤ x ∧ x < o + a.length
  · rw [if_neg (by omega), if_pos h1, if_pos (by omega), List.getElem?_append_left (by omega)]
  · by_cases h2 : o + a.length ≤ x ∧ x < o + a.length + b.length
    · rw [if_pos h2, if_pos (by omega), List.getElem?_append_right (by omega), Nat.sub_add_eq]
    · rw [if_neg h2, if_neg h1, if_neg (by omega)]

theorem write_write_adj' {m : Mem} {o p : Nat} {a b : List UInt8} (h : p = o + a.length) :
    (m.write o a).write p b = m.write o (a ++ b) := by subst h; exact write_write_adj ..

end Mem
end Verif
