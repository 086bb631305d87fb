import Verif.NavyDevice.Lemmas
/-
What is claimed of a device, in terms of calls and what they return, and what is expected of its users.
-/
namespace Verif.NavyDevice

/-- A write of the byte `o`, that worked or not. -/
def Ev.touches : Ev → Nat → Prop
  | .wrote off size _ _, o => off ≤ o ∧ o < off + size
  | .didRead _ _ _, _ => False

/-- The last write of byte `o` that returned returned true, and wrote `b` there. -/
def LastWrote (log : List Ev) (o : Nat) (b : Byte) : Prop :=
  ∃ l1 l2 off size data, log = l1 ++ .wrote off size data true :: l2 ∧ off ≤ o ∧ o < off + size ∧ data (o - off) = b ∧
    ∀ e ∈ l1, ¬ e.touches o

/-- The unit that cannot be divided: a byte, or a block of the encryptor. -/
def Cfg.blk (c : Cfg) : Nat := match c.enc with | none => 1 | some e => e.block

/-- Byte `o` is among the `size` bytes from `off`, or in the same unit as one of them. -/
def Cfg.InSpan (c : Cfg) (off size o : Nat) : Prop := ∃ u, off ≤ u ∧ u < off + size ∧ u / c.blk = o / c.blk

/-- No call in progress is on the same bytes, unless both are reads. -/
def World.Free (w : World) (c : Cfg) (wr : Bool) (off size : Nat) : Prop :=
  ∀ id x, w.calls id = some x → (wr = true ∨ x.wr = true) → ∀ o, ¬ (c.InSpan off size o ∧ c.InSpan x.uoff x.usize o)

/-- What users have to keep to: stay within the device, do not start a call on bytes that are being written (nor a write of bytes
that are being read), write whole blocks if there is an encryptor, and do not exceed 32 bits in one go. -/
def Allowed (c : Cfg) (w : World) : Act → Prop
  | .writeBuffer id off size _ | .writeView id off size _ _ =>
      w.calls id = none ∧ off + size ≤ c.size ∧ off % c.blk = 0 ∧ size % c.blk = 0 ∧ (c.maxWrite = 0 → size < 4294967296) ∧
      w.Free c true off size
  | .readBuffer id off size _ =>
      w.calls id = none ∧ off + size ≤ c.size ∧ size + 2 * c.align ≤ 4294967296 ∧ w.Free c false off size
  | .readInto id off size _ =>
      w.calls id = none ∧ off + size ≤ c.size ∧ off % c.align = 0 ∧ size % c.align = 0 ∧ size < 4294967296 ∧ w.Free c false off size
  | _ => True

/-- The states that a device can get to, from any contents of the files. -/
inductive Reach (c : Cfg) : World → Prop
  | init (disk : Nat → Nat → Byte) : Reach c { disk }
  | step {w w' : World} (a : Act) (h : Reach c w) (ha : Allowed c w a) (he : w.exec c a = some w') : Reach c w'

/-- An encryptor that works block by block, with the offset of the block on the device as the salt of the block. -/
structure BlockCipher (e : Encryptor) (E D : Nat → (Nat → Byte) → Nat → Byte) : Prop where
  enc : ∀ v n s r, s % e.block = 0 → n % e.block = 0 → e.enc v n s = some r → ∀ B j, B % e.block = 0 → B + e.block ≤ n → j < e.block →
    r (B + j) = E (s + B) (fun k => v (B + k)) j
  dec : ∀ v n s r, s % e.block = 0 → n % e.block = 0 → e.dec v n s = some r → ∀ B j, B % e.block = 0 → B + e.block ≤ n → j < e.block →
    r (B + j) = D (s + B) (fun k => v (B + k)) j
  inv : ∀ s p q, (∀ k, k < e.block → q k = E s p k) → ∀ k, k < e.block → D s q k = p k
  cong : ∀ s p q, (∀ k, k < e.block → q k = p k) → ∀ k, k < e.block → E s q k = E s p k

/-- A device that was made, as createDevice does (NavySetup.cpp:381-413), with an alignment that is a power of two and a size that
is a multiple of it; sizes are 32 bits, offsets 64. -/
structure Made (c : Cfg) : Prop where
  accepted : c.accepted = true
  pow2 : Pow2 c.align
  files : 0 < c.nfiles
  stripe : c.nfiles > 1 → 0 < c.stripe
  aligned : c.fileSize % c.align = 0
  sizes : c.size < 2 ^ 63 ∧ c.maxIO < 4294967296 ∧ c.maxWrite < 4294967296

end Verif.NavyDevice
