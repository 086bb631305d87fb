import Verif.Bytes.Props
/-
C67: examples.
-/
namespace Verif.Bytes

example : bytesEqual [1, 2, 3, 4, 5, 6, 7, 8, 9, 10, 11, 12, 13, 14, 15] [1, 2, 3, 4, 5, 6, 7, 8, 9, 10, 11, 12, 13, 14, 15] 15 = some true := by
  rw [bytesEqual_exact (by decide) (by decide)]; decide
example : bytesEqual [1, 2, 3, 4, 5, 6, 7, 8, 9, 10, 11, 12, 13, 14, 15] [1, 2, 3, 4, 5, 6, 7, 8, 9, 10, 11, 12, 13, 14, 16] 15 = some false := by
  rw [bytesEqual_exact (by decide) (by decide)]; decide
example : bytesEqual [] [] 0 = some true := by
  rw [bytesEqual_exact (by decide) (by decide)]; decide
example (n : Nat) (l : List UInt8) (h : l.length = n) : bytesEqual l l n = some true := by
  rw [bytesEqual_exact (by omega) (by omega)]; simp
example : keyEq [1, 2, 3] [1, 2, 3, 4] = some false := by rw [keyEq_exact]; decide

end Verif.Bytes
