import Verif.Model.Base
/-!
# The encodings of NIST SP 800-185

Section 2.3 of the standard, on byte strings, written independently of the code.
-/
namespace D1.Spec

/-- `n` is the smallest positive number of bytes that hold `x`. -/
def IsByteCount (x n : Nat) : Prop := 0 < n ∧ x < 256 ^ n ∧ ∀ m, 0 < m → x < 256 ^ m → n ≤ m

/-- The `n` low bytes of `x`, most significant first. -/
def bytesBE (n x : Nat) : Bytes := (List.range n).map fun i => UInt8.ofNat (x / 256 ^ (n - 1 - i))

/-- `left_encode(x)` (2.3.1). -/
def IsLeftEncode (x : Nat) (b : Bytes) : Prop := ∃ n, IsByteCount x n ∧ b = UInt8.ofNat n :: bytesBE n x

/-- `right_encode(x)` (2.3.1). -/
def IsRightEncode (x : Nat) (b : Bytes) : Prop := ∃ n, IsByteCount x n ∧ b = bytesBE n x ++ [UInt8.ofNat n]

/-- `bytepad(X, w)` (2.3.3): `left_encode(w)`, `X`, and as few zero bytes as make the length a multiple of `w`. -/
def IsBytepad (x : Bytes) (w : Nat) (b : Bytes) : Prop :=
  ∃ l k, IsLeftEncode w l ∧ b = l ++ x ++ List.replicate k 0 ∧ b.length % w = 0 ∧ k < w

end D1.Spec
