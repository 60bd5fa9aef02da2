import Verif.Model.Val

/-! Independent description of url-safe base64: an alphabet and bit strings. -/

namespace Scheme

/-- RFC 4648 §5. -/
def urlSafeAlphabet : Str := c!"ABCDEFGHIJKLMNOPQRSTUVWXYZabcdefghijklmnopqrstuvwxyz0123456789-_"

/-- The lowest `k` bits of a number, most significant first. -/
def bitsOf : Nat → Nat → List Bool
  | 0, _ => []
  | k + 1, n => (n / 2 ^ k % 2 == 1) :: bitsOf k n

/-- `t` is the url-safe base64 text of `b`: `sextets` written in the alphabet and `pad` signs `=`, where
the bits of the sextets are the bits of the bytes followed by `2 * pad` zero bits, `pad` at most two and
the length a multiple of four. -/
def IsBase64 (b t : List Byte) : Prop :=
  ∃ (sextets : List Nat) (pad : Nat),
    (∀ x ∈ sextets, x < 64) ∧ pad ≤ 2 ∧
    t.map (·.val) = (sextets.map fun x => (urlSafeAlphabet.getD x ' ').toNat) ++ List.replicate pad 61 ∧
    t.length % 4 = 0 ∧
    sextets.flatMap (bitsOf 6) = b.flatMap (fun x => bitsOf 8 x.val) ++ List.replicate (2 * pad) false

end Scheme
