import Mathlib.Algebra.Polynomial.Div
import Mathlib.Algebra.Polynomial.BigOperators
import Mathlib.Algebra.Field.ZMod
import Mathlib.Data.Nat.Digits.Defs
import Mathlib.Algebra.CharP.Two
import Verif.Cksum.Model

/-!
# Specification of the POSIX checksum

POSIX (cksum, "The encoding for the CRC checksum"): the message, followed by its length as octets,
least significant first, is read as a polynomial over GF(2), first bit = highest degree; it is
multiplied by x^32 and divided by G(x); the checksum is the complement of the remainder.
-/

namespace Cksum
open Go Polynomial

/-- The generator of ISO/IEC 8802-3. -/
noncomputable def G : (ZMod 2)[X] :=
  X ^ 32 + X ^ 26 + X ^ 23 + X ^ 22 + X ^ 16 + X ^ 12 + X ^ 11 + X ^ 10 + X ^ 8 + X ^ 7 + X ^ 5 + X ^ 4 +
    X ^ 2 + X + 1

/-- The polynomial whose coefficient of X^i is bit `i` (0 = least significant). -/
noncomputable def bitsPoly {w : Nat} (v : BitVec w) : (ZMod 2)[X] :=
  ∑ i ∈ Finset.range w, if v.getLsbD i then X ^ i else 0

/-- A string of octets as one polynomial, the first octet having the highest degrees. -/
noncomputable def octetsPoly : Bytes → (ZMod 2)[X]
  | [] => 0
  | c :: cs => bitsPoly c.toBitVec * X ^ (8 * cs.length) + octetsPoly cs

/-- A length as octets, least significant first, using the smallest number of octets. -/
def lengthOctets (n : Nat) : Bytes := (Nat.digits 256 n).map UInt8.ofNat

end Cksum
