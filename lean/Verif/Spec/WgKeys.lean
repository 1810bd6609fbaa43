import Verif.Model.WgKeys
import Mathlib.Data.Nat.Digits.Defs
/-
Specification of the WireGuard keys (C100).
-/
namespace Spiff.Spec

/-- the letters of base64, in the order of their values -/
def base64Letters : List Char := "ABCDEFGHIJKLMNOPQRSTUVWXYZabcdefghijklmnopqrstuvwxyz0123456789+/".toList

/-- The text of a key of 32 bytes: the 256 bits, followed by two zero bits, as 43 letters of 6 bits, highest bits first, and an equals sign. -/
def KeyText (k : List UInt8) (s : String) : Prop :=
  k.length = 32 ∧ ∃ ds : List Nat, ds.length = 43 ∧ (∀ d ∈ ds, d < 64) ∧ s.toList = ds.map (fun d => base64Letters.getD d '?') ++ ['='] ∧
    Nat.ofDigits 64 ds.reverse = 4 * Nat.ofDigits 256 (k.map UInt8.toNat).reverse

/-- the number meant by the bytes of a key, lowest byte first -/
def scalar (k : List UInt8) : Nat := Nat.ofDigits 256 (k.map UInt8.toNat)

/-- The private key made of random bytes: bit 254 is the highest one, the lowest three bits are 0 and all others are taken from the random bytes. -/
def PrivateOf (random k : List UInt8) : Prop :=
  k.length = 32 ∧ scalar k < 2 ^ 256 ∧ ∀ i < 256, (scalar k).testBit i = (decide (i = 254) || (decide (3 ≤ i) && decide (i < 254) && (scalar random).testBit i))

end Spiff.Spec
