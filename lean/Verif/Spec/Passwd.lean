import Verif.Model.Ops
import Mathlib.Data.Nat.Digits.Defs
/-
Specification of the password hashes (C98): the algorithm of the Apache `apr1` hashes and of the MD5 hashes of crypt(3).
-/
namespace Spiff.Spec

/-- the bytes of an ASCII text -/
def textBytes (s : String) : List UInt8 := s.toList.map (fun c => UInt8.ofNat c.toNat)

/-- the characters of a hash, in the order of their values 0 to 63 -/
def hashLetters : List UInt8 := textBytes "./0123456789ABCDEFGHIJKLMNOPQRSTUVWXYZabcdefghijklmnopqrstuvwxyz"

/-- the order in which the 16 bytes of a digest are written -/
def hashOrder : List Nat := [12, 6, 0, 13, 7, 1, 14, 8, 2, 15, 9, 3, 5, 10, 4, 11]

/-- the character written for the value `v` -/
def hashLetter (v : Nat) : UInt8 := hashLetters.getD v 0

/-- `out` are 22 characters whose values are the digits, to the base 64 and starting with the lowest one, of the number whose digits to the base 256 are the
bytes of the digest in their order -/
def DigestText (digest out : List UInt8) : Prop :=
  ∃ ds : List Nat, ds.length = 22 ∧ (∀ d ∈ ds, d < 64) ∧ out = ds.map hashLetter ∧
    Nat.ofDigits 64 ds = Nat.ofDigits 256 (hashOrder.map (fun i => (digest.getD i 0).toNat))

/-- the digest of a password: the sum of the password, the mark of the method, the salt, as many bytes of the sum `mix` of password, salt and password as the
password has (repeated if needed), and a byte for each bit of the length of the password (0 for a 1, the first byte of the password for a 0), put through 1000
rounds -/
def HashDigest (md5 : List UInt8 → List UInt8) (password salt magic digest : List UInt8) : Prop :=
  ∃ (mix stretched marks : List UInt8) (state : Nat → List UInt8),
    mix = md5 (password ++ salt ++ password) ∧
    stretched.length = password.length ∧ (∀ i (h : i < stretched.length), mix[i % 16]? = some stretched[i]) ∧
    List.Forall₂ (fun b m => if b = 1 then m = 0 else password.head? = some m) (Nat.digits 2 password.length) marks ∧
    state 0 = md5 (password ++ magic ++ salt ++ stretched ++ marks) ∧
    (∀ i < 1000, state (i + 1) = md5 (if i % 2 = 0
      then state i ++ (if 3 ∣ i then [] else salt) ++ (if 7 ∣ i then [] else password) ++ password
      else password ++ (if 3 ∣ i then [] else salt) ++ (if 7 ∣ i then [] else password) ++ state i)) ∧
    digest = state 1000

/-- the hash of a password: `$name$salt$digest` -/
def HashOf (md5 : List UInt8 → List UInt8) (password name salt out : List UInt8) : Prop :=
  ∃ digest text, HashDigest md5 password salt (textBytes "$" ++ name ++ textBytes "$") digest ∧ DigestText digest text ∧
    out = textBytes "$" ++ name ++ textBytes "$" ++ salt ++ textBytes "$" ++ text

end Spiff.Spec
