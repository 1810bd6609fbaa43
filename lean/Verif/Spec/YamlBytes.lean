import Verif.Model.Files
/-
Specification of UTF-8 (RFC 3629), and of the characters which are allowed in YAML texts.
-/
namespace Spiff.Spec

/-- the octets of a character -/
def utf8Octets (c : Char) : List Nat :=
  if c.toNat < 0x80 then [c.toNat]
  else if c.toNat < 0x800 then [0xC0 + c.toNat / 64, 0x80 + c.toNat % 64]
  else if c.toNat < 0x10000 then [0xE0 + c.toNat / 4096, 0x80 + c.toNat / 64 % 64, 0x80 + c.toNat % 64]
  else [0xF0 + c.toNat / 262144, 0x80 + c.toNat / 4096 % 64, 0x80 + c.toNat / 64 % 64, 0x80 + c.toNat % 64]

/-- the bytes of a text -/
def encodedUtf8 (t : List Char) : Bytes := (t.flatMap utf8Octets).map UInt8.ofNat

/-- the characters allowed in YAML texts -/
def YamlC (c : Char) : Prop :=
  c = '\t' ∨ c = '\n' ∨ c = '\r' ∨ (0x20 ≤ c.toNat ∧ c.toNat ≤ 0x7E) ∨ c.toNat = 0x85 ∨ (0xA0 ≤ c.toNat ∧ c.toNat ≠ 0xFFFE ∧ c.toNat ≠ 0xFFFF)

/-- the input begins with a byte order mark -/
def ByteOrderMarked (b : Bytes) : Prop :=
  ∃ r, b = 0xFF :: 0xFE :: r ∨ b = 0xFE :: 0xFF :: r ∨ b = 0xEF :: 0xBB :: 0xBF :: r

end Spiff.Spec
