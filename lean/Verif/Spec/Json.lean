import Verif.Spec.YamlOut
import Verif.Props.Equiv
import Verif.Model.Json
/-
Specification of the values which survive being written as JSON and read as YAML.
-/
namespace Spiff.Spec

/-- characters read by the YAML reader as they are, or written with an escape sequence: not U+007F to U+009F, U+FFFE and U+FFFF -/
def JsonSafeC (c : Char) : Prop := c.toNat < 0x7F ∨ (0xA0 ≤ c.toNat ∧ c.toNat ≠ 0xFFFE ∧ c.toNat ≠ 0xFFFF)

variable {E : Type}

/-- data with admissible numbers and characters, and not too long keys; a document is not a word for null -/
structure JsonWritable (X : YLib) (J : Nat → List Char) (n : Node E) : Prop where
  data : OnlyData n
  maps : GoMaps n
  ints : ∀ p x, locate n p = some x → ∀ i : Int, x.val = .int i → -(2^63) ≤ i ∧ i < 2^63
  floats : ∀ p x, locate n p = some x → ∀ b, x.val = .float b →
    isNaN b = false ∧ b ≠ 0x7FF0000000000000 ∧ b ≠ 0xFFF0000000000000 ∧ FloatWritten X J b
  texts : ∀ p x, locate n p = some x → ∀ s : String, x.val = .str s → ∀ c ∈ s.toList, JsonSafeC c
  keys : ∀ p x, locate n p = some x → ∀ m, x.val = .map m → ∀ e ∈ m,
    (∀ c ∈ e.1.toList, JsonSafeC c) ∧ (jsonQuote e.1.toList).length ≤ 1024
  root : ∀ s : String, n.val = .str s → s ∉ ["~", "null", "Null", "NULL"]

end Spiff.Spec
