import Verif.Spec.YamlScalar
import Verif.Spec.Yaml
import Verif.Spec.Agree
import Verif.Spec.Data
import Verif.Model.YamlOut
/-
Specification of writing YAML: texts which may be written without quotes, and what is required of the texts of numbers.
-/
namespace Spiff.Spec

/-- printable ASCII -/
def AsciiC (c : Char) : Prop := 32 ≤ c.toNat ∧ c.toNat ≤ 126

/-- a text which can be written without quotes (outside of flow collections) -/
structure PlainText (s : List Char) : Prop where
  /-- printable ASCII only; in particular one line -/
  printable : ∀ c ∈ s, AsciiC c
  /-- no space at the begin -/
  begin : ∀ r, s ≠ ' ' :: r
  /-- no space at the end -/
  ending : ∀ r, s ≠ r ++ [' ']
  /-- no comment -/
  comment : ∀ a b, s ≠ a ++ ' ' :: '#' :: b
  /-- no key -/
  key : ∀ a b, s ≠ a ++ ':' :: ' ' :: b
  /-- no key at the end -/
  keyEnd : ∀ a, s ≠ a ++ [':']
  /-- no special character at the begin -/
  indicator : ∀ c r, s = c :: r → c ∉ ['#', ',', '[', ']', '{', '}', '&', '*', '!', '|', '>', '\'', '"', '%', '@', '`']
  /-- no list element, key or value -/
  entry : ∀ c r, s = c :: r → c = '-' ∨ c = '?' ∨ c = ':' → r ≠ [] ∧ r.head? ≠ some ' '
  /-- no begin or end of a document -/
  marker : ∀ r, s ≠ '-' :: '-' :: '-' :: r ∧ s ≠ '.' :: '.' :: '.' :: r

/-- the shape of the texts of numbers: digits, signs, dot and exponent, beginning with a digit, or minus and a digit -/
def NumberShape (s : List Char) : Prop :=
  ∃ sg d r, s = sg ++ d :: r ∧ (sg = [] ∨ sg = ['-']) ∧ ('0' ≤ d ∧ d ≤ '9') ∧ ∀ c ∈ r, c ∈ "0123456789+-.e".toList

/-- what is required of the text of a finite number: it is the text of this number, and not the one of an integer -/
structure FloatWritten (X : YLib) (F : Nat → List Char) (b : Nat) : Prop where
  shape : NumberShape (F b)
  same : FloatText X (F b) b
  noInt : ∀ i, ¬ IntegerText (F b) i

variable {E : Type}

/-- integers are within 64 bits and floating point numbers can be written -/
def NumbersOk (X : YLib) (F : Nat → List Char) (n : Node E) : Prop := ∀ p x, locate n p = some x →
  (∀ i : Int, x.val = .int i → -(2^63) ≤ i ∧ i < 2^63) ∧
  (∀ b, x.val = .float b → b = 0x7FF0000000000000 ∨ b = 0xFFF0000000000000 ∨ FloatWritten X F b)

end Spiff.Spec
