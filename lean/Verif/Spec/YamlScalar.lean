import Verif.Model.Yaml
/-
Specification of the meaning of plain YAML scalars (YAML 1.1 with the deviations of the library): which texts are null, booleans, integers,
floating point numbers, timestamps; all others are strings.
-/
namespace Spiff.Spec

/-- a digit: `0`-`9`, `a`-`z` and `A`-`Z` for values from 10 on -/
inductive DigitOf : Char → Nat → Prop
  | dec (d : Nat) (h : d < 10) : DigitOf (Char.ofNat (48 + d)) d
  | lower (d : Nat) (h : d < 26) : DigitOf (Char.ofNat (97 + d)) (10 + d)
  | upper (d : Nat) (h : d < 26) : DigitOf (Char.ofNat (65 + d)) (10 + d)

/-- a numeral in base `b` -/
inductive Numeral (b : Nat) : List Char → Nat → Prop
  | one (c : Char) (d : Nat) (h : DigitOf c d) (hd : d < b) : Numeral b [c] d
  | more (ds : List Char) (n : Nat) (c : Char) (d : Nat) (hn : Numeral b ds n) (h : DigitOf c d) (hd : d < b) : Numeral b (ds ++ [c]) (n * b + d)

/-- the notations of natural numbers: decimal without leading zero, `0b`, `0o`, `0x` with binary, octal, hexadecimal digits, and octal digits
after a leading zero -/
inductive Magnitude : List Char → Nat → Prop
  | zero : Magnitude ['0'] 0
  | decimal (t : List Char) (n : Nat) (h : Numeral 10 t n) (h0 : t.head? ≠ some '0') : Magnitude t n
  | binary (c : Char) (t : List Char) (n : Nat) (hc : c = 'b' ∨ c = 'B') (h : Numeral 2 t n) : Magnitude ('0' :: c :: t) n
  | octal (c : Char) (t : List Char) (n : Nat) (hc : c = 'o' ∨ c = 'O') (h : Numeral 8 t n) : Magnitude ('0' :: c :: t) n
  | hex (c : Char) (t : List Char) (n : Nat) (hc : c = 'x' ∨ c = 'X') (h : Numeral 16 t n) : Magnitude ('0' :: c :: t) n
  | leadingZero (t : List Char) (n : Nat) (h : Numeral 8 t n) : Magnitude ('0' :: t) n

/-- the text without underscores -/
def Unscored (s t : List Char) : Prop := t = s.filter (· ≠ '_')

/-- the notations of integers: an optional sign, underscores are ignored, and the number must fit into 64 bits -/
inductive IntegerText (s : List Char) : Int → Prop
  | pos (t : List Char) (n : Nat) (hp : Unscored s t) (h : Magnitude t n) (hr : (n : Int) < 2^63) : IntegerText s n
  | plus (t : List Char) (n : Nat) (hp : Unscored s ('+' :: t)) (h : Magnitude t n) (hr : (n : Int) < 2^63) : IntegerText s n
  | minus (t : List Char) (n : Nat) (hp : Unscored s ('-' :: t)) (h : Magnitude t n) (hr : (n : Int) ≤ 2^63) : IntegerText s (-n)

/-- a text beginning with a sign -/
def Signed (s : List Char) : Prop := ∃ c r, s = c :: r ∧ (c = '-' ∨ c = '+')

/-- a text beginning with a digit -/
def StartsDigit (s : List Char) : Prop := ∃ c r, s = c :: r ∧ '0' ≤ c ∧ c ≤ '9'

/-- equal up to upper and lower case -/
def SameWord (s : List Char) (w : String) : Prop := s.map goLower = w.toList

/-- the notations of floating point numbers after the sign -/
inductive FloatMagnitude (X : YLib) (neg : Bool) (s : List Char) : Nat → Prop
  | inf (h : SameWord s ".inf") : FloatMagnitude X neg s (if neg then 0xFFF0000000000000 else 0x7FF0000000000000)
  | nan (h : SameWord s ".nan") : FloatMagnitude X neg s 0x7FF8000000000001
  | number (b : Nat) (h : X.parseFloat s = some b) (hi : ¬ SameWord s ".inf") (hn : ¬ SameWord s ".nan") :
      FloatMagnitude X neg s (if neg then floatNeg b else b)

/-- the notations of floating point numbers -/
inductive FloatText (X : YLib) (s : List Char) : Nat → Prop
  | pos (t : List Char) (b : Nat) (hp : Unscored s t) (hs : ¬ Signed t) (h : FloatMagnitude X false t b) : FloatText X s b
  | plus (t : List Char) (b : Nat) (hp : Unscored s ('+' :: t)) (h : FloatMagnitude X false t b) : FloatText X s b
  | minus (t : List Char) (b : Nat) (hp : Unscored s ('-' :: t)) (h : FloatMagnitude X true t b) : FloatText X s b

/-- null: nothing, or one of four words -/
def NullText (s : List Char) : Prop := s = [] ∨ s ∈ ["~", "null", "Null", "NULL"].map String.toList

/-- booleans: `y`, `yes`, `true`, `on` and `n`, `no`, `false`, `off` in any case -/
inductive BoolText (s : List Char) : Bool → Prop
  | yes (w : String) (hw : w ∈ ["y", "yes", "true", "on"]) (h : SameWord s w) : BoolText s true
  | no (w : String) (hw : w ∈ ["n", "no", "false", "off"]) (h : SameWord s w) : BoolText s false

/-- may be a number: begins with a sign or a digit -/
def NumberLike (s : List Char) : Prop := Signed s ∨ StartsDigit s

/-- may be a floating point number: begins with a sign, a digit or a dot -/
def FloatLike (s : List Char) : Prop := NumberLike s ∨ ∃ r, s = '.' :: r

/-- the data a plain text without tag stands for -/
inductive PlainMeans (X : YLib) (s : List Char) : Data → Prop
  | null (h : NullText s) : PlainMeans X s .nil
  | bool (b : Bool) (h : BoolText s b) : PlainMeans X s (.bool b)
  | int (i : Int) (hl : NumberLike s) (h : IntegerText s i) : PlainMeans X s (.num .int64 i)
  | float (b : Nat) (hl : FloatLike s) (hi : NumberLike s → ∀ i, ¬ IntegerText s i) (h : FloatText X s b) : PlainMeans X s (.float b)
  | time (t : Time) (hl : StartsDigit s) (hi : ∀ i, ¬ IntegerText s i) (hf : ∀ b, ¬ FloatText X s b) (h : X.time s = some t) : PlainMeans X s (.time t)
  | text (hn : ¬ NullText s) (hb : ∀ b, ¬ BoolText s b) (hi : NumberLike s → ∀ i, ¬ IntegerText s i) (hf : FloatLike s → ∀ b, ¬ FloatText X s b)
      (ht : StartsDigit s → X.time s = none) : PlainMeans X s (.str (String.ofList s))

end Spiff.Spec
