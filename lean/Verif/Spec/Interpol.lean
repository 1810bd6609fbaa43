import Verif.Model.Interp
/-
Specification of string interpolation: a string is a sequence of text parts, escaped
expressions and expressions.
-/
namespace Spiff.Spec

inductive Part where
  /-- literal text -/
  | text (t : List Char)
  /-- `((!body))` -/
  | esc (body : List Char)
  /-- `((body))` -/
  | ex (body : List Char)
deriving DecidableEq, Repr

/-- the source text -/
def Part.render : Part → List Char
  | .text t => t
  | .esc b => '(' :: '(' :: '!' :: b ++ [')', ')']
  | .ex b => '(' :: '(' :: b ++ [')', ')']

/-- the literal text a part stands for; `un`: one level of escaping is removed -/
def Part.literal (un : Bool) : Part → List Char
  | .text t => t
  | .esc b => if un then '(' :: '(' :: b ++ [')', ')'] else '(' :: '(' :: '!' :: b ++ [')', ')']
  | .ex _ => []

def Part.isEx : Part → Bool | .ex _ => true | _ => false

def renderParts (ps : List Part) : List Char := (ps.map Part.render).flatten

/-- a non-empty literal as string constant -/
def litPiece (quote : List Char → List Char) (p : List Char) : List (List Char) := if p = [] then [] else [quote p]

/-- the operands of the resulting concatenation in source order: maximal literals as
string constants and parenthesized expressions -/
def pieces (quote : List Char → List Char) (un : Bool) : List Part → List Char → List (List Char)
  | [], pending => litPiece quote pending
  | .ex b :: r, pending => litPiece quote pending ++ ("( ".toList ++ trimSpace b ++ " )".toList) :: pieces quote un r []
  | p :: r, pending => pieces quote un r (pending ++ p.literal un)

/-- operands separated by single blanks -/
def blankSep : List (List Char) → List Char
  | [] => []
  | [p] => p
  | p :: r => p ++ ' ' :: blankSep r

/-- content of a quoted string: a quote or backslash is preceded by a backslash -/
inductive Quoted : List Char → Prop
  | nil : Quoted []
  | char (c : Char) (r : List Char) (h : c ≠ '"' ∧ c ≠ '\\') (hr : Quoted r) : Quoted (c :: r)
  | masked (c : Char) (r : List Char) (hr : Quoted r) : Quoted ('\\' :: c :: r)

/-- text with balanced parentheses outside of quoted strings -/
inductive Balanced : List Char → Prop
  | nil : Balanced []
  | char (c : Char) (r : List Char) (h : c ≠ '(' ∧ c ≠ ')' ∧ c ≠ '"') (hr : Balanced r) : Balanced (c :: r)
  | paren (b r : List Char) (hb : Balanced b) (hr : Balanced r) : Balanced ('(' :: b ++ ')' :: r)
  | quoted (q r : List Char) (hq : Quoted q) (hr : Balanced r) : Balanced ('"' :: q ++ '"' :: r)

/-- no `((` in the text -/
def NoOpen : List Char → Prop
  | '(' :: '(' :: _ => False
  | _ :: r => NoOpen r
  | [] => True

/-- an expression body: starts with a character that is neither parenthesis nor quote, and is balanced -/
def GoodBody (b : List Char) : Prop := ∃ c r, b = c :: r ∧ c ≠ '(' ∧ c ≠ ')' ∧ c ≠ '"' ∧ Balanced r

/-- texts do not contain `((` and are never adjacent; bodies are balanced and expressions are not escaped -/
def WellFormed : List Part → Prop
  | [] => True
  | .text t :: r => NoOpen t ∧ (∀ t' r', r ≠ .text t' :: r') ∧ WellFormed r
  | .esc b :: r => Balanced b ∧ WellFormed r
  | .ex b :: r => GoodBody b ∧ b.head? ≠ some '!' ∧ WellFormed r

end Spiff.Spec
