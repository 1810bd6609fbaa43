import Verif.Model.YamlText
/-
Specification of what surrounds the text of a scalar in a written document.
-/
namespace Spiff.Spec

/-- a line beginning or ending a document -/
def DocumentLine (r : List Char) : Prop :=
  ∃ m r', (m = "---".toList ∨ m = "...".toList) ∧ r = m ++ r' ∧ (r' = [] ∨ r'.head? = some ' ' ∨ r'.head? = some '\n')

/-- the next line after a scalar belonging to a collection in column `level` (-1: to none): it has `k` spaces and the text `r`, it is not deeper
than the collection, or there is no further line, or a document begins or ends -/
structure NextLine (level : Int) (k : Nat) (r : List Char) : Prop where
  /-- `r` begins with something visible -/
  visible : ∀ c r', r = c :: r' → c ≠ ' ' ∧ c ≠ '\t' ∧ c ≠ '\u0000' ∧ c ∉ ['\n', '\r', '\u0085', '\u2028', '\u2029']
  outside : (k : Int) ≤ level ∨ (k = 0 ∧ r = []) ∨ (k = 0 ∧ DocumentLine r)

/-- a line break follows all scalars, except for multi-line texts ending with one -/
def lineEnd (st : YStyle) (s : List Char) : List Char := if st = .literal ∧ s.getLast? = some '\n' then [] else ['\n']

/-- only blanks and line breaks are skipped in front of the remaining text -/
def Remains (rest text : List Char) : Prop := ∃ b, (∀ c ∈ b, c = ' ' ∨ c = '\n') ∧ text = b ++ rest

/-- the style asked for: texts written plainly if possible are lines, and not empty -/
def Asked (s : List Char) : YStyle → Prop
  | .plain => s ≠ [] ∧ '\n' ∉ s
  | .double => True
  | .literal => True
  | .single => False

end Spiff.Spec
