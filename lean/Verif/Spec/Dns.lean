import Verif.Model.Node
/-
Specification for C71: syntax of DNS names.
-/
namespace Spiff.Spec

/-- a lower case letter or a digit -/
def LowerOrDigit (c : Char) : Prop := ('a' ≤ c ∧ c ≤ 'z') ∨ ('0' ≤ c ∧ c ≤ '9')

/-- A label: a non-empty text of lower case letters, digits and dashes that neither starts nor ends with a dash. -/
def DnsLabel (s : List Char) : Prop :=
  s ≠ [] ∧ (∀ c ∈ s, LowerOrDigit c ∨ c = '-') ∧ s.head? ≠ some '-' ∧ s.getLast? ≠ some '-'

/-- A domain: labels separated by dots. -/
def DnsDomain (s : List Char) : Prop := ∃ (l : List Char) (ls : List (List Char)), DnsLabel l ∧ (∀ x ∈ ls, DnsLabel x) ∧ s = l ++ (ls.map ('.' :: ·)).flatten

/-- A wildcard domain: `*.` followed by a domain. -/
def DnsWildcard (s : List Char) : Prop := ∃ d, DnsDomain d ∧ s = '*' :: '.' :: d

end Spiff.Spec
