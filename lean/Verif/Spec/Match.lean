import Verif.Model.Match
import Mathlib.Data.List.Forall2
/-
Specification of the function `match` (C104).
-/
namespace Spiff.Spec
variable {R E : Type}

/-- the text of a value which can be matched -/
inductive MatchText : Val E → String → Prop
  | text (s : String) : MatchText (.str s) s
  | number (i : Int) : MatchText (.int i) (toString i)
  | yes : MatchText (.bool true) "true"
  | no : MatchText (.bool false) "false"

/-- which matches are asked for -/
inductive MatchAsk where
  /-- the texts of the first match -/
  | texts
  /-- a list of at most so many matches -/
  | upTo (n : Nat)
  /-- a list of all matches -/
  | every

/-- the optional third argument -/
inductive MatchAsked : List (Val E) → MatchAsk → Prop
  | none : MatchAsked [] .texts
  | count (n : Nat) (h : 0 < n) : MatchAsked [.int n] (.upTo n)
  | negative (i : Int) (h : i < 0) : MatchAsked [.int i] .every
  | yes : MatchAsked [.bool true] .every
  | no : MatchAsked [.bool false] (.upTo 1)

/-- a value is the list of these texts -/
def TextList (l : List String) (v : Val E) : Prop := ∃ ns : List (Node E), v = .list ns ∧ ns.map Node.val = l.map Val.str

/-- a value is the list of these matches, each the list of its texts -/
def MatchList (ms : List (List String)) (v : Val E) : Prop := ∃ ns : List (Node E), v = .list ns ∧ List.Forall₂ (fun m n => TextList m n.val) ms ns

/-- the answer for a text with the matches `ms` (each the text of the match, followed by the texts of the groups) -/
def MatchAnswer (ms : List (List String)) : MatchAsk → Val E → Prop
  | .texts, r => TextList (ms.headD []) r
  | .upTo n, r => MatchList (ms.take n) r
  | .every, r => MatchList ms r

/-- What is assumed of Go's package: all functions look for the same matches. -/
structure RegLaws (L : RegLib R) (ms : R → String → List (List String)) : Prop where
  first : ∀ re t, L.first re t = (ms re t).headD []
  count : ∀ re t (n : Nat), L.find re t n = (ms re t).take n
  all : ∀ re t (i : Int), i < 0 → L.find re t i = ms re t

end Spiff.Spec
