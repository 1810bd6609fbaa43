/-
Parsing expression grammars: the meaning of the code generated by github.com/pointlander/peg for dynaml/dynaml.peg
(dynaml/dynaml.peg.go). The generated functions are recursive descent with backtracking: every alternative starts at the saved position
and token index; a rule that matches adds a token for the matched text behind the tokens of its parts (`add`, dynaml.peg.go:678-686).
-/
namespace Spiff

/-- The operators of a grammar: empty, `.`, a character, a character range, sequence, `/`, `*`, `!`, and a rule.
`e?` is `alt e eps`, `e+` is `seq e (star e)`. -/
inductive Peg (R : Type) where
  | eps
  | any
  | chr (c : Char)
  | rng (lo hi : Char)
  | seq (a b : Peg R)
  | alt (a b : Peg R)
  | star (a : Peg R)
  | neg (a : Peg R)
  | nt (r : R)
deriving DecidableEq

/-- dynaml.peg.go:292-295 `token32`: the rule and the matched text (`Buffer[begin:end]` for ASCII sources, see `contents_ascii`) -/
structure Tok (R : Type) where
  rule : R
  text : List Char
deriving DecidableEq

/-- A match: tokens, matched text, remaining text. `none`: no match. -/
abbrev PRes (R : Type) := Option (List (Tok R) × List Char × List Char)

variable {R : Type}

/-- `Parses g p s r`: trying `p` at the beginning of `s` has the result `r`. dynaml.peg.go:716 ff, the generated code; `g` gives the
right hand sides of the rules. -/
inductive Parses (g : R → Peg R) : Peg R → List Char → PRes R → Prop
  | eps (s) : Parses g .eps s (some ([], [], s))
  | any_ok (c s) : Parses g .any (c :: s) (some ([], [c], s))
  | any_end : Parses g .any [] none
  | chr_ok (c s) : Parses g (.chr c) (c :: s) (some ([], [c], s))
  | chr_no {c d s} (h : d ≠ c) : Parses g (.chr c) (d :: s) none
  | chr_end (c) : Parses g (.chr c) [] none
  | rng_ok {lo hi c s} (h : lo ≤ c ∧ c ≤ hi) : Parses g (.rng lo hi) (c :: s) (some ([], [c], s))
  | rng_no {lo hi c s} (h : ¬ (lo ≤ c ∧ c ≤ hi)) : Parses g (.rng lo hi) (c :: s) none
  | rng_end (lo hi) : Parses g (.rng lo hi) [] none
  | seq_ok {a b s t1 c1 s1 t2 c2 s2} (h1 : Parses g a s (some (t1, c1, s1))) (h2 : Parses g b s1 (some (t2, c2, s2))) :
      Parses g (.seq a b) s (some (t1 ++ t2, c1 ++ c2, s2))
  | seq_no1 {a b s} (h1 : Parses g a s none) : Parses g (.seq a b) s none
  | seq_no2 {a b s t1 c1 s1} (h1 : Parses g a s (some (t1, c1, s1))) (h2 : Parses g b s1 none) : Parses g (.seq a b) s none
  | alt1 {a b s r} (h : Parses g a s (some r)) : Parses g (.alt a b) s (some r)
  | alt2 {a b s r} (h1 : Parses g a s none) (h2 : Parses g b s r) : Parses g (.alt a b) s r
  | star_end {a s} (h : Parses g a s none) : Parses g (.star a) s (some ([], [], s))
  | star_more {a s t1 c1 s1 t2 c2 s2} (h1 : Parses g a s (some (t1, c1, s1))) (h2 : Parses g (.star a) s1 (some (t2, c2, s2))) :
      Parses g (.star a) s (some (t1 ++ t2, c1 ++ c2, s2))
  | neg_ok {a s} (h : Parses g a s none) : Parses g (.neg a) s (some ([], [], s))
  | neg_no {a s r} (h : Parses g a s (some r)) : Parses g (.neg a) s none
  | nt_ok {r s t c s1} (h : Parses g (g r) s (some (t, c, s1))) : Parses g (.nt r) s (some (t ++ [⟨r, c⟩], c, s1))
  | nt_no {r s} (h : Parses g (g r) s none) : Parses g (.nt r) s none

/-! ### notation for grammars -/
namespace Peg
def opt (a : Peg R) : Peg R := .alt a .eps
def plus (a : Peg R) : Peg R := .seq a (.star a)
/-- a literal text -/
def lit : List Char → Peg R
  | [] => .eps
  | [c] => .chr c
  | c :: r => .seq (.chr c) (lit r)
def seqs : List (Peg R) → Peg R
  | [] => .eps
  | [p] => p
  | p :: r => .seq p (seqs r)
def alts : List (Peg R) → Peg R
  | [] => .neg .eps
  | [p] => p
  | p :: r => .alt p (alts r)
end Peg

end Spiff
