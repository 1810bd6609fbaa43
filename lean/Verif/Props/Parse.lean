import Verif.Lemmas.ParseTypes
import Verif.Lemmas.PegSym
/-
C61: parsing always ends, with exactly one result, and takes the complete text into account.
C62: parsing crashes for number literals that cannot be represented, and for nothing else; the resulting trees respect the precedence and
the associativity of the operators.
-/
namespace Spiff

/-! ### C61 -/

/-- the rules that may match the empty text -/
def nullableRule : Rule → Bool
  | .ProjectionValue => true | .Default => true | .StartParams => true | .FollowUpRef => true | .ws => true
  | _ => false

/-- a rank of the rules: a rule starts with rules of lower rank only (no left recursion) -/
def ruleRank : Rule → Nat
  | .Dynaml => 15 | .Prefer => 1 | .MarkedExpression => 1 | .SubsequentMarker => 1 | .MarkerExpression => 1 | .Expression => 14
  | .Scoped => 2 | .Scope => 1 | .Level7 => 13 | .Or => 1 | .Level6 => 12 | .Conditional => 11 | .Level5 => 10 | .Concatenation => 1
  | .Level4 => 9 | .Level3 => 8 | .Comparison => 1 | .Level2 => 7 | .Level1 => 6 | .Level0 => 5 | .Chained => 4
  | .ChainedQualifiedExpression => 4 | .ChainedRef => 2 | .ChainedDynRef => 2 | .Indices => 1 | .Slice => 2 | .ChainedCall => 1
  | .NameArgumentList => 16 | .NextNameArgument => 1 | .ExpressionList => 16 | .NextExpression => 15 | .Projection => 3 | .Range => 1
  | .List => 1 | .Map => 1 | .Assignments => 16 | .Assignment => 15 | .Merge => 1 | .LambdaOrExpr => 2 | .LambdaRef => 1
  | .LambdaExpr => 1 | .Names => 2 | .NextName => 1 | .Reference => 3 | .TagPrefix => 2 | .Tag => 1 | .FollowUpRef => 2
  | .PathComponent => 1
  | _ => 0

theorem grammar_wellFormed : PegWellFormed dynamlRules nullableRule ruleRank 17 where
  nullable r := by cases r <;> decide +kernel
  guarded r := by cases r <;> decide +kernel
  loops r := by cases r <;> decide +kernel
  bound r := by cases r <;> decide +kernel

/-- C61: for every text and every rule of the grammar the parser ends; there is exactly one result. -/
theorem grammar_total (r : Rule) (src : Txt) : ∃ res, Parses dynamlRules (.nt r) src res ∧ ∀ res', Parses dynamlRules (.nt r) src res' → res' = res := by
  obtain ⟨res, h⟩ := wellFormed_total grammar_wellFormed r src
  exact ⟨res, h, fun res' h' => (parses_unique h h').symm⟩

theorem seqs_end {a : Peg Rule} {s t c rest} (h : Parses dynamlRules (.seq a (.neg .any)) s (some (t, c, rest))) : rest = [] := by
  cases h with
  | seq_ok h1 h2 =>
    cases h2 with
    | neg_ok h => cases h; rfl

/-- C61: a match of the grammar covers the complete text. -/
theorem parse_complete {src : Txt} {toks c rest} (h : Parses dynamlRules (.nt .Dynaml) src (some (toks, c, rest))) : c = src ∧ rest = [] := by
  have hr : rest = [] := by
    cases h with
    | nt_ok h => exact seqs_end h
  subst hr
  exact ⟨by simpa using (parses_text h).symm, rfl⟩

/-- C61: `Parse` has exactly one result for every text. -/
theorem parse_total (lib : PLib) (cx : PCtx) (src : Txt) : ∃ r, ParseTo lib cx src r ∧ ∀ r', ParseTo lib cx src r' → r' = r := by
  obtain ⟨res, h, hu⟩ := grammar_total .Dynaml src
  cases res with
  | none =>
    refine ⟨.err, .inl ⟨h, rfl⟩, ?_⟩
    rintro r' (⟨-, rfl⟩ | ⟨toks, c, rest, h', rfl⟩)
    · rfl
    · exact absurd (hu _ h') (by simp)
  | some x =>
    obtain ⟨toks, c, rest⟩ := x
    refine ⟨_, .inr ⟨toks, c, rest, h, rfl⟩, ?_⟩
    rintro r' (⟨h', rfl⟩ | ⟨toks', c', rest', h', rfl⟩)
    · exact absurd (hu _ h') (by simp)
    · have e := hu _ h'
      simp only [Option.some.injEq, Prod.mk.injEq] at e
      obtain ⟨rfl, rfl, rfl⟩ := e
      rfl

/-! ### C62 -/

/-- Every token is a match of its rule at its place in the text. -/
theorem token_origin_aux {g : Rule → Peg Rule} {p : Peg Rule} {s : Txt} {r : PRes Rule} (h : Parses g p s r) :
    ∀ {toks c rest}, r = some (toks, c, rest) → ∀ tk ∈ toks, ∃ pre post ts, c = pre ++ tk.text ++ post ∧
      Parses g (.nt tk.rule) (tk.text ++ post ++ rest) (some (ts, tk.text, post ++ rest)) := by
  induction h with
  | eps | any_ok | chr_ok | rng_ok | star_end | neg_ok =>
    intro toks c rest e tk ht
    simp only [Option.some.injEq, Prod.mk.injEq] at e
    obtain ⟨rfl, -, -⟩ := e
    simp at ht
  | any_end | chr_no | chr_end | rng_no | rng_end | seq_no1 | seq_no2 | neg_no | nt_no => intro t c rest e; cases e
  | @seq_ok a b s t1 c1 s1 t2 c2 s2 h1 h2 ih1 ih2 | @star_more a s t1 c1 s1 t2 c2 s2 h1 h2 ih1 ih2 =>
    intro toks c rest e tk ht
    simp only [Option.some.injEq, Prod.mk.injEq] at e
    obtain ⟨rfl, rfl, rfl⟩ := e
    rcases List.mem_append.mp ht with ht | ht
    · obtain ⟨pre, post, ts, rfl, hp⟩ := ih1 rfl tk ht
      refine ⟨pre, post ++ c2, ts, by simp, ?_⟩
      have := parses_text h2
      subst this
      simpa using hp
    · obtain ⟨pre, post, ts, rfl, hp⟩ := ih2 rfl tk ht
      exact ⟨c1 ++ pre, post, ts, by simp, hp⟩
  | alt1 _ ih => intro toks c rest e; exact ih e
  | alt2 _ _ _ ih => intro toks c rest e; exact ih e
  | @nt_ok q s t c s1 h1 ih =>
    intro toks c' rest e tk ht
    simp only [Option.some.injEq, Prod.mk.injEq] at e
    obtain ⟨rfl, rfl, rfl⟩ := e
    rcases List.mem_append.mp ht with ht | ht
    · exact ih rfl tk ht
    · simp only [List.mem_singleton] at ht
      subst ht
      refine ⟨[], [], t ++ [⟨q, c⟩], by simp, ?_⟩
      have e := parses_text h1
      simp only [List.append_nil, List.nil_append]
      rw [← e]
      exact .nt_ok h1

/-- A number literal of the grammar that occurs in the text. -/
def NumberLiteral (src lit : Txt) : Prop :=
  ∃ pre post ts, src = pre ++ lit ++ post ∧ Parses dynamlRules (.nt .Number) (lit ++ post) (some (ts, lit, post))

/-- The start of the builder: nothing on the stack. -/
theorem build_outcome (lib : PLib) (cx : PCtx) {src toks c rest}
    (h : Parses dynamlRules (.nt .Dynaml) src (some (toks, c, rest))) :
    BuildOutcome lib toks [[.prefer], [.marker], [.marked], [.e 9]] [] (buildTokens lib cx {} toks) :=
  abs_sound h (st := []) (outs := [[.prefer], [.marker], [.marked], [.e 9]]) rfl {} [] [] .nil rfl

theorem built_top {s : PState} {lib : PLib} {toks : List (Tok Rule)}
    (h : BuildOutcome lib toks [[.prefer], [.marker], [.marked], [.e 9]] [] (.ok s)) : ∃ e, buildResult s = .ok e ∧ TopShape e := by
  obtain ⟨o, ho, S, hS, e⟩ := h
  simp only [List.mem_cons, List.not_mem_nil, or_false] at ho
  unfold buildResult
  rcases ho with rfl | rfl | rfl | rfl
  · obtain ⟨i, rfl, x, rfl, hx⟩ := typed1 hS
    rw [e]; exact ⟨_, rfl, .prefer hx⟩
  · obtain ⟨i, rfl, l, rfl⟩ := typed1 hS
    rw [e]; exact ⟨_, rfl, .marker⟩
  · obtain ⟨i, rfl, l, t, x, rfl, hx⟩ := typed1 hS
    rw [e]; exact ⟨_, rfl, .marked hx⟩
  · obtain ⟨i, rfl, x, rfl, hx⟩ := typed1 hS
    rw [e]; exact ⟨_, rfl, .expr hx⟩

/-- C62: every expression the parser delivers respects precedence and associativity. -/
theorem parse_shape {lib : PLib} {cx : PCtx} {src : Txt} {e : Syn} (h : ParseTo lib cx src (.ok e)) : TopShape e := by
  rcases h with ⟨-, h⟩ | ⟨toks, c, rest, hp, h⟩
  · cases h
  · have ho := build_outcome lib cx hp
    unfold buildExpression at h
    cases hb : buildTokens lib cx {} toks with
    | err => rw [hb] at h; cases h
    | crash => rw [hb] at h; cases h
    | ok s =>
      rw [hb] at ho h
      obtain ⟨x, hx, ht⟩ := built_top ho
      simp only [Built.bind, hx, Built.toRes, ParseRes.ok.injEq] at h
      rw [h]; exact ht

/-- C62: the only reason of a crash is a number literal that cannot be converted. -/
theorem parse_crash {lib : PLib} {cx : PCtx} {src : Txt} (h : ParseTo lib cx src .crash) :
    ∃ lit, NumberLiteral src lit ∧ buildNumber lib lit = none := by
  rcases h with ⟨-, h⟩ | ⟨toks, c, rest, hp, h⟩
  · cases h
  · have ho := build_outcome lib cx hp
    obtain ⟨rfl, rfl⟩ := parse_complete hp
    unfold buildExpression at h
    cases hb : buildTokens lib cx {} toks with
    | err => rw [hb] at h; cases h
    | crash =>
      rw [hb] at ho
      obtain ⟨tk, hm, hr, hn⟩ := ho
      obtain ⟨pre, post, ts, e, hpn⟩ := token_origin_aux hp rfl tk hm
      rw [hr] at hpn
      exact ⟨tk.text, ⟨pre, post, ts, e, by simpa using hpn⟩, hn⟩
    | ok s =>
      rw [hb] at ho h
      obtain ⟨x, hx, ht⟩ := built_top ho
      simp [Built.bind, hx, Built.toRes] at h

theorem buildTokens_numbers {lib : PLib} {cx : PCtx} {toks : List (Tok Rule)} {s s' : PState} (h : buildTokens lib cx s toks = .ok s') :
    ∀ t ∈ toks, t.rule = .Number → buildNumber lib t.text ≠ none := by
  induction toks generalizing s with
  | nil => simp
  | cons t r ih =>
    simp only [buildTokens] at h
    cases hb : buildStep lib cx s t with
    | err => rw [hb] at h; cases h
    | crash => rw [hb] at h; cases h
    | ok s1 =>
      rw [hb] at h
      intro u hu hr
      rcases List.mem_cons.mp hu with rfl | hu
      · intro hn
        obtain ⟨rule, text⟩ := u
        simp only at hr hn
        subst hr
        simp [buildStep, hn] at hb
      · exact ih h u hu hr

/-- C62: conversely, an unconvertible literal among the tokens is never accepted. -/
theorem parse_numbers_ok {lib : PLib} {cx : PCtx} {src : Txt} {e : Syn} {toks c rest}
    (hp : Parses dynamlRules (.nt .Dynaml) src (some (toks, c, rest))) (h : ParseTo lib cx src (.ok e)) :
    ∀ t ∈ toks, t.rule = .Number → buildNumber lib t.text ≠ none := by
  rcases h with ⟨-, h⟩ | ⟨toks', c', rest', hp', h⟩
  · cases h
  · have e := parses_unique hp hp'
    simp only [Option.some.injEq, Prod.mk.injEq] at e
    obtain ⟨rfl, rfl, rfl⟩ := e
    unfold buildExpression at h
    cases hb : buildTokens lib cx {} toks with
    | err => rw [hb] at h; cases h
    | crash => rw [hb] at h; cases h
    | ok s => exact buildTokens_numbers hb

end Spiff
