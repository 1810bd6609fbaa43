import Verif.Props.Parse
import Verif.Lemmas.PegSym
/-
C62: the number literals that make the parser crash.
-/
namespace Spiff

/-- `p` matches one character satisfying `P` -/
def OneChar (p : Peg Rule) (P : Char → Prop) : Prop :=
  ∀ s t c r, Parses dynamlRules p s (some (t, c, r)) → ∃ x, c = [x] ∧ P x

theorem oneChar_chr (c : Char) : OneChar (.chr c) (· = c) := by
  intro s t c' r h; cases h; exact ⟨_, rfl, rfl⟩
theorem oneChar_rng (lo hi : Char) : OneChar (.rng lo hi) (fun x => lo ≤ x ∧ x ≤ hi) := by
  intro s t c' r h; cases h with | rng_ok h => exact ⟨_, rfl, h⟩
theorem oneChar_alt {p q : Peg Rule} {P Q : Char → Prop} (hp : OneChar p P) (hq : OneChar q Q) : OneChar (.alt p q) (fun x => P x ∨ Q x) := by
  intro s t c r h
  cases h with
  | alt1 h => obtain ⟨x, e, hx⟩ := hp _ _ _ _ h; exact ⟨x, e, .inl hx⟩
  | alt2 _ h => obtain ⟨x, e, hx⟩ := hq _ _ _ _ h; exact ⟨x, e, .inr hx⟩

theorem star_chars {p : Peg Rule} {P : Char → Prop} (hp : OneChar p P) {s t c r} (h : Parses dynamlRules (.star p) s (some (t, c, r))) :
    ∀ x ∈ c, P x := by
  generalize hq : Peg.star p = q at h
  generalize hr : some (t, c, r) = res at h
  induction h generalizing t c r with
  | star_end _ _ =>
    simp only [Option.some.injEq, Prod.mk.injEq] at hr
    obtain ⟨-, rfl, -⟩ := hr
    simp
  | star_more h1 _ _ ih =>
    cases hq
    simp only [Option.some.injEq, Prod.mk.injEq] at hr
    obtain ⟨-, rfl, -⟩ := hr
    obtain ⟨x, rfl, hx⟩ := hp _ _ _ _ h1
    intro y hy
    rcases List.mem_append.mp hy with hy | hy
    · simp only [List.mem_singleton] at hy; subst hy; exact hx
    · exact ih rfl rfl y hy
  | _ => cases hq

/-- a decimal digit -/
abbrev Digit (c : Char) : Prop := '0' ≤ c ∧ c ≤ '9'

theorem seq_split {a b : Peg Rule} {s t c r} (h : Parses dynamlRules (.seq a b) s (some (t, c, r))) :
    ∃ t1 c1 s1 t2 c2, c = c1 ++ c2 ∧ Parses dynamlRules a s (some (t1, c1, s1)) ∧ Parses dynamlRules b s1 (some (t2, c2, r)) := by
  cases h with | seq_ok h1 h2 => exact ⟨_, _, _, _, _, rfl, h1, h2⟩

theorem opt_split {a : Peg Rule} {s t c r} (h : Parses dynamlRules (Peg.opt a) s (some (t, c, r))) :
    c = [] ∨ Parses dynamlRules a s (some (t, c, r)) := by
  cases h with
  | alt1 h => exact .inr h
  | alt2 _ h => cases h; exact .inl rfl

/-- The form of number literals: sign, digits and underscores, fraction, exponent. -/
theorem number_form {s ts lit post} (h : Parses dynamlRules (.nt .Number) s (some (ts, lit, post))) :
    ∃ sign d ds frac ex : Txt, lit = sign ++ d ++ ds ++ frac ++ ex ∧ (sign = [] ∨ sign = ['-']) ∧ (∃ x, d = [x] ∧ Digit x) ∧
      (∀ x ∈ ds, Digit x ∨ x = '_') ∧ (frac = [] ∨ ∃ f, frac = '.' :: f) ∧ (ex = [] ∨ ∃ c f, ex = c :: f ∧ (c = 'e' ∨ c = 'E')) := by
  cases h with
  | nt_ok h =>
    obtain ⟨_, sign, _, _, c1, rfl, h1, h⟩ := seq_split h
    obtain ⟨_, d, _, _, c2, rfl, h2, h⟩ := seq_split h
    obtain ⟨_, ds, _, _, c3, rfl, h3, h⟩ := seq_split h
    obtain ⟨_, frac, _, _, c4, rfl, h4, h⟩ := seq_split h
    obtain ⟨_, ex, _, _, c5, rfl, h5, h⟩ := seq_split h
    have hc5 : c5 = [] := by cases h; rfl
    subst hc5
    refine ⟨sign, d, ds, frac, ex, by simp, ?_, ?_, ?_, ?_, ?_⟩
    · rcases opt_split h1 with rfl | h1
      · exact .inl rfl
      · obtain ⟨x, rfl, rfl⟩ := oneChar_chr '-' _ _ _ _ h1; exact .inr rfl
    · exact oneChar_rng '0' '9' _ _ _ _ h2
    · exact star_chars (oneChar_alt (oneChar_rng '0' '9') (oneChar_chr '_')) h3
    · rcases opt_split h4 with rfl | h4
      · exact .inl rfl
      · obtain ⟨_, c, _, _, f, rfl, h1, _⟩ := seq_split h4
        obtain ⟨x, rfl, rfl⟩ := oneChar_chr '.' _ _ _ _ h1
        exact .inr ⟨f, rfl⟩
    · rcases opt_split h5 with rfl | h5
      · exact .inl rfl
      · obtain ⟨_, c, _, _, f, rfl, h1, _⟩ := seq_split h5
        obtain ⟨x, rfl, hx⟩ := oneChar_alt (oneChar_chr 'e') (oneChar_chr 'E') _ _ _ _ h1
        exact .inr ⟨x, f, rfl, hx⟩

/-- The integer an integer literal denotes: an optional sign and digits; underscores are ignored. -/
def IntLiteral (lit : Txt) (i : Int) : Prop :=
  ∃ ds : Txt, ds ≠ [] ∧ (∀ x ∈ ds, Digit x) ∧
    ((lit.filter (fun c => c ≠ '_') = ds ∧ i = digitsVal ds) ∨ (lit.filter (fun c => c ≠ '_') = '-' :: ds ∧ i = -(digitsVal ds : Int)))

/-- The literal has a fraction or an exponent. -/
def FloatLiteral (lit : Txt) : Prop := '.' ∈ lit ∨ 'e' ∈ lit ∨ 'E' ∈ lit

theorem any_float (lit : Txt) :
    ((lit.filter (fun c => c ≠ '_')).any (fun c => c == '.' || c == 'e' || c == 'E')) = true ↔ FloatLiteral lit := by
  simp only [List.any_eq_true, List.mem_filter, Bool.or_eq_true, beq_iff_eq, FloatLiteral, decide_eq_true_eq]
  constructor
  · rintro ⟨x, ⟨hx, -⟩, (rfl | rfl) | rfl⟩
    · exact .inl hx
    · exact .inr (.inl hx)
    · exact .inr (.inr hx)
  · rintro (h | h | h)
    · exact ⟨_, ⟨h, by decide⟩, .inl (.inl rfl)⟩
    · exact ⟨_, ⟨h, by decide⟩, .inl (.inr rfl)⟩
    · exact ⟨_, ⟨h, by decide⟩, .inr rfl⟩

theorem isDigits_of {ds : Txt} (hne : ds ≠ []) (h : ∀ x ∈ ds, Digit x) : isDigits ds = true := by
  simp only [isDigits, Bool.and_eq_true, Bool.not_eq_true', List.isEmpty_eq_false_iff, List.all_eq_true, decide_eq_true_eq]
  exact ⟨hne, h⟩

theorem intLiteral_unique {lit : Txt} {i j : Int} (hi : IntLiteral lit i) (hj : IntLiteral lit j) : i = j := by
  obtain ⟨ds, hne, hd, h⟩ := hi
  obtain ⟨ds', hne', hd', h'⟩ := hj
  rcases h with ⟨e, rfl⟩ | ⟨e, rfl⟩ <;> rcases h' with ⟨e', rfl⟩ | ⟨e', rfl⟩ <;> rw [e] at e'
  · rw [e']
  · subst e'; have := hd '-' (by simp); exact absurd this (by decide)
  · subst e'; have := hd' '-' (by simp); exact absurd this (by decide)
  · simp only [List.cons.injEq, true_and] at e'; rw [e']

/-- The value of an integer literal, if it is in the range of 64 bit integers. -/
theorem buildNumber_int (lib : PLib) {lit : Txt} {i : Int} (h : IntLiteral lit i) :
    buildNumber lib lit = if -(2^63) ≤ i ∧ i < 2^63 then some (.node (.int i) []) else none := by
  obtain ⟨ds, hne, hd, h⟩ := h
  have hdig := isDigits_of hne hd
  have nofloat : ∀ x ∈ ds, (x == '.' || x == 'e' || x == 'E') = false := by
    intro x hx
    have := hd x hx
    simp only [Bool.or_eq_false_iff, beq_eq_false_iff_ne]
    refine ⟨⟨?_, ?_⟩, ?_⟩ <;> rintro rfl <;> exact absurd this (by decide)
  unfold buildNumber
  rcases h with ⟨e, rfl⟩ | ⟨e, rfl⟩
  · simp only [e]
    rw [if_neg (by simp only [List.any_eq_true, not_exists, not_and]; intro x hx; simp [nofloat x hx])]
    unfold parseInt
    rw [String.toList_ofList]
    cases ds with
    | nil => exact absurd rfl hne
    | cons c r =>
      have hc := hd c (by simp)
      have h1 : c ≠ '-' := by rintro rfl; exact absurd hc (by decide)
      have h2 : c ≠ '+' := by rintro rfl; exact absurd hc (by decide)
      simp only [hdig, if_true]
      split <;> rename_i hh
      · simp_all
        obtain ⟨hh, rfl⟩ := hh
        omega
      · simp_all
  · simp only [e]
    rw [if_neg (by simp only [List.any_cons, List.any_eq_true, Bool.or_eq_true, not_or, not_exists, not_and]; exact ⟨by decide, fun x hx => by have := nofloat x hx; simp only [Bool.or_eq_false_iff] at this; simp [this]⟩)]
    unfold parseInt
    rw [String.toList_ofList]
    simp only [hdig, if_true]
    split <;> rename_i hh
    · simp_all
      obtain ⟨hh, rfl⟩ := hh
      omega
    · simp_all

/-- C62: the number literals that make the parser crash are exactly the integers that do not fit into 64 bits and the literals with
fraction or exponent that strconv.ParseFloat rejects. -/
theorem number_unconvertible (lib : PLib) {src lit : Txt} (h : NumberLiteral src lit) :
    buildNumber lib lit = none ↔
      (FloatLiteral lit ∧ lib.floatOk (lit.filter (fun c => c ≠ '_')) = false) ∨ (∃ i, IntLiteral lit i ∧ ¬ (-(2^63) ≤ i ∧ i < 2^63)) := by
  obtain ⟨pre, post, ts, -, hp⟩ := h
  obtain ⟨sign, d, ds, frac, ex, rfl, hs, ⟨x, rfl, hx⟩, hds, hfr, hex⟩ := number_form hp
  by_cases hf : FloatLiteral (sign ++ [x] ++ ds ++ frac ++ ex)
  · have no : ∀ i, ¬ IntLiteral (sign ++ [x] ++ ds ++ frac ++ ex) i := by
      rintro i ⟨dd, -, hd, h⟩
      have := (any_float _).mpr hf
      have nofloat : ∀ x ∈ dd, (x == '.' || x == 'e' || x == 'E') = false := by
        intro x hx
        have := hd x hx
        simp only [Bool.or_eq_false_iff, beq_eq_false_iff_ne]
        refine ⟨⟨?_, ?_⟩, ?_⟩ <;> rintro rfl <;> exact absurd this (by decide)
      rcases h with ⟨e, -⟩ | ⟨e, -⟩
      · rw [e, List.any_eq_true] at this
        obtain ⟨y, hy, hh⟩ := this
        rw [nofloat y hy] at hh; cases hh
      · rw [e, List.any_cons, Bool.or_eq_true, List.any_eq_true] at this
        rcases this with this | ⟨y, hy, hh⟩
        · exact absurd this (by decide)
        · rw [nofloat y hy] at hh; cases hh
    unfold buildNumber
    simp only [(any_float _).mpr hf, if_true]
    constructor
    · intro h
      split at h
      · cases h
      · rename_i hn; exact .inl ⟨hf, by simpa using hn⟩
    · rintro (⟨-, h⟩ | ⟨i, hi, -⟩)
      · rw [h]; rfl
      · exact absurd hi (no i)
  · have hfr' : frac = [] := by
      rcases hfr with h | ⟨f, rfl⟩
      · exact h
      · exact absurd (.inl (by simp)) hf
    have hex' : ex = [] := by
      rcases hex with h | ⟨c, f, rfl, rfl | rfl⟩
      · exact h
      · exact absurd (.inr (.inl (by simp))) hf
      · exact absurd (.inr (.inr (by simp))) hf
    subst hfr' hex'
    have hint : ∃ i, IntLiteral (sign ++ [x] ++ ds ++ [] ++ []) i := by
      have hxu : x ≠ '_' := by rintro rfl; exact absurd hx (by decide)
      have hall : ∀ y ∈ x :: ds.filter (fun c => c ≠ '_'), Digit y := by
        intro y hy
        rcases List.mem_cons.mp hy with rfl | hy
        · exact hx
        · simp only [List.mem_filter, decide_eq_true_eq] at hy
          exact (hds y hy.1).resolve_right hy.2
      rcases hs with rfl | rfl
      · exact ⟨_, _, by simp, hall, .inl ⟨by simp [hxu], rfl⟩⟩
      · exact ⟨_, _, by simp, hall, .inr ⟨by simp [hxu], rfl⟩⟩
    obtain ⟨i, hi⟩ := hint
    rw [buildNumber_int lib hi]
    constructor
    · intro h
      split at h
      · cases h
      · rename_i hn; exact .inr ⟨i, hi, hn⟩
    · rintro (⟨h, -⟩ | ⟨j, hj, hn⟩)
      · exact absurd h hf
      · rw [intLiteral_unique hi hj, if_neg hn]

/-! ### examples, by evaluation of the grammar -/

def noFacts : SFacts := ⟨fun _ => [], fun _ => []⟩
def noEnv : SEnv := ⟨fun _ => [], fun _ => [], fun _ => []⟩

theorem noFacts_hold : noFacts.Hold noEnv := ⟨fun _ _ h => (List.not_mem_nil h).elim, fun _ _ h => (List.not_mem_nil h).elim⟩

/-- the text as symbolic text -/
def symOf (t : Txt) : List Sym := t.map .ch

theorem text_symOf (t : Txt) : noEnv.text (symOf t) = t := by
  induction t with
  | nil => rfl
  | cons c r ih => simp only [symOf, List.map_cons, SEnv.text]; exact congrArg _ ih

/-- the tokens of a text, if the evaluation ends within the given depth -/
def runText (n : Nat) (t : Txt) : Option (List (Tok Rule)) :=
  match sexec noFacts n (.nt .Dynaml) (symOf t) with
  | .ok items _ _ => some (noEnv.items items)
  | _ => none

/-- The result of the parser for a concrete text. -/
theorem parse_run (lib : PLib) (cx : PCtx) {n : Nat} {src : Txt} {toks : List (Tok Rule)} (h : runText n src = some toks) :
    ParseTo lib cx src (buildExpression lib cx toks).toRes := by
  have hs := sexec_sound noFacts_hold n (.nt .Dynaml) (symOf src)
  unfold runText at h
  cases hx : sexec noFacts n (.nt .Dynaml) (symOf src) with
  | stuck => rw [hx] at h; cases h
  | fail => rw [hx] at h; cases h
  | ok items c s =>
    rw [hx] at h hs
    simp only [Option.some.injEq] at h
    obtain ⟨toks', hp, he, -⟩ := hs
    rw [text_symOf] at hp
    refine .inr ⟨toks', _, _, hp, ?_⟩
    unfold buildExpression
    rw [← buildTokens_ess lib cx _ toks', he, h]

/-- no library functions -/
def plainPLib : PLib := ⟨fun _ => true, id, fun c => [c]⟩
def emptyPCtx : PCtx := ⟨[], []⟩

/-- Example (C62): a 20 digit integer crashes the parser. -/
example : ParseTo plainPLib emptyPCtx "a + 99999999999999999999".toList .crash :=
  parse_run (n := 120) plainPLib emptyPCtx (toks := (runText 120 "a + 99999999999999999999".toList).getD []) (by decide +kernel)

end Spiff
