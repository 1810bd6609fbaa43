import Verif.Lemmas.PegLits
/-
String literals: quoted texts are parsed again.
-/
namespace Spiff
open Peg

def pStrChar : Peg Rule := alts [lit ['\\', '"'], seqs [.neg (.chr '"'), .any]]

theorem strChar_quote (r : Txt) : Parses dynamlRules pStrChar ('\\' :: '"' :: r) (some ([], ['\\', '"'], r)) :=
  .alt1 (.seq_ok (.chr_ok _ _) (.chr_ok _ _))

theorem strChar_any {c : Char} {r : Txt} (h : c ≠ '"') (h2 : c ≠ '\\' ∨ ∀ x, r ≠ '"' :: x) :
    Parses dynamlRules pStrChar (c :: r) (some ([], [c], r)) := by
  refine .alt2 ?_ (.seq_ok (.neg_ok (.chr_no h)) (.any_ok c r))
  by_cases e : c = '\\'
  · subst e
    refine .seq_no2 (.chr_ok _ _) ?_
    have h2 := h2.resolve_left (by simp)
    cases r with
    | nil => exact .chr_end _
    | cons d r =>
      refine .chr_no ?_
      rintro rfl
      exact h2 r rfl
  · exact .seq_no1 (.chr_no e)

theorem quoteChar_cases (lib : PLib) {c : Char} (h : PlainChar c) :
    (c = '"' ∧ quoteChar lib c = ['\\', '"']) ∨ (c = '\\' ∧ quoteChar lib c = ['\\', '\\']) ∨
    (∃ e, quoteChar lib c = ['\\', e] ∧ e ≠ '"' ∧ e ≠ '\\' ∧ e ≠ 'u' ∧ jsonEscape e = some c) ∨
    (quoteChar lib c = [c] ∧ c ≠ '"' ∧ c ≠ '\\' ∧ ¬ c.toNat < 32) := by
  by_cases h1 : c = '"'
  · subst h1; exact .inl ⟨rfl, rfl⟩
  by_cases h2 : c = '\\'
  · subst h2; exact .inr (.inl ⟨rfl, rfl⟩)
  right; right
  have ofNat : ∀ n, c.toNat = n → c = Char.ofNat n := by rintro n rfl; exact (Char.ofNat_toNat c).symm
  rcases h with ⟨h3, h4⟩ | h | h | rfl | rfl | rfl
  · right
    have hn : c ≠ '\n' := by rintro rfl; exact absurd h3 (by decide)
    have hr : c ≠ '\r' := by rintro rfl; exact absurd h3 (by decide)
    have ht : c ≠ '\t' := by rintro rfl; exact absurd h3 (by decide)
    refine ⟨?_, h1, h2, by omega⟩
    unfold quoteChar
    rw [if_neg h1, if_neg h2, if_neg (by omega), if_neg (by omega), if_neg (by omega), if_neg hn, if_neg hr, if_neg ht, if_neg (by omega),
      if_neg (by omega), if_pos h4]
  · left; have := ofNat _ h; subst this; exact ⟨'b', rfl, by decide, by decide, by decide, rfl⟩
  · left; have := ofNat _ h; subst this; exact ⟨'f', rfl, by decide, by decide, by decide, rfl⟩
  · left; exact ⟨'n', rfl, by decide, by decide, by decide, rfl⟩
  · left; exact ⟨'r', rfl, by decide, by decide, by decide, rfl⟩
  · left; exact ⟨'t', rfl, by decide, by decide, by decide, rfl⟩

theorem quote_head (lib : PLib) {c : Char} (h : PlainChar c) (r : Txt) : ∃ d x, quoteChar lib c ++ r = d :: x ∧ d ≠ '"' := by
  rcases quoteChar_cases lib h with ⟨-, e⟩ | ⟨-, e⟩ | ⟨x, e, -⟩ | ⟨e, h1, -⟩ <;> rw [e]
  · exact ⟨_, _, rfl, by decide⟩
  · exact ⟨_, _, rfl, by decide⟩
  · exact ⟨_, _, rfl, by decide⟩
  · exact ⟨_, _, rfl, h1⟩

theorem str_star (lib : PLib) {s : Txt} (hs : PlainString s) (r : Txt) :
    Parses dynamlRules (.star pStrChar) (s.flatMap (quoteChar lib) ++ '"' :: r) (some ([], s.flatMap (quoteChar lib), '"' :: r)) := by
  obtain ⟨h1, h2⟩ := hs
  induction s with
  | nil => exact .star_end (.alt2 (.seq_no1 (.chr_no (by decide))) (.seq_no1 (.neg_no (.chr_ok _ _))))
  | cons c s ih =>
    have hc := h1 c (by simp)
    have hnext : s ≠ [] → ∃ d x, s.flatMap (quoteChar lib) ++ '"' :: r = d :: x ∧ d ≠ '"' := by
      intro hne
      cases s with
      | nil => exact absurd rfl hne
      | cons d s =>
        rw [List.flatMap_cons, List.append_assoc]
        exact quote_head lib (h1 d (by simp)) _
    have ih := ih (fun d hd => h1 d (by simp [hd])) (by
      cases s with
      | nil => simp
      | cons d s => rw [List.getLast?_cons_cons] at h2; exact h2)
    rw [List.flatMap_cons, List.append_assoc]
    rcases quoteChar_cases lib hc with ⟨-, e⟩ | ⟨hbs, e⟩ | ⟨x, e, hx, hx2, -⟩ | ⟨e, h3, h4, -⟩ <;> rw [e]
    · exact .star_more (strChar_quote _) ih
    · have hne : s ≠ [] := by
        rintro rfl
        subst hbs
        exact h2 rfl
      obtain ⟨d, x, e', hd⟩ := hnext hne
      have a1 := strChar_any (c := '\\') (r := '\\' :: (s.flatMap (quoteChar lib) ++ '"' :: r)) (by decide) (.inr (by rintro x e; cases e))
      have a2 := strChar_any (c := '\\') (r := s.flatMap (quoteChar lib) ++ '"' :: r) (by decide) (.inr (by
        rw [e']; rintro y e2; cases e2; exact hd rfl))
      exact .star_more a1 (.star_more a2 ih)
    · have a1 := strChar_any (c := '\\') (r := x :: (s.flatMap (quoteChar lib) ++ '"' :: r)) (by decide) (.inr (by rintro y e; cases e; exact hx rfl))
      have a2 := strChar_any (c := x) (r := s.flatMap (quoteChar lib) ++ '"' :: r) hx (.inl hx2)
      exact .star_more a1 (.star_more a2 ih)
    · exact .star_more (strChar_any h3 (.inl h4)) ih

/-- the text of a string behind the opening quote -/
def pStrRest : Peg Rule := .seq (.star pStrChar) (.chr '"')
def strTable : Table := [(pStrRest, .cont [] .eps)]

theorem str_facts (lib : PLib) {s : Txt} (hs : PlainString s) : Facts (s.flatMap (quoteChar lib) ++ ['"']) [] strTable := by
  intro x hx
  simp only [strTable, List.mem_singleton] at hx
  subst hx
  intro u _ tq cq s' hq
  cases hq
  refine ⟨_, ?_, rfl⟩
  have := Parses.seq_ok (str_star lib hs u) (.chr_ok '"' u)
  simpa [pStrRest] using this

theorem str_form : checkTable (tablesOf [strTable]) [.ch '"', .hole 0] [.hole 0, .tok .String [.ch '"', .hole 0]]
    ((.chr '.', .fail []) :: (pIndexTail, .fail []) :: closedTable 1) = true := by decide +kernel

theorem jsonBody_quote (lib : PLib) {s : Txt} (hs : ∀ c ∈ s, PlainChar c) : ∀ n, s.length < n → jsonBody n (s.flatMap (quoteChar lib) ++ ['"']) = some s := by
  induction s with
  | nil =>
    intro n hn
    cases n with
    | zero => cases hn
    | succ n => rfl
  | cons c s ih =>
    intro n hn
    cases n with
    | zero => cases hn
    | succ n =>
      have ih := ih (fun d hd => hs d (by simp [hd])) n (by simpa using hn)
      rw [List.flatMap_cons, List.append_assoc]
      rcases quoteChar_cases lib (hs c (by simp)) with ⟨rfl, e⟩ | ⟨rfl, e⟩ | ⟨x, e, hx, hx2, hu, hj⟩ | ⟨e, h3, h4, h5⟩ <;> rw [e]
      · simp only [List.cons_append, List.nil_append]
        rw [jsonBody]
        · simp [jsonEscape, ih]
        · decide
      · simp only [List.cons_append, List.nil_append]
        rw [jsonBody]
        · simp [jsonEscape, ih]
        · decide
      · simp only [List.cons_append, List.nil_append]
        rw [jsonBody]
        · simp only [hj, ih]; rfl
        · simpa using hu
      · simp only [List.cons_append, List.nil_append]
        rw [jsonBody]
        · rw [if_neg h5, ih]; rfl
        · simpa using h3
        · intro r e; cases e; exact absurd rfl h4
        · intro c r e; cases e; exact absurd rfl h4

theorem jsonString_quote (lib : PLib) {s : Txt} (hs : ∀ c ∈ s, PlainChar c) : jsonString (goQuote lib s) = some s := by
  unfold goQuote jsonString
  refine jsonBody_quote lib hs _ ?_
  have : s.length ≤ (s.flatMap (quoteChar lib)).length := by
    induction s with
    | nil => simp
    | cons c s ih =>
      have ih := ih (fun d hd => hs d (by simp [hd]))
      rw [List.flatMap_cons, List.length_append, List.length_cons]
      obtain ⟨d, x, e, -⟩ := quote_head lib (hs c (by simp)) []
      have hl := congrArg List.length e
      rw [List.append_nil, List.length_cons] at hl
      omega
  simp only [List.length_append, List.length_cons, List.length_nil]
  omega

end Spiff
