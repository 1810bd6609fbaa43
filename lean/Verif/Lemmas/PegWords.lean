import Verif.Lemmas.PegForms
import Verif.Spec.Print
/-
Words, references, numbers and strings: the facts about texts of unbounded length.
-/
namespace Spiff
open Peg

/-- the grammar expression matches exactly the characters of a class -/
structure CharClass (p : Peg Rule) (P : Char → Bool) : Prop where
  yes : ∀ c r, P c = true → Parses dynamlRules p (c :: r) (some ([], [c], r))
  no : ∀ c r, P c = false → Parses dynamlRules p (c :: r) none
  stop : Parses dynamlRules p [] none

theorem class_chr (c : Char) : CharClass (.chr c) (fun d => d == c) where
  yes d r h := by rw [eq_of_beq h]; exact .chr_ok c r
  no d r h := .chr_no (by rintro rfl; simp at h)
  stop := .chr_end c

theorem class_rng (lo hi : Char) : CharClass (.rng lo hi) (fun d => decide (lo ≤ d) && decide (d ≤ hi)) where
  yes d r h := .rng_ok (by simpa using h)
  no d r h := .rng_no (by simpa using h)
  stop := .rng_end lo hi

theorem class_alt {p q : Peg Rule} {P Q : Char → Bool} (hp : CharClass p P) (hq : CharClass q Q) :
    CharClass (.alt p q) (fun c => P c || Q c) where
  yes c r h := by
    cases hc : P c with
    | true => exact .alt1 (hp.yes c r hc)
    | false => rw [hc, Bool.false_or] at h; exact .alt2 (hp.no c r hc) (hq.yes c r h)
  no c r h := by
    rw [Bool.or_eq_false_iff] at h
    exact .alt2 (hp.no c r h.1) (hq.no c r h.2)
  stop := .alt2 hp.stop hq.stop

theorem class_fails {p : Peg Rule} {P : Char → Bool} (hp : CharClass p P) {s : Txt} : Parses dynamlRules p s none ↔ ∀ c r, s = c :: r → P c = false := by
  constructor
  · rintro h c r rfl
    cases hc : P c with
    | false => rfl
    | true => exact absurd (parses_unique h (hp.yes c r hc)) (by simp)
  · intro h
    cases s with
    | nil => exact hp.stop
    | cons c r => exact hp.no c r (h c r rfl)

theorem class_star {p : Peg Rule} {P : Char → Bool} (hp : CharClass p P) {w s : Txt} (hw : ∀ c ∈ w, P c = true)
    (hs : Parses dynamlRules p s none) : Parses dynamlRules (.star p) (w ++ s) (some ([], w, s)) := by
  induction w with
  | nil => exact .star_end hs
  | cons c r ih => exact .star_more (hp.yes c _ (hw c (by simp))) (ih (fun d hd => hw d (by simp [hd])))

theorem class_plus {p : Peg Rule} {P : Char → Bool} (hp : CharClass p P) {w s : Txt} (hne : w ≠ []) (hw : ∀ c ∈ w, P c = true)
    (hs : Parses dynamlRules p s none) : Parses dynamlRules (plus p) (w ++ s) (some ([], w, s)) := by
  cases w with
  | nil => exact absurd rfl hne
  | cons c r => exact .seq_ok (hp.yes c _ (hw c (by simp))) (class_star hp (fun d hd => hw d (by simp [hd])) hs)

def pWord : Peg Rule := alts [.rng 'a' 'z', .rng 'A' 'Z', .rng '0' '9', .chr '_']
def pLetter : Peg Rule := alts [.rng 'a' 'z', .rng 'A' 'Z', .chr '_']
def pKeyChar : Peg Rule := alts [.rng 'a' 'z', .rng 'A' 'Z', .rng '0' '9', .chr '_', .chr '-']

theorem class_word : CharClass pWord isWordChar :=
  class_alt (class_rng _ _) (class_alt (class_rng _ _) (class_alt (class_rng _ _) (class_chr _)))
theorem class_letter : CharClass pLetter isLetterChar := class_alt (class_rng _ _) (class_alt (class_rng _ _) (class_chr _))
theorem class_key : CharClass pKeyChar isKeyChar :=
  class_alt (class_rng _ _) (class_alt (class_rng _ _) (class_alt (class_rng _ _) (class_alt (class_chr _) (class_chr _))))
theorem class_digit : CharClass (.rng '0' '9') isDigitChar := class_rng _ _

/-- What follows a word: no character of a word, no bracket, no colon, no further path component. -/
structure Stops (s : Txt) : Prop where
  head : ∀ c r, s = c :: r → isKeyChar c = false ∧ c ≠ ':' ∧ c ≠ '[' ∧ c ≠ '{'
  dot : ∀ c r, s = '.' :: c :: r → isWordChar c = false
  path : Parses dynamlRules (.nt .PathComponent) s none

theorem stops_of {s : Txt} (h : ∀ n ∈ need0, Parses dynamlRules n s none) : Stops s where
  head c r e := by
    have h1 := (class_fails (class_rng 'a' 'z')).mp (h _ (by decide +kernel)) c r e
    have h2 := (class_fails (class_rng 'A' 'Z')).mp (h _ (by decide +kernel)) c r e
    have h3 := (class_fails (class_rng '0' '9')).mp (h _ (by decide +kernel)) c r e
    have h4 := (class_fails (class_chr '_')).mp (h _ (by decide +kernel)) c r e
    have h5 := (class_fails (class_chr '-')).mp (h _ (by decide +kernel)) c r e
    have h6 := (class_fails (class_chr ':')).mp (h _ (by decide +kernel)) c r e
    have h7 := (class_fails (class_chr '[')).mp (h _ (by decide +kernel)) c r e
    have h8 := (class_fails (class_chr '{')).mp (h _ (by decide +kernel)) c r e
    refine ⟨?_, by simpa using h6, by simpa using h7, by simpa using h8⟩
    unfold isKeyChar
    simp only [h1, h2, h3, h4, h5, Bool.or_false]
  dot c r e := by
    subst e
    have h9 := h pDotWord (by decide +kernel)
    cases h9 with
    | seq_no1 h => exact absurd (parses_unique h (.chr_ok '.' _)) (by simp)
    | seq_no2 h h' =>
      cases h
      exact (class_fails class_word).mp h' c r rfl
  path := h _ (by decide +kernel)

/-- what follows a key -/
def WordEnd (s : Txt) : Prop := ∀ c r, s = c :: r → isKeyChar c = false ∧ c ≠ ':' ∧ c ≠ '[' ∧ c ≠ '{'

theorem wordEnd_dot (s : Txt) : WordEnd ('.' :: s) := by
  rintro c r e; cases e; decide

theorem word_key {c : Char} (h : isWordChar c = true) : isKeyChar c = true := by
  simp only [isWordChar, isKeyChar, Bool.or_eq_true] at h ⊢
  rcases h with h | h | h | h
  · exact .inl h
  · exact .inr (.inl h)
  · exact .inr (.inr (.inl h))
  · exact .inr (.inr (.inr (.inl h)))

theorem letter_word {c : Char} (h : isLetterChar c = true) : isWordChar c = true := by
  simp only [isWordChar, isLetterChar, Bool.or_eq_true] at h ⊢
  rcases h with h | h | h
  · exact .inl h
  · exact .inr (.inl h)
  · exact .inr (.inr (.inr h))

theorem key_parse {k s : Txt} (hk : KeyChars k) (hs : WordEnd s) : Parses dynamlRules (.nt .Key) (k ++ s) (some ([⟨.Key, k⟩], k, s)) := by
  obtain ⟨c, w, rfl, hc, hw⟩ := hk
  have h1 := class_word.yes c (w ++ s) hc
  have h2 := class_star class_key hw ((class_fails class_key).mpr (fun d r e => (hs d r e).1))
  have h3 : Parses dynamlRules (opt (seqs [.chr ':', pWord, .star pKeyChar])) s (some ([], [], s)) := by
    refine .alt2 (.seq_no1 ?_) (.eps s)
    exact (class_fails (class_chr ':')).mpr (fun d r e => by simpa using (hs d r e).2.1)
  have := Parses.nt_ok (r := Rule.Key) (.seq_ok h1 (.seq_ok h2 h3))
  simpa using this

theorem index_parse {k s : Txt} (hk : IndexText k) : Parses dynamlRules (.nt .Index) (k ++ s) (some ([⟨.Index, k⟩], k, s)) := by
  obtain ⟨sg, d, rfl, hsg, hne, hd⟩ := hk
  have h4 : Parses dynamlRules (.chr ']') (']' :: s) (some ([], [']'], s)) := .chr_ok _ _
  have h3 := class_plus class_digit (s := ']' :: s) hne hd (.rng_no (by decide))
  have h2 : Parses dynamlRules (opt (.chr '-')) (sg ++ (d ++ ']' :: s)) (some ([], sg, d ++ ']' :: s)) := by
    rcases hsg with rfl | rfl
    · refine .alt2 ?_ (.eps _)
      cases d with
      | nil => exact absurd rfl hne
      | cons x r =>
        refine .chr_no ?_
        rintro rfl
        exact absurd (hd '-' (by simp)) (by decide)
    · exact .alt1 (.chr_ok _ _)
  have := Parses.nt_ok (r := Rule.Index) (.seq_ok (.chr_ok '[' _) (.seq_ok h2 (.seq_ok h3 h4)))
  simpa using this

theorem keyText_head {c : Char} {w : Txt} (h : KeyChars (c :: w)) : isWordChar c = true := by
  obtain ⟨d, v, e, h, -⟩ := h; cases e; exact h

/-- components behind a reference or an expression in parentheses -/
def pathTail (P : List Txt) : Txt := P.flatMap (fun c => '.' :: c)

theorem tail_wordEnd {P : List Txt} {s : Txt} (hs : WordEnd s) : WordEnd (pathTail P ++ s) := by
  cases P with
  | nil => exact hs
  | cons c r => exact wordEnd_dot _

theorem comp_parse {k s : Txt} (hk : CompText k) (hs : WordEnd s) :
    ∃ t, Parses dynamlRules (.nt .PathComponent) ('.' :: k ++ s) (some (t, '.' :: k, s)) ∧ ess t = [] := by
  rcases hk with hk | hk
  · exact ⟨_, .nt_ok (.alt1 (.seq_ok (.chr_ok _ _) (key_parse hk hs))), rfl⟩
  · refine ⟨_, .nt_ok (.alt2 (.seq_no2 (.chr_ok _ _) ?_) (.seq_ok (.alt1 (.chr_ok _ _)) (index_parse hk))), rfl⟩
    obtain ⟨sg, d, rfl, -⟩ := hk
    exact .nt_no (.seq_no1 (class_word.no '[' _ rfl))

theorem followUp_parse {P : List Txt} {s : Txt} (hP : ∀ c ∈ P, CompText c) (hs : Stops s) :
    ∃ t, Parses dynamlRules (.nt .FollowUpRef) (pathTail P ++ s) (some (t, pathTail P, s)) ∧ ess t = [] := by
  suffices h : ∃ t, Parses dynamlRules (.star (.nt .PathComponent)) (pathTail P ++ s) (some (t, pathTail P, s)) ∧ ess t = [] by
    obtain ⟨t, h, he⟩ := h
    refine ⟨_, .nt_ok h, ?_⟩
    rw [ess_append, he]; rfl
  induction P with
  | nil => exact ⟨[], .star_end hs.path, rfl⟩
  | cons c r ih =>
    obtain ⟨t, h, he⟩ := ih (fun d hd => hP d (by simp [hd]))
    obtain ⟨u, h1, he1⟩ := comp_parse (hP c (by simp)) (tail_wordEnd (P := r) hs.head)
    refine ⟨u ++ t, ?_, by rw [ess_append, he, he1]; rfl⟩
    have := Parses.star_more h1 h
    simpa [pathTail] using this

theorem chainedRef_parse {P : List Txt} {s : Txt} (hne : P ≠ []) (hP : ∀ c ∈ P, CompText c) (hs : Stops s) :
    ∃ t, Parses dynamlRules (.nt .ChainedRef) (pathTail P ++ s) (some (t, pathTail P, s)) ∧ ess t = [⟨.ChainedRef, pathTail P⟩] := by
  cases P with
  | nil => exact absurd rfl hne
  | cons c r =>
    obtain ⟨t, h, he⟩ := followUp_parse (P := r) (fun d hd => hP d (by simp [hd])) hs
    obtain ⟨u, h1, he1⟩ := comp_parse (hP c (by simp)) (tail_wordEnd (P := r) hs.head)
    refine ⟨u ++ t ++ [⟨.ChainedRef, pathTail (c :: r)⟩], ?_, by rw [ess_append, ess_append, he, he1]; rfl⟩
    have := Parses.nt_ok (r := Rule.ChainedRef) (Parses.seq_ok h1 h)
    simpa [pathTail] using this

/-- path behind an expression in parentheses -/
def pathTable : Table := [(.nt .ChainedRef, .cont need0 .eps), (.chr '(', .fail []), (.chr '*', .fail [])]

theorem path_facts {P : List Txt} (hne : P ≠ []) (hP : ∀ c ∈ P, CompText c) : Facts (pathTail P) [⟨.ChainedRef, pathTail P⟩] pathTable := by
  have hhead : ∃ r, pathTail P = '.' :: r := by
    cases P with
    | nil => exact absurd rfl hne
    | cons c r => exact ⟨_, rfl⟩
  intro x hx
  simp only [pathTable, List.mem_cons, List.not_mem_nil, or_false] at hx
  rcases hx with rfl | rfl | rfl
  · intro s hs tq cq s' hq
    cases hq
    obtain ⟨t, h, he⟩ := chainedRef_parse hne hP (stops_of hs)
    exact ⟨t, by simpa using h, by rw [he]; rfl⟩
  · intro s _
    obtain ⟨r, e⟩ := hhead
    rw [e]; exact .chr_no (by decide)
  · intro s _
    obtain ⟨r, e⟩ := hhead
    rw [e]; exact .chr_no (by decide)

theorem qual_form : checkTable (tablesOf [exprTable, pathTable]) [.ch '(', .hole 0, .ch ')', .hole 1] [.hole 0, .tok .Grouped [], .hole 1] (nonIndex (closedTable 0)) = true := by
  decide +kernel

end Spiff
