import Verif.Lemmas.PegRefs
import Verif.Props.ParseNumber
import Verif.Props.Tags
/-
Names, numbers, strings and the other literals.
-/
namespace Spiff
open Peg

theorem noWord_of {s : Txt} (h : ∀ n ∈ wordNeeds, Parses dynamlRules n s none) : ∀ c r, s = c :: r → isWordChar c = false := by
  intro c r e
  have h1 := (class_fails (class_rng 'a' 'z')).mp (h _ (by decide +kernel)) c r e
  have h2 := (class_fails (class_rng 'A' 'Z')).mp (h _ (by decide +kernel)) c r e
  have h3 := (class_fails (class_rng '0' '9')).mp (h _ (by decide +kernel)) c r e
  have h4 := (class_fails (class_chr '_')).mp (h _ (by decide +kernel)) c r e
  unfold isWordChar
  simp only [h1, h2, h3, h4, Bool.or_false]

theorem name_facts {n : Txt} (hn : NameText n) : Facts n [⟨.Name, n⟩] nameTable := by
  intro x hx
  simp only [nameTable, List.mem_cons, List.mem_map] at hx
  rcases hx with rfl | ⟨c, hc, rfl⟩
  · intro s hs tq cq s' hq
    cases hq
    exact ⟨_, by simpa using name_parse hn.1 hn.2 (noWord_of hs), rfl⟩
  · intro s _
    obtain ⟨hne, hw⟩ := hn
    cases n with
    | nil => exact absurd rfl hne
    | cons d r =>
      refine .chr_no ?_
      rintro rfl
      have : ∀ d ∈ nonStart, isWordChar d = false := by decide
      have h1 := hw d (by simp)
      rw [this d hc] at h1; cases h1

/-! ### numbers -/

/-- characters no number starts with -/
def nonInt : List Char := nonStart ++ ['"', '~', '$', '!', '*', '(', '[', '{', '.', 'p', 'd', 't', 'f', 'n', 'a', 'm', 'l', 's', 'c']

def intTable : Table :=
  nonInt.map (fun c => (.chr c, .fail [])) ++
  [(.nt .Number, .cont need0 .eps), (.nt .IP, .fail need0), (pIndexTail, .fail needIndex), (pNaBody, .fail needName),
   (.nt .Subtraction, .fail []), (.nt .LogOr, .fail []), (.nt .LogAnd, .fail [])]

/-- optional sign and digits -/
def IntText (t : Txt) : Prop := ∃ sg d, t = sg ++ d ∧ (sg = [] ∨ sg = ['-']) ∧ d ≠ [] ∧ ∀ c ∈ d, isDigitChar c = true

theorem digit_word {c : Char} (h : isDigitChar c = true) : isWordChar c = true := by
  simp only [isWordChar, isDigitChar, Bool.or_eq_true] at h ⊢
  exact .inr (.inr (.inl h))

theorem stops_noDigit {s : Txt} (hs : WordEnd s) : ∀ c r, s = c :: r → isDigitChar c = false := by
  intro c r e
  cases hd : isDigitChar c with
  | false => rfl
  | true => have := stops_noWord hs c r e; rw [digit_word hd] at this; cases this

theorem int_head {sg d : Txt} (hsg : sg = [] ∨ sg = ['-']) (hne : d ≠ []) (hd : ∀ c ∈ d, isDigitChar c = true) :
    ∃ c r, sg ++ d = c :: r ∧ (c = '-' ∨ isDigitChar c = true) := by
  rcases hsg with rfl | rfl
  · cases d with
    | nil => exact absurd rfl hne
    | cons c r => exact ⟨c, r, rfl, .inr (hd c (by simp))⟩
  · exact ⟨'-', d, rfl, .inl rfl⟩

theorem sign_parse {sg d u : Txt} (hsg : sg = [] ∨ sg = ['-']) (hne : d ≠ []) (hd : ∀ c ∈ d, isDigitChar c = true) :
    Parses dynamlRules (opt (.chr '-')) (sg ++ (d ++ u)) (some ([], sg, d ++ u)) := by
  rcases hsg with rfl | rfl
  · refine .alt2 ?_ (.eps _)
    cases d with
    | nil => exact absurd rfl hne
    | cons x r =>
      refine .chr_no ?_
      rintro rfl
      exact absurd (hd '-' (by simp)) (by decide)
  · exact .alt1 (.chr_ok _ _)

theorem minus_none {d u : Txt} (hne : d ≠ []) (hd : ∀ c ∈ d, isDigitChar c = true) (c : Char) (hc : isDigitChar c = false) :
    Parses dynamlRules (.chr c) (d ++ u) none := by
  cases d with
  | nil => exact absurd rfl hne
  | cons x r =>
    refine .chr_no ?_
    rintro rfl
    rw [hd x (by simp)] at hc; cases hc

theorem number_parse {sg d s : Txt} (hsg : sg = [] ∨ sg = ['-']) (hne : d ≠ []) (hd : ∀ c ∈ d, isDigitChar c = true) (hs : Stops s) :
    Parses dynamlRules (.nt .Number) (sg ++ d ++ s) (some ([⟨.Number, sg ++ d⟩], sg ++ d, s)) := by
  have h1 := sign_parse (u := s) hsg hne hd
  obtain ⟨c, w, rfl⟩ : ∃ c w, d = c :: w := by cases d with | nil => exact absurd rfl hne | cons c w => exact ⟨c, w, rfl⟩
  have h2 := class_digit.yes c (w ++ s) (hd c (by simp))
  have hcls : CharClass (alts [.rng '0' '9', .chr '_']) (fun c => isDigitChar c || c == '_') := class_alt class_digit (class_chr '_')
  have h3 := class_star hcls (w := w) (s := s) (fun x hx => by simp [hd x (by simp [hx])]) ((class_fails hcls).mpr (by
    intro x r e
    rw [Bool.or_eq_false_iff]
    refine ⟨stops_noDigit hs.head x r e, ?_⟩
    have := (hs.head x r e).1
    cases hx : x == '_' with
    | false => rfl
    | true => rw [eq_of_beq hx] at this; exact absurd this (by decide)))
  have h4 : Parses dynamlRules (opt (seqs [.chr '.', .rng '0' '9', .star (.rng '0' '9')])) s (some ([], [], s)) := by
    refine .alt2 ?_ (.eps _)
    cases s with
    | nil => exact .seq_no1 (.chr_end _)
    | cons x r =>
      by_cases e : x = '.'
      · subst e
        refine .seq_no2 (.chr_ok _ _) (.seq_no1 ((class_fails class_digit).mpr ?_))
        rintro y r' rfl
        have := hs.dot y r' rfl
        cases hy : isDigitChar y with
        | false => rfl
        | true => rw [digit_word hy] at this; cases this
      · exact .seq_no1 (.chr_no e)
  have hnot : ∀ x : Char, isKeyChar x = true → Parses dynamlRules (.chr x) s none := by
    intro x hx
    refine (class_fails (class_chr x)).mpr ?_
    intro y r e
    cases hy : y == x with
    | false => rfl
    | true => have := (hs.head y r e).1; rw [eq_of_beq hy, hx] at this; cases this
  have h5 : Parses dynamlRules (opt (seqs [alts [.chr 'e', .chr 'E'], opt (.chr '-'), .rng '0' '9', .star (.rng '0' '9')])) s (some ([], [], s)) :=
    .alt2 (.seq_no1 (.alt2 (hnot 'e' (by decide)) (hnot 'E' (by decide)))) (.eps _)
  have h6 : Parses dynamlRules (.neg (lit [':', ':'])) s (some ([], [], s)) := by
    refine .neg_ok (.seq_no1 ?_)
    exact (class_fails (class_chr ':')).mpr (fun y r e => by simpa using (hs.head y r e).2.1)
  have := Parses.nt_ok (r := Rule.Number) (.seq_ok h1 (.seq_ok h2 (.seq_ok h3 (.seq_ok h4 (.seq_ok h5 h6)))))
  simpa using this

theorem int_facts {t : Txt} (ht : IntText t) : Facts t [⟨.Number, t⟩] intTable := by
  obtain ⟨sg, d, rfl, hsg, hne, hd⟩ := ht
  obtain ⟨c, r, e, hc⟩ := int_head hsg hne hd
  intro x hx
  simp only [intTable, List.mem_append, List.mem_map, List.mem_cons, List.not_mem_nil, or_false] at hx
  rcases hx with ⟨x, hx, rfl⟩ | rfl | rfl | rfl | rfl | rfl | rfl | rfl
  · intro s _
    rw [e]
    refine .chr_no ?_
    rintro rfl
    have : ∀ d ∈ nonInt, d ≠ '-' ∧ isDigitChar d = false := by decide
    obtain ⟨h1, h2⟩ := this c hx
    rcases hc with hc | hc
    · exact h1 hc
    · rw [hc] at h2; cases h2
  · intro s hs tq cq s' hq
    cases hq
    exact ⟨_, by simpa using number_parse hsg hne hd (stops_of hs), rfl⟩
  · intro s hs
    have hst := stops_of hs
    rcases hsg with rfl | rfl
    · refine .nt_no (.seq_no2 (class_plus class_digit (s := s) hne hd ((class_fails class_digit).mpr (stops_noDigit hst.head))) ?_)
      cases s with
      | nil => exact .seq_no1 (.chr_end _)
      | cons x r =>
        by_cases e : x = '.'
        · subst e
          refine .seq_no2 (.chr_ok _ _) (.seq_no1 (.seq_no1 ((class_fails class_digit).mpr ?_)))
          rintro y r' rfl
          have := hst.dot y r' rfl
          cases hy : isDigitChar y with
          | false => rfl
          | true => rw [digit_word hy] at this; cases this
        · exact .seq_no1 (.chr_no e)
    · exact .nt_no (.seq_no1 (.seq_no1 (class_digit.no '-' _ (by decide))))
  · intro s hs
    have hst := stops_of (s := s) (fun n hn => hs n (List.mem_append_left _ hn))
    have h1 := sign_parse (u := s) hsg hne hd
    have h2 := class_plus class_digit (s := s) hne hd ((class_fails class_digit).mpr (stops_noDigit hst.head))
    rw [List.append_assoc]
    exact .seq_no2 h1 (.seq_no2 h2 (hs (.chr ']') (by simp [needIndex])))
  · intro s hs
    have hst := stops_of (s := s) (fun n hn => hs n (List.mem_append_left _ hn))
    rcases hsg with rfl | rfl
    · exact .seq_no2 (name_parse (u := s) hne (fun c hc => digit_word (hd c hc)) (stops_noWord hst.head)) (hs _ (by simp [needName]))
    · exact .seq_no1 (.nt_no (.seq_no1 (class_word.no '-' _ (by decide))))
  · intro s _
    rcases hsg with rfl | rfl
    · exact .nt_no (.seq_no1 (minus_none hne hd '-' (by decide)))
    · refine .nt_no (.seq_no2 (.chr_ok _ _) (.seq_no1 (.nt_no (.seq_no1 ?_))))
      exact .alt2 (minus_none hne hd _ (by decide)) (.alt2 (minus_none hne hd _ (by decide)) (.alt2 (minus_none hne hd _ (by decide)) (minus_none hne hd _ (by decide))))
  · intro s _
    rcases hsg with rfl | rfl
    · exact .nt_no (.seq_no1 (.seq_no1 (minus_none hne hd '-' (by decide))))
    · exact .nt_no (.seq_no1 (.seq_no2 (.chr_ok _ _) (.seq_no1 (minus_none hne hd _ (by decide)))))
  · intro s _
    rcases hsg with rfl | rfl
    · exact .nt_no (.seq_no1 (.seq_no1 (minus_none hne hd '-' (by decide))))
    · exact .nt_no (.seq_no1 (.seq_no2 (.chr_ok _ _) (.seq_no1 (minus_none hne hd _ (by decide)))))

theorem int_form : checkTable (tablesOf [intTable]) [.hole 0] [.hole 0] ((.chr '.', .fail []) :: closedTable 1) = true := by decide +kernel

theorem toDigits_digit (n : Nat) : Nat.toDigits 10 n ≠ [] ∧ ∀ c ∈ Nat.toDigits 10 n, isDigitChar c = true := by
  refine ⟨Nat.toDigits_ne_nil, ?_⟩
  intro c hc
  have := Nat.isDigit_of_mem_toDigits (b := 10) (by decide) (by decide) hc
  simpa [Char.isDigit, isDigitChar, Char.le_def] using this

theorem intText_text (i : Int) : IntText (intText i) := by
  unfold intText
  rw [toString_int]
  split
  · exact ⟨[], _, rfl, .inl rfl, (toDigits_digit _).1, (toDigits_digit _).2⟩
  · exact ⟨['-'], _, rfl, .inr rfl, (toDigits_digit _).1, (toDigits_digit _).2⟩

/-! ### literals without data -/

/-- the literals, the texts and the tokens -/
def literalForms : List (SynOp × Txt × List SItem) :=
  [(.nil, "nil".toList, [.tok .Nil []]), (.undef, "~~".toList, [.tok .Undefined []]),
   (.bool true, "true".toList, [.tok .Boolean (symChars "true".toList)]), (.bool false, "false".toList, [.tok .Boolean (symChars "false".toList)])]

theorem literal_form : literalForms.all (fun x => checkTable (tablesOf []) (symChars x.2.1) x.2.2 ((.chr '.', .fail []) :: (pIndexTail, .fail []) :: closedTable 1)) = true := by
  decide +kernel
theorem auto_form : checkTable (tablesOf []) (symChars "auto".toList) [.tok .Auto []] ((.chr '.', .fail []) :: (pIndexTail, .fail []) :: closedTable 1) = true := by
  decide +kernel

end Spiff
