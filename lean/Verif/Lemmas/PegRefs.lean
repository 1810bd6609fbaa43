import Verif.Lemmas.PegWords
/-
References: the facts about the texts of references.
-/
namespace Spiff
open Peg

theorem lit_none {l x : Txt} (h : ¬ l <+: x) : Parses dynamlRules (lit l) x none := by
  induction l generalizing x with
  | nil => exact absurd (List.nil_prefix) h
  | cons c r ih =>
    have hc : Parses dynamlRules (.chr c) x none ∨ ∃ y, x = c :: y := by
      cases x with
      | nil => exact .inl (.chr_end c)
      | cons d y =>
        by_cases e : d = c
        · exact .inr ⟨y, by rw [e]⟩
        · exact .inl (.chr_no e)
    cases r with
    | nil =>
      rcases hc with hc | ⟨y, rfl⟩
      · exact hc
      · exact absurd ⟨y, rfl⟩ h
    | cons d r =>
      rcases hc with hc | ⟨y, rfl⟩
      · exact .seq_no1 hc
      · refine .seq_no2 (.chr_ok c y) (ih ?_)
        rintro ⟨z, rfl⟩
        exact h ⟨z, rfl⟩

theorem lit_some (l x : Txt) : Parses dynamlRules (lit l) (l ++ x) (some ([], l, x)) := by
  induction l with
  | nil => exact .eps x
  | cons c r ih =>
    cases r with
    | nil => exact .chr_ok c x
    | cons d r => exact .seq_ok (.chr_ok c _) ih

/-- characters of keys and opening brackets -/
def isStopChar (c : Char) : Bool := isKeyChar c || c == '[' || c == '{'

theorem wordEnd_stop {u : Txt} (h : WordEnd u) {c : Char} {r : Txt} (e : u = c :: r) : isStopChar c = false := by
  obtain ⟨h1, -, h3, h4⟩ := h c r e
  simp [isStopChar, h1, h3, h4]

/-- A word that fits at the beginning of a text lies in its first word. -/
theorem prefix_word {l k u : Txt} (hl : ∀ c ∈ l, isStopChar c = true) (hu : WordEnd u) (h : l <+: k ++ u) : l <+: k := by
  induction l generalizing k with
  | nil => exact List.nil_prefix
  | cons c r ih =>
    cases k with
    | nil =>
      obtain ⟨z, e⟩ := h
      have := wordEnd_stop hu (c := c) (r := r ++ z) (by simpa using e.symm)
      rw [hl c (by simp)] at this; cases this
    | cons d k =>
      rw [List.cons_append, List.cons_prefix_cons] at h
      obtain ⟨rfl, h⟩ := h
      rw [List.cons_prefix_cons]
      exact ⟨rfl, ih (fun x hx => hl x (by simp [hx])) h⟩

theorem FirstKey.key {k : Txt} (h : FirstKey k) : KeyChars k := by
  obtain ⟨c, w, rfl, hc⟩ := h.head
  exact ⟨c, w, rfl, letter_word hc, fun d hd => h.chars d (by simp [hd])⟩

/-- words followed by an opening bracket -/
def bracketWords : List Txt := ["sync[", "catch[", "filter[", "filter{", "map{", "map[", "select{", "select[", "sum["].map String.toList
def reservedWords : List Txt := ["true", "false", "nil", "auto", "merge", "lambda"].map String.toList
/-- characters no reference starts with -/
def nonRef : List Char := nonStart ++ ['-', '"', '~', '$', '!', '*', '(', '[', '{', '.']

def refTable : Table :=
  nonRef.map (fun c => (.chr c, .fail [])) ++ [(.rng '0' '9', .fail []), (.nt .Reference, .cont need0 .eps)] ++
  (reservedWords ++ bracketWords).map (fun l => (lit l, .fail need0)) ++ [(pNaBody, .fail needName), (pPrefer, .fail need0)]

theorem letter_not {c d : Char} (h : isLetterChar c = true) (hd : d ∈ nonRef) : c ≠ d := by
  rintro rfl
  have : ∀ d ∈ nonRef, isLetterChar d = false := by decide
  rw [this c hd] at h; cases h

theorem letter_noDigit {c : Char} (h : isLetterChar c = true) : isDigitChar c = false := by
  cases hd : isDigitChar c with
  | false => rfl
  | true =>
    exfalso
    simp only [isDigitChar, isLetterChar, Bool.and_eq_true, decide_eq_true_eq, Bool.or_eq_true, beq_iff_eq, Char.le_def,
      UInt32.le_iff_toNat_le] at h hd
    have e1 : 'a'.val.toNat = 97 := rfl
    have e2 : 'A'.val.toNat = 65 := rfl
    have e3 : '9'.val.toNat = 57 := rfl
    rcases h with h | h | h
    · omega
    · omega
    · subst h; exact absurd hd.2 (by decide)

/-! ### tags -/

def pTagMore : Peg Rule := seqs [alts [.chr '.', .chr ':'], .nt .TagComponent]

/-- splitting a text of key characters at the first minus -/
theorem key_split (w : Txt) (h : ∀ d ∈ w, isKeyChar d = true) :
    ∃ a b, w = a ++ b ∧ (∀ d ∈ a, isWordChar d = true) ∧ (b = [] ∨ ∃ r, b = '-' :: r) := by
  induction w with
  | nil => exact ⟨[], [], rfl, by simp, .inl rfl⟩
  | cons c r ih =>
    obtain ⟨a, b, e, h1, h2⟩ := ih (fun d hd => h d (by simp [hd]))
    cases hc : isWordChar c with
    | true =>
      refine ⟨c :: a, b, by rw [e]; rfl, ?_, h2⟩
      intro d hd
      rcases List.mem_cons.mp hd with rfl | hd
      · exact hc
      · exact h1 d hd
    | false =>
      have hk := h c (by simp)
      have : c = '-' := by
        simp only [isKeyChar, isWordChar, Bool.or_eq_true, Bool.or_eq_false_iff] at hk hc
        rcases hk with hk | hk | hk | hk | hk
        · rw [hk] at hc; exact absurd hc.1 (by simp)
        · rw [hk] at hc; exact absurd hc.2.1 (by simp)
        · rw [hk] at hc; exact absurd hc.2.2.1 (by simp)
        · rw [hk] at hc; exact absurd hc.2.2.2 (by simp)
        · simpa using hk
      subst this
      exact ⟨[], '-' :: r, rfl, by simp, .inr ⟨r, rfl⟩⟩

/-- what is left behind a name: the rest of a key starting with a minus, or what follows the key -/
def LeftOver (b : Txt) : Prop := b = [] ∨ ∃ r, b = '-' :: r

theorem leftOver_noWord {b u : Txt} (hb : LeftOver b) (hu : ∀ c r, u = c :: r → isWordChar c = false) :
    ∀ c r, b ++ u = c :: r → isWordChar c = false := by
  rcases hb with rfl | ⟨r, rfl⟩
  · exact hu
  · rintro c r' e; cases e; rfl

theorem tagComponent_parse {c : Char} {a u : Txt} (hc : isLetterChar c = true) (ha : ∀ d ∈ a, isWordChar d = true)
    (hu : ∀ c r, u = c :: r → isWordChar c = false) :
    Parses dynamlRules (.nt .TagComponent) (c :: a ++ u) (some ([⟨.TagComponent, c :: a⟩], c :: a, u)) := by
  have := Parses.nt_ok (r := Rule.TagComponent) (.seq_ok (class_letter.yes c (a ++ u) hc) (class_star class_word ha ((class_fails class_word).mpr hu)))
  simpa using this

theorem tagComponent_none {u : Txt} (hu : ∀ c r, u = c :: r → isLetterChar c = false) : Parses dynamlRules (.nt .TagComponent) u none :=
  .nt_no (.seq_no1 ((class_fails class_letter).mpr hu))

theorem stops_noWord {s : Txt} (hs : WordEnd s) : ∀ c r, s = c :: r → isWordChar c = false := by
  intro c r e
  cases hw : isWordChar c with
  | false => rfl
  | true => have := (hs c r e).1; rw [word_key hw] at this; cases this

theorem pathTail_noWord {P : List Txt} {s : Txt} (hs : WordEnd s) : ∀ c r, pathTail P ++ s = c :: r → isWordChar c = false :=
  stops_noWord (tail_wordEnd hs)

/-- The repetition of a tag stops in front of something that is not a colon. -/
theorem tagMore_parse {P : List Txt} {s b : Txt} (hb : LeftOver b) (hP : ∀ c ∈ P, CompText c) (hs : Stops s) :
    ∃ t m r, Parses dynamlRules (.star pTagMore) (b ++ (pathTail P ++ s)) (some (t, m, r)) ∧ ∀ x, r ≠ ':' :: x := by
  induction P generalizing b with
  | nil =>
    rcases hb with rfl | ⟨r, rfl⟩
    · refine ⟨_, _, _, .star_end ?_, ?_⟩
      · simp only [List.nil_append, pathTail, List.flatMap_nil]
        cases s with
        | nil => exact .seq_no1 (.alt2 (.chr_end _) (.chr_end _))
        | cons c r =>
          by_cases e : c = '.'
          · subst e
            refine .seq_no2 (.alt1 (.chr_ok _ _)) (tagComponent_none ?_)
            rintro d r' rfl
            have := hs.dot d r' rfl
            cases h : isLetterChar d with
            | false => rfl
            | true => rw [letter_word h] at this; cases this
          · exact .seq_no1 (.alt2 (.chr_no e) (.chr_no (hs.head c r rfl).2.1))
      · simp only [List.nil_append, pathTail, List.flatMap_nil]
        rintro x rfl
        exact (hs.head ':' x rfl).2.1 rfl
    · exact ⟨_, _, _, .star_end (.seq_no1 (.alt2 (.chr_no (by decide)) (.chr_no (by decide)))), by rintro x e; cases e⟩
  | cons k P ih =>
    rcases hb with rfl | ⟨r, rfl⟩
    · have hk := hP k (by simp)
      have hP' := fun c hc => hP c (List.mem_cons_of_mem _ hc)
      have he : pathTail (k :: P) ++ s = '.' :: (k ++ (pathTail P ++ s)) := by simp [pathTail]
      rw [List.nil_append, he]
      by_cases hl : ∃ c w, k = c :: w ∧ isLetterChar c = true
      · obtain ⟨c, w, rfl, hc⟩ := hl
        have hw : ∀ d ∈ w, isKeyChar d = true := by
          rcases hk with ⟨c', w', e, -, hw⟩ | ⟨sg, d, e, -⟩
          · cases e; exact hw
          · cases e; exact absurd hc (by decide)
        obtain ⟨a, b, rfl, ha, hb⟩ := key_split w hw
        obtain ⟨t, m, r, h, hr⟩ := ih (b := b) hb hP'
        refine ⟨_, _, r, .star_more (.seq_ok (.alt1 (.chr_ok _ _)) (?_ : Parses dynamlRules _ _ (some ([⟨.TagComponent, c :: a⟩], c :: a, b ++ (pathTail P ++ s))))) h, hr⟩
        have := tagComponent_parse (a := a) (u := b ++ (pathTail P ++ s)) hc ha (leftOver_noWord hb (pathTail_noWord hs.head))
        simpa [seqs] using this
      · refine ⟨_, _, _, .star_end (.seq_no2 (.alt1 (.chr_ok _ _)) (tagComponent_none ?_)), by rintro x e; cases e⟩
        intro c r e
        cases h : isLetterChar c with
        | false => rfl
        | true =>
          exfalso
          cases k with
          | nil => rcases hk with ⟨c', w', e, -⟩ | ⟨sg, d, e, -⟩ <;> cases e
          | cons c' w =>
            cases e
            exact hl ⟨_, _, rfl, h⟩
    · exact ⟨_, _, _, .star_end (.seq_no1 (.alt2 (.chr_no (by decide)) (.chr_no (by decide)))), by rintro x e; cases e⟩

theorem tagPrefix_none {k : Txt} {P : List Txt} {s : Txt} (hk : FirstKey k) (hP : ∀ c ∈ P, CompText c) (hs : Stops s) :
    Parses dynamlRules (.nt .TagPrefix) (k ++ (pathTail P ++ s)) none := by
  obtain ⟨c, w, rfl, hc⟩ := hk.head
  obtain ⟨a, b, rfl, ha, hb⟩ := key_split w (fun d hd => hk.chars d (by simp [hd]))
  obtain ⟨t, m, r, h, hr⟩ := tagMore_parse hb hP hs
  have hcolon : Parses dynamlRules (lit [':', ':']) r none := by
    apply lit_none
    rintro ⟨x, rfl⟩
    exact hr _ rfl
  refine .nt_no ?_
  have htag : ∃ t' m', Parses dynamlRules (.nt .Tag) (c :: (a ++ b) ++ (pathTail P ++ s)) (some (t', m', r)) := by
    have h1 := tagComponent_parse (a := a) (u := b ++ (pathTail P ++ s)) hc ha (leftOver_noWord hb (pathTail_noWord hs.head))
    refine ⟨_, _, .nt_ok (.seq_ok (?_ : Parses dynamlRules _ _ (some ([⟨.TagComponent, c :: a⟩], c :: a, b ++ (pathTail P ++ s)))) h)⟩
    simpa using h1
  obtain ⟨t', m', htag⟩ := htag
  refine .seq_no2 (.alt2 ?_ htag) hcolon
  by_cases hd : "doc".toList <+: (c :: (a ++ b)) ++ (pathTail P ++ s)
  · have h2 := prefix_word (by decide) (tail_wordEnd hs.head) hd
    obtain ⟨x, e⟩ := h2
    have hx : x ≠ [] := by
      rintro rfl
      exact hk.noDoc (by simpa using e.symm)
    have h3 := lit_some "doc".toList (x ++ (pathTail P ++ s))
    rw [← List.append_assoc, e] at h3
    refine .seq_no2 h3 (.seq_no1 ?_)
    cases x with
    | nil => exact absurd rfl hx
    | cons d y =>
      have hd := hk.chars d (by rw [← e]; simp)
      refine .alt2 (.chr_no ?_) (.chr_no ?_) <;> (rintro rfl; exact absurd hd (by decide))
  · exact .seq_no1 (lit_none hd)

theorem reference_parse {k : Txt} {P : List Txt} {s : Txt} (hk : FirstKey k) (hP : ∀ c ∈ P, CompText c) (hs : Stops s) :
    ∃ t, Parses dynamlRules (.nt .Reference) (k ++ pathTail P ++ s) (some (t, k ++ pathTail P, s)) ∧ ess t = [⟨.Reference, k ++ pathTail P⟩] := by
  obtain ⟨t, h, he⟩ := followUp_parse hP hs
  have h1 := key_parse (s := pathTail P ++ s) hk.key (tail_wordEnd hs.head)
  obtain ⟨c, w, e, hc⟩ := hk.head
  have h2 : Parses dynamlRules (opt (.chr '.')) (k ++ (pathTail P ++ s)) (some ([], [], k ++ (pathTail P ++ s))) := by
    refine .alt2 ?_ (.eps _)
    rw [e]
    exact .chr_no (letter_not hc (by decide))
  have h3 := tagPrefix_none hk hP hs
  have := Parses.nt_ok (r := Rule.Reference) (.seq_ok (.alt2 (.seq_no1 h3) (.seq_ok h2 h1)) h)
  refine ⟨_, by simpa using this, ?_⟩
  show ess ([⟨.Key, k⟩] ++ (t ++ [⟨.Reference, k ++ pathTail P⟩])) = _
  rw [ess_append, ess_append, he]
  rfl

theorem name_parse {a u : Txt} (hne : a ≠ []) (ha : ∀ d ∈ a, isWordChar d = true) (hu : ∀ c r, u = c :: r → isWordChar c = false) :
    Parses dynamlRules (.nt .Name) (a ++ u) (some ([⟨.Name, a⟩], a, u)) := by
  have := Parses.nt_ok (r := Rule.Name) (class_plus class_word hne ha ((class_fails class_word).mpr hu))
  simpa using this

theorem naTail_none {c : Char} {r : Txt} (h : c ∉ [' ', '\t', '\n', '\r', '=']) : Parses dynamlRules pNaTail (c :: r) none := by
  simp only [List.mem_cons, List.not_mem_nil, or_false, not_or] at h
  exact .seq_no2 (.nt_ok (.star_end (.alt2 (.chr_no h.1) (.alt2 (.chr_no h.2.1) (.alt2 (.chr_no h.2.2.1) (.chr_no h.2.2.2.1)))))) (.seq_no1 (.chr_no h.2.2.2.2))

theorem ref_facts {k : Txt} {P : List Txt} (hk : FirstKey k) (hP : ∀ c ∈ P, CompText c) :
    Facts (k ++ pathTail P) [⟨.Reference, k ++ pathTail P⟩] refTable := by
  intro x hx
  simp only [refTable, List.mem_append, List.mem_map, List.mem_cons, List.not_mem_nil, or_false] at hx
  rcases hx with ((⟨c, hc, rfl⟩ | rfl | rfl) | ⟨l, hl, rfl⟩) | rfl | rfl
  · intro s _
    obtain ⟨d, w, rfl, hd⟩ := hk.head
    exact .chr_no (letter_not hd hc)
  · intro s _
    obtain ⟨d, w, rfl, hd⟩ := hk.head
    exact class_digit.no d _ (letter_noDigit hd)
  · intro s hs tq cq s' hq
    cases hq
    obtain ⟨t, h, he⟩ := reference_parse hk hP (stops_of hs)
    exact ⟨t, by simpa using h, by rw [he]; rfl⟩
  · intro s hs
    apply lit_none
    intro h
    rw [List.append_assoc] at h
    have hstop : ∀ l ∈ reservedWords ++ bracketWords, ∀ c ∈ l, isStopChar c = true := by decide
    have hpre := prefix_word (hstop l (by simpa using hl)) (tail_wordEnd (stops_of hs).head) h
    rcases hl with hl | hl
    · simp only [reservedWords, List.mem_map] at hl
      obtain ⟨w, hw, rfl⟩ := hl
      exact hk.reserved w hw hpre
    · have hb : ∀ l ∈ bracketWords, ∃ c ∈ l, isKeyChar c = false := by decide
      obtain ⟨c, hc, hkc⟩ := hb l hl
      rw [hk.chars c (hpre.subset hc)] at hkc
      cases hkc
  · intro s hs
    have hst := stops_of (s := s) (fun n hn => hs n (List.mem_append_left _ hn))
    have hna := hs pNaTail (by simp [needName])
    obtain ⟨a, b, e, ha, hb⟩ := key_split k hk.chars
    obtain ⟨c, w, e', hc⟩ := hk.head
    have hne : a ≠ [] := by
      rintro rfl
      rcases hb with rfl | ⟨r, rfl⟩
      · rw [e'] at e; cases e
      · rw [e'] at e; cases e; exact absurd hc (by decide)
    have h1 := name_parse (u := b ++ (pathTail P ++ s)) hne ha (leftOver_noWord hb (pathTail_noWord hst.head))
    have e2 : k ++ pathTail P ++ s = a ++ (b ++ (pathTail P ++ s)) := by rw [e]; simp
    rw [e2]
    refine .seq_no2 h1 ?_
    rcases hb with rfl | ⟨r, rfl⟩
    · cases P with
      | nil => exact hna
      | cons p P => exact naTail_none (by decide)
    · exact naTail_none (by decide)
  · intro s hs
    have hst := stops_of hs
    by_cases hp : "prefer".toList <+: k ++ pathTail P ++ s
    · have hp' := hp
      rw [List.append_assoc] at hp'
      have h2 := prefix_word (by decide) (tail_wordEnd hst.head) hp'
      obtain ⟨x, e⟩ := h2
      have hx : x ≠ [] := by
        rintro rfl
        exact hk.noPrefer (by simpa using e.symm)
      have h3 := lit_some "prefer".toList (x ++ (pathTail P ++ s))
      rw [← List.append_assoc, e, ← List.append_assoc] at h3
      refine .seq_no2 h3 (.seq_no1 (.nt_no (.seq_no1 ?_)))
      cases x with
      | nil => exact absurd rfl hx
      | cons d y =>
        have hd := hk.chars d (by rw [← e]; simp)
        refine .alt2 (.chr_no ?_) (.alt2 (.chr_no ?_) (.alt2 (.chr_no ?_) (.chr_no ?_))) <;> (rintro rfl; exact absurd hd (by decide))
    · exact .seq_no1 (lit_none hp)

theorem ref_form : checkTable (tablesOf [refTable]) [.hole 0] [.hole 0] ((pIndexTail, .fail []) :: (.chr '.', .fail []) :: closedTable 0) = true := by
  decide +kernel

/-! ### absolute references -/

def keyNeeds : List (Peg Rule) := [.rng 'a' 'z', .rng 'A' 'Z', .rng '0' '9', .chr '_', .chr '-', .chr ':', .chr '[', .chr '{']

theorem wordEnd_of {s : Txt} (h : ∀ n ∈ keyNeeds, Parses dynamlRules n s none) : WordEnd s := by
  intro c r e
  have h1 := (class_fails (class_rng 'a' 'z')).mp (h _ (by decide +kernel)) c r e
  have h2 := (class_fails (class_rng 'A' 'Z')).mp (h _ (by decide +kernel)) c r e
  have h3 := (class_fails (class_rng '0' '9')).mp (h _ (by decide +kernel)) c r e
  have h4 := (class_fails (class_chr '_')).mp (h _ (by decide +kernel)) c r e
  have h5 := (class_fails (class_chr '-')).mp (h _ (by decide +kernel)) c r e
  have h6 := (class_fails (class_chr ':')).mp (h _ (by decide +kernel)) c r e
  have h7 := (class_fails (class_chr '[')).mp (h _ (by decide +kernel)) c r e
  have h8 := (class_fails (class_chr '{')).mp (h _ (by decide +kernel)) c r e
  refine ⟨?_, by simpa using h6, by simpa using h7, by simpa using h8⟩
  unfold isKeyChar
  simp only [h1, h2, h3, h4, h5, Bool.or_false]

def keyTable : Table := [(.nt .Key, .cont keyNeeds .eps)]
def refTailTable : Table := (.nt .FollowUpRef, .cont need0 .eps) :: throughTable keyNeeds

theorem key_facts {k : Txt} (hk : KeyChars k) : Facts k [] keyTable := by
  intro x hx
  simp only [keyTable, List.mem_singleton] at hx
  subst hx
  intro s hs tq cq s' hq
  cases hq
  exact ⟨[⟨.Key, k⟩], by simpa using key_parse hk (wordEnd_of hs), rfl⟩

theorem refTail_facts {P : List Txt} (hP : ∀ c ∈ P, CompText c) : Facts (pathTail P) [] refTailTable := by
  intro x hx
  simp only [refTailTable, List.mem_cons, throughTable, List.mem_map] at hx
  rcases hx with rfl | ⟨n, hn, rfl⟩
  · intro s hs tq cq s' hq
    cases hq
    obtain ⟨t, h, he⟩ := followUp_parse hP (stops_of hs)
    exact ⟨t, by simpa using h, by rw [he]; rfl⟩
  · intro s hs
    cases P with
    | nil => exact hs n (by simp)
    | cons c P =>
      simp only [keyNeeds, List.mem_cons, List.not_mem_nil, or_false] at hn
      rcases hn with rfl | rfl | rfl | rfl | rfl | rfl | rfl | rfl
      · exact .rng_no (by decide)
      · exact .rng_no (by decide)
      · exact .rng_no (by decide)
      all_goals exact .chr_no (by decide)

theorem absRef_form : checkTable (tablesOf [keyTable, refTailTable]) [.ch '.', .hole 0, .hole 1] [.hole 0, .hole 1, .tok .Reference [.ch '.', .hole 0, .hole 1]]
    ((pIndexTail, .fail []) :: closedTable 0) = true := by decide +kernel

end Spiff
