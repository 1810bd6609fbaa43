import Verif.Spec.Json
import Verif.Props.YamlScan
import Verif.Props.YamlKeys
/-
C87: the text of a JSON value is scanned as its tokens.
-/
namespace Spiff
open Spec

/-! ### strings -/

theorem asHex_lower : ∀ d < 16, asHex (hexLower d) = some d := by decide

theorem hexLower_ascii : ∀ d < 16, AsciiC (hexLower d) := by unfold AsciiC; decide

theorem quotedStep_escape (s : YText) (col : Nat) (r : YText) (hcol : 0 < col) : quotedStep false s col '\\' r = escapeStep s col r := by
  unfold quotedStep
  have h1 : isZeroC '\\' = false := by decide
  have h2 : (isBlankC '\\' || isBreakC '\\') = false := by decide
  simp [col_ne hcol, h1, h2]

/-- a character is written as it is, or with an escape sequence read as this character -/
inductive JsonC (c : Char) : Prop
  | space : c = ' ' → jsonChar c = [c] → JsonC c
  | dark : jsonChar c = [c] → Dark c → c ≠ '"' → c ≠ '\\' → isReadableC c = true → JsonC c
  | escape (u : YText) : jsonChar c = '\\' :: u → (∀ x ∈ u, AsciiC x) →
      (∀ s col t, 0 < col → ∃ col', 0 < col' ∧ escapeStep s col (u ++ t) = .more (s ++ [c]) col' t) → JsonC c

theorem jsonChar_letter {c l : Char} (h : jsonChar c = ['\\', l]) (hl : letterEscape l = some c) (ha : AsciiC l) : JsonC c := by
  refine .escape [l] h (by simpa using ha) (fun s col t hcol => ⟨col + 2, by omega, ?_⟩)
  rw [List.singleton_append, escapeStep, ascii_not_break ha, hl]
  simp

theorem jsonChar_ok {c : Char} (hc : JsonSafeC c) : JsonC c := by
  by_cases h1 : c = '"'
  · subst h1; exact jsonChar_letter rfl rfl (by unfold AsciiC; decide)
  by_cases h2 : c = '\\'
  · subst h2; exact jsonChar_letter rfl rfl (by unfold AsciiC; decide)
  by_cases h3 : c = '\u0008'
  · subst h3; exact jsonChar_letter rfl rfl (by unfold AsciiC; decide)
  by_cases h4 : c = '\u000c'
  · subst h4; exact jsonChar_letter rfl rfl (by unfold AsciiC; decide)
  by_cases h5 : c = '\n'
  · subst h5; exact jsonChar_letter rfl rfl (by unfold AsciiC; decide)
  by_cases h6 : c = '\r'
  · subst h6; exact jsonChar_letter rfl rfl (by unfold AsciiC; decide)
  by_cases h7 : c = '\t'
  · subst h7; exact jsonChar_letter rfl rfl (by unfold AsciiC; decide)
  by_cases h8 : c.toNat < 0x20 ∨ c = '<' ∨ c = '>' ∨ c = '&'
  · have hlt : c.toNat < 256 := by
      rcases h8 with h | rfl | rfl | rfl
      · omega
      · decide
      · decide
      · decide
    have hj : jsonChar c = ['\\', 'u', '0', '0', hexLower (c.toNat / 16), hexLower (c.toNat % 16)] := by
      unfold jsonChar
      rw [if_neg h1, if_neg h2, if_neg h3, if_neg h4, if_neg h5, if_neg h6, if_neg h7, if_pos (by simpa [or_assoc] using h8)]
    refine .escape _ hj ?_ (fun s col t hcol => ⟨col + 2 + 4, by omega, ?_⟩)
    · intro x hx
      simp only [List.mem_cons, List.not_mem_nil, or_false] at hx
      rcases hx with rfl | rfl | rfl | rfl | rfl
      · unfold AsciiC; decide
      · unfold AsciiC; decide
      · unfold AsciiC; decide
      · exact hexLower_ascii _ (by omega)
      · exact hexLower_ascii _ (by omega)
    · have hr : readHex 4 0 ('0' :: '0' :: hexLower (c.toNat / 16) :: hexLower (c.toNat % 16) :: t) = some (c.toNat, t) := by
        have h0 : asHex '0' = some 0 := by decide
        simp only [readHex, h0, asHex_lower (c.toNat / 16) (by omega), asHex_lower (c.toNat % 16) (by omega)]
        congr 2
        omega
      have hb : isBreakC 'u' = false := by decide
      simp only [List.cons_append, List.nil_append]
      rw [escapeStep, hb, show letterEscape 'u' = none from rfl, show codeLength 'u' = some 4 from rfl]
      simp only [Bool.false_eq_true, if_false, hr, codeChar_toNat]
  by_cases h9 : c = '\u2028' ∨ c = '\u2029'
  · have hu : ∀ x ∈ ['u', '2', '0', '2', '8', '9'], AsciiC x := by unfold AsciiC; decide
    rcases h9 with rfl | rfl
    · refine .escape ['u', '2', '0', '2', '8'] rfl (fun x hx => hu x ?_) (fun s col t hcol => ⟨col + 2 + 4, by omega, rfl⟩)
      simp only [List.mem_cons, List.not_mem_nil, or_false] at hx ⊢
      rcases hx with h | h | h | h | h <;> simp [h]
    · refine .escape ['u', '2', '0', '2', '9'] rfl (fun x hx => hu x ?_) (fun s col t hcol => ⟨col + 2 + 4, by omega, rfl⟩)
      simp only [List.mem_cons, List.not_mem_nil, or_false] at hx ⊢
      rcases hx with h | h | h | h | h <;> simp [h]
  have hj : jsonChar c = [c] := by
    unfold jsonChar
    rw [if_neg h1, if_neg h2, if_neg h3, if_neg h4, if_neg h5, if_neg h6, if_neg h7, if_neg (by simpa [or_assoc] using h8), if_neg (by simpa using h9)]
  by_cases hs : c = ' '
  · exact .space hs hj
  have hn : ∀ d : Char, c ≠ d → c.toNat ≠ d.toNat := fun d h he => h (Char.toNat_inj.1 he)
  have k0 := hn _ hs
  rw [not_or] at h8 h9
  have k1 := hn _ h9.1
  have k2 := hn _ h9.2
  have k8 := h8.1
  simp only [show (' ' : Char).toNat = 32 from rfl, show ('\u2028' : Char).toNat = 0x2028 from rfl, show ('\u2029' : Char).toNat = 0x2029 from rfl] at k0 k1 k2
  have hv := c.valid
  have hv : c.toNat < 0xD800 ∨ (0xDFFF < c.toNat ∧ c.toNat < 0x110000) := hv
  unfold JsonSafeC at hc
  refine .dark hj ?_ h1 h2 ?_
  · unfold Dark isBlankzC isBlankC isBreakC isZeroC
    have t1 : c ≠ '\u0085' := by rintro rfl; revert hc; decide
    have t2 : c ≠ '\u0000' := by rintro rfl; revert k8; decide
    simp [hs, h5, h6, h7, h9, t1, t2]
  · unfold isReadableC
    simp only [Bool.or_eq_true, Bool.and_eq_true, decide_eq_true_eq]
    omega

theorem jsonChar_dark {c : Char} (hc : JsonSafeC c) (hs : c ≠ ' ') (t : YText) : DarkHead (jsonChar c ++ t) := by
  rcases jsonChar_ok hc with ⟨h, _⟩ | ⟨h, hd, _⟩ | ⟨u, h, _⟩
  · exact absurd h hs
  · rw [h]; intro x r hx; cases hx; exact hd
  · rw [h]; intro x r hx; cases hx; decide

theorem flatMap_spaces (k : Nat) : (List.replicate k ' ').flatMap jsonChar = List.replicate k ' ' := by
  induction k with
  | zero => rfl
  | succ k ih => rw [List.replicate_succ, List.flatMap_cons, ih]; rfl

/-- a JSON string is read -/
theorem json_string_read (rest : YText) : ∀ (l : Nat) (s : YText), s.length ≤ l → (∀ c ∈ s, JsonSafeC c) → ∀ (acc : YText) (col fuel : Nat), 0 < col →
    (s.flatMap jsonChar ++ '"' :: rest).length < fuel →
    ∃ col', 0 < col' ∧ flowText false fuel acc col (s.flatMap jsonChar ++ '"' :: rest) = some (acc ++ s, col', rest) := by
  have hq : DarkHead ('"' :: rest) := by intro c r h; cases h; decide
  have hnil : ∀ (acc : YText) (col fuel : Nat), 0 < col → ('"' :: rest).length < fuel →
      ∃ col', 0 < col' ∧ flowText false fuel acc col ('"' :: rest) = some (acc ++ [], col', rest) := by
    intro s col fuel hcol hf
    obtain ⟨f, rfl⟩ : ∃ f, fuel = f + 1 := ⟨fuel - 1, by omega⟩
    refine ⟨col + 1, by omega, ?_⟩
    rw [flowText_step]
    unfold quotedStep
    have h1 : isZeroC '"' = false := by decide
    have h2 : (isBlankC '"' || isBreakC '"') = false := by decide
    simp [col_ne hcol, h1, h2]
  intro l
  induction l with
  | zero =>
    intro s hl _ acc col fuel hcol hf
    cases List.length_eq_zero_iff.1 (Nat.le_zero.1 hl)
    exact hnil acc col fuel hcol hf
  | succ l ih =>
    intro s hl hs acc col fuel hcol hf
    cases s with
    | nil => exact hnil acc col fuel hcol hf
    | cons c r =>
      obtain ⟨f, rfl⟩ : ∃ f, fuel = f + 1 := ⟨fuel - 1, by omega⟩
      rcases jsonChar_ok (hs c (by simp)) with ⟨hsp, hj⟩ | ⟨hj, hd, hn1, hn2, _⟩ | ⟨u, hj, _, hst⟩
      · obtain ⟨k, w, hkw, hw⟩ := span_spaces (c :: r)
        cases k with
        | zero => rw [List.replicate_zero, List.nil_append] at hkw; subst hkw; simp [hsp] at hw
        | succ k =>
          rw [hkw] at hl hs hf ⊢
          rw [List.flatMap_append, flatMap_spaces, List.append_assoc] at hf ⊢
          have hdw : DarkHead (w.flatMap jsonChar ++ '"' :: rest) := by
            cases w with
            | nil => exact hq
            | cons d w' =>
              rw [List.flatMap_cons, List.append_assoc]
              exact jsonChar_dark (hs d (by simp)) (by simpa using hw) _
          obtain ⟨col', h1, h2⟩ := ih w (by simp at hl; omega) (fun x hx => hs x (by simp [hx])) (acc ++ List.replicate (k + 1) ' ') (col + (k + 1)) f
            (by omega) (by simp at hf ⊢; omega)
          refine ⟨col', h1, ?_⟩
          have he := eatBlanks_spaces 0 (w.flatMap jsonChar ++ '"' :: rest) (k + 1) {} col rfl
          rw [eatBlanks_stop _ _ _ hdw] at he
          refine Eq.trans (flowText_blanks false f acc col ' ' (List.replicate k ' ' ++ (w.flatMap jsonChar ++ '"' :: rest)) (.inl rfl) hcol he) ?_
          simp only [Blanks.join, Bool.false_eq_true, if_false, List.nil_append]
          rw [h2]
          simp
      · rw [List.flatMap_cons, hj] at hf ⊢
        obtain ⟨col', h1, h2⟩ := ih r (by simp at hl; omega) (fun x hx => hs x (by simp [hx])) (acc ++ [c]) (col + 1) f (by omega) (by simp at hf ⊢; omega)
        refine ⟨col', h1, ?_⟩
        simp only [List.cons_append, List.nil_append]
        rw [flowText_dark false f acc col c _ hd hcol (by simpa using hn1) (fun _ => hn2), h2]
        simp
      · rw [List.flatMap_cons, hj, List.append_assoc] at hf ⊢
        obtain ⟨col1, hc1, hstep⟩ := hst acc col (r.flatMap jsonChar ++ '"' :: rest) hcol
        obtain ⟨col', h1, h2⟩ := ih r (by simp at hl; omega) (fun x hx => hs x (by simp [hx])) (acc ++ [c]) col1 f hc1 (by simp at hf ⊢; omega)
        refine ⟨col', h1, ?_⟩
        rw [List.cons_append, flowText_more (by rw [quotedStep_escape _ _ _ hcol]; exact hstep) f, h2]
        simp

/-- the characters of a JSON string can be read, and are on one line -/
theorem json_string_chars {s : YText} (hs : ∀ c ∈ s, JsonSafeC c) : ∀ c ∈ jsonQuote s, isReadableC c = true ∧ isBreakC c = false := by
  have hasc : ∀ c, AsciiC c → isReadableC c = true ∧ isBreakC c = false := by
    intro c h
    refine ⟨?_, ascii_not_break h⟩
    unfold AsciiC at h
    unfold isReadableC
    simp only [Bool.or_eq_true, Bool.and_eq_true, decide_eq_true_eq]
    omega
  intro c hc
  simp only [jsonQuote, List.mem_cons, List.mem_append, List.mem_flatMap, List.not_mem_nil, or_false] at hc
  rcases hc with rfl | ⟨d, hd, hcd⟩ | rfl
  · decide
  · rcases jsonChar_ok (hs d hd) with ⟨hsp, hj⟩ | ⟨hj, hdd, _, _, hr⟩ | ⟨u, hj, hu, _⟩
    · rw [hj] at hcd; simp at hcd; subst hcd; subst hsp; decide
    · rw [hj] at hcd; simp at hcd; subst hcd; exact ⟨hr, (dark_parts hdd).2.1⟩
    · rw [hj] at hcd
      rcases List.mem_cons.1 hcd with rfl | h
      · decide
      · exact hasc _ (hu _ h)
  · decide

end Spiff
