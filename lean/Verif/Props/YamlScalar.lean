import Verif.Props.YamlRead
import Verif.Spec.YamlScalar
/-
C73: the meaning of plain scalars.
-/
namespace Spiff
open Spec

/-! ### digits and numerals -/

theorem char_eq_ofNat (c : Char) : c = Char.ofNat c.toNat := by simp

theorem char_le_iff (a b : Char) : a ≤ b ↔ a.toNat ≤ b.toNat := Iff.rfl

theorem toNat_ofNat_small (n : Nat) (h : n < 0xd800) : (Char.ofNat n).toNat = n := by
  rw [Char.ofNat, dif_pos (Or.inl h)]
  simp [Char.ofNatAux, Char.toNat]

theorem goDigit_iff (c : Char) (d : Nat) : goDigit c = some d ↔ DigitOf c d := by
  constructor
  · intro h
    unfold goDigit at h
    simp only [char_le_iff] at h
    split at h
    · rename_i hc
      have : c.toNat - 48 < 10 := by have := hc.1; have := hc.2; simp at *; omega
      have h2 := DigitOf.dec _ this
      cases h
      have e : 48 + (c.toNat - 48) = c.toNat := by have := hc.1; simp at this; omega
      rw [e, ← char_eq_ofNat] at h2
      exact h2
    · split at h
      · rename_i hc
        have : c.toNat - 97 < 26 := by have := hc.1; have := hc.2; simp at *; omega
        have h2 := DigitOf.lower _ this
        cases h
        have e : 97 + (c.toNat - 97) = c.toNat := by have := hc.1; simp at this; omega
        rw [e, ← char_eq_ofNat] at h2
        rw [Nat.add_comm]; exact h2
      · split at h
        · rename_i hc
          have : c.toNat - 65 < 26 := by have := hc.1; have := hc.2; simp at *; omega
          have h2 := DigitOf.upper _ this
          cases h
          have e : 65 + (c.toNat - 65) = c.toNat := by have := hc.1; simp at this; omega
          rw [e, ← char_eq_ofNat] at h2
          rw [Nat.add_comm]; exact h2
        · cases h
  · intro h
    cases h with
    | dec d h =>
      unfold goDigit
      simp only [char_le_iff]
      rw [toNat_ofNat_small (48 + d) (by omega), if_pos (by simp; omega)]
      simp
    | lower d h =>
      unfold goDigit
      simp only [char_le_iff]
      rw [toNat_ofNat_small (97 + d) (by omega), if_neg (by simp; omega), if_pos (by simp; omega)]
      simp [Nat.add_comm]
    | upper d h =>
      unfold goDigit
      simp only [char_le_iff]
      rw [toNat_ofNat_small (65 + d) (by omega), if_neg (by simp; omega), if_neg (by simp; omega), if_pos (by simp; omega)]
      simp [Nat.add_comm]

theorem goDigits_append (b : Nat) (c : Char) : ∀ (t : List Char) (n : Nat), goDigits b n (t ++ [c]) =
    (goDigits b n t).bind fun m => goDigits b m [c] := by
  intro t
  induction t with
  | nil => intro n; rfl
  | cons x r ih =>
    intro n
    simp only [List.cons_append, goDigits]
    cases goDigit x with
    | none => rfl
    | some d =>
      dsimp only
      split
      · exact ih _
      · rfl

theorem goDigits_iff (b : Nat) (t : List Char) (n : Nat) : (t ≠ [] ∧ goDigits b 0 t = some n) ↔ Numeral b t n := by
  constructor
  · rintro ⟨hne, h⟩
    obtain ⟨m, hm⟩ : ∃ m, m = t.length := ⟨_, rfl⟩
    induction m generalizing t n with
    | zero => exact absurd (List.length_eq_zero_iff.1 hm.symm) hne
    | succ m ih =>
      obtain ⟨t', c, rfl⟩ : ∃ t' c, t = t' ++ [c] := ⟨t.dropLast, t.getLast hne, (List.dropLast_concat_getLast hne).symm⟩
      rw [goDigits_append] at h
      cases ht : goDigits b 0 t' with
      | none => simp [ht] at h
      | some k =>
        simp only [ht, Option.bind_some, goDigits] at h
        cases hd : goDigit c with
        | none => simp [hd] at h
        | some d =>
          simp only [hd] at h
          split at h
          · rename_i hlt
            cases h
            have hD := (goDigit_iff _ _).1 hd
            cases t' with
            | nil =>
              simp only [goDigits, Option.some.injEq] at ht
              subst ht
              simpa using Numeral.one c d hD hlt
            | cons x r =>
              exact .more _ _ _ _ (ih (x :: r) k (by simp) ht (by simp at hm ⊢; omega)) hD hlt
          · cases h
  · intro h
    induction h with
    | one c d h hd => exact ⟨by simp, by simp [goDigits, (goDigit_iff _ _).2 h, hd]⟩
    | more ds n c d hn h hd ih =>
      refine ⟨by simp, ?_⟩
      rw [goDigits_append, ih.2]
      simp [goDigits, (goDigit_iff _ _).2 h, hd]

theorem in64_iff (o : Option Nat) (n : Nat) : in64 o = some n ↔ o = some n ∧ n < 2^64 := by
  cases o with
  | none => simp [in64]
  | some m =>
    simp only [in64]
    split
    · simp only [Option.some.injEq]
      constructor
      · rintro rfl; exact ⟨rfl, ‹_›⟩
      · exact fun h => h.1
    · simp only [reduceCtorEq, false_iff]
      rintro ⟨h, hn⟩
      cases h
      exact absurd hn ‹_›

theorem goDigits_head (b : Nat) (c : Char) (r : List Char) (n k : Nat) (h : goDigits b n (c :: r) = some k) : ∃ d, goDigit c = some d ∧ d < b := by
  simp only [goDigits] at h
  cases hd : goDigit c with
  | none => simp [hd] at h
  | some d =>
    simp only [hd] at h
    split at h
    · exact ⟨d, rfl, ‹_›⟩
    · cases h

theorem mag_nil (n : Nat) : ¬ Magnitude [] n := by
  intro h
  generalize hs : ([] : List Char) = s at h
  cases h with
  | zero => cases hs
  | decimal _ _ h _ => subst hs; exact ((goDigits_iff _ _ _).2 h).1 rfl
  | binary _ _ _ _ _ => cases hs
  | octal _ _ _ _ _ => cases hs
  | hex _ _ _ _ _ => cases hs
  | leadingZero _ _ _ => cases hs

theorem mag_other (c : Char) (r : List Char) (n : Nat) (hc : c ≠ '0') : Magnitude (c :: r) n ↔ Numeral 10 (c :: r) n := by
  constructor
  · intro h
    generalize hs : c :: r = s at h
    cases h with
    | zero => cases hs; exact absurd rfl hc
    | decimal _ _ h _ => exact hs ▸ h
    | binary _ _ _ _ _ => cases hs; exact absurd rfl hc
    | octal _ _ _ _ _ => cases hs; exact absurd rfl hc
    | hex _ _ _ _ _ => cases hs; exact absurd rfl hc
    | leadingZero _ _ _ => cases hs; exact absurd rfl hc
  · exact fun h => .decimal _ _ h (by simpa using hc)

theorem mag_zero (r : List Char) (n : Nat) : Magnitude ('0' :: r) n ↔ (r = [] ∧ n = 0) ∨
    (∃ c t, r = c :: t ∧ ((c = 'b' ∨ c = 'B') ∧ Numeral 2 t n ∨ (c = 'o' ∨ c = 'O') ∧ Numeral 8 t n ∨ (c = 'x' ∨ c = 'X') ∧ Numeral 16 t n)) ∨
    Numeral 8 r n := by
  constructor
  · intro h
    generalize hs : '0' :: r = s at h
    cases h with
    | zero => cases hs; exact .inl ⟨rfl, rfl⟩
    | decimal _ _ h h0 => subst hs; exact absurd rfl h0
    | binary c t _ hc h => cases hs; exact .inr (.inl ⟨c, t, rfl, .inl ⟨hc, h⟩⟩)
    | octal c t _ hc h => cases hs; exact .inr (.inl ⟨c, t, rfl, .inr (.inl ⟨hc, h⟩)⟩)
    | hex c t _ hc h => cases hs; exact .inr (.inl ⟨c, t, rfl, .inr (.inr ⟨hc, h⟩)⟩)
    | leadingZero _ _ h => cases hs; exact .inr (.inr h)
  · rintro (⟨rfl, rfl⟩ | ⟨c, t, rfl, ⟨hc, h⟩ | ⟨hc, h⟩ | ⟨hc, h⟩⟩ | h)
    · exact .zero
    · exact .binary _ _ _ hc h
    · exact .octal _ _ _ hc h
    · exact .hex _ _ _ hc h
    · exact .leadingZero _ _ h

theorem not_octal (c : Char) (r : List Char) (n : Nat) (hc : c ∈ ['b', 'B', 'o', 'O', 'x', 'X']) : ¬ Numeral 8 (c :: r) n := by
  intro h
  obtain ⟨d, hd, hlt⟩ := goDigits_head _ _ _ _ _ ((goDigits_iff _ _ _).2 h).2
  simp only [List.mem_cons, List.not_mem_nil, or_false] at hc
  rcases hc with rfl | rfl | rfl | rfl | rfl | rfl <;> simp [goDigit] at hd <;> omega

theorem numeral_ne (b : Nat) (n : Nat) : ¬ Numeral b [] n := fun h => ((goDigits_iff _ _ _).2 h).1 rfl

theorem numeral_cons (b : Nat) (c : Char) (r : List Char) (n : Nat) : Numeral b (c :: r) n ↔ goDigits b 0 (c :: r) = some n := by
  rw [← goDigits_iff]; simp

theorem parseUint0_other (c : Char) (r : List Char) (hc : c ≠ '0') : parseUint0 (c :: r) = in64 (goDigits 10 0 (c :: r)) := by
  unfold parseUint0
  split
  · rename_i h; cases h
  · rename_i h; cases h; exact absurd rfl hc
  · rename_i h; cases h; exact absurd rfl hc
  · rfl

theorem intMagnitude_other (c : Char) (r : List Char) (hc : c ≠ '0') : intMagnitude (c :: r) = parseUint0 (c :: r) := by
  unfold intMagnitude
  split
  · rename_i h; cases h; exact absurd rfl hc
  · rename_i h; cases h; exact absurd rfl hc
  · rfl

theorem intMagnitude_o (r : List Char) : intMagnitude ('0' :: 'o' :: r) = parseUint8 r := rfl

theorem intMagnitude_zero (c : Char) (r : List Char) (hc : c ≠ 'o') : intMagnitude ('0' :: c :: r) = parseUint0 ('0' :: c :: r) := by
  unfold intMagnitude
  split
  · rename_i h; cases h
  · rename_i h; cases h; exact absurd rfl hc
  · rfl

theorem intMagnitude_iff (s : List Char) (n : Nat) : intMagnitude s = some n ↔ Magnitude s n ∧ n < 2^64 := by
  rcases s with _ | ⟨c, r⟩
  · simp [intMagnitude, parseUint0, mag_nil]
  · by_cases hc : c = '0'
    · subst hc
      rw [mag_zero]
      rcases r with _ | ⟨x, r⟩
      · simp only [intMagnitude, Option.some.injEq, numeral_ne, or_false, true_and]
        constructor
        · rintro rfl; simp
        · rintro ⟨h | ⟨c, t, h, _⟩, _⟩
          · exact h.symm
          · cases h
      · have hnil : ¬ (x :: r = [] ∧ n = 0) := by simp
        simp only [hnil, false_or]
        by_cases ho : x = 'o'
        · subst ho
          rw [intMagnitude_o]
          unfold parseUint8
          have h8 := not_octal 'o' r n (by simp)
          split
          · rename_i he
            subst he
            simp only [reduceCtorEq, h8, or_false, false_iff]
            rintro ⟨⟨c, t, h, h'⟩, _⟩
            cases h
            simp [numeral_ne] at h'
          · rename_i he
            rw [in64_iff]
            have : goDigits 8 0 r = some n ↔ Numeral 8 r n := by rw [← goDigits_iff]; simp [he]
            rw [this]
            simp only [h8, or_false]
            constructor
            · rintro ⟨h, hn⟩; exact ⟨⟨_, _, rfl, .inr (.inl ⟨.inl rfl, h⟩)⟩, hn⟩
            · rintro ⟨⟨c, t, h, h'⟩, hn⟩
              cases h
              simp at h'
              exact ⟨h', hn⟩
        · rw [intMagnitude_zero _ _ ho]
          rcases r with _ | ⟨y, r⟩
          · simp only [parseUint0, in64_iff, ← numeral_cons]
            constructor
            · rintro ⟨h, hn⟩; exact ⟨.inr h, hn⟩
            · rintro ⟨⟨c, t, h, h'⟩ | h, hn⟩
              · cases h; simp [numeral_ne] at h'
              · exact ⟨h, hn⟩
          · simp only [parseUint0]
            have key : ∀ (b : Nat), (∃ c t, x :: y :: r = c :: t ∧ ((c = 'b' ∨ c = 'B') ∧ Numeral 2 t n ∨ (c = 'o' ∨ c = 'O') ∧ Numeral 8 t n ∨
                (c = 'x' ∨ c = 'X') ∧ Numeral 16 t n)) ↔ ((x = 'b' ∨ x = 'B') ∧ Numeral 2 (y :: r) n ∨ (x = 'o' ∨ x = 'O') ∧ Numeral 8 (y :: r) n ∨
                (x = 'x' ∨ x = 'X') ∧ Numeral 16 (y :: r) n) := by
              intro b
              constructor
              · rintro ⟨c, t, h, h'⟩; cases h; exact h'
              · intro h; exact ⟨_, _, rfl, h⟩
            rw [key 0]
            split
            · rename_i hb
              have h8 := not_octal x (y :: r) n (by rcases hb with rfl | rfl <;> simp)
              rw [in64_iff, ← numeral_cons]
              simp only [hb, h8, true_and, or_false]
              rcases hb with rfl | rfl <;> simp
            · split
              · rename_i hb
                have h8 := not_octal x (y :: r) n (by rcases hb with rfl | rfl <;> simp)
                rw [in64_iff, ← numeral_cons]
                simp only [hb, h8, true_and, or_false]
                rcases hb with rfl | rfl <;> simp
              · split
                · rename_i hb
                  have h8 := not_octal x (y :: r) n (by rcases hb with rfl | rfl <;> simp)
                  rw [in64_iff, ← numeral_cons]
                  simp only [hb, h8, true_and, or_false]
                  rcases hb with rfl | rfl <;> simp
                · rename_i h1 h2 h3
                  rw [in64_iff, ← numeral_cons]
                  simp only [h1, h2, h3, false_and, false_or]
    · rw [intMagnitude_other _ _ hc, parseUint0_other _ _ hc, in64_iff, mag_other _ _ _ hc, numeral_cons]

theorem signedInt_iff (neg : Bool) (o : Option Nat) (i : Int) : signedInt neg o = some i ↔
    ∃ n : Nat, o = some n ∧ (if neg then (n : Int) ≤ 2^63 ∧ i = -n else (n : Int) < 2^63 ∧ i = n) := by
  cases o with
  | none => simp [signedInt]
  | some n =>
    have e : ((2:Int)^63) = 9223372036854775808 := by decide
    have e2 : ((2:Nat)^63) = 9223372036854775808 := by decide
    simp only [signedInt, Option.some.injEq, exists_eq_left', e, e2]
    cases neg <;> simp only [Bool.false_eq_true, if_false, if_true, true_and, false_and]
    · split
      · simp only [Option.some.injEq]; omega
      · simp; omega
    · split
      · simp only [Option.some.injEq]; omega
      · split
        · simp only [Option.some.injEq]; omega
        · simp; omega

theorem mag_no_sign (c : Char) (r : List Char) (n : Nat) (hc : c = '-' ∨ c = '+') : ¬ Magnitude (c :: r) n := by
  rw [mag_other _ _ _ (by rcases hc with rfl | rfl <;> decide), numeral_cons]
  intro h
  obtain ⟨d, hd, _⟩ := goDigits_head _ _ _ _ _ h
  rcases hc with rfl | rfl <;> simp [goDigit] at hd

/-- the notations of integers are recognized -/
theorem resolveIntText_iff (s : List Char) (i : Int) : resolveIntText s = some i ↔ IntegerText s i := by
  have e64 : ∀ n : Nat, (n : Int) ≤ 2^63 → n < 2^64 := by
    intro n h
    have : ((2:Int)^63) = 9223372036854775808 := by decide
    omega
  unfold resolveIntText
  constructor
  · intro h
    split at h
    · rename_i r hr
      obtain ⟨n, hn, h⟩ := (signedInt_iff _ _ _).1 h
      simp only [if_true] at h
      rw [h.2]
      exact .minus _ _ hr.symm ((intMagnitude_iff _ _).1 hn).1 h.1
    · rename_i r hr
      obtain ⟨n, hn, h⟩ := (signedInt_iff _ _ _).1 h
      simp only [Bool.false_eq_true, if_false] at h
      rw [h.2]
      exact .plus _ _ hr.symm ((intMagnitude_iff _ _).1 hn).1 h.1
    · obtain ⟨n, hn, h⟩ := (signedInt_iff _ _ _).1 h
      simp only [Bool.false_eq_true, if_false] at h
      rw [h.2]
      exact .pos _ _ rfl ((intMagnitude_iff _ _).1 hn).1 h.1
  · intro h
    cases h with
    | pos t n hp h hr =>
      have hp : noUnderscores s = t := hp.symm
      rw [hp]
      have hm := (intMagnitude_iff _ _).2 ⟨h, e64 n (by omega)⟩
      split
      · exact absurd h (mag_no_sign _ _ _ (.inl rfl))
      · exact absurd h (mag_no_sign _ _ _ (.inr rfl))
      · exact (signedInt_iff _ _ _).2 ⟨n, hm, by rw [if_neg (by decide)]; exact ⟨hr, rfl⟩⟩
    | plus t n hp h hr =>
      have hp : noUnderscores s = '+' :: t := hp.symm
      rw [hp]
      exact (signedInt_iff _ _ _).2 ⟨n, (intMagnitude_iff _ _).2 ⟨h, e64 n (by omega)⟩, by rw [if_neg (by decide)]; exact ⟨hr, rfl⟩⟩
    | minus t n hp h hr =>
      have hp : noUnderscores s = '-' :: t := hp.symm
      rw [hp]
      exact (signedInt_iff _ _ _).2 ⟨n, (intMagnitude_iff _ _).2 ⟨h, e64 n hr⟩, by rw [if_pos rfl]; exact ⟨hr, rfl⟩⟩

/-! ### floating point numbers, booleans and null -/

theorem floatMagnitude_iff (X : YLib) (neg : Bool) (s : List Char) (b : Nat) : floatMagnitude X neg s = some b ↔ FloatMagnitude X neg s b := by
  unfold floatMagnitude
  constructor
  · intro h
    split at h
    · rename_i hi
      have := FloatMagnitude.inf (X := X) (neg := neg) (s := s) hi
      cases h
      cases neg <;> exact this
    · split at h
      · rename_i hi
        have := FloatMagnitude.nan (X := X) (neg := neg) (s := s) hi
        cases h
        exact this
      · rename_i h1 h2
        cases hp : X.parseFloat s with
        | none => simp [hp] at h
        | some b' =>
          have := FloatMagnitude.number (X := X) (neg := neg) (s := s) b' hp h1 h2
          simp only [hp, Option.map_some, Option.some.injEq] at h
          rw [← h]; exact this
  · intro h
    cases h with
    | inf h =>
      unfold SameWord at h
      rw [if_pos h]; cases neg <;> rfl
    | nan h =>
      unfold SameWord at h
      rw [if_neg (by rw [h]; decide), if_pos h]
      rfl
    | number b h hi hn =>
      unfold SameWord at hi hn
      rw [if_neg hi, if_neg hn, h]; rfl

/-- the notations of floating point numbers are recognized -/
theorem resolveFloat_iff (X : YLib) (s : List Char) (b : Nat) : resolveFloat X s = some b ↔ FloatText X s b := by
  unfold resolveFloat
  constructor
  · intro h
    split at h
    · rename_i r hr
      exact .minus _ _ hr.symm ((floatMagnitude_iff _ _ _ _).1 h)
    · rename_i r hr
      exact .plus _ _ hr.symm ((floatMagnitude_iff _ _ _ _).1 h)
    · rename_i h1 h2
      refine .pos _ _ rfl ?_ ((floatMagnitude_iff _ _ _ _).1 h)
      rintro ⟨c, r, hs, rfl | rfl⟩
      · exact h1 r hs
      · exact h2 r hs
  · intro h
    cases h with
    | pos t b hp hs h =>
      have hp : noUnderscores s = t := hp.symm
      rw [hp]
      split
      · exact absurd ⟨_, _, rfl, .inl rfl⟩ hs
      · exact absurd ⟨_, _, rfl, .inr rfl⟩ hs
      · exact (floatMagnitude_iff _ _ _ _).2 h
    | plus t b hp h =>
      have hp : noUnderscores s = '+' :: t := hp.symm
      rw [hp]
      exact (floatMagnitude_iff _ _ _ _).2 h
    | minus t b hp h =>
      have hp : noUnderscores s = '-' :: t := hp.symm
      rw [hp]
      exact (floatMagnitude_iff _ _ _ _).2 h

theorem ofList_eq (l : List Char) (w : String) : String.ofList l = w ↔ l = w.toList := by
  constructor
  · rintro rfl; simp
  · rintro rfl; simp

theorem resolveBool_iff (s : List Char) (b : Bool) : resolveBool s = some b ↔ BoolText s b := by
  unfold resolveBool boolWords
  constructor
  · intro h
    simp only [List.lookup] at h
    repeat' split at h
    all_goals first
      | (cases h; done)
      | (rename_i hw
         have hw := (ofList_eq _ _).1 (eq_of_beq hw)
         cases h
         first
          | exact .yes _ (by simp) hw
          | exact .no _ (by simp) hw)
  · intro h
    cases h with
    | yes w hw h =>
      have h : String.ofList (s.map goLower) = w := (ofList_eq _ _).2 h
      rw [h]
      simp only [List.mem_cons, List.not_mem_nil, or_false] at hw
      rcases hw with rfl | rfl | rfl | rfl <;> decide
    | no w hw h =>
      have h : String.ofList (s.map goLower) = w := (ofList_eq _ _).2 h
      rw [h]
      simp only [List.mem_cons, List.not_mem_nil, or_false] at hw
      rcases hw with rfl | rfl | rfl | rfl <;> decide

/-- letters with a given lower case form -/
theorem goLower_inv (c l : Char) (h : goLower c = l) (hi : l ≠ 'i') (hk : l ≠ 'k') :
    c = l ∨ c.toNat + 32 = l.toNat := by
  unfold goLower at h
  split at h
  · exact absurd h.symm hi
  · split at h
    · exact absurd h.symm hk
    · unfold Char.toLower at h
      split at h
      · rename_i hc
        right
        rw [← h]
        have h1 : c.val.toNat ≤ 90 := by have := hc.2; exact this
        simp only [Char.toNat]
        rw [UInt32.toNat_add]
        have h2 : (0x20 : UInt32).toNat = 32 := rfl
        simp
        have h3 : c.toNat ≤ 90 := h1
        omega
      · exact .inl h

theorem bool_head (s : List Char) (b : Bool) (h : BoolText s b) :
    ∃ c r, s = c :: r ∧ c ∈ ['y', 'Y', 'n', 'N', 't', 'T', 'f', 'F', 'o', 'O'] := by
  obtain ⟨w, hw, h⟩ : ∃ w : String, w ∈ ["y", "yes", "true", "on", "n", "no", "false", "off"] ∧ SameWord s w := by
    cases h with
    | yes w hw h =>
      refine ⟨w, ?_, h⟩
      simp only [List.mem_cons, List.not_mem_nil, or_false] at hw ⊢
      rcases hw with h | h | h | h <;> simp [h]
    | no w hw h =>
      refine ⟨w, ?_, h⟩
      simp only [List.mem_cons, List.not_mem_nil, or_false] at hw ⊢
      rcases hw with h | h | h | h <;> simp [h]
  obtain ⟨l, t, hlt, hl⟩ : ∃ l t, w.toList = l :: t ∧ l ∈ ['y', 'n', 't', 'f', 'o'] := by
    simp only [List.mem_cons, List.not_mem_nil, or_false] at hw
    rcases hw with rfl | rfl | rfl | rfl | rfl | rfl | rfl | rfl <;> exact ⟨_, _, rfl, by decide⟩
  unfold SameWord at h
  rw [hlt] at h
  rcases s with _ | ⟨c, r⟩
  · simp at h
  · simp only [List.map_cons, List.cons.injEq] at h
    refine ⟨c, r, rfl, ?_⟩
    have := goLower_inv c l h.1
    have e : ∀ n, c.toNat + 32 = n + 32 → c = Char.ofNat n := by
      intro n hn
      rw [char_eq_ofNat c, show c.toNat = n by omega]
    simp only [List.mem_cons, List.not_mem_nil, or_false] at hl ⊢
    rcases hl with rfl | rfl | rfl | rfl | rfl
    · rcases this (by decide) (by decide) with h | h
      · simp [h]
      · simp [e 89 h]
    · rcases this (by decide) (by decide) with h | h
      · simp [h]
      · simp [e 78 h]
    · rcases this (by decide) (by decide) with h | h
      · simp [h]
      · simp [e 84 h]
    · rcases this (by decide) (by decide) with h | h
      · simp [h]
      · simp [e 70 h]
    · rcases this (by decide) (by decide) with h | h
      · simp [h]
      · simp [e 79 h]

theorem null_iff (s : List Char) : NullText s ↔ s = [] ∨ isNullWord s = true := by
  rw [isNullWord_iff]; rfl

theorem null_head (s : List Char) (h : isNullWord s = true) : ∃ c r, s = c :: r ∧ c ∈ ['~', 'n', 'N'] := by
  rw [isNullWord_iff] at h
  simp only [nullWords, List.map_cons, List.map_nil, List.mem_cons, List.not_mem_nil, or_false] at h
  rcases h with rfl | rfl | rfl | rfl <;> exact ⟨_, _, rfl, by decide⟩

theorem null_not_bool (s : List Char) (h : isNullWord s = true) (b : Bool) : ¬ BoolText s b := by
  rw [isNullWord_iff] at h
  rw [← resolveBool_iff]
  simp only [nullWords, List.map_cons, List.map_nil, List.mem_cons, List.not_mem_nil, or_false] at h
  rcases h with rfl | rfl | rfl | rfl <;> cases b <;> decide

/-- a plain text without a tag -/
def plain (s : List Char) : YScalar := { value := s }

theorem signed_cons (c : Char) (r : List Char) : Signed (c :: r) ↔ c = '-' ∨ c = '+' := by
  constructor
  · rintro ⟨_, _, h, hc⟩; cases h; exact hc
  · exact fun h => ⟨_, _, rfl, h⟩

theorem digit_cons (c : Char) (r : List Char) : StartsDigit (c :: r) ↔ '0' ≤ c ∧ c ≤ '9' := by
  constructor
  · rintro ⟨_, _, h, hc⟩; cases h; exact hc
  · exact fun h => ⟨_, _, rfl, h⟩

theorem floatLike_cons (c : Char) (r : List Char) : FloatLike (c :: r) ↔ (c = '-' ∨ c = '+') ∨ ('0' ≤ c ∧ c ≤ '9') ∨ c = '.' := by
  unfold FloatLike NumberLike
  rw [signed_cons, digit_cons, or_assoc]
  simp

theorem numberLike_cons (c : Char) (r : List Char) : NumberLike (c :: r) ↔ (c = '-' ∨ c = '+') ∨ ('0' ≤ c ∧ c ≤ '9') := by
  unfold NumberLike
  rw [signed_cons, digit_cons]

theorem resolve_plain_cons (X : YLib) (c : Char) (r : List Char) : resolveInterface X (plain (c :: r)) =
    if c = '-' ∨ c = '+' then resolveNumber X true (plain (c :: r))
    else if '0' ≤ c ∧ c ≤ '9' then resolveNumber X false (plain (c :: r))
    else if c = '~' ∨ c = 'n' ∨ c = 'N' then
      if isNullWord (c :: r) then (.null, .nil) else resolveWord X (plain (c :: r))
    else if c = '.' then
      match resolveFloat X (c :: r) with
      | some b => (.float, .float b)
      | none => resolveText X (plain (c :: r))
    else if c ∈ ['t', 'T', 'f', 'F', 'y', 'Y', 'o', 'O'] then resolveWord X (plain (c :: r))
    else resolveText X (plain (c :: r)) := by
  unfold resolveInterface
  rw [if_neg (by simp [plain])]
  rfl

theorem resolveText_plain (X : YLib) (s : List Char) : resolveText X (plain s) = (.str, .str (String.ofList s)) := by
  simp [resolveText, plain, hasBinaryTag]

theorem none_of_not {α : Type} (o : Option α) (h : ∀ a, ¬ o = some a) : o = none := by
  cases o with
  | none => rfl
  | some a => exact absurd rfl (h a)

/-- every plain text has a meaning -/
theorem plain_total (X : YLib) (s : List Char) : ∃ d, PlainMeans X s d := by
  by_cases hn : NullText s
  · exact ⟨_, .null hn⟩
  by_cases hb : ∃ b, BoolText s b
  · obtain ⟨b, hb⟩ := hb; exact ⟨_, .bool b hb⟩
  by_cases hi : NumberLike s ∧ ∃ i, IntegerText s i
  · obtain ⟨hl, i, hi⟩ := hi; exact ⟨_, .int i hl hi⟩
  have hi' : NumberLike s → ∀ i, ¬ IntegerText s i := fun hl i h => hi ⟨hl, i, h⟩
  by_cases hf : FloatLike s ∧ ∃ b, FloatText X s b
  · obtain ⟨hl, b, hf⟩ := hf; exact ⟨_, .float b hl hi' hf⟩
  have hf' : FloatLike s → ∀ b, ¬ FloatText X s b := fun hl i h => hf ⟨hl, i, h⟩
  by_cases ht : StartsDigit s ∧ ∃ t, X.time s = some t
  · obtain ⟨hl, t, ht⟩ := ht
    exact ⟨_, .time t hl (hi' (.inr hl)) (hf' (.inl (.inr hl))) ht⟩
  · exact ⟨_, .text hn (fun b h => hb ⟨b, h⟩) hi' hf' (fun hl => none_of_not _ fun t h => ht ⟨hl, t, h⟩)⟩

theorem plain_complete (X : YLib) (s : List Char) (d : Data) (h : PlainMeans X s d) : (resolveInterface X (plain s)).2 = d := by
  cases h with
  | null h =>
    rw [null_iff] at h
    rcases h with rfl | h
    · simp [resolveInterface, plain]
    · obtain ⟨c, r, rfl, hc⟩ := null_head s h
      rw [resolve_plain_cons]
      simp only [List.mem_cons, List.not_mem_nil, or_false] at hc
      rcases hc with rfl | rfl | rfl <;> simp [h]
  | bool b h =>
    obtain ⟨c, r, rfl, hc⟩ := bool_head s b h
    have hn : isNullWord (c :: r) = false := by
      cases hn : isNullWord (c :: r) with
      | false => rfl
      | true => exact absurd h (null_not_bool _ hn b)
    have hw : resolveWord X (plain (c :: r)) = (.bool, .bool b) := by
      unfold resolveWord
      rw [show resolveBool (plain (c :: r)).value = some b from (resolveBool_iff _ _).2 h]
    rw [resolve_plain_cons]
    simp only [List.mem_cons, List.not_mem_nil, or_false] at hc
    rcases hc with rfl | rfl | rfl | rfl | rfl | rfl | rfl | rfl | rfl | rfl <;> simp [hn, hw]
  | int i hl h =>
    rcases s with _ | ⟨c, r⟩
    · rcases hl with ⟨_, _, h, _⟩ | ⟨_, _, h, _⟩ <;> cases h
    have hw : ∀ sg, resolveNumber X sg (plain (c :: r)) = (.int, .num .int64 i) := by
      intro sg
      unfold resolveNumber
      rw [show resolveIntText (plain (c :: r)).value = some i from (resolveIntText_iff _ _).2 h]
    rw [resolve_plain_cons]
    rw [numberLike_cons] at hl
    by_cases h1 : c = '-' ∨ c = '+'
    · rw [if_pos h1, hw]
    · rw [if_neg h1, if_pos (hl.resolve_left h1), hw]
  | float b hl hi h =>
    rcases s with _ | ⟨c, r⟩
    · rcases hl with (⟨_, _, h, _⟩ | ⟨_, _, h, _⟩) | ⟨_, h⟩ <;> cases h
    have hb := (resolveFloat_iff X _ _).2 h
    have hw : NumberLike (c :: r) → ∀ sg, resolveNumber X sg (plain (c :: r)) = (.float, .float b) := by
      intro hl sg
      unfold resolveNumber
      rw [show resolveIntText (plain (c :: r)).value = none from none_of_not _ fun i h => hi hl i ((resolveIntText_iff _ _).1 h)]
      dsimp only
      rw [show resolveFloat X (plain (c :: r)).value = some b from hb]
    rw [resolve_plain_cons]
    rw [floatLike_cons] at hl
    rw [numberLike_cons] at hw
    by_cases h1 : c = '-' ∨ c = '+'
    · rw [if_pos h1, hw (.inl h1)]
    · by_cases h2 : '0' ≤ c ∧ c ≤ '9'
      · rw [if_neg h1, if_pos h2, hw (.inr h2)]
      · have h3 : c = '.' := (hl.resolve_left h1).resolve_left h2
        subst h3
        simp [hb]
  | time t hl hi hf h =>
    rcases s with _ | ⟨c, r⟩
    · rcases hl with ⟨_, _, h, _⟩; cases h
    rw [digit_cons] at hl
    have h1 : ¬ (c = '-' ∨ c = '+') := by rintro (rfl | rfl) <;> exact absurd hl (by decide)
    rw [resolve_plain_cons, if_neg h1, if_pos hl]
    unfold resolveNumber
    rw [show resolveIntText (plain (c :: r)).value = none from none_of_not _ fun i h => hi i ((resolveIntText_iff _ _).1 h)]
    dsimp only
    rw [show resolveFloat X (plain (c :: r)).value = none from none_of_not _ fun i h => hf i ((resolveFloat_iff _ _ _).1 h)]
    dsimp only
    rw [if_neg (by decide), show X.time (plain (c :: r)).value = some t from h]
  | text hn hb hi hf ht =>
    rw [null_iff, not_or] at hn
    rcases s with _ | ⟨c, r⟩
    · exact absurd rfl hn.1
    have hB : resolveWord X (plain (c :: r)) = (.str, .str (String.ofList (c :: r))) := by
      unfold resolveWord
      rw [show resolveBool (plain (c :: r)).value = none from none_of_not _ fun i h => hb i ((resolveBool_iff _ _).1 h)]
      exact resolveText_plain X _
    have hI : NumberLike (c :: r) → resolveIntText (plain (c :: r)).value = none :=
      fun hl => none_of_not _ fun i h => hi hl i ((resolveIntText_iff _ _).1 h)
    have hF : FloatLike (c :: r) → resolveFloat X (c :: r) = none :=
      fun hl => none_of_not _ fun i h => hf hl i ((resolveFloat_iff _ _ _).1 h)
    rw [numberLike_cons] at hI
    rw [floatLike_cons] at hF
    rw [digit_cons] at ht
    rw [resolve_plain_cons]
    split
    · rename_i h1
      unfold resolveNumber
      rw [hI (.inl h1)]
      dsimp only
      rw [show resolveFloat X (plain (c :: r)).value = none from hF (.inl h1)]
      dsimp only
      rw [if_pos rfl, resolveText_plain]
    · split
      · rename_i h1
        unfold resolveNumber
        rw [hI (.inr h1)]
        dsimp only
        rw [show resolveFloat X (plain (c :: r)).value = none from hF (.inr (.inl h1))]
        dsimp only
        rw [if_neg (by decide), show X.time (plain (c :: r)).value = none from ht h1]
        exact congrArg Prod.snd (resolveText_plain X _)
      · split
        · rw [if_neg hn.2, hB]
        · split
          · rename_i h1
            rw [hF (.inr (.inr h1))]
            exact congrArg Prod.snd (resolveText_plain X _)
          · split
            · rw [hB]
            · rw [resolveText_plain]

/-- **C73**: a plain scalar without a tag is read as the data its text stands for. -/
theorem plain_scalar (X : YLib) (s : List Char) (d : Data) : (resolveInterface X { value := s }).2 = d ↔ PlainMeans X s d := by
  constructor
  · intro h
    obtain ⟨d', h'⟩ := plain_total X s
    have := plain_complete X s d' h'
    rw [← h, show ({ value := s } : YScalar) = plain s from rfl, this]
    exact h'
  · exact plain_complete X s d

/-- **C73**: a quoted scalar without a tag is read as its text. -/
theorem quoted_scalar (X : YLib) (s : List Char) : (resolveInterface X { value := s, implicit := false }).2 = .str (String.ofList s) := by
  simp [resolveInterface]

/-- **C73** (defect): tags other than those for binary data are ignored, whether the text is quoted or not. -/
theorem tag_ignored_defect (X : YLib) (s : List Char) (tag : String) (i : Bool) (ht : tag ≠ "") (hb : tag ≠ "!binary" ∧ tag ≠ "tag:yaml.org,2002:binary") :
    (resolveInterface X ⟨s, tag, i⟩).2 = (resolveInterface X { value := s }).2 := by
  have hB : resolveText X ⟨s, tag, i⟩ = resolveText X ⟨s, "", true⟩ := by simp [resolveText, hasBinaryTag, hb.1, hb.2]
  have hN : ∀ sg, resolveNumber X sg ⟨s, tag, i⟩ = resolveNumber X sg ⟨s, "", true⟩ := by intro sg; simp [resolveNumber, hB]
  have hW : resolveWord X ⟨s, tag, i⟩ = resolveWord X ⟨s, "", true⟩ := by simp [resolveWord, hB]
  unfold resolveInterface
  have e1 : ¬ (tag = "" ∧ i = false) := fun h => ht h.1
  simp only [if_neg e1, hB, hN, hW]
  rw [if_neg (show ¬ (True ∧ true = false) by simp)]

/-! ### examples -/

/-- a library without floating point numbers and timestamps -/
def noYLib : YLib := { parseFloat := fun _ => none, time := fun _ => none, base64 := fun _ => false }

/-- the data of a plain text, if it is an integer -/
def plainInt (s : String) : Option Int := match (resolveInterface noYLib (plain s.toList)).2 with
  | .num .int64 i => some i
  | _ => none

example : plainInt "0" = some 0 ∧ plainInt "-17" = some (-17) ∧ plainInt "+1_000" = some 1000 ∧ plainInt "0x1F" = some 31 ∧
    plainInt "0b101" = some 5 ∧ plainInt "0o17" = some 15 ∧ plainInt "017" = some 15 ∧ plainInt "018" = none ∧
    plainInt "9223372036854775807" = some 9223372036854775807 ∧ plainInt "9223372036854775808" = none ∧
    plainInt "-9223372036854775808" = some (-9223372036854775808) ∧ plainInt "12a" = none ∧ plainInt "_1" = none := by decide +kernel

/-- **C73** (defect): octal notation: decimal numbers with a leading zero have another value, `010` is 8. -/
theorem leading_zero_defect (X : YLib) : (resolveInterface X { value := "010".toList }).2 = .num .int64 8 :=
  (plain_scalar X _ _).2 (.int 8 (.inr ⟨'0', ['1', '0'], by decide, by decide, by decide⟩)
    ((resolveIntText_iff _ _).1 (by decide +kernel)))

/-- **C73** (defect): words for booleans are no texts: `no` is false. -/
theorem norway_defect (X : YLib) : (resolveInterface X { value := "NO".toList }).2 = .bool false :=
  (plain_scalar X _ _).2 (.bool _ (.no "no" (by simp) (by unfold SameWord; decide)))

/-- **C73** (defect): a sign is removed before the text is given to the parser of numbers, which accepts another one: `--5` is a number, if
`-5` is one. -/
theorem double_sign_defect (X : YLib) (b : Nat) (h : X.parseFloat "-5".toList = some b) :
    (resolveInterface X { value := "--5".toList }).2 = .float (floatNeg b) := by
  refine (plain_scalar X _ _).2 (.float _ (.inl (.inl ⟨'-', ['-', '5'], by decide, .inl rfl⟩)) (fun _ i hi => ?_) (.minus "-5".toList _ (by unfold Unscored; decide) ?_))
  · have := (resolveIntText_iff _ _).2 hi
    revert this
    rw [show resolveIntText "--5".toList = none by decide +kernel]
    simp
  · have := FloatMagnitude.number (neg := true) b h (by unfold SameWord; decide) (by unfold SameWord; decide)
    rw [if_pos rfl] at this
    exact this

end Spiff
