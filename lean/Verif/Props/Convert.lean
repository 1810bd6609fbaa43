import Verif.Spec.Convert
import Verif.Props.YamlScalar
import Verif.Props.Values2
/-
C84: conversions, functions on numbers, random values, `auto`, `basename`.
-/
namespace Spiff
open Spec
variable {E : Type}

/-! ### the text of integers -/

/-- canonical digits -/
def Canon (b : Nat) (ds : List Char) (n : Nat) : Prop :=
  Numeral b ds n ∧ (∀ c ∈ ds, ¬ ('A' ≤ c ∧ c ≤ 'Z')) ∧ (ds.head? = some '0' → ds = ['0'])

theorem numeral_nonempty {b : Nat} {ds : List Char} {n : Nat} (h : Numeral b ds n) : ds ≠ [] := by
  cases h <;> simp

theorem digitOf_spec {d : Nat} (h : d < 36) : DigitOf (digitOf d) d ∧ ¬ ('A' ≤ digitOf d ∧ digitOf d ≤ 'Z') := by
  unfold digitOf
  split
  · rename_i h10
    refine ⟨DigitOf.dec d h10, ?_⟩
    rw [char_le_iff, char_le_iff, toNat_ofNat_small (48 + d) (by omega)]
    simp; omega
  · rename_i h10
    have := DigitOf.lower (d - 10) (by omega)
    rw [show 10 + (d - 10) = d by omega] at this
    refine ⟨this, ?_⟩
    rw [char_le_iff, char_le_iff, toNat_ofNat_small (97 + (d - 10)) (by omega)]
    simp; omega

theorem digitOf_unique {c : Char} {d : Nat} (h : DigitOf c d) (hl : ¬ ('A' ≤ c ∧ c ≤ 'Z')) : c = digitOf d := by
  cases h with
  | dec d h => unfold digitOf; rw [if_pos h]
  | lower d h => unfold digitOf; rw [if_neg (by omega), Nat.add_sub_cancel_left]
  | upper d h =>
    refine absurd ?_ hl
    rw [char_le_iff, char_le_iff, toNat_ofNat_small (65 + d) (by omega)]
    simp; omega

theorem digitOf_zero {d : Nat} (hd : d < 36) (h : digitOf d = '0') : d = 0 := by
  have := congrArg Char.toNat h
  unfold digitOf at this
  split at this
  · rw [toNat_ofNat_small (48 + d) (by omega)] at this; simp at this; omega
  · rw [toNat_ofNat_small (97 + (d - 10)) (by omega)] at this; simp at this; omega

theorem canon_format {b : Nat} (h2 : 2 ≤ b) (h36 : b ≤ 36) : ∀ (fuel u : Nat) (acc : List Char), u ≤ fuel → ∃ ds, formatLoop b fuel u acc = ds ++ acc ∧ Canon b ds u := by
  have small : ∀ u (acc : List Char), u < b → ∃ ds, digitOf u :: acc = ds ++ acc ∧ Canon b ds u := by
    intro u acc hu
    obtain ⟨h1, h3⟩ := digitOf_spec (d := u) (by omega)
    refine ⟨[digitOf u], rfl, Numeral.one _ _ h1 hu, by intro c hc; simp at hc; rw [hc]; exact h3, ?_⟩
    intro h0; simp at h0; rw [h0]
  intro fuel
  induction fuel with
  | zero => intro u acc hu; exact small u acc (by omega)
  | succ f ih =>
    intro u acc hu
    simp only [formatLoop]
    split
    · rename_i hb
      have hlt : u / b < u := Nat.div_lt_self (by omega) (by omega)
      have hmod : u % b < b := Nat.mod_lt _ (by omega)
      obtain ⟨ds, he, hn, hl, hz⟩ := ih (u / b) (digitOf (u % b) :: acc) (by omega)
      obtain ⟨h1, h3⟩ := digitOf_spec (d := u % b) (by omega)
      refine ⟨ds ++ [digitOf (u % b)], by rw [he]; simp, ?_, ?_, ?_⟩
      · have := Numeral.more ds _ _ _ hn h1 hmod
        rwa [Nat.mul_comm, Nat.div_add_mod] at this
      · intro c hc
        rcases List.mem_append.1 hc with hc | hc
        · exact hl c hc
        · simp at hc; rw [hc]; exact h3
      · intro h0
        have hh : ds.head? = some '0' := by
          cases ds with
          | nil => exact absurd rfl (numeral_nonempty hn)
          | cons x r => simpa using h0
        have hq : 0 < u / b := Nat.div_pos hb (by omega)
        have := hz hh
        rw [this] at hn
        have h00 : Numeral b ['0'] 0 := Numeral.one _ 0 (DigitOf.dec 0 (by omega)) (by omega)
        have e1 := ((goDigits_iff b _ _).2 hn).2
        have e2 := ((goDigits_iff b _ _).2 h00).2
        rw [e1] at e2
        have := Option.some.inj e2
        omega
    · exact small u acc (by omega)

theorem numeral_pos {b : Nat} (h36 : b ≤ 36) {ds : List Char} {n : Nat} (h : Numeral b ds n) : ds.head? ≠ some '0' → (∀ c ∈ ds, ¬ ('A' ≤ c ∧ c ≤ 'Z')) → 0 < n := by
  induction h with
  | one c d h hd =>
    intro h0 hl
    rcases Nat.eq_zero_or_pos d with rfl | hp
    · exfalso; apply h0
      rw [digitOf_unique h (hl c (by simp))]; rfl
    · exact hp
  | more ds n c d hn h hd ih =>
    intro h0 hl
    have : 0 < n := ih (by cases ds with
      | nil => exact absurd rfl (numeral_nonempty hn)
      | cons x r => simpa using h0) (fun c hc => hl c (by simp [hc]))
    have : 0 < n * b := Nat.mul_pos this (by omega)
    omega

theorem canon_unique {b : Nat} (h36 : b ≤ 36) {ds : List Char} {n : Nat} (h : Numeral b ds n) : ∀ ds', (∀ c ∈ ds, ¬ ('A' ≤ c ∧ c ≤ 'Z')) → (ds.head? = some '0' → ds = ['0']) →
    Canon b ds' n → ds = ds' := by
  have hcut : ∀ {ds : List Char} {n : Nat} {c : Char}, Numeral b ds n → ((ds ++ [c]).head? = some '0' → ds ++ [c] = ['0']) → (∀ x ∈ ds, ¬ ('A' ≤ x ∧ x ≤ 'Z')) → 0 < n := by
    intro ds n c hn hz hl
    refine numeral_pos h36 hn ?_ hl
    intro h0
    have hne := numeral_nonempty hn
    have := hz (by cases ds with
      | nil => exact absurd rfl hne
      | cons x r => simpa using h0)
    have := congrArg List.length this
    simp at this
    exact hne this
  induction h with
  | one c d h hd =>
    rintro ds' hl hz ⟨hn', hl', hz'⟩
    cases hn' with
    | one c' d' h' hd' => rw [digitOf_unique h (hl c (by simp)), digitOf_unique h' (hl' c' (by simp))]
    | more ds2 n2 c2 d2 hn2 h2 hd2 =>
      have hp := hcut hn2 hz' (fun x hx => hl' x (by simp [hx]))
      have : b ≤ n2 * b := Nat.le_mul_of_pos_left b hp
      omega
  | more ds n c d hn h hd ih =>
    rintro ds' hl hz ⟨hn', hl', hz'⟩
    have hp := hcut hn hz (fun x hx => hl x (by simp [hx]))
    generalize hm : n * b + d = m at hn'
    cases hn' with
    | one c' d' h' hd' =>
      have : b ≤ n * b := Nat.le_mul_of_pos_left b hp
      omega
    | more ds2 n2 c2 d2 hn2 h2 hd2 =>
      have hp2 := hcut hn2 hz' (fun x hx => hl' x (by simp [hx]))
      have e1 : d = d2 := by
        have := congrArg (· % b) hm
        simp only [Nat.mul_comm n b, Nat.mul_comm n2 b, Nat.mul_add_mod, Nat.mod_eq_of_lt hd, Nat.mod_eq_of_lt hd2] at this
        exact this
      have e2 : n = n2 := by
        subst e1
        exact Nat.eq_of_mul_eq_mul_right (by omega) (by omega : n * b = n2 * b)
      subst e1 e2
      have hd1 := numeral_nonempty hn
      have hd2' := numeral_nonempty hn2
      have : ds = ds2 := by
        refine ih ds2 (fun x hx => hl x (by simp [hx])) ?_ ⟨hn2, fun x hx => hl' x (by simp [hx]), ?_⟩
        · intro h0
          have := hz (by cases ds with
            | nil => exact absurd rfl hd1
            | cons x r => simpa using h0)
          have := congrArg List.length this
          simp at this; exact absurd this hd1
        · intro h0
          have := hz' (by cases ds2 with
            | nil => exact absurd rfl hd2'
            | cons x r => simpa using h0)
          have := congrArg List.length this
          simp at this; exact absurd this hd2'
      rw [this, digitOf_unique h (hl c (by simp)), digitOf_unique h2 (hl' c2 (by simp))]

/-- C84: the text of an integer is its canonical numeral, and only that. -/
theorem formatInt_iff {b : Nat} (h2 : 2 ≤ b) (h36 : b ≤ 36) (i : Int) (s : String) : formatInt b i = s ↔ CanonicalText b s i := by
  obtain ⟨ds, he, hc⟩ := canon_format h2 h36 i.natAbs i.natAbs [] (Nat.le_refl _)
  rw [List.append_nil] at he
  unfold formatInt
  rw [he]
  constructor
  · rintro rfl
    exact ⟨ds, hc.1, hc.2.1, hc.2.2, by rw [String.toList_ofList]⟩
  · rintro ⟨ds', h1, h3, h4, h5⟩
    have := canon_unique h36 h1 ds h3 h4 hc
    subst this
    rw [← h5, String.ofList_toList]

theorem formatInt_injective {b : Nat} (h2 : 2 ≤ b) (h36 : b ≤ 36) {i j : Int} (h : formatInt b i = formatInt b j) : i = j := by
  obtain ⟨ds, n1, l1, z1, e1⟩ := (formatInt_iff h2 h36 i _).1 rfl
  obtain ⟨ds', n2, l2, z2, e2⟩ := (formatInt_iff h2 h36 j _).1 rfl
  rw [h, e2] at e1
  have hno : ∀ {ds : List Char} {n : Nat}, Numeral b ds n → ds.head? ≠ some '-' := by
    intro ds n hn h0
    have := (goDigits_iff b ds n).2 hn
    cases ds with
    | nil => cases h0
    | cons x r =>
      simp at h0; subst h0
      have hg : goDigit '-' = none := by decide
      simp [goDigits, hg] at this
  have hval : ∀ {ds : List Char} {n m : Nat}, Numeral b ds n → Numeral b ds m → n = m := by
    intro ds n m h1 h2
    have := ((goDigits_iff b ds n).2 h1).2
    rw [((goDigits_iff b ds m).2 h2).2] at this
    exact (Option.some.inj this).symm
  by_cases hi : i < 0 <;> by_cases hj : j < 0
  · rw [if_pos hi, if_pos hj] at e1; cases e1; have := hval n1 n2; omega
  · rw [if_pos hi, if_neg hj] at e1; subst e1; exact absurd rfl (hno n2)
  · rw [if_neg hi, if_pos hj] at e1; subst e1; exact absurd rfl (hno n1)
  · rw [if_neg hi, if_neg hj] at e1; subst e1; have := hval n1 n2; omega

/-- C84: `string(i, b)`: exactly the canonical numeral for bases from 2 to 36, an error for other bases. -/
theorem string_base_iff (F : FloatOps) (i b : Int) (r : Conv E) : funcString F [.int i, .int b] = .ok r ↔
    2 ≤ b ∧ b ≤ 36 ∧ ∃ s, CanonicalText b.toNat s i ∧ r = .val (.str s) := by
  simp only [funcString]
  split
  · constructor
    · intro h; cases h
    · rintro ⟨h1, h3, _⟩; omega
  · rename_i hb
    constructor
    · rintro h; cases h
      exact ⟨by omega, by omega, _, (formatInt_iff (by omega) (by omega) i _).1 rfl, rfl⟩
    · rintro ⟨_, _, s, hs, rfl⟩
      rw [(formatInt_iff (by omega) (by omega) i s).2 hs]

theorem string_int_iff (F : FloatOps) (i : Int) (r : Conv E) : funcString F [.int i] = .ok r ↔ ∃ s, CanonicalText 10 s i ∧ r = .val (.str s) := by
  simp only [funcString, Out.ok.injEq]
  constructor
  · rintro rfl; exact ⟨_, (formatInt_iff (by omega) (by omega) i _).1 rfl, rfl⟩
  · rintro ⟨s, hs, rfl⟩; rw [(formatInt_iff (by omega) (by omega) i s).2 hs]

theorem numeral_decimal {ds : List Char} {n : Nat} (h : Numeral 10 ds n) : Decimal ds n := by
  have hd : ∀ {c : Char} {d : Nat}, DigitOf c d → d < 10 → c = Char.ofNat (48 + d) := by
    intro c d h hd
    cases h with
    | dec d h => rfl
    | lower d h => omega
    | upper d h => omega
  induction h with
  | one c d h hlt => rw [hd h hlt]; exact Decimal.digit d hlt
  | more ds n c d hn h hlt ih => rw [hd h hlt, Nat.mul_comm]; exact Decimal.more ds n d hlt ih

/-- C84: an integer converted to a text and back is the same integer. -/
theorem integer_of_string (F : FloatOps) {i : Int} (hi : -(2^63) ≤ i ∧ i < 2^63) {s : String} (h : funcString (E := E) F [.int i] = .ok (.val (.str s))) :
    funcInteger (E := E) F [.str s] = .ok (.val (.int i)) := by
  obtain ⟨s', hs, he⟩ := (string_int_iff F i _).1 h
  cases he
  obtain ⟨ds, hn, _, _, ht⟩ := hs
  have hd := numeral_decimal hn
  have : parseInt s = some i := by
    refine (parseInt_iff s i).2 ⟨hi.1, hi.2, i.natAbs, ?_⟩
    by_cases hneg : i < 0
    · rw [if_pos hneg] at ht; exact Or.inr ⟨ds, hd, Or.inl ⟨ht, by omega⟩⟩
    · rw [if_neg hneg] at ht; exact Or.inl ⟨ht ▸ hd, by omega⟩
  simp only [funcInteger, this]

/-- C84: `integer` of a text: exactly the decimal numerals (with an optional sign) in the range of 64 bit integers. -/
theorem integer_text_iff (F : FloatOps) (s : String) (r : Conv E) : funcInteger F [.str s] = .ok r ↔ ∃ i, IsInteger s.toList i ∧ r = .val (.int i) := by
  simp only [funcInteger]
  cases h : parseInt s with
  | none =>
    constructor
    · intro h; cases h
    · rintro ⟨i, hi, _⟩; rw [(parseInt_iff s i).2 hi] at h; cases h
  | some i =>
    simp only [Out.ok.injEq]
    constructor
    · rintro rfl; exact ⟨i, (parseInt_iff s i).1 h, rfl⟩
    · rintro ⟨j, hj, rfl⟩; rw [(parseInt_iff s j).2 hj] at h; cases h; rfl

/-- C84: the arguments accepted by the conversions, and the results for values that are no texts. -/
theorem string_table (F : FloatOps) (args : List (Val E)) (r : Conv E) : funcString F args = .ok r ↔
    (∃ s, args = [.str s] ∧ r = .val (.str s)) ∨ (∃ i s, args = [.int i] ∧ CanonicalText 10 s i ∧ r = .val (.str s)) ∨
    (∃ i b s, args = [.int i, .int b] ∧ 2 ≤ b ∧ b ≤ 36 ∧ CanonicalText b.toNat s i ∧ r = .val (.str s)) ∨
    (∃ f, args = [.float f] ∧ r = .val (.str (F.text f))) ∨ (args = [.bool true] ∧ r = .val (.str "true")) ∨ (args = [.bool false] ∧ r = .val (.str "false")) := by
  constructor
  · intro h
    unfold funcString at h
    split at h
    · cases h
    · cases h; exact Or.inl ⟨_, rfl, rfl⟩
    · rename_i i
      obtain ⟨s, hs, e⟩ := (string_int_iff F i r).1 h
      exact Or.inr (Or.inl ⟨i, s, rfl, hs, e⟩)
    · cases h; exact Or.inr (Or.inr (Or.inr (Or.inl ⟨_, rfl, rfl⟩)))
    · rename_i b
      cases h
      cases b
      · exact Or.inr (Or.inr (Or.inr (Or.inr (Or.inr ⟨rfl, rfl⟩))))
      · exact Or.inr (Or.inr (Or.inr (Or.inr (Or.inl ⟨rfl, rfl⟩))))
    · rename_i i b
      obtain ⟨h1, h2, s, hs, e⟩ := (string_base_iff F i b r).1 h
      exact Or.inr (Or.inr (Or.inl ⟨i, b, s, rfl, h1, h2, hs, e⟩))
    · cases h
  · rintro (⟨s, rfl, rfl⟩ | ⟨i, s, rfl, hs, rfl⟩ | ⟨i, b, s, rfl, h1, h2, hs, rfl⟩ | ⟨f, rfl, rfl⟩ | ⟨rfl, rfl⟩ | ⟨rfl, rfl⟩)
    · rfl
    · exact (string_int_iff F i _).2 ⟨s, hs, rfl⟩
    · exact (string_base_iff F i b _).2 ⟨h1, h2, s, hs, rfl⟩
    · rfl
    · rfl
    · rfl

/-- C84: `string()` without argument panics, nothing else does. -/
theorem string_panics_iff (F : FloatOps) (args : List (Val E)) : funcString F args = .panic ↔ args = [] := by
  constructor
  · intro h
    unfold funcString at h
    split at h <;> first | rfl | (cases h; done) | skip
    split at h <;> cases h
  · rintro rfl; rfl

theorem integer_table (F : FloatOps) (args : List (Val E)) (i : Int) : funcInteger F args = .ok (.val (.int i)) ↔
    (∃ s, args = [.str s] ∧ IsInteger s.toList i) ∨ args = [.int i] ∨ (∃ f, args = [.float f] ∧ i = F.toInt f) := by
  constructor
  · intro h
    unfold funcInteger at h
    split at h
    · rename_i s
      split at h
      · rename_i j hj; cases h; exact Or.inl ⟨s, rfl, (parseInt_iff s i).1 hj⟩
      · cases h
    · cases h; exact Or.inr (Or.inl rfl)
    · cases h; exact Or.inr (Or.inr ⟨_, rfl, rfl⟩)
    · cases h
    · cases h
  · rintro (⟨s, rfl, hs⟩ | rfl | ⟨f, rfl, rfl⟩)
    · exact (integer_text_iff F s _).2 ⟨i, hs, rfl⟩
    · rfl
    · rfl

/-- C84: `integer(true)` is not an integer of dynaml. -/
theorem integer_bool_defect (F : FloatOps) (b : Bool) (v : Val E) : funcInteger F [.bool b] ≠ .ok (.val v) ∧ funcMath F "round" [.bool b] ≠ .ok (.val v) := by
  constructor
  · simp [funcInteger]
  · simp [funcMath]

theorem bool_text_iff (F : FloatOps) (s : String) (r : Conv E) : funcBool F [.str s] = .ok r ↔ ∃ b, BoolWord s b ∧ r = .val (.bool b) := by
  simp only [funcBool, parseBool]
  constructor
  · intro h
    split at h
    · rename_i h0; cases h; exact ⟨false, h0 ▸ BoolWord.empty, rfl⟩
    · split at h
      · rename_i b hb
        cases h
        split at hb
        · rename_i hy; cases hb; exact ⟨true, BoolWord.yes hy, rfl⟩
        · split at hb
          · rename_i hn; cases hb; exact ⟨false, BoolWord.no hn, rfl⟩
          · cases hb
      · cases h
  · rintro ⟨b, hw, rfl⟩
    cases hw with
    | empty => rfl
    | yes h =>
      rw [if_neg (by rintro rfl; revert h; decide), if_pos h]
    | no h =>
      have h1 : s ∉ ["1", "t", "T", "true", "TRUE", "True"] := by
        simp only [List.mem_cons, List.not_mem_nil, or_false] at h
        rcases h with rfl | rfl | rfl | rfl | rfl | rfl <;> decide
      rw [if_neg (by rintro rfl; revert h; decide), if_neg h1, if_pos h]

/-- C84: `bool`: the values and the results. -/
theorem bool_table (F : FloatOps) (args : List (Val E)) (b : Bool) : funcBool F args = .ok (.val (.bool b)) ↔
    (args = [.nil] ∧ b = false) ∨ (∃ s, args = [.str s] ∧ BoolWord s b) ∨ (∃ i, args = [.int i] ∧ (b = true ↔ i ≠ 0)) ∨
    (∃ f, args = [.float f] ∧ b = !F.isZero f) ∨ args = [.bool b] := by
  constructor
  · intro h
    unfold funcBool at h
    split at h
    · cases h; exact Or.inl ⟨rfl, rfl⟩
    · rename_i s
      obtain ⟨b', hw, e⟩ := (bool_text_iff (E := E) F s (.val (.bool b))).1 h
      cases e; exact Or.inr (Or.inl ⟨s, rfl, hw⟩)
    · rename_i i; cases h; exact Or.inr (Or.inr (Or.inl ⟨i, rfl, by simp⟩))
    · cases h; exact Or.inr (Or.inr (Or.inr (Or.inl ⟨_, rfl, rfl⟩)))
    · cases h; exact Or.inr (Or.inr (Or.inr (Or.inr rfl)))
    · cases h
  · rintro (⟨rfl, rfl⟩ | ⟨s, rfl, hw⟩ | ⟨i, rfl, h⟩ | ⟨f, rfl, rfl⟩ | rfl)
    · rfl
    · exact (bool_text_iff F s _).2 ⟨b, hw, rfl⟩
    · simp only [funcBool, Out.ok.injEq, Conv.val.injEq, Val.bool.injEq]
      cases b <;> simp_all
    · rfl
    · rfl

theorem float_table (F : FloatOps) (args : List (Val E)) (f : Nat) : funcFloat F args = .ok (.val (.float f)) ↔
    (∃ s, args = [.str s] ∧ F.parse s = some f) ∨ (∃ i, args = [.int i] ∧ f = F.ofInt i) ∨ args = [.float f] ∨
    (args = [.bool true] ∧ f = F.ofInt 1) ∨ (args = [.bool false] ∧ f = F.ofInt 0) := by
  constructor
  · intro h
    unfold funcFloat at h
    split at h
    · rename_i s
      split at h
      · rename_i g hg; cases h; exact Or.inl ⟨s, rfl, hg⟩
      · cases h
    · cases h; exact Or.inr (Or.inl ⟨_, rfl, rfl⟩)
    · cases h; exact Or.inr (Or.inr (Or.inl rfl))
    · rename_i b
      cases h
      cases b
      · exact Or.inr (Or.inr (Or.inr (Or.inr ⟨rfl, rfl⟩)))
      · exact Or.inr (Or.inr (Or.inr (Or.inl ⟨rfl, rfl⟩)))
    · cases h
  · rintro (⟨s, rfl, hs⟩ | ⟨i, rfl, rfl⟩ | rfl | ⟨rfl, rfl⟩ | ⟨rfl, rfl⟩) <;> first | rfl | simp only [funcFloat, hs]

/-! ### functions on numbers -/

/-- C84: rounding keeps integers, and gives an integer for floats. -/
theorem rounding_iff (F : FloatOps) (name : String) (hn : name ∈ ["ceil", "floor", "round", "roundtoeven"]) (args : List (Val E)) (v : Val E) :
    funcMath F name args = .ok (.val v) ↔ (∃ i, args = [.int i] ∧ v = .int i) ∨ (∃ f, args = [.float f] ∧ v = .int (F.toInt (F.fn name f))) := by
  have : name = "ceil" ∨ name = "floor" ∨ name = "round" ∨ name = "roundtoeven" := by simpa using hn
  unfold funcMath
  rw [if_pos this]
  constructor
  · intro h
    split at h
    · cases h; exact Or.inl ⟨_, rfl, rfl⟩
    · cases h; exact Or.inr ⟨_, rfl, rfl⟩
    · cases h
    · cases h
  · rintro (⟨i, rfl, rfl⟩ | ⟨f, rfl, rfl⟩) <;> rfl

/-- C84: `abs` of an integer: its absolute value, except for the smallest integer, which is unchanged. -/
theorem abs_iff (F : FloatOps) (i : Int) (hi : -(2^63) ≤ i ∧ i < 2^63) (r : Conv E) : funcMath F "abs" [.int i] = .ok r ↔
    (i ≠ -(2^63) ∧ r = .val (.int i.natAbs)) ∨ (i = -(2^63) ∧ r = .val (.int i)) := by
  have hv : (if i < 0 then wrap64 (-i) else i) = if i = -(2^63) then i else (i.natAbs : Int) := by
    by_cases hm : i = -(2^63)
    · rw [if_pos hm, if_pos (by omega)]
      refine wrap64_unique (by unfold InInt64; omega) ?_
      rw [hm]; decide
    · rw [if_neg hm]
      split
      · rw [wrap64_of_in (by unfold InInt64; omega)]; omega
      · omega
  have : funcMath (E := E) F "abs" [.int i] = .ok (.val (.int (if i < 0 then wrap64 (-i) else i))) := by
    simp [funcMath]
  rw [this, hv]
  simp only [Out.ok.injEq]
  split
  · rename_i h
    constructor
    · rintro rfl; exact Or.inr ⟨h, rfl⟩
    · rintro (⟨h', _⟩ | ⟨_, rfl⟩)
      · exact absurd h h'
      · rfl
  · rename_i h
    constructor
    · rintro rfl; exact Or.inl ⟨h, rfl⟩
    · rintro (⟨_, rfl⟩ | ⟨h', _⟩)
      · rfl
      · exact absurd h' h

/-- C84: the other functions give a float that is a number, for integers and floats, an error otherwise. -/
theorem math_iff (F : FloatOps) (name : String) (hn : name ∉ ["ceil", "floor", "round", "roundtoeven", "abs"]) (args : List (Val E)) (r : Conv E) :
    funcMath F name args = .ok r ↔ ∃ f, (args = [.float f] ∨ ∃ i, args = [.int i] ∧ f = F.ofInt i) ∧ F.isNaN (F.fn name f) = false ∧ r = .val (.float (F.fn name f)) := by
  simp only [List.mem_cons, List.not_mem_nil, or_false, not_or] at hn
  unfold funcMath
  rw [if_neg (by simp [hn])]
  simp only [hn.2.2.2.2, if_false]
  constructor
  · intro h
    split at h
    · rename_i i
      split at h
      · cases h
      · rename_i hnan; cases h; exact ⟨_, Or.inr ⟨i, rfl, rfl⟩, by simpa using hnan, rfl⟩
    · rename_i f
      split at h
      · cases h
      · rename_i hnan; cases h; exact ⟨_, Or.inl rfl, by simpa using hnan, rfl⟩
    · cases h
  · rintro ⟨f, h, hnan, rfl⟩
    rcases h with rfl | ⟨i, rfl, rfl⟩ <;> simp [hnan]

/-! ### random values -/

/-- C84: `rand` for numbers: in the range given by the argument, for every random source. -/
theorem rand_range (draw : Int → Int) (hd : ∀ m, 0 < m → 0 ≤ draw m ∧ draw m < m) (compile : String → Option (Nat → Option (List Char))) (fuel : Nat) (i : Int)
    (hi : -(2^63) ≤ i ∧ i < 2^63) (v : Val E) (h : funcRand draw compile fuel [.int i] = .ok v) :
    ∃ r, v = .int r ∧ ((0 < i ∧ 0 ≤ r ∧ r < i) ∨ (i < 0 ∧ i < r ∧ r ≤ 0)) := by
  simp only [funcRand, randNumber] at h
  by_cases hn : i < 0
  · rw [if_pos hn] at h
    by_cases hm : i = -(2^63)
    · have : wrap64 (-i) = i := wrap64_unique (by unfold InInt64; omega) (by rw [hm]; decide)
      rw [this, if_pos (by omega)] at h
      cases h
    · have : wrap64 (-i) = -i := wrap64_of_in (by unfold InInt64; omega)
      rw [this, if_neg (by omega)] at h
      obtain ⟨h1, h2⟩ := hd (-i) (by omega)
      cases h
      refine ⟨_, rfl, Or.inr ⟨hn, ?_⟩⟩
      rw [wrap64_of_in (by unfold InInt64; omega)]
      omega
  · rw [if_neg hn] at h
    by_cases hp : i > 0
    · rw [if_pos hp, if_neg (by omega)] at h
      obtain ⟨h1, h2⟩ := hd i hp
      cases h
      exact ⟨_, rfl, Or.inl ⟨hp, h1, h2⟩⟩
    · rw [if_neg hp] at h; cases h

/-- C84: `rand` panics for the smallest integer only. -/
theorem rand_panics_iff (draw : Int → Int) (compile : String → Option (Nat → Option (List Char))) (fuel : Nat) (args : List (Val E))
    (hr : ∀ i, args = [.int i] → -(2^63) ≤ i ∧ i < 2^63) : funcRand draw compile fuel args = .panic ↔ args = [.int (-(2^63))] := by
  constructor
  · intro h
    unfold funcRand at h
    simp only [randNumber] at h
    split at h
    · rw [if_neg (by decide)] at h; cases h
    · rename_i i
      obtain ⟨h1, h2⟩ := hr i rfl
      by_cases hm : i = -(2^63)
      · rw [hm]
      · by_cases hn : i < 0
        · have : wrap64 (-i) = -i := wrap64_of_in (by unfold InInt64; omega)
          rw [if_pos hn, this, if_neg (by omega)] at h; cases h
        · rw [if_neg hn] at h
          by_cases hp : i > 0
          · rw [if_pos hp, if_neg (by omega)] at h; cases h
          · rw [if_neg hp] at h; cases h
    · rw [if_neg (by decide)] at h; cases h
    · rename_i s
      cases hc : compile s with
      | none => simp only [hc] at h; cases h
      | some next =>
        simp only [hc] at h
        cases hx : randChars next fuel 0 1 [] <;> simp only [hx] at h <;> cases h
    · rename_i s l
      cases hc : compile s with
      | none => simp only [hc] at h; cases h
      | some next =>
        simp only [hc] at h
        split at h
        · cases h
        · cases hx : randChars next fuel 0 l.toNat [] <;> simp only [hx] at h <;> cases h
    all_goals cases h
  · rintro rfl
    have : wrap64 (-(-(2^63))) = -(2^63) := wrap64_unique (by unfold InInt64; omega) (by decide)
    simp only [funcRand, randNumber]
    rw [if_pos (by decide), this, if_pos (by decide)]

theorem randChars_sound (next : Nat → Option (List Char)) : ∀ (fuel k n : Nat) (r s : List Char), randChars next fuel k n r = some s →
    ∃ j l, Collected next k j l ∧ j ≤ fuel ∧ l.length = n ∧ s = r ++ l.flatten := by
  intro fuel
  induction fuel with
  | zero =>
    intro k n r s h
    cases n with
    | zero => simp only [randChars] at h; cases h; exact ⟨0, [], Collected.done k, Nat.le_refl _, rfl, by simp⟩
    | succ n => simp [randChars] at h
  | succ f ih =>
    intro k n r s h
    cases n with
    | zero => simp only [randChars] at h; cases h; exact ⟨0, [], Collected.done k, by omega, rfl, by simp⟩
    | succ n =>
      simp only [randChars] at h
      cases hk : next k with
      | some m =>
        rw [hk] at h
        obtain ⟨j, l, hc, hj, hl, hs⟩ := ih _ _ _ _ h
        exact ⟨j + 1, m :: l, Collected.hit hk hc, by omega, by simp [hl], by simp [hs]⟩
      | none =>
        rw [hk] at h
        obtain ⟨j, l, hc, hj, hl, hs⟩ := ih _ _ _ _ h
        exact ⟨j + 1, l, Collected.miss hk (by rintro rfl; simp at hl) hc, by omega, hl, hs⟩

theorem randChars_complete {next : Nat → Option (List Char)} {k j : Nat} {l : List (List Char)} (h : Collected next k j l) : ∀ (fuel : Nat) (r : List Char), j ≤ fuel →
    randChars next fuel k l.length r = some (r ++ l.flatten) := by
  induction h with
  | done k => intro fuel r _; cases fuel <;> simp [randChars]
  | @hit k j m l hk _ ih =>
    intro fuel r hj
    cases fuel with
    | zero => omega
    | succ f => simp only [randChars, List.length_cons, hk]; rw [ih f _ (by omega)]; simp
  | @miss k j l hk hl _ ih =>
    intro fuel r hj
    cases fuel with
    | zero => omega
    | succ f =>
      cases l with
      | nil => exact absurd rfl hl
      | cons m l => simp only [randChars, List.length_cons, hk]; exact ih f r (by omega)

/-- C84: `rand(set, n)`: the first `n` matches found in the random bytes; it ends as soon as there are that many. -/
theorem rand_text_iff (draw : Int → Int) (compile : String → Option (Nat → Option (List Char))) (s : String) (n : Int) (v : Val E) :
    (∃ fuel, funcRand draw compile fuel [.str s, .int n] = .ok v) ↔
      0 < n ∧ ∃ next j l, compile s = some next ∧ Collected next 0 j l ∧ (l.length : Int) = n ∧ v = .str (String.ofList l.flatten) := by
  simp only [funcRand]
  cases hc : compile s with
  | none => simp
  | some next =>
    simp only
    by_cases hn : n ≤ 0
    · simp only [if_pos hn]
      constructor
      · rintro ⟨_, h⟩; cases h
      · rintro ⟨h, _⟩; omega
    · simp only [if_neg hn]
      constructor
      · rintro ⟨fuel, h⟩
        cases hx : randChars next fuel 0 n.toNat [] with
        | none => rw [hx] at h; cases h
        | some r =>
          rw [hx] at h
          obtain ⟨j, l, hcol, _, hl, hs⟩ := randChars_sound next _ _ _ _ _ hx
          simp only [Out.ok.injEq] at h
          subst h
          exact ⟨by omega, next, j, l, rfl, hcol, by omega, by rw [hs]; rfl⟩
      · rintro ⟨hp, next', j, l, he, hcol, hl, rfl⟩
        cases he
        refine ⟨j, ?_⟩
        have := randChars_complete hcol j [] (Nat.le_refl _)
        rw [show n.toNat = l.length by omega, this]
        rfl

/-- C84: `rand` of any other value gives nil. -/
theorem rand_other_defect (draw : Int → Int) (compile : String → Option (Nat → Option (List Char))) (fuel : Nat) (l : List (Node E)) :
    funcRand draw compile fuel [.list l] = .ok .nil ∧ funcRand draw compile fuel [(.nil : Val E)] = .ok .nil := ⟨rfl, rfl⟩

/-! ### auto -/

theorem wrap64_add_left (a b : Int) : wrap64 (wrap64 a + b) = wrap64 (a + b) := by
  apply wrap64_congr
  rw [Int.add_emod, wrap64_mod, ← Int.add_emod]

theorem wrap64_sum (l : List Int) : ∀ s, InInt64 s → l.foldl (fun s n => wrap64 (s + n)) s = wrap64 (s + l.sum) := by
  induction l with
  | nil => intro s hs; simp [wrap64_of_in hs]
  | cons n l ih =>
    intro s hs
    rw [List.foldl_cons, ih _ (wrap64_in _), wrap64_add_left, List.sum_cons, Int.add_assoc]

theorem autoSum_fold {ctl : Bool} {pool : String} {jobs : List (Node E)} {l : List Int} (h : PoolJobs ctl pool jobs l) : ∀ s, autoSum ctl pool jobs s = .ok (l.foldl (fun s n => wrap64 (s + n)) s) := by
  induction h with
  | nil => intro s; rfl
  | @other job jobs l h _ ih =>
    intro s
    simp only [autoSum]
    split
    · rename_i p hp
      rw [if_pos (by rintro rfl; exact h hp)]
      exact ih s
    · exact ih s
  | @uses job jobs n l h hn _ ih =>
    intro s
    unfold UsesPool at h
    unfold HasInstances at hn
    simp only [autoSum, h, hn, ne_eq, not_true_eq_false, if_false, List.foldl_cons]
    exact ih _

theorem autoSum_ok {ctl : Bool} {pool : String} : ∀ (jobs : List (Node E)) (s n : Int), autoSum ctl pool jobs s = .ok n → ∃ l, PoolJobs ctl pool jobs l
  | [], _, _, _ => ⟨[], PoolJobs.nil⟩
  | job :: jobs, s, n, h => by
    simp only [autoSum] at h
    split at h
    · rename_i p hp
      split at h
      · rename_i hne
        obtain ⟨l, hl⟩ := autoSum_ok jobs _ _ h
        exact ⟨l, PoolJobs.other (by unfold UsesPool; rw [hp]; intro e; cases e; exact hne rfl) hl⟩
      · rename_i he
        have he : p = pool := by simpa using he
        subst he
        split at h
        · rename_i k hk
          obtain ⟨l, hl⟩ := autoSum_ok jobs _ _ h
          exact ⟨k :: l, PoolJobs.uses hp hk hl⟩
        · cases h
    · rename_i hne
      obtain ⟨l, hl⟩ := autoSum_ok jobs _ _ h
      exact ⟨l, PoolJobs.other (by unfold UsesPool; intro e; exact hne _ e) hl⟩

/-- C84: the size of a resource pool is the sum of the instances of its jobs (as 64 bit integer); there is none if one of these jobs
has no number of instances. -/
theorem auto_iff (ctl : Bool) (pool : String) (jobs : List (Node E)) (n : Int) : autoSum ctl pool jobs 0 = .ok n ↔ ∃ l, PoolJobs ctl pool jobs l ∧ n = wrap64 l.sum := by
  have h0 : InInt64 0 := by unfold InInt64; omega
  constructor
  · intro h
    obtain ⟨l, hl⟩ := autoSum_ok jobs _ _ h
    refine ⟨l, hl, ?_⟩
    rw [autoSum_fold hl, wrap64_sum l 0 h0] at h
    cases h; rw [Int.zero_add]
  · rintro ⟨l, hl, rfl⟩
    rw [autoSum_fold hl, wrap64_sum l 0 h0, Int.zero_add]

/-! ### paths -/

theorem lastComponent_ne {p c : List Char} (h : LastComponent p c) : p ≠ [] := by
  cases h <;> simp_all

/-- C84: the base name is the last component of a path. -/
theorem pathBase_last {p c : List Char} (h : LastComponent p c) : pathBase p = c := by
  have hcut : ∀ (q sl : List Char), (∀ x ∈ sl, x = '/') → (∃ x r, q.reverse = x :: r ∧ x ≠ '/') → (((q ++ sl).reverse).dropWhile (· = '/')).reverse = q := by
    intro q sl hsl hq
    obtain ⟨x, r, hx, hne⟩ := hq
    rw [List.reverse_append, List.dropWhile_append, if_pos (by
      rw [List.isEmpty_iff, List.dropWhile_eq_nil_iff]
      intro y hy
      simp [hsl y (List.mem_reverse.1 hy)]), hx, List.dropWhile_cons_of_neg (by simpa using hne), ← hx, List.reverse_reverse]
  have hlast : ∀ (q c : List Char), c ≠ [] → '/' ∉ c → ∃ x r, (q ++ c).reverse = x :: r ∧ x ≠ '/' := by
    intro q c hc hs
    rw [List.reverse_append]
    cases hr : c.reverse with
    | nil => simp at hr; exact absurd hr hc
    | cons x r =>
      refine ⟨x, r ++ q.reverse, rfl, ?_⟩
      rintro rfl
      exact hs (List.mem_reverse.1 (by rw [hr]; simp))
  have htake : ∀ (c r : List Char), '/' ∉ c → (c ++ '/' :: r).takeWhile (· ≠ '/') = c := by
    intro c r hs
    induction c with
    | nil => simp
    | cons x c ih =>
      simp at hs
      have hx : x ≠ '/' := fun e => hs.1 e.symm
      simp only [List.cons_append]
      rw [List.takeWhile_cons_of_pos (by simpa using hx), ih hs.2]
  have hall : ∀ (c : List Char), '/' ∉ c → c.takeWhile (· ≠ '/') = c := by
    intro c hs
    rw [List.takeWhile_eq_self_iff]
    intro x hx
    simp; rintro rfl; exact hs hx
  have hne := lastComponent_ne h
  unfold pathBase
  rw [if_neg hne]
  cases h with
  | @plain _ sl hc hs hsl =>
    have h1 := hcut c sl hsl (by simpa using hlast [] c hc hs)
    simp only [h1, if_neg hc]
    rw [hall _ (by simpa using hs), List.reverse_reverse]
  | @below q _ sl hc hs hsl =>
    have h1 := hcut (q ++ '/' :: c) sl hsl (by
      have := hlast (q ++ ['/']) c hc hs
      simpa using this)
    have h2 : q ++ '/' :: c ≠ [] := by simp
    simp only [h1, if_neg h2]
    have : (q ++ '/' :: c).reverse = c.reverse ++ '/' :: q.reverse := by simp
    rw [this, htake _ _ (by simpa using hs), List.reverse_reverse]

/-- C84: `basename`: the last component of the path of the URL; without path `/`. -/
theorem basename_iff (url : List Char → Option (List Char)) (s p c : List Char) (hu : url s = some p) (h : LastComponent p c) : basename url s = c := by
  unfold basename
  simp only [hu, if_neg (lastComponent_ne h), pathBase_last h]

theorem basename_empty (url : List Char → Option (List Char)) (s : List Char) (hu : url s = some []) (clean : List Char → List Char) :
    basename url s = ['/'] ∧ dirname url clean s = ['/'] := by
  constructor <;> simp [basename, dirname, hu]

/-- C84: `dirname`: the part before the last component, cleaned. -/
theorem dirname_iff (url : List Char → Option (List Char)) (clean : List Char → List Char) (s d c : List Char) (hu : url s = some (d ++ '/' :: c)) (hs : '/' ∉ c) :
    dirname url clean s = clean (d ++ ['/']) := by
  unfold dirname
  have hd : ∀ r : List Char, ((c.reverse ++ '/' :: r).dropWhile (· ≠ '/')) = '/' :: r := by
    intro r
    have : '/' ∉ c.reverse := by simpa using hs
    generalize c.reverse = x at this
    induction x with
    | nil => simp
    | cons y x ih =>
      simp at this
      have hy : y ≠ '/' := fun e => this.1 e.symm
      simp only [List.cons_append]
      rw [List.dropWhile_cons_of_pos (by simpa using hy)]
      exact ih this.2
  have hne : d ++ '/' :: c ≠ [] := by simp
  simp only [hu, if_neg hne]
  have : (d ++ '/' :: c).reverse = c.reverse ++ '/' :: d.reverse := by simp
  rw [this, hd]
  simp

/-! ### examples -/

example : formatInt 16 (-255) = "-ff" := by decide +kernel
example : formatInt 2 10 = "1010" := by decide +kernel
example : formatInt 36 35 = "z" := by decide +kernel
example : CanonicalText 10 "-42" (-42) := (formatInt_iff (by omega) (by omega) _ _).1 (by decide +kernel)
example : pathBase "/usr/lib//".toList = "lib".toList := by decide +kernel
example : LastComponent "/usr/lib//".toList "lib".toList := LastComponent.below (p := "/usr".toList) (c := "lib".toList) (sl := "//".toList) (by decide) (by decide) (by decide)
example : PoolJobs (E := Unit) false "small" [.mk (.map [("resource_pool", .mk (.str "small") "" {}), ("instances", .mk (.int 3) "" {})]) "" {},
    .mk (.map [("resource_pool", .mk (.str "big") "" {})]) "" {}] [3] :=
  PoolJobs.uses (by rfl) (by rfl) (PoolJobs.other (by
    intro h
    have h : some (Val.str (E := Unit) "big") = some (.str "small") := h
    simp at h) PoolJobs.nil)
example : Collected (fun k => if k = 0 then none else some ['a']) 0 3 [['a'], ['a']] :=
  Collected.miss rfl (by simp) (Collected.hit rfl (Collected.hit rfl (Collected.done _)))

end Spiff
