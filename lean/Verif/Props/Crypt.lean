import Verif.Spec.Crypt
/-
C83: encrypted values.
-/
namespace Spiff
open Spec

/-! ### hexadecimal texts -/

theorem hexValue_digit (n : Nat) (h : n < 16) : hexValue (hexByte n) = some n := by
  have : ∀ n : Fin 16, hexValue (hexByte n.val) = some n.val := by decide
  exact this ⟨n, h⟩

theorem hexDecode_encode (l r : Octets) : hexDecode (hexEncode l ++ r) = l ++ hexDecode r := by
  induction l with
  | nil => rfl
  | cons b l ih =>
    have hb := UInt8.toNat_lt b
    simp only [hexEncode, List.cons_append, hexDecode]
    rw [hexValue_digit _ (by omega), hexValue_digit _ (Nat.mod_lt _ (by omega))]
    simp only [ih, List.cons.injEq, and_true]
    have : b.toNat / 16 * 16 + b.toNat % 16 = b.toNat := by omega
    rw [this]
    exact UInt8.ofNat_toNat

/-- the digits -/
theorem hexValue_iff (c : UInt8) (v : Nat) : hexValue c = some v ↔ HexDigit c v := by
  have key : ∀ i : Fin 256, ∀ v : Fin 16, (hexValue (UInt8.ofNat i.val) = some v.val) ↔ HexDigit (UInt8.ofNat i.val) v.val := by
    unfold HexDigit
    decide +kernel
  have low : ∀ i : Fin 256, ∀ v, hexValue (UInt8.ofNat i.val) = some v → v < 16 := by
    have : ∀ i : Fin 256, (hexValue (UInt8.ofNat i.val)).all (fun v => decide (v < 16)) = true := by decide +kernel
    intro i v h
    have := this i
    rw [h] at this
    simpa using this
  have hc : UInt8.ofNat c.toNat = c := by simp
  have hlt : c.toNat < 256 := c.toNat_lt
  by_cases hv : v < 16
  · have := key ⟨c.toNat, hlt⟩ ⟨v, hv⟩
    rwa [hc] at this
  · constructor
    · intro h
      exact absurd (low ⟨c.toNat, hlt⟩ v (by rw [hc]; exact h)) hv
    · rintro (h | h)
      · rw [List.getElem?_eq_none (by simp; omega)] at h; cases h
      · rw [List.getElem?_eq_none (by simp; omega)] at h; cases h

theorem hexValue_none (c : UInt8) : hexValue c = none ↔ ∀ v, ¬ HexDigit c v := by
  constructor
  · intro h v hv
    rw [(hexValue_iff c v).2 hv] at h
    cases h
  · intro h
    cases hx : hexValue c with
    | none => rfl
    | some v => exact absurd ((hexValue_iff c v).1 hx) (h v)

theorem hexDecode_text {t r : Octets} (h : HexText t r) (junk : Octets) : hexDecode (t ++ junk) = r ++ hexDecode junk := by
  induction h with
  | nil => rfl
  | cons ha hb _ ih => simp only [List.cons_append, hexDecode, (hexValue_iff _ _).2 ha, (hexValue_iff _ _).2 hb, ih]

/-! ### cipher block chaining -/

theorem xor_length {a b : Octets} (h : a.length = b.length) : (xorBytes a b).length = a.length := by
  simp [xorBytes, h]

theorem xor_xor : ∀ {a b : Octets}, a.length = b.length → xorBytes (xorBytes a b) b = a
  | [], [], _ => rfl
  | x :: a, y :: b, h => by
    have := xor_xor (a := a) (b := b) (by simpa using h)
    simp only [xorBytes, List.zipWith_cons_cons, List.cons.injEq] at this ⊢
    exact ⟨by rw [UInt8.xor_assoc, UInt8.xor_self, UInt8.xor_zero], this⟩

theorem cbcEnc_length {E : Octets → Octets} (hE : ∀ b, b.length = 8 → (E b).length = 8) (n : Nat) : ∀ (iv l : Octets), iv.length = 8 → l.length = 8 * n →
    (cbcEnc E n iv l).length = 8 * n := by
  induction n with
  | zero => intro iv l _ _; rfl
  | succ n ih =>
    intro iv l hiv hl
    have h8 : (l.take blockSize).length = 8 := by simp [blockSize]; omega
    have hx : (E (xorBytes (l.take blockSize) iv)).length = 8 := hE _ (by rw [xor_length (by omega)]; exact h8)
    simp only [cbcEnc, List.length_append, hx]
    rw [ih _ _ hx (by simp [blockSize]; omega)]
    omega

theorem cbc_inverse {E D : Octets → Octets} (hE : ∀ b, b.length = 8 → (E b).length = 8) (hD : ∀ b, b.length = 8 → D (E b) = b) (n : Nat) :
    ∀ (iv l : Octets), iv.length = 8 → l.length = 8 * n → cbcDec D n iv (cbcEnc E n iv l) = l := by
  induction n with
  | zero => intro iv l _ hl; cases l <;> simp_all [cbcDec]
  | succ n ih =>
    intro iv l hiv hl
    have h8 : (l.take blockSize).length = 8 := by simp [blockSize]; omega
    have hq : (xorBytes (l.take blockSize) iv).length = 8 := by rw [xor_length (by omega)]; exact h8
    have hx : (E (xorBytes (l.take blockSize) iv)).length = 8 := hE _ hq
    simp only [cbcEnc, cbcDec]
    have ht : ∀ r : Octets, (E (xorBytes (l.take blockSize) iv) ++ r).take blockSize = E (xorBytes (l.take blockSize) iv) := by
      intro r; rw [List.take_append_of_le_length (by rw [hx]; exact Nat.le_refl _), List.take_of_length_le (by rw [hx]; exact Nat.le_refl _)]
    have hd : ∀ r : Octets, (E (xorBytes (l.take blockSize) iv) ++ r).drop blockSize = r := by
      intro r; rw [List.drop_append_of_le_length (by rw [hx]; exact Nat.le_refl _), List.drop_of_length_le (by rw [hx]; exact Nat.le_refl _), List.nil_append]
    rw [ht, hd, ih _ _ hx (by simp [blockSize]; omega), hD _ hq, xor_xor (by omega), List.take_append_drop]

theorem cbcDec_length {D : Octets → Octets} (hD : ∀ b, b.length = 8 → (D b).length = 8) (n : Nat) : ∀ (iv l : Octets), iv.length = 8 → l.length = 8 * n →
    (cbcDec D n iv l).length = 8 * n := by
  induction n with
  | zero => intro iv l _ _; rfl
  | succ n ih =>
    intro iv l hiv hl
    have h8 : (l.take blockSize).length = 8 := by simp [blockSize]; omega
    simp only [cbcDec, List.length_append]
    rw [xor_length (by rw [hD _ h8, hiv]), hD _ h8, ih _ _ h8 (by simp [blockSize]; omega)]
    omega

/-! ### the method 3DES -/

theorem cipherKey_length {L : CryptLib} (h : CryptOk L) (key : Octets) : (cipherKey L key).length = 24 := by
  have := h.md5_len
  simp [cipherKey, this]

theorem pad_total (n : Nat) : (n + macSize + padLen (n + macSize) + 1) % 8 = 0 ∧ (n + padLen (n + macSize) + 1) % 8 = 0 ∧ padLen (n + macSize) < 8 := by
  simp only [padLen, macSize, blockSize]; omega

/-- C83: encrypting never fails. -/
theorem encode_total (L : CryptLib) (iv text key : Octets) : ∃ c, desEncode L iv text key = .ok c := by
  unfold desEncode
  have := (pad_total text.length).2.1
  exact ⟨_, if_neg (by simp only [blockSize]; omega)⟩

/-- the decision about a decrypted text -/
def accept (L : CryptLib) (p : Octets) : Out (Option Octets) :=
  match p.getLast? with
  | none => .panic
  | some last =>
    let pad := (last + 1).toNat
    let m : Int := (p.length : Int) - pad
    let l : Int := m - macSize
    if m > p.length ∨ m ≤ 0 ∨ l ≤ 0 ∨ pad < 1 then .ok none
    else if L.mac (p.take l.toNat) = (p.take m.toNat).drop l.toNat then .ok (some (p.take l.toNat)) else .ok none

theorem decodeString_eq (L : CryptLib) (text key : Octets) : decodeString L text key =
    if (hexDecode text).length < 8 then .ok none
    else if ((hexDecode text).drop 8).length % 8 ≠ 0 then .ok none
    else accept L (cbcDec (L.dec (cipherKey L key)) (((hexDecode text).drop 8).length / 8) ((hexDecode text).take 8) ((hexDecode text).drop 8)) := rfl

theorem last_pad (b : UInt8) : (b + 1).toNat = if b.toNat = 255 then 0 else b.toNat + 1 := by
  have := UInt8.toNat_lt b
  rw [UInt8.toNat_add]
  split
  · rename_i h; rw [h]; rfl
  · have : (1 : UInt8).toNat = 1 := rfl
    omega

/-- the accepted texts are the sealed ones -/
theorem accept_iff {L : CryptLib} (h : CryptOk L) (p text : Octets) : accept L p = .ok (some text) ↔ text ≠ [] ∧ Sealed L text p := by
  unfold accept
  constructor
  · intro hp
    cases hl : p.getLast? with
    | none => rw [hl] at hp; cases hp
    | some last =>
      rw [hl] at hp
      simp only [last_pad] at hp
      by_cases h255 : last.toNat = 255
      · simp only [if_pos h255] at hp
        rw [if_pos (Or.inr (Or.inr (Or.inr (by omega))))] at hp
        cases hp
      simp only [if_neg h255] at hp
      split at hp
      · cases hp
      · rename_i hc
        simp only [not_or, macSize] at hc
        obtain ⟨h1, h2, h3, h4⟩ := hc
        split at hp
        · rename_i hm
          simp only [Out.ok.injEq, Option.some.injEq] at hp
          have hlt := UInt8.toNat_lt last
          generalize hL : ((p.length : Int) - ((last.toNat + 1 : Nat) : Int) - macSize).toNat = l at hm hp
          generalize hM : ((p.length : Int) - ((last.toNat + 1 : Nat) : Int)).toNat = m at hm
          simp only [macSize] at hL
          subst hp
          have hlen : p.length = l + 32 + last.toNat + 1 := by omega
          refine ⟨?_, ((p.drop (l + 32)).dropLast), last, ?_, ?_, by omega⟩
          · intro h0
            have := congrArg List.length h0
            simp only [List.length_take, List.length_nil] at this; omega
          · rw [hm]
            have e1 : p.take l ++ (p.take m).drop l = p.take m := by
              have : p.take l = (p.take m).take l := by rw [List.take_take, Nat.min_eq_left (by omega)]
              rw [this, List.take_append_drop]
            have e2 : m = l + 32 := by omega
            have e3 : (p.drop (l + 32)).dropLast ++ [last] = p.drop (l + 32) := by
              have hne : p.drop (l + 32) ≠ [] := by intro h0; have := congrArg List.length h0; simp only [List.length_drop, List.length_nil] at this; omega
              have : (p.drop (l + 32)).getLast hne = last := by
                have := hl
                rw [List.getLast?_eq_some_getLast (by rintro rfl; simp at hlen)] at this
                rw [List.getLast_drop]
                simpa using this
              conv => lhs; rw [← this]
              exact List.dropLast_concat_getLast hne
            rw [e1, List.append_assoc, e3, e2, List.take_append_drop]
          · simp; omega
        · cases hp
  · rintro ⟨hne, fill, last, rfl, hf, h255⟩
    have hml := h.mac_len text
    have hl : (text ++ L.mac text ++ fill ++ [last]).getLast? = some last := by simp
    have hpl : (text ++ L.mac text ++ fill ++ [last]).length = text.length + 32 + last.toNat + 1 := by simp [hml, hf]; omega
    rw [hl]
    simp only [last_pad, if_neg (show last.toNat ≠ 255 by omega)]
    have hpos : 0 < text.length := List.length_pos_iff.2 hne
    rw [hpl]
    have e1 : (((text.length + 32 + last.toNat + 1 : Nat) : Int) - ((last.toNat + 1 : Nat) : Int)).toNat = text.length + 32 := by omega
    have e2 : (((text.length + 32 + last.toNat + 1 : Nat) : Int) - ((last.toNat + 1 : Nat) : Int) - macSize).toNat = text.length := by simp only [macSize]; omega
    rw [if_neg (by simp only [macSize]; omega), e1, e2]
    have t1 : (text ++ L.mac text ++ fill ++ [last]).take text.length = text := by simp [List.append_assoc]
    have t2 : ((text ++ L.mac text ++ fill ++ [last]).take (text.length + 32)).drop text.length = L.mac text := by
      have : text ++ L.mac text ++ fill ++ [last] = (text ++ L.mac text) ++ (fill ++ [last]) := by simp [List.append_assoc]
      rw [this, List.take_append_of_le_length (by simp [hml]), List.take_of_length_le (by simp [hml])]
      simp
    rw [t1, t2, if_pos rfl]

theorem hexText_decode {t r : Octets} (h : HexText t r) {junk : Octets} (hj : NoHex junk) : hexDecode (t ++ junk) = r := by
  rw [hexDecode_text h]
  have : hexDecode junk = [] := by
    match junk, hj with
    | [], _ => rfl
    | [_], _ => rfl
    | a :: b :: r, hj =>
      simp only [hexDecode]
      rcases hj a b r rfl with h | h <;> rw [(hexValue_none _).2 h]
      cases hexValue a <;> rfl
  rw [this, List.append_nil]

theorem hexDecode_split : ∀ (n : Nat) (t : Octets), t.length ≤ n → ∃ good junk, t = good ++ junk ∧ HexText good (hexDecode t) ∧ NoHex junk
  | 0, t, h => ⟨[], t, rfl, by cases t <;> simp_all [hexDecode, HexText.nil], by intro a b r e; subst e; simp at h⟩
  | n + 1, [], _ => ⟨[], [], rfl, HexText.nil, by intro a b r e; cases e⟩
  | n + 1, [c], _ => ⟨[], [c], rfl, HexText.nil, by intro a b r e; cases e⟩
  | n + 1, a :: b :: r, h => by
    cases ha : hexValue a with
    | none => exact ⟨[], a :: b :: r, rfl, by simp only [hexDecode, ha]; exact HexText.nil, by intro a' b' r' e; cases e; exact Or.inl ((hexValue_none _).1 ha)⟩
    | some x =>
      cases hb : hexValue b with
      | none => exact ⟨[], a :: b :: r, rfl, by simp only [hexDecode, ha, hb]; exact HexText.nil, by intro a' b' r' e; cases e; exact Or.inr ((hexValue_none _).1 hb)⟩
      | some y =>
        obtain ⟨g, j, e, hg, hj⟩ := hexDecode_split n r (by simp at h; omega)
        exact ⟨a :: b :: g, j, by rw [e]; rfl, by simp only [hexDecode, ha, hb]; exact HexText.cons ((hexValue_iff _ _).1 ha) ((hexValue_iff _ _).1 hb) hg, hj⟩

/-- C83: the bytes of a text are given by its hexadecimal digits up to the first other character. -/
theorem hexDecode_iff (t r : Octets) : hexDecode t = r ↔ ∃ good junk, t = good ++ junk ∧ HexText good r ∧ NoHex junk := by
  constructor
  · rintro rfl; exact hexDecode_split _ t (Nat.le_refl _)
  · rintro ⟨g, j, rfl, hg, hj⟩; exact hexText_decode hg hj

theorem hexText_encode (l : Octets) : HexText (hexEncode l) l := by
  induction l with
  | nil => exact HexText.nil
  | cons b l ih =>
    have hb := UInt8.toNat_lt b
    have := HexText.cons ((hexValue_iff _ _).1 (hexValue_digit (b.toNat / 16) (by omega))) ((hexValue_iff _ _).1 (hexValue_digit (b.toNat % 16) (by omega))) ih
    have e : b.toNat / 16 * 16 + b.toNat % 16 = b.toNat := by omega
    rw [e, UInt8.ofNat_toNat] at this
    exact this

theorem chained_cbcDec {D : Octets → Octets} (n : Nat) : ∀ (iv l p : Octets), l.length = 8 * n → (cbcDec D n iv l = p ↔ Chained D iv l p) := by
  induction n with
  | zero =>
    intro iv l p hl
    have : l = [] := List.length_eq_zero_iff.1 (by omega)
    subst this
    constructor
    · rintro rfl; exact Chained.nil iv
    · intro h
      generalize hc : ([] : Octets) = cs at h
      cases h with
      | nil => rfl
      | cons _ b hb h =>
        have := congrArg List.length hc
        simp only [List.length_append, List.length_nil] at this
        omega
  | succ n ih =>
    intro iv l p hl
    have h8 : (l.take 8).length = 8 := by simp; omega
    constructor
    · rintro rfl
      have := Chained.cons (D := D) iv (l.take 8) h8 ((ih (l.take 8) (l.drop 8) _ (by simp; omega)).1 rfl)
      rw [List.take_append_drop] at this
      exact this
    · intro h
      generalize hc : l = cs at h
      cases h with
      | nil => rw [hc] at hl; simp at hl
      | @cons _ b cs' ps hb h =>
        subst hc
        simp only [cbcDec, blockSize]
        have e1 : (b ++ cs').take 8 = b := by rw [← hb]; simp
        have e2 : (b ++ cs').drop 8 = cs' := by rw [← hb]; simp
        rw [e1, e2, (ih b cs' ps (by simp at hl; omega)).2 h]
        rfl

theorem chained_lengths {D : Octets → Octets} {iv l p : Octets} (h : Chained D iv l p) : ∃ n, l.length = 8 * n := by
  induction h with
  | nil => exact ⟨0, rfl⟩
  | cons prev b hb h ih => obtain ⟨n, hn⟩ := ih; exact ⟨n + 1, by simp [hb, hn]; omega⟩

/-- C83: what is decrypted: exactly the texts for which the given text consists of hexadecimal digits of an initial vector and of
blocks, whose decryption with the key is the text sealed by its authentication code. -/
theorem decode_iff {L : CryptLib} (h : CryptOk L) (t key m : Octets) : desDecode L t key = .ok m ↔
    m ≠ [] ∧ ∃ good junk iv cs p, t = good ++ junk ∧ HexText good (iv ++ cs) ∧ NoHex junk ∧ iv.length = 8 ∧
      Chained (L.dec (cipherKey L key)) iv cs p ∧ Sealed L m p := by
  have hD : desDecode L t key = .ok m ↔ decodeString L t key = .ok (some m) ∧ m ≠ [] := by
    unfold desDecode
    cases hd : decodeString L t key with
    | ok o => cases o with
      | none => simp
      | some r =>
        by_cases hr : r = []
        · simp only [if_pos hr, Out.ok.injEq, Option.some.injEq]
          constructor
          · intro h; cases h
          · rintro ⟨rfl, h⟩; exact absurd hr h
        · simp only [if_neg hr, Out.ok.injEq, Option.some.injEq]
          exact ⟨fun e => ⟨e, e ▸ hr⟩, fun e => e.1⟩
    | err => simp
    | undet => simp
    | panic => simp
  rw [hD, decodeString_eq]
  constructor
  · rintro ⟨hd, hm⟩
    refine ⟨hm, ?_⟩
    split at hd
    · cases hd
    · rename_i hlen
      split at hd
      · cases hd
      · rename_i hmod
        obtain ⟨_, hs⟩ := (accept_iff h _ _).1 hd
        obtain ⟨g, j, e, hg, hj⟩ := hexDecode_split _ t (Nat.le_refl _)
        refine ⟨g, j, (hexDecode t).take 8, (hexDecode t).drop 8, _, e, by rw [List.take_append_drop]; exact hg, hj, by simp; omega, ?_, hs⟩
        exact (chained_cbcDec _ _ _ _ (by omega)).1 rfl
  · rintro ⟨hm, g, j, iv, cs, p, rfl, hg, hj, hiv, hc, hs⟩
    refine ⟨?_, hm⟩
    rw [hexText_decode hg hj]
    obtain ⟨n, hn⟩ := chained_lengths hc
    have e1 : (iv ++ cs).take 8 = iv := by rw [← hiv]; simp
    have e2 : (iv ++ cs).drop 8 = cs := by rw [← hiv]; simp
    rw [if_neg (by simp; omega), e1, e2, if_neg (by omega), (chained_cbcDec _ _ _ p (by omega)).2 hc]
    exact (accept_iff h _ _).2 ⟨hm, hs⟩

/-- C83: where decryption panics: if the text consists of an initial vector only. -/
theorem decode_panics_iff {L : CryptLib} (h : CryptOk L) (t key : Octets) : desDecode L t key = .panic ↔
    ∃ good junk iv, t = good ++ junk ∧ HexText good iv ∧ NoHex junk ∧ iv.length = 8 := by
  have hP : desDecode L t key = .panic ↔ (hexDecode t).length = 8 := by
    have ha : ∀ p, accept L p = .panic ↔ p = [] := by
      intro p
      unfold accept
      cases hl : p.getLast? with
      | none => simpa using hl
      | some last =>
        have : p ≠ [] := by rintro rfl; cases hl
        simp only [this, iff_false]
        split
        · intro h; cases h
        · split <;> (intro h; cases h)
    unfold desDecode
    have hstep : decodeString L t key = .panic ↔ (hexDecode t).length = 8 := by
      rw [decodeString_eq]
      split
      · rename_i hl; constructor
        · intro h; cases h
        · intro h; omega
      · rename_i hl
        split
        · rename_i hm; constructor
          · intro h; cases h
          · intro h; simp at hm; omega
        · rename_i hm
          rw [ha]
          have hlen := cbcDec_length (D := L.dec (cipherKey L key)) (fun b hb => h.dec_len _ b (cipherKey_length h key) hb) (((hexDecode t).drop 8).length / 8)
            ((hexDecode t).take 8) ((hexDecode t).drop 8) (by simp; omega) (by omega)
          rw [← List.length_eq_zero_iff, hlen]
          simp only [List.length_drop] at *
          omega
    rw [← hstep]
    cases hd : decodeString L t key with
    | ok o => cases o with
      | none => simp
      | some r => by_cases hr : r = [] <;> simp [hr]
    | err => simp
    | undet => simp
    | panic => simp
  rw [hP]
  constructor
  · intro hl
    obtain ⟨g, j, e, hg, hj⟩ := hexDecode_split _ t (Nat.le_refl _)
    exact ⟨g, j, _, e, hg, hj, hl⟩
  · rintro ⟨g, j, iv, rfl, hg, hj, hl⟩
    rw [hexText_decode hg hj]; exact hl

/-- C83: what is produced: the hexadecimal digits of the initial vector and of the chained blocks of the sealed text, filled up to the
next multiple of 8. -/
theorem encode_sealed {L : CryptLib} (h : CryptOk L) {iv text key c : Octets} (hiv : iv.length = 8) (he : desEncode L iv text key = .ok c) :
    ∃ cs p, HexText c (iv ++ cs) ∧ Chained (L.dec (cipherKey L key)) iv cs p ∧ Sealed L text p ∧
      cs.length = p.length ∧ text.length + 33 ≤ p.length ∧ p.length < text.length + 41 := by
  have hp := pad_total text.length
  have hml := h.mac_len text
  unfold desEncode at he
  rw [if_neg (by simp only [blockSize]; omega)] at he
  simp only [Out.ok.injEq] at he
  subst he
  have hEl := fun b hb => h.enc_len (cipherKey L key) b (cipherKey_length h key) hb
  have hpl : (text ++ L.mac text ++ List.replicate (padLen (text.length + macSize) + 1) (UInt8.ofNat (padLen (text.length + macSize)))).length =
      8 * ((text.length + macSize + padLen (text.length + macSize) + 1) / blockSize) := by
    simp only [List.length_append, List.length_replicate, hml, blockSize, macSize] at hp ⊢
    omega
  have hcl := cbcEnc_length hEl ((text.length + macSize + padLen (text.length + macSize) + 1) / blockSize) iv _ hiv hpl
  have hinv := cbc_inverse hEl (fun b hb => h.inverse (cipherKey L key) b (cipherKey_length h key) hb)
    ((text.length + macSize + padLen (text.length + macSize) + 1) / blockSize) iv _ hiv hpl
  refine ⟨_, _, hexText_encode _, (chained_cbcDec _ _ _ _ hcl).1 hinv, ?_, by rw [hcl, hpl], ?_, ?_⟩
  · have hlt : (UInt8.ofNat (padLen (text.length + macSize))).toNat = padLen (text.length + macSize) := by
      rw [UInt8.toNat_ofNat']; omega
    refine ⟨List.replicate (padLen (text.length + macSize)) (UInt8.ofNat (padLen (text.length + macSize))), _, ?_, by rw [List.length_replicate, hlt], by rw [hlt]; omega⟩
    rw [List.replicate_succ', ← List.append_assoc]
  · simp only [List.length_append, List.length_replicate, hml]; omega
  · simp only [List.length_append, List.length_replicate, hml]; omega

/-- C83: an encrypted text is decrypted with the same key, for every text except the empty one, every key and every initial vector;
further characters after it (a line break) do not matter. -/
theorem decrypt_encrypt {L : CryptLib} (h : CryptOk L) {iv text key c junk : Octets} (hiv : iv.length = 8) (ht : text ≠ []) (hj : NoHex junk)
    (he : desEncode L iv text key = .ok c) : desDecode L (c ++ junk) key = .ok text := by
  obtain ⟨cs, p, hc, hch, hs, _⟩ := encode_sealed h hiv he
  exact (decode_iff h _ _ _).2 ⟨ht, c, junk, iv, cs, p, rfl, hc, hj, hiv, hch, hs⟩

theorem noHex_nil : NoHex [] := by intro a b r e; cases e

theorem des1_reversible {L : CryptLib} (h : CryptOk L) : Reversible (des1 L) := by
  intro iv text key c hiv ht _ he
  have := decrypt_encrypt h (junk := []) hiv ht noHex_nil he
  rwa [List.append_nil] at this

/-- C83: the empty text cannot be decrypted. -/
theorem empty_not_decryptable {L : CryptLib} (h : CryptOk L) {iv key c : Octets} (hiv : iv.length = 8) (he : desEncode L iv [] key = .ok c) :
    desDecode L c key = .err := by
  obtain ⟨cs, p, hc, hch, hs, _, _, hlt⟩ := encode_sealed h hiv he
  obtain ⟨fill, last, hp, hf, hlast⟩ := hs
  have hml := h.mac_len []
  unfold desDecode
  have hd : decodeString L c key = .ok none := by
    have hx := hexText_decode hc noHex_nil
    rw [List.append_nil] at hx
    rw [decodeString_eq, hx]
    obtain ⟨n, hn⟩ := chained_lengths hch
    have e1 : (iv ++ cs).take 8 = iv := by rw [← hiv]; simp
    have e2 : (iv ++ cs).drop 8 = cs := by rw [← hiv]; simp
    rw [if_neg (by simp; omega), e1, e2, if_neg (by omega), (chained_cbcDec _ _ _ p (by omega)).2 hch]
    have hl : p.getLast? = some last := by rw [hp]; simp
    have hpl : p.length = 32 + last.toNat + 1 := by rw [hp]; simp [hml, hf]; omega
    unfold accept
    rw [hl]
    simp only [last_pad, if_neg (show last.toNat ≠ 255 by omega)]
    rw [if_pos (by rw [hpl]; simp only [macSize]; omega)]
  rw [hd]

/-- C83: only the first 16 bytes of a password matter. -/
theorem long_passwords {L : CryptLib} (key more : Octets) (hk : key.length = 16) : cipherKey L (key ++ more) = cipherKey L key := by
  unfold cipherKey
  have e : ∀ n r, n ≤ 16 → (key ++ r).take n = key.take n := by intro n r hn; exact List.take_append_of_le_length (by omega)
  rw [List.append_assoc, e 16 _ (by omega), e 8 _ (by omega), e 16 _ (by omega), e 8 _ (by omega)]

theorem long_passwords_agree {L : CryptLib} (key more more' : Octets) (hk : key.length = 16) :
    (∀ iv text, desEncode L iv text (key ++ more) = desEncode L iv text (key ++ more')) ∧
    (∀ t, desDecode L t (key ++ more) = desDecode L t (key ++ more')) := by
  constructor
  · intro iv text; unfold desEncode; rw [long_passwords key more hk, long_passwords key more' hk]
  · intro t; unfold desDecode; rw [decodeString_eq, decodeString_eq, long_passwords key more hk, long_passwords key more' hk]

/-! ### the functions -/

/-- C83: the method and the key used, for all argument lists. -/
theorem chooseKey_iff {V : Type} (L : CryptLib) (text : V → Option Octets) (dflt : Octets) (args : List V) (e : Encoding) (key : Octets) :
    chooseKey (stdEncodings L) text dflt args = some (e, key) ↔ key ≠ [] ∧ e = des1 L ∧ Choice text dflt args TRIPPLEDES key := by
  have hstd : ∀ n, stdEncodings L n = if n = TRIPPLEDES then some (des1 L) else none := fun _ => rfl
  constructor
  · intro h
    match args, h with
    | [], h =>
      simp only [chooseKey, hstd, if_true, Option.bind_some] at h
      split at h
      · cases h
      · cases h; rename_i hd; exact ⟨hd, rfl, Choice.none⟩
    | [a], h =>
      simp only [chooseKey] at h
      cases ha : text a with
      | none => rw [ha] at h; cases h
      | some v =>
        rw [ha] at h
        simp only [Option.bind_some, hstd, if_true] at h
        by_cases hv : v = TRIPPLEDES
        · simp only [if_pos hv] at h
          split at h
          · cases h
          · cases h; rename_i hd; exact ⟨hd, rfl, Choice.method (hv ▸ ha)⟩
        · simp only [if_neg hv] at h
          split at h
          · cases h
          · cases h; rename_i hd; exact ⟨hd, rfl, Choice.key ha hv⟩
    | [a, b], h =>
      simp only [chooseKey] at h
      cases ha : text a with
      | none => rw [ha] at h; cases h
      | some v =>
        cases hb : text b with
        | none => rw [ha, hb] at h; cases h
        | some m =>
          rw [ha, hb] at h
          simp only [Option.bind_some, hstd] at h
          by_cases hv : m = TRIPPLEDES
          · simp only [if_pos hv, Option.bind_some] at h
            split at h
            · cases h
            · cases h; rename_i hd; exact ⟨hd, rfl, Choice.both ha (hv ▸ hb)⟩
          · simp only [if_neg hv] at h; cases h
    | _ :: _ :: _ :: _, h => cases h
  · rintro ⟨hk, rfl, h⟩
    generalize hm : TRIPPLEDES = m at h
    cases h with
    | none => simp [chooseKey, hstd, hk]
    | method h => simp [chooseKey, hstd, hk, h]
    | key h hne => simp [chooseKey, hstd, hk, h, hne]
    | both h hb => subst hm; simp [chooseKey, hstd, hk, h, hb]

/-- C83: `decrypt(encrypt(v, ..), ..)` with the same further arguments reads the text written for `v`. -/
theorem function_roundtrip {V : Type} {L : CryptLib} (h : CryptOk L) (C : CryptVals V) (hstr : ∀ t, C.text (C.str t) = some t) {dflt iv : Octets} (hiv : iv.length = 8)
    {v c : V} {opts : List V} (hne : C.marshal v ≠ some []) (he : funcEncrypt C (stdEncodings L) dflt iv (v :: opts) = .ok c) :
    ∃ data, C.marshal v = some data ∧ funcDecrypt C (stdEncodings L) dflt (c :: opts) = C.parse data := by
  simp only [funcEncrypt] at he
  cases hm : C.marshal v with
  | none => rw [hm] at he; cases he
  | some data =>
    refine ⟨data, rfl, ?_⟩
    have hd : data ≠ [] := by rintro rfl; exact hne hm
    rw [hm] at he
    simp only at he
    cases hk : chooseKey (stdEncodings L) C.text dflt opts with
    | none => rw [hk] at he; cases he
    | some ek =>
      obtain ⟨e, key⟩ := ek
      rw [hk] at he
      simp only at he
      obtain ⟨hne', rfl, _⟩ := (chooseKey_iff L _ _ _ _ _).1 hk
      cases hr : (des1 L).encode iv data key with
      | ok r =>
        rw [hr] at he
        simp only [Out.ok.injEq] at he
        subst he
        simp only [funcDecrypt, hstr, hk]
        rw [des1_reversible h iv data key r hiv hd hne' hr]
      | err => rw [hr] at he; cases he
      | undet => rw [hr] at he; cases he
      | panic => rw [hr] at he; cases he

/-- C83: when `encrypt` succeeds: if the value can be written and a non-empty key is chosen. It never panics. -/
theorem encrypt_succeeds_iff {V : Type} {L : CryptLib} (C : CryptVals V) (dflt iv : Octets) (v : V) (opts : List V) :
    (∃ c, funcEncrypt C (stdEncodings L) dflt iv (v :: opts) = .ok c) ↔
      (∃ data, C.marshal v = some data) ∧ ∃ key, key ≠ [] ∧ Choice C.text dflt opts TRIPPLEDES key := by
  simp only [funcEncrypt]
  constructor
  · rintro ⟨c, he⟩
    cases hm : C.marshal v with
    | none => rw [hm] at he; cases he
    | some data =>
      rw [hm] at he
      cases hk : chooseKey (stdEncodings L) C.text dflt opts with
      | none => simp only [hk] at he; cases he
      | some ek =>
        obtain ⟨hne', _, hc⟩ := (chooseKey_iff L _ _ _ _ _).1 hk
        exact ⟨⟨data, rfl⟩, ek.2, hne', hc⟩
  · rintro ⟨⟨data, hm⟩, key, hne, hc⟩
    rw [hm, (chooseKey_iff L _ _ _ _ _).2 ⟨hne, rfl, hc⟩]
    obtain ⟨r, hr⟩ := encode_total L iv data key
    have : (des1 L).encode iv data key = .ok r := hr
    simp only [this]
    exact ⟨_, rfl⟩

/-- C83: with a password and a method the password is not used: the key of the environment is. -/
theorem given_password_ignored {V : Type} (L : CryptLib) (C : CryptVals V) (dflt iv : Octets) (v p p' m : V) {k k' : Octets} (hp : C.text p = some k) (hp' : C.text p' = some k') :
    funcEncrypt C (stdEncodings L) dflt iv [v, p, m] = funcEncrypt C (stdEncodings L) dflt iv [v, p', m] ∧
    funcDecrypt C (stdEncodings L) dflt [v, p, m] = funcDecrypt C (stdEncodings L) dflt [v, p', m] := by
  constructor <;> simp only [funcEncrypt, funcDecrypt, chooseKey, hp, hp', Option.bind_some]

theorem given_password_refused {V : Type} (L : CryptLib) (C : CryptVals V) (iv : Octets) (v p m : V) :
    funcEncrypt C (stdEncodings L) [] iv [v, p, m] = .err := by
  have : chooseKey (stdEncodings L) C.text [] [p, m] = none := by
    simp only [chooseKey]
    cases C.text p <;> cases C.text m <;> simp
  simp only [funcEncrypt, this]
  cases C.marshal v <;> rfl

/-- **C83**: the command encrypts nothing but YAML documents. -/
theorem command_yaml_only (L : CryptLib) (isYaml : Octets → Bool) {dflt iv file : Octets} (args : List Octets) (hy : isYaml file = false) :
    encryptCommand (stdEncodings L) isYaml dflt iv false file args = .err := by
  unfold encryptCommand
  cases chooseKey (stdEncodings L) some dflt args with
  | none => rfl
  | some ek => simp [hy]

/-- C83: what `spiff encrypt` prints is accepted by `spiff encrypt -d` with the same arguments, which prints the file with a line
break added. -/
theorem command_roundtrip {L : CryptLib} (h : CryptOk L) (isYaml : Octets → Bool) {dflt iv iv' file out : Octets} {args : List Octets} (hiv : iv.length = 8)
    (hf : file ≠ []) (he : encryptCommand (stdEncodings L) isYaml dflt iv false file args = .ok out) :
    encryptCommand (stdEncodings L) isYaml dflt iv' true out args = .ok (file ++ [10]) := by
  unfold encryptCommand at he ⊢
  cases hk : chooseKey (stdEncodings L) some dflt args with
  | none => rw [hk] at he; cases he
  | some ek =>
    obtain ⟨e, key⟩ := ek
    rw [hk] at he
    simp only [Bool.false_eq_true, if_false] at he
    obtain ⟨hne', rfl, _⟩ := (chooseKey_iff L _ _ _ _ _).1 hk
    split at he
    · cases hr : (des1 L).encode iv file key with
      | ok r =>
        rw [hr] at he
        simp only [Out.ok.injEq] at he
        subst he
        have : (des1 L).decode (r ++ [10]) key = .ok file := decrypt_encrypt h hiv hf (by intro a b r e; cases e) hr
        simp only [if_true, this]
      | err => rw [hr] at he; cases he
      | undet => rw [hr] at he; cases he
      | panic => rw [hr] at he; cases he
    · cases he

/-- C83: `hash(text, "md4")` shows the text itself. -/
theorem md4_shows_text (sum : Octets → Option (Octets → Octets)) (md4Empty str : Octets) :
    ∃ c, funcHash sum md4Empty [109, 100, 52] str = some c ∧ hexDecode c = str ++ md4Empty := by
  refine ⟨_, if_pos rfl, ?_⟩
  have := hexDecode_encode (str ++ md4Empty) []
  simpa [hexDecode] using this

/-- C83: the other hashes are the hexadecimal digits of the sum. -/
theorem hash_of_text (sum : Octets → Option (Octets → Octets)) (md4Empty mode str : Octets) (hm : mode ≠ [109, 100, 52]) (c : Octets) :
    funcHash sum md4Empty mode str = some c ↔ ∃ h, sum mode = some h ∧ HexText c (h str) ∧ c = hexEncode (h str) := by
  unfold funcHash
  rw [if_neg hm]
  cases sum mode with
  | none => simp
  | some h =>
    simp only [Option.map_some, Option.some.injEq]
    constructor
    · rintro rfl; exact ⟨h, rfl, hexText_encode _, rfl⟩
    · rintro ⟨_, rfl, _, rfl⟩; rfl

/-! ### examples -/

/-- a cipher that reverses blocks combined with the key -/
def toyCipher : CryptLib where
  enc k b := (xorBytes b k).reverse
  dec k b := xorBytes b.reverse k
  mac t := List.replicate 31 7 ++ [UInt8.ofNat t.length]
  md5Empty := List.range 16 |>.map UInt8.ofNat

theorem toyCipher_ok : CryptOk toyCipher where
  enc_len k b hk hb := by simp [toyCipher, xorBytes]; omega
  dec_len k b hk hb := by simp [toyCipher, xorBytes]; omega
  inverse k b hk hb := by
    have : xorBytes (xorBytes b (k.take 8)) (k.take 8) = b := xor_xor (by simp; omega)
    have e : ∀ a : Octets, a.length = 8 → xorBytes a k = xorBytes a (k.take 8) := by
      intro a ha
      have : List.zipWith (· ^^^ ·) a (k.take 8 ++ k.drop 8) = List.zipWith (· ^^^ ·) (a ++ []) (k.take 8 ++ k.drop 8) := by simp
      unfold xorBytes
      rw [← List.take_append_drop 8 k]
      simp only [List.take_append_drop]
      rw [← List.take_append_drop 8 k, this, List.zipWith_append (by simp; omega)]
      simp
    simp only [toyCipher, List.reverse_reverse]
    rw [e b hb, e _ (by rw [xor_length (by simp; omega)]; exact hb), this]
  mac_len t := by simp [toyCipher]
  md5_len := by simp [toyCipher]

example : desDecode toyCipher ((match desEncode toyCipher [1, 2, 3, 4, 5, 6, 7, 8] [104, 105, 10] [107, 101, 121] with | .ok c => c | _ => []) ++ [10]) [107, 101, 121] =
    .ok [104, 105, 10] := by decide +kernel
/-- the wrong key -/
example : desDecode toyCipher (match desEncode toyCipher [1, 2, 3, 4, 5, 6, 7, 8] [104, 105, 10] [107, 101, 121] with | .ok c => c | _ => []) [107, 101, 122] =
    .err := by decide +kernel
example : desDecode toyCipher [48, 48, 48, 48, 48, 48, 48, 48, 48, 48, 48, 48, 48, 48, 48, 48] [107] = .panic := by decide +kernel
example : Choice (V := Octets) some [1] [[2], TRIPPLEDES] TRIPPLEDES [1] := Choice.both rfl rfl

end Spiff
