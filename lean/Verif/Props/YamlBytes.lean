import Verif.Model.YamlBytes
import Verif.Spec.YamlBytes
import Verif.Lemmas.Maps
/-
C88: bytes are decoded as UTF-8, independently of the pieces they arrive in.
-/
namespace Spiff
open Spec

/-! ### octets -/

theorem octetWidth_eq : ∀ n < 256, octetWidth n = if n < 128 then 1 else if n < 192 then 0 else if n < 224 then 2 else if n < 240 then 3 else if n < 248 then 4 else 0 := by
  decide +kernel

theorem leadBits_eq : ∀ n < 256, leadBits n = if n < 128 then n else if n < 192 then 0 else if n < 224 then n - 192 else if n < 240 then n - 224
    else if n < 248 then n - 240 else 0 := by
  decide +kernel

theorem trail_iff : ∀ n < 256, (n &&& 0xC0 = 0x80 ↔ 128 ≤ n ∧ n < 192) := by
  decide +kernel

theorem low6 (n : Nat) : n &&& 0x3F = n % 64 := Nat.and_two_pow_sub_one_eq_mod n 6

theorem shl6 (n : Nat) : n <<< 6 = n * 64 := Nat.shiftLeft_eq n 6

/-! ### pieces -/

theorem decodeChar_more {enc : TextCoding} {raw x : List Nat} (eof : Bool) :
    (decodeChar enc false raw = .bad → decodeChar enc eof (raw ++ x) = .bad) ∧
    (∀ v w, decodeChar enc false raw = .char v w → decodeChar enc eof (raw ++ x) = .char v w) := by
  have h16 : ∀ order : Nat × Nat, order = (0, 1) → (decodeUtf16 order false raw = .bad → decodeUtf16 order eof (raw ++ x) = .bad) ∧
      (∀ v w, decodeUtf16 order false raw = .char v w → decodeUtf16 order eof (raw ++ x) = .char v w) := by
    rintro order rfl
    have hu : ∀ k, k + 2 ≤ raw.length → utf16Unit (0, 1) (raw ++ x) k = utf16Unit (0, 1) raw k := by
      intro k hk
      simp only [utf16Unit, List.getD_eq_getElem?_getD]
      rw [List.getElem?_append_left (by omega), List.getElem?_append_left (by omega)]
    unfold decodeUtf16
    by_cases h2 : raw.length < 2
    · simp [h2]
    · rw [hu 0 (by omega)]
      by_cases h4 : raw.length < 4
      · simp only [h2, if_false, h4, if_true, List.length_append, show ¬ raw.length + x.length < 2 by omega]
        split
        · simp
        · split <;> simp
      · rw [hu 2 (by omega)]
        simp only [h2, if_false, h4, List.length_append, show ¬ raw.length + x.length < 2 by omega, show ¬ raw.length + x.length < 4 by omega]
        exact ⟨fun h => h, fun v w h => h⟩
  cases enc with
  | utf8 =>
    simp only [decodeChar]
    cases raw with
    | nil => simp [decodeUtf8]
    | cons o r =>
      by_cases h0 : octetWidth o = 0
      · simp [decodeUtf8, h0]
      · by_cases hl : (o :: r).length < octetWidth o
        · have e : decodeUtf8 false (o :: r) = .incomplete := by rw [decodeUtf8, if_neg h0, if_pos hl]; rfl
          rw [e]
          exact ⟨fun h => (by cases h), fun v w h => (by cases h)⟩
        · rw [List.cons_append, decodeUtf8, decodeUtf8, if_neg h0, if_neg hl, if_neg h0]
          rw [if_neg (by simp only [List.length_cons, List.length_append] at hl ⊢; omega), List.take_append_of_le_length (by simp only [List.length_cons] at hl; omega)]
          exact ⟨fun h => h, fun v w h => h⟩
  | utf16le => exact h16 _ rfl
  | utf16be => exact h16 _ rfl

theorem decodeChar_width {enc : TextCoding} {eof : Bool} {raw : List Nat} {v w : Nat} (h : decodeChar enc eof raw = .char v w) : 0 < w ∧ w ≤ raw.length := by
  have h16 : ∀ order : Nat × Nat, decodeUtf16 order eof raw = .char v w → 0 < w ∧ w ≤ raw.length := by
    intro order h
    unfold decodeUtf16 at h
    split at h
    · split at h <;> cases h
    · split at h
      · cases h
      · split at h
        · split at h
          · split at h <;> cases h
          · split at h <;> cases h
            omega
        · cases h
          omega
  cases enc with
  | utf8 =>
    simp only [decodeChar] at h
    cases raw with
    | nil => cases h
    | cons o r =>
      simp only [decodeUtf8] at h
      split at h
      · cases h
      · split at h
        · split at h <;> cases h
        · split at h
          · cases h
          · split at h <;> cases h
            omega
  | utf16le => exact h16 _ h
  | utf16be => exact h16 _ h

/-- more fuel than bytes makes no difference -/
theorem decodeRun_fuel (enc : TextCoding) (eof : Bool) : ∀ (f g : Nat) (raw : List Nat), raw.length ≤ f → raw.length ≤ g →
    decodeRun enc eof f raw = decodeRun enc eof g raw := by
  intro f
  induction f with
  | zero =>
    intro g raw hf _
    have : raw = [] := List.length_eq_zero_iff.1 (by omega)
    subst this
    cases g <;> simp [decodeRun]
  | succ f ih =>
    intro g raw hf hg
    cases g with
    | zero =>
      have : raw = [] := List.length_eq_zero_iff.1 (by omega)
      subst this
      simp [decodeRun]
    | succ g =>
      rw [decodeRun, decodeRun]
      by_cases h0 : raw = []
      · simp [h0]
      · rw [if_neg h0, if_neg h0]
        cases hd : decodeChar enc eof raw with
        | bad => rfl
        | incomplete => rfl
        | char v w =>
          obtain ⟨h1, h2⟩ := decodeChar_width hd
          simp only
          rw [ih g (raw.drop w) (by rw [List.length_drop]; omega) (by rw [List.length_drop]; omega)]

/-- all characters of complete input -/
def decodeAll (enc : TextCoding) (raw : List Nat) : Option (List (Nat × Nat)) :=
  (decodeRun enc true raw.length raw).bind (fun r => if r.2 = [] then some r.1 else none)

theorem decodeAll_nil (enc : TextCoding) : decodeAll enc [] = some [] := rfl

theorem decodeAll_step (enc : TextCoding) {raw : List Nat} (h0 : raw ≠ []) : decodeAll enc raw = match decodeChar enc true raw with
    | .char v w => if readableCode v then (decodeAll enc (raw.drop w)).map (fun l => (v, w) :: l) else none
    | _ => none := by
  unfold decodeAll
  obtain ⟨n, hn⟩ : ∃ n, raw.length = n + 1 := ⟨raw.length - 1, by have := List.length_pos_iff.2 h0; omega⟩
  rw [hn, decodeRun, if_neg h0]
  cases hd : decodeChar enc true raw with
  | bad => rfl
  | incomplete => simp [h0]
  | char v w =>
    obtain ⟨h1, h2⟩ := decodeChar_width hd
    simp only
    split
    · rw [decodeRun_fuel enc true n (raw.drop w).length _ (by rw [List.length_drop]; omega) (Nat.le_refl _)]
      cases decodeRun enc true (raw.drop w).length (raw.drop w) with
      | none => rfl
      | some r => simp only [Option.map_some, Option.bind_some]; split <;> rfl
    · rfl

theorem decodeRun_more (enc : TextCoding) (x : List Nat) : ∀ (f : Nat) (raw : List Nat), match decodeRun enc false f raw with
    | none => decodeAll enc (raw ++ x) = none
    | some (cs, left) => decodeAll enc (raw ++ x) = (decodeAll enc (left ++ x)).map (fun l => cs ++ l) := by
  intro f
  induction f with
  | zero => intro raw; simp [decodeRun]
  | succ f ih =>
    intro raw
    rw [decodeRun]
    by_cases h0 : raw = []
    · simp [h0]
    · rw [if_neg h0]
      obtain ⟨hb, hc⟩ := decodeChar_more (enc := enc) (raw := raw) (x := x) true
      have hne : raw ++ x ≠ [] := by simp [h0]
      cases hd : decodeChar enc false raw with
      | bad => simp only; rw [decodeAll_step enc hne, hb hd]
      | incomplete => simp
      | char v w =>
        obtain ⟨h1, h2⟩ := decodeChar_width hd
        simp only
        have hs := decodeAll_step enc hne
        simp only [hc v w hd] at hs
        rw [List.drop_append_of_le_length h2] at hs
        by_cases hr : readableCode v = true
        · simp only [if_pos hr] at hs ⊢
          have := ih (raw.drop w)
          cases hdr : decodeRun enc false f (raw.drop w) with
          | none =>
            rw [hdr] at this
            simp only [Option.map_none]
            rw [hs, this]; rfl
          | some r =>
            rw [hdr] at this
            simp only at this
            simp only [Option.map_some]
            rw [hs, this, Option.map_map]
            rfl
        · simp only [if_neg hr] at hs ⊢
          exact hs

theorem readChars_all (enc : TextCoding) : ∀ (chunks : List (List Nat)) (raw : List Nat), readChars enc chunks raw = decodeAll enc (raw ++ chunks.flatten) := by
  intro chunks
  induction chunks with
  | nil => intro raw; rw [List.flatten_nil, List.append_nil]; rfl
  | cons c r ih =>
    intro raw
    rw [readChars, List.flatten_cons]
    have := decodeRun_more enc (c ++ r.flatten) raw.length raw
    cases hd : decodeRun enc false raw.length raw with
    | none => rw [hd] at this; rw [this]; rfl
    | some p =>
      rw [hd] at this
      simp only at this
      rw [this, Option.bind_some, ih, List.append_assoc]

theorem primeRaw_flatten : ∀ (chunks : List (List Nat)) (raw : List Nat), (primeRaw chunks raw).1 ++ (primeRaw chunks raw).2.flatten = raw ++ chunks.flatten ∧
    (3 ≤ (primeRaw chunks raw).1.length ∨ (primeRaw chunks raw).2 = []) := by
  intro chunks
  induction chunks with
  | nil => intro raw; exact ⟨rfl, .inr rfl⟩
  | cons c r ih =>
    intro raw
    rw [primeRaw]
    split
    · obtain ⟨h1, h2⟩ := ih (raw ++ c)
      exact ⟨by rw [h1, List.flatten_cons, List.append_assoc], h2⟩
    · exact ⟨rfl, .inl (by simp only; omega)⟩

theorem detect_more {raw : List Nat} (h : 3 ≤ raw.length) (x : List Nat) : detectEncoding (raw ++ x) = ((detectEncoding raw).1, (detectEncoding raw).2 ++ x) := by
  obtain ⟨a, b, c, r, rfl⟩ : ∃ a b c r, raw = a :: b :: c :: r := by
    match raw, h with
    | a :: b :: c :: r, _ => exact ⟨a, b, c, r, rfl⟩
  by_cases h1 : a = 0xFF ∧ b = 0xFE
  · obtain ⟨rfl, rfl⟩ := h1; rfl
  by_cases h2 : a = 0xFE ∧ b = 0xFF
  · obtain ⟨rfl, rfl⟩ := h2; rfl
  by_cases h3 : a = 0xEF ∧ b = 0xBB ∧ c = 0xBF
  · obtain ⟨rfl, rfl, rfl⟩ := h3; rfl
  have key : ∀ r, detectEncoding (a :: b :: c :: r) = (.utf8, a :: b :: c :: r) := by
    intro r
    unfold detectEncoding
    split
    · rename_i heq; simp only [List.cons.injEq] at heq; exact absurd ⟨heq.1, heq.2.1⟩ h1
    · rename_i heq; simp only [List.cons.injEq] at heq; exact absurd ⟨heq.1, heq.2.1⟩ h2
    · rename_i heq; simp only [List.cons.injEq] at heq; exact absurd ⟨heq.1, heq.2.1, heq.2.2.1⟩ h3
    · rfl
  rw [key, List.cons_append, List.cons_append, List.cons_append, key]

theorem readCodes_all (chunks : List (List Nat)) :
    readCodes chunks = decodeAll (detectEncoding chunks.flatten).1 (detectEncoding chunks.flatten).2 := by
  unfold readCodes
  obtain ⟨h1, h2⟩ := primeRaw_flatten chunks []
  rw [List.nil_append] at h1
  rw [readChars_all]
  rcases h2 with h2 | h2
  · have := detect_more h2 (primeRaw chunks []).2.flatten
    rw [h1] at this
    rw [this]
  · rw [h2, List.flatten_nil, List.append_nil] at h1
    rw [h2, List.flatten_nil, List.append_nil, h1]

/-- **C88**: the text read does not depend on the pieces in which the input arrives. -/
theorem read_pieces (chunks chunks' : List Bytes) (h : chunks.flatten = chunks'.flatten) : readText chunks = readText chunks' := by
  have : (chunks.map (·.map UInt8.toNat)).flatten = (chunks'.map (·.map UInt8.toNat)).flatten := by
    rw [← List.map_flatten, ← List.map_flatten, h]
  unfold readText
  rw [readCodes_all, readCodes_all, this]

/-! ### UTF-8 -/

theorem char_range (c : Char) : c.toNat < 0xD800 ∨ (0xDFFF < c.toNat ∧ c.toNat < 0x110000) := by
  have h : Nat.isValidChar c.toNat := c.valid
  unfold Nat.isValidChar at h
  generalize c.toNat = n at h ⊢
  omega

theorem trail_step {v o : Nat} {r : List Nat} (h : 128 ≤ o) (h' : o < 192) : trailBits v (o :: r) = trailBits (v * 64 + (o - 128)) r := by
  rw [trailBits, if_pos ((trail_iff o (by omega)).2 ⟨h, h'⟩), shl6, low6]
  rw [show o % 64 = o - 128 by omega]

theorem trail_stop {v o : Nat} {r : List Nat} (hb : o < 256) (h : ¬ (128 ≤ o ∧ o < 192)) : trailBits v (o :: r) = none := by
  rw [trailBits, if_neg (fun hc => h ((trail_iff o hb).1 hc))]

/-- the octets of a character: a leading octet and trailing octets -/
theorem utf8_shape (c : Char) : ∃ o r, utf8Octets c = o :: r ∧ o < 256 ∧ (∀ b ∈ r, b < 256) ∧ octetWidth o = r.length + 1 ∧
    trailBits (leadBits o) r = some c.toNat ∧ utf8Valid (octetWidth o) c.toNat = true ∧ (o = 0 ↔ c.toNat = 0) := by
  have hr := char_range c
  unfold utf8Octets
  generalize c.toNat = n at hr
  have hv : ∀ w, (w = 1 ∨ (w = 2 ∧ 0x80 ≤ n) ∨ (w = 3 ∧ 0x800 ≤ n) ∨ (w = 4 ∧ 0x10000 ≤ n)) → utf8Valid w n = true := by
    intro w hw
    simp only [utf8Valid, Bool.and_eq_true, Bool.or_eq_true, decide_eq_true_eq, Bool.not_eq_true', Bool.or_eq_false_iff, Bool.and_eq_false_iff,
      decide_eq_false_iff_not]
    omega
  split
  · refine ⟨n, [], rfl, by omega, by simp, ?_, ?_, ?_, by omega⟩
    · rw [octetWidth_eq n (by omega), if_pos (by omega)]; rfl
    · rw [leadBits_eq n (by omega), if_pos (by omega)]; rfl
    · rw [octetWidth_eq n (by omega), if_pos (by omega)]; exact hv 1 (by omega)
  · split
    · have hw : octetWidth (0xC0 + n / 64) = 2 := by
        rw [octetWidth_eq _ (by omega), if_neg (by omega), if_neg (by omega), if_pos (by omega)]
      refine ⟨_, _, rfl, by omega, ?_, hw, ?_, by rw [hw]; exact hv 2 (by omega), by omega⟩
      · intro b hb; simp only [List.mem_cons, List.not_mem_nil, or_false] at hb; omega
      · rw [leadBits_eq _ (by omega), if_neg (by omega), if_neg (by omega), if_pos (by omega), trail_step (by omega) (by omega), trailBits]
        exact congrArg some (by omega)
    · split
      · have hw : octetWidth (0xE0 + n / 4096) = 3 := by
          rw [octetWidth_eq _ (by omega), if_neg (by omega), if_neg (by omega), if_neg (by omega), if_pos (by omega)]
        refine ⟨_, _, rfl, by omega, ?_, hw, ?_, by rw [hw]; exact hv 3 (by omega), by omega⟩
        · intro b hb; simp only [List.mem_cons, List.not_mem_nil, or_false] at hb; omega
        · rw [leadBits_eq _ (by omega), if_neg (by omega), if_neg (by omega), if_neg (by omega), if_pos (by omega), trail_step (by omega) (by omega),
            trail_step (by omega) (by omega), trailBits]
          exact congrArg some (by omega)
      · have hw : octetWidth (0xF0 + n / 262144) = 4 := by
          rw [octetWidth_eq _ (by omega), if_neg (by omega), if_neg (by omega), if_neg (by omega), if_neg (by omega), if_pos (by omega)]
        refine ⟨_, _, rfl, by omega, ?_, hw, ?_, by rw [hw]; exact hv 4 (by omega), by omega⟩
        · intro b hb; simp only [List.mem_cons, List.not_mem_nil, or_false] at hb; omega
        · rw [leadBits_eq _ (by omega), if_neg (by omega), if_neg (by omega), if_neg (by omega), if_neg (by omega), if_pos (by omega),
            trail_step (by omega) (by omega), trail_step (by omega) (by omega), trail_step (by omega) (by omega), trailBits]
          exact congrArg some (by omega)

theorem trail_some {v o x : Nat} {r : List Nat} (hb : o < 256) (h : trailBits v (o :: r) = some x) :
    128 ≤ o ∧ o < 192 ∧ trailBits (v * 64 + (o - 128)) r = some x := by
  by_cases hc : 128 ≤ o ∧ o < 192
  · rw [trail_step hc.1 hc.2] at h
    exact ⟨hc.1, hc.2, h⟩
  · rw [trail_stop hb hc] at h; cases h

theorem utf8_decode (c : Char) (rest : List Nat) (eof : Bool) : decodeUtf8 eof (utf8Octets c ++ rest) = .char c.toNat (utf8Octets c).length := by
  obtain ⟨o, r, h1, h2, h3, h4, h5, h6, -⟩ := utf8_shape c
  rw [h1, List.cons_append, decodeUtf8, if_neg (by omega), if_neg (by simp only [List.length_cons, List.length_append]; omega), h4,
    Nat.add_sub_cancel, List.take_left, h5]
  simp only
  rw [← h4, if_pos h6, h4, List.length_cons]

theorem utf8_only {raw : List Nat} (hb : ∀ b ∈ raw, b < 256) {eof : Bool} {v w : Nat} (h : decodeUtf8 eof raw = .char v w) :
    ∃ (c : Char) (rest : List Nat), v = c.toNat ∧ w = (utf8Octets c).length ∧ raw = utf8Octets c ++ rest := by
  cases raw with
  | nil => cases h
  | cons o r =>
    rw [decodeUtf8] at h
    split at h
    · cases h
    rename_i h0
    split at h
    · split at h <;> cases h
    rename_i hl
    have ho := hb o (by simp)
    have hr : ∀ b ∈ r, b < 256 := fun b h => hb b (by simp [h])
    simp only [List.length_cons] at hl
    split at h
    · cases h
    rename_i x hx
    split at h
    swap
    · cases h
    rename_i hv
    cases h
    simp only [utf8Valid, Bool.and_eq_true, Bool.or_eq_true, decide_eq_true_eq, Bool.not_eq_true', Bool.or_eq_false_iff, Bool.and_eq_false_iff,
      decide_eq_false_iff_not] at hv
    have fin : ∀ rest : List Nat, v < 0x110000 → (v < 0xD800 ∨ 0xDFFF < v) → (∀ c : Char, c.toNat = v → octetWidth o = (utf8Octets c).length ∧ o :: r = utf8Octets c ++ rest) →
        ∃ (c : Char) (rest : List Nat), v = c.toNat ∧ octetWidth o = (utf8Octets c).length ∧ o :: r = utf8Octets c ++ rest := by
      intro rest h1 h2 h
      have hvalid : Nat.isValidChar v := by unfold Nat.isValidChar; omega
      have hc : (Char.ofNat v).toNat = v := by
        unfold Char.ofNat
        rw [dif_pos hvalid]
        rfl
      exact ⟨Char.ofNat v, rest, hc.symm, h _ hc⟩
    have hw := octetWidth_eq o ho
    have hlb := leadBits_eq o ho
    have hrange : v < 0x110000 ∧ (v < 0xD800 ∨ 0xDFFF < v) := by omega
    rw [hw] at h0 hl hx hv
    by_cases h1 : o < 128
    · rw [if_pos h1] at hx hv hlb
      refine fin r hrange.1 hrange.2 ?_
      rw [hlb] at hx
      cases hx
      intro c hc
      rw [hw, if_pos h1]
      unfold utf8Octets
      rw [hc, if_pos h1]
      exact ⟨rfl, rfl⟩
    rw [if_neg h1] at h0 hl hx hv hlb
    by_cases h2 : o < 192
    · rw [if_pos h2] at h0; exact absurd rfl h0
    rw [if_neg h2] at h0 hl hx hv hlb
    by_cases h3 : o < 224
    · rw [if_pos h3] at h0 hl hx hv hlb
      obtain _ | ⟨a, r⟩ := r
      · simp at hl
      obtain ⟨a1, a2, hx⟩ := trail_some (hr a (by simp)) hx
      simp only [List.take_zero, Nat.add_one_sub_one, Nat.sub_self, trailBits, List.take_succ_cons] at hx
      have he := Option.some.inj hx
      rw [hlb] at he
      refine fin r hrange.1 hrange.2 ?_
      intro c hc
      rw [hw, if_neg h1, if_neg h2, if_pos h3]
      unfold utf8Octets
      rw [hc, if_neg (by omega), if_pos (by omega)]
      refine ⟨by simp only [List.length_cons, List.length_nil], ?_⟩
      simp only [List.cons_append, List.nil_append, List.cons.injEq, and_true]
      omega
    rw [if_neg h3] at h0 hl hx hv hlb
    by_cases h4 : o < 240
    · rw [if_pos h4] at h0 hl hx hv hlb
      obtain _ | ⟨a, r⟩ := r
      · simp at hl
      obtain ⟨a1, a2, hx⟩ := trail_some (hr a (by simp)) hx
      obtain _ | ⟨b, r⟩ := r
      · simp at hl
      obtain ⟨b1, b2, hx⟩ := trail_some (hr b (by simp)) hx
      simp only [List.take_zero, Nat.add_one_sub_one, Nat.sub_self, trailBits, List.take_succ_cons] at hx
      have he := Option.some.inj hx
      rw [hlb] at he
      refine fin r hrange.1 hrange.2 ?_
      intro c hc
      rw [hw, if_neg h1, if_neg h2, if_neg h3, if_pos h4]
      unfold utf8Octets
      rw [hc, if_neg (by omega), if_neg (by omega), if_pos (by omega)]
      refine ⟨by simp only [List.length_cons, List.length_nil], ?_⟩
      simp only [List.cons_append, List.nil_append, List.cons.injEq, and_true]
      omega
    rw [if_neg h4] at h0 hl hx hv hlb
    by_cases h5 : o < 248
    · rw [if_pos h5] at h0 hl hx hv hlb
      obtain _ | ⟨a, r⟩ := r
      · simp at hl
      obtain ⟨a1, a2, hx⟩ := trail_some (hr a (by simp)) hx
      obtain _ | ⟨b, r⟩ := r
      · simp at hl
      obtain ⟨b1, b2, hx⟩ := trail_some (hr b (by simp)) hx
      obtain _ | ⟨d, r⟩ := r
      · simp at hl
      obtain ⟨d1, d2, hx⟩ := trail_some (hr d (by simp)) hx
      simp only [List.take_zero, Nat.add_one_sub_one, Nat.sub_self, trailBits, List.take_succ_cons] at hx
      have he := Option.some.inj hx
      rw [hlb] at he
      refine fin r hrange.1 hrange.2 ?_
      intro c hc
      rw [hw, if_neg h1, if_neg h2, if_neg h3, if_neg h4, if_pos h5]
      unfold utf8Octets
      rw [hc, if_neg (by omega), if_neg (by omega), if_neg (by omega)]
      refine ⟨by simp only [List.length_cons, List.length_nil], ?_⟩
      simp only [List.cons_append, List.nil_append, List.cons.injEq, and_true]
      omega
    · rw [if_neg h5] at h0; exact absurd rfl h0

theorem readable_iff (c : Char) : readableCode c.toNat = true ↔ YamlC c := by
  have hr := char_range c
  have h1 : c = '\t' ↔ c.toNat = 9 := ⟨fun h => by rw [h]; rfl, fun h => Char.toNat_inj.1 h⟩
  have h2 : c = '\n' ↔ c.toNat = 10 := ⟨fun h => by rw [h]; rfl, fun h => Char.toNat_inj.1 h⟩
  have h3 : c = '\r' ↔ c.toNat = 13 := ⟨fun h => by rw [h]; rfl, fun h => Char.toNat_inj.1 h⟩
  unfold YamlC
  rw [h1, h2, h3]
  generalize c.toNat = n at hr ⊢
  simp only [readableCode, Bool.or_eq_true, Bool.and_eq_true, decide_eq_true_eq]
  omega

theorem utf8_all_of (t : List Char) (h : ∀ c ∈ t, YamlC c) :
    decodeAll .utf8 (t.flatMap utf8Octets) = some (t.map (fun c => (c.toNat, (utf8Octets c).length))) := by
  induction t with
  | nil => rfl
  | cons c t ih =>
    obtain ⟨o, r, h1, -⟩ := utf8_shape c
    have hd : decodeChar .utf8 true ((c :: t).flatMap utf8Octets) = .char c.toNat (utf8Octets c).length := by
      rw [List.flatMap_cons]; exact utf8_decode c _ true
    have hs := decodeAll_step .utf8 (raw := (c :: t).flatMap utf8Octets) (by rw [List.flatMap_cons, h1]; simp)
    simp only [hd] at hs
    rw [hs, if_pos ((readable_iff c).2 (h c (by simp))), List.flatMap_cons, List.drop_left, ih (fun c hc => h c (by simp [hc]))]
    rfl

theorem utf8_all : ∀ (n : Nat) (raw : List Nat), raw.length ≤ n → (∀ b ∈ raw, b < 256) → ∀ cs, decodeAll .utf8 raw = some cs →
    ∃ t : List Char, raw = t.flatMap utf8Octets ∧ cs = t.map (fun c => (c.toNat, (utf8Octets c).length)) ∧ ∀ c ∈ t, YamlC c := by
  intro n
  induction n with
  | zero =>
    intro raw hn _ cs h
    have : raw = [] := List.length_eq_zero_iff.1 (by omega)
    subst this
    cases h
    exact ⟨[], rfl, rfl, by simp⟩
  | succ n ih =>
    intro raw hn hb cs h
    by_cases h0 : raw = []
    · subst h0; cases h; exact ⟨[], rfl, rfl, by simp⟩
    rw [decodeAll_step .utf8 h0] at h
    cases hd : decodeChar .utf8 true raw with
    | bad => rw [hd] at h; cases h
    | incomplete => rw [hd] at h; cases h
    | char v w =>
      rw [hd] at h
      simp only at h
      obtain ⟨c, rest, rfl, rfl, rfl⟩ := utf8_only hb hd
      split at h
      swap
      · cases h
      rename_i hr
      rw [List.drop_left, Option.map_eq_some_iff] at h
      obtain ⟨l, hl, rfl⟩ := h
      have hw := (decodeChar_width hd).1
      obtain ⟨t, rfl, rfl, ht⟩ := ih rest (by rw [List.length_append] at hn; omega) (fun b h => hb b (by simp [h])) l hl
      exact ⟨c :: t, rfl, rfl, by
        intro d hd
        rcases List.mem_cons.1 hd with rfl | hd
        · exact (readable_iff _).1 hr
        · exact ht d hd⟩

/-! ### the buffer -/

theorem buffer_utf8 (c : Char) : bufferBytes c.toNat = utf8Octets c := by
  have hr := char_range c
  unfold bufferBytes utf8Octets
  generalize c.toNat = n at hr
  have e6 : n >>> 6 = n / 64 := Nat.shiftRight_eq_div_pow n 6
  have e12 : n >>> 12 = n / 4096 := Nat.shiftRight_eq_div_pow n 12
  have e18 : n >>> 18 = n / 262144 := Nat.shiftRight_eq_div_pow n 18
  simp only [e6, e12, e18, low6]
  by_cases h1 : n < 0x80
  · rw [if_pos h1, if_pos (by omega)]
  rw [if_neg h1, if_neg (by omega)]
  by_cases h2 : n < 0x800
  · rw [if_pos h2, if_pos (by omega)]
  rw [if_neg h2, if_neg (by omega)]
  by_cases h3 : n < 0x10000
  · rw [if_pos h3, if_pos (by omega)]
  rw [if_neg h3, if_neg (by omega)]

theorem putAt_end (cells bs : List Nat) : putAt cells cells.length bs = cells ++ bs := by
  unfold putAt
  rw [Nat.sub_self, List.replicate_zero, List.append_nil, List.take_length, List.drop_eq_nil_of_le (by omega), List.append_nil]

theorem fill_utf8 : ∀ (t : List Char) (cells : List Nat), fillBuffer (t.map (fun c => (c.toNat, (utf8Octets c).length))) cells cells.length =
    (cells ++ t.flatMap utf8Octets, (cells ++ t.flatMap utf8Octets).length) := by
  intro t
  induction t with
  | nil => intro cells; simp [fillBuffer]
  | cons c t ih =>
    intro cells
    rw [List.map_cons, fillBuffer, buffer_utf8, putAt_end, ← List.length_append, ih, List.flatMap_cons, List.append_assoc]

theorem close_utf8 (cells : List Nat) : closeBuffer (cells, cells.length) = cells ++ [0] := by
  unfold closeBuffer
  rw [putAt_end, List.take_of_length_le (by simp)]

theorem trail_fold : ∀ (r : List Nat) (v x : Nat), trailBits v r = some x → r.foldl (fun v o => (v <<< 6) + (o &&& 0x3F)) v = x := by
  intro r
  induction r with
  | nil => intro v x h; exact Option.some.inj h
  | cons o r ih =>
    intro v x h
    rw [trailBits] at h
    split at h
    · exact ih _ _ h
    · cases h

theorem buffer_text : ∀ (t : List Char) (n : Nat), (∀ c ∈ t, YamlC c) → t.length < n → bufferText n (t.flatMap utf8Octets ++ [0]) = t := by
  intro t
  induction t with
  | nil =>
    intro n _ hn
    obtain ⟨n, rfl⟩ : ∃ m, n = m + 1 := ⟨n - 1, by simp only [List.length_nil] at hn; omega⟩
    rfl
  | cons c t ih =>
    intro n h hn
    obtain ⟨n, rfl⟩ : ∃ m, n = m + 1 := ⟨n - 1, by simp only [List.length_cons] at hn; omega⟩
    obtain ⟨o, r, h1, h2, h3, h4, h5, h6, h7⟩ := utf8_shape c
    have hz : c.toNat ≠ 0 := by
      intro hc
      have := (readable_iff c).2 (h c (by simp))
      rw [hc] at this
      exact absurd this (by decide)
    rw [List.flatMap_cons, h1, List.cons_append, List.cons_append, bufferText, if_neg (fun hc => hz (h7.1 hc)), h4, Nat.add_sub_cancel, List.append_assoc,
      List.take_left, trail_fold r _ _ h5, Char.ofNat_toNat, Nat.max_eq_right (by omega), List.drop_succ_cons, List.drop_left,
      ih n (fun c hc => h c (by simp [hc])) (by simp only [List.length_cons] at hn; omega)]

theorem length_utf8 (t : List Char) : t.length ≤ (t.flatMap utf8Octets).length := by
  induction t with
  | nil => simp
  | cons c t ih =>
    obtain ⟨o, r, h1, -⟩ := utf8_shape c
    rw [List.flatMap_cons, List.length_append, h1, List.length_cons, List.length_cons]
    omega

theorem octets_small (t : List Char) : ∀ b ∈ t.flatMap utf8Octets, b < 256 := by
  intro b hb
  rw [List.mem_flatMap] at hb
  obtain ⟨c, -, hb⟩ := hb
  obtain ⟨o, r, h1, h2, h3, -⟩ := utf8_shape c
  rw [h1] at hb
  rcases List.mem_cons.1 hb with rfl | hb
  · exact h2
  · exact h3 b hb

theorem encoded_iff (b : Bytes) (t : List Char) : b.map UInt8.toNat = t.flatMap utf8Octets ↔ b = encodedUtf8 t := by
  constructor
  · intro h
    unfold encodedUtf8
    rw [← h, List.map_map]
    conv => lhs; rw [← List.map_id b]
    exact List.map_congr_left (fun x _ => by simp)
  · rintro rfl
    unfold encodedUtf8
    rw [List.map_map]
    conv => rhs; rw [← List.map_id (t.flatMap utf8Octets)]
    refine List.map_congr_left (fun x hx => ?_)
    have := octets_small t x hx
    simp only [Function.comp_apply, UInt8.toNat_ofNat', id_eq]
    omega

theorem utf8_inj {t t' : List Char} (h : t.map (fun c => (c.toNat, (utf8Octets c).length)) = t'.map (fun c => (c.toNat, (utf8Octets c).length))) : t = t' := by
  induction t generalizing t' with
  | nil => cases t' with | nil => rfl | cons => cases h
  | cons c t ih =>
    cases t' with
    | nil => cases h
    | cons c' t' =>
      simp only [List.map_cons, List.cons.injEq, Prod.mk.injEq] at h
      rw [Char.toNat_inj.1 h.1.1, ih h.2]

/-- the text read from the bytes behind a possible byte order mark -/
def codesText (cs : List (Nat × Nat)) : YText := bufferText (closeBuffer (fillBuffer cs [] 0)).length (closeBuffer (fillBuffer cs [] 0))

theorem codes_text (t : List Char) (h : ∀ c ∈ t, YamlC c) : codesText (t.map (fun c => (c.toNat, (utf8Octets c).length))) = t := by
  have hf := fill_utf8 t []
  rw [List.nil_append, List.length_nil] at hf
  unfold codesText
  rw [hf, close_utf8]
  exact buffer_text t _ h (by have := length_utf8 t; simp only [List.length_append, List.length_cons, List.length_nil]; omega)

theorem text_utf8 (b : Bytes) (t : List Char) :
    ((decodeAll .utf8 (b.map UInt8.toNat)).map codesText = some t) ↔ b = encodedUtf8 t ∧ ∀ c ∈ t, YamlC c := by
  constructor
  · intro h
    rw [Option.map_eq_some_iff] at h
    obtain ⟨cs, hcs, h⟩ := h
    obtain ⟨t', h1, rfl, h3⟩ := utf8_all _ _ (Nat.le_refl _) (by
      intro x hx
      rw [List.mem_map] at hx
      obtain ⟨y, -, rfl⟩ := hx
      exact y.toNat_lt) cs hcs
    rw [codes_text t' h3] at h
    subst h
    exact ⟨(encoded_iff b t').1 h1, h3⟩
  · rintro ⟨h, ht⟩
    rw [(encoded_iff b t).2 h, utf8_all_of t ht, Option.map_some, codes_text t ht]

theorem readText_eq (chunks : List Bytes) : readText chunks =
    (decodeAll (detectEncoding (chunks.flatten.map UInt8.toNat)).1 (detectEncoding (chunks.flatten.map UInt8.toNat)).2).map codesText := by
  unfold readText
  rw [readCodes_all, ← List.map_flatten]
  rfl

/-- **C88**: input without a byte order mark is read as a text exactly if it is the UTF-8 encoding of this text, and all its characters are allowed in YAML. -/
theorem read_utf8 (chunks : List Bytes) (t : List Char) (h : ¬ ByteOrderMarked chunks.flatten) :
    readText chunks = some t ↔ chunks.flatten = encodedUtf8 t ∧ ∀ c ∈ t, YamlC c := by
  rw [readText_eq, ← text_utf8]
  have hd : detectEncoding (chunks.flatten.map UInt8.toNat) = (.utf8, chunks.flatten.map UInt8.toNat) := by
    generalize chunks.flatten = b at h
    have ht : ∀ x : UInt8, ∀ n < 256, x.toNat = n → x = UInt8.ofNat n := by
      intro x n hn hx
      rw [← hx]; simp
    unfold detectEncoding
    split
    · rename_i r heq
      obtain _ | ⟨x, _ | ⟨y, b⟩⟩ := b <;> simp at heq
      exact absurd ⟨b, .inl (by rw [ht x _ (by decide) heq.1, ht y _ (by decide) heq.2.1]; rfl)⟩ h
    · rename_i r heq
      obtain _ | ⟨x, _ | ⟨y, b⟩⟩ := b <;> simp at heq
      exact absurd ⟨b, .inr (.inl (by rw [ht x _ (by decide) heq.1, ht y _ (by decide) heq.2.1]; rfl))⟩ h
    · rename_i r heq
      obtain _ | ⟨x, _ | ⟨y, _ | ⟨z, b⟩⟩⟩ := b <;> simp at heq
      exact absurd ⟨b, .inr (.inr (by rw [ht x _ (by decide) heq.1, ht y _ (by decide) heq.2.1, ht z _ (by decide) heq.2.2.1]; rfl))⟩ h
    · rfl
  rw [hd]

/-- **C88**: a byte order mark of UTF-8 is ignored. -/
theorem read_utf8_marked (chunks : List Bytes) (b : Bytes) (t : List Char) (h : chunks.flatten = 0xEF :: 0xBB :: 0xBF :: b) :
    readText chunks = some t ↔ b = encodedUtf8 t ∧ ∀ c ∈ t, YamlC c := by
  rw [readText_eq, ← text_utf8, h]
  rfl

/-- a text without byte order mark does not begin with U+FEFF -/
theorem marked_iff (t : List Char) : ByteOrderMarked (encodedUtf8 t) ↔ ∃ r, t = '\uFEFF' :: r := by
  constructor
  · rintro ⟨r, h | h | h⟩
    all_goals
      obtain _ | ⟨c, t⟩ := t
      · cases h
      replace h := (encoded_iff _ _).2 h.symm
      rw [List.flatMap_cons] at h
      have hr := char_range c
      unfold utf8Octets at h
      split at h
      · simp only [List.map_cons, List.cons_append, List.nil_append, List.cons.injEq] at h
        have := h.1
        simp at this
        omega
      · split at h
        · simp only [List.map_cons, List.cons_append, List.nil_append, List.cons.injEq] at h
          have := h.1
          simp at this
          omega
        · split at h
          · simp only [List.map_cons, List.cons_append, List.nil_append, List.cons.injEq] at h
            obtain ⟨h1, h2, h3⟩ := h
            simp at h1 h2
            first
            | omega
            | (have h4 := h3.1
               simp at h4
               exact ⟨t, by rw [Char.toNat_inj.1 (show c.toNat = ('\uFEFF').toNat from by
                 show c.toNat = 0xFEFF
                 omega)]⟩)
          · simp only [List.map_cons, List.cons_append, List.nil_append, List.cons.injEq] at h
            have := h.1
            simp at this
            omega
  · rintro ⟨r, rfl⟩
    refine ⟨encodedUtf8 r, .inr (.inr ?_)⟩
    unfold encodedUtf8
    rw [List.flatMap_cons, List.map_append]
    rfl

/-- **C88**: every text of allowed characters that does not begin with U+FEFF is read from its UTF-8 encoding, in any pieces. -/
theorem read_encoded (chunks : List Bytes) (t : List Char) (h : chunks.flatten = encodedUtf8 t) (ht : ∀ c ∈ t, YamlC c)
    (hm : ∀ r, t ≠ '\uFEFF' :: r) : readText chunks = some t :=
  (read_utf8 chunks t (by rw [h, marked_iff]; rintro ⟨r, hr⟩; exact hm r hr)).2 ⟨h, ht⟩

/-- **C88** (defect): UTF-16 is recognised, but only its first character is seen. -/
theorem utf16_truncated_defect : readText [[0xFF, 0xFE, 97, 0, 58, 0, 32, 0, 49, 0]] = some ['a'] := by
  decide +kernel

/-- **C88** (defect): the big endian order of UTF-16 is recognised, but decoded in little endian order. -/
theorem utf16_order_defect : readText [[0xFE, 0xFF, 0, 97, 0, 58]] ≠ some ['a', ':'] ∧ readText [[0xFE, 0xFF, 97, 0]] = some ['a'] := by
  decide +kernel

theorem pieces_example : readText [[97, 0xc3], [], [0xa4, 0xe2], [0x82], [0xac, 10]] = some "aä€\n".toList := by
  decide +kernel

theorem invalid_example : readText [[97, 0xc3], [40]] = none ∧ readText [[0xc0, 0x80]] = none ∧ readText [[0xed, 0xa0, 0x80]] = none ∧ readText [[97, 0xe2, 0x82]] = none := by
  decide +kernel

/-! ### UTF-16 -/

theorem high_bits (u : Nat) (h : u < 65536) : u &&& 0xFC00 = u / 1024 * 1024 := by
  have h2 : (0xFC00 : Nat) = (2^6 - 1) <<< 10 := by decide
  rw [h2, show u / 1024 * 1024 = (u >>> 10) <<< 10 by rw [Nat.shiftRight_eq_div_pow, Nat.shiftLeft_eq]]
  apply Nat.eq_of_testBit_eq
  intro i
  rw [Nat.testBit_and, Nat.testBit_shiftLeft, Nat.testBit_shiftLeft, Nat.testBit_two_pow_sub_one, Nat.testBit_shiftRight]
  by_cases hi : 10 ≤ i
  · by_cases hj : i - 10 < 6
    · simp [hi, hj]
    · have : u.testBit i = false := Nat.testBit_lt_two_pow (Nat.lt_of_lt_of_le h (by
        calc 65536 = 2^16 := by decide
          _ ≤ 2^i := Nat.pow_le_pow_right (by decide) (by omega)))
      simp [hi, hj, this]
  · simp [hi]

theorem low_bits (u : Nat) : u &&& 0x3FF = u % 1024 := by
  rw [show (0x3FF : Nat) = 2^10 - 1 by decide, Nat.and_two_pow_sub_one_eq_mod]

/-- the bytes of a unit of UTF-16, the low byte first -/
def unitBytes (u : Nat) : List Nat := [u % 256, u / 256]

/-- UTF-16 (RFC 2781, 2.1), the low byte first -/
def utf16Bytes (c : Nat) : List Nat :=
  if c < 0x10000 then unitBytes c else unitBytes (0xD800 + (c - 0x10000) / 1024) ++ unitBytes (0xDC00 + (c - 0x10000) % 1024)

theorem unit_first (u : Nat) (r : List Nat) : utf16Unit (0, 1) (unitBytes u ++ r) 0 = u := by
  have : u % 256 + (u / 256) <<< 8 = u := by rw [Nat.shiftLeft_eq]; omega
  exact this

theorem unit_second (u v : Nat) (r : List Nat) : utf16Unit (0, 1) (unitBytes u ++ (unitBytes v ++ r)) 2 = v := unit_first v r

theorem pair_value (c : Nat) (h : c < 0x110000) (hc : 0x10000 ≤ c) : 0x10000 + (((0xD800 + (c - 0x10000) / 1024) &&& 0x3FF) <<< 10) + ((0xDC00 + (c - 0x10000) % 1024) &&& 0x3FF) = c := by
  rw [low_bits, low_bits, Nat.shiftLeft_eq]
  omega

/-- **C88**: a character in UTF-16 is decoded, with the low byte first (the reader uses this order for both byte orders, `utf16_order_defect`). -/
theorem decode_utf16 (c : Nat) (h : c < 0x110000) (hs : ¬ (0xD800 ≤ c ∧ c < 0xE000)) (eof : Bool) (rest : List Nat) (enc : TextCoding) (he : enc ≠ .utf8) :
    decodeChar enc eof (utf16Bytes c ++ rest) = .char c (utf16Bytes c).length := by
  have hd : decodeChar enc eof (utf16Bytes c ++ rest) = decodeUtf16 (0, 1) eof (utf16Bytes c ++ rest) := by
    cases enc <;> first | rfl | exact absurd rfl he
  rw [hd]
  unfold utf16Bytes
  by_cases hc : c < 0x10000
  · rw [if_pos hc]
    unfold decodeUtf16
    rw [unit_first, high_bits c hc, if_neg (by simp [unitBytes]), if_neg (by omega), if_neg (by omega)]
    rfl
  · rw [if_neg hc, List.append_assoc]
    have hv := pair_value c h (by omega)
    have h1 : (0xD800 + (c - 0x10000) / 1024) &&& 0xFC00 = 0xD800 := by rw [high_bits _ (by omega)]; omega
    have h2 : (0xDC00 + (c - 0x10000) % 1024) &&& 0xFC00 = 0xDC00 := by rw [high_bits _ (by omega)]; omega
    revert hv h1 h2
    generalize 0xD800 + (c - 0x10000) / 1024 = a
    generalize 0xDC00 + (c - 0x10000) % 1024 = b
    intro hv h1 h2
    unfold decodeUtf16
    rw [unit_first, unit_second, h1, h2, hv, if_neg (by simp [unitBytes]), if_neg (by decide), if_pos rfl, if_neg (by simp [unitBytes]), if_pos rfl]
    rfl

/-- a character outside the basic plane -/
example : decodeChar .utf16le true [0x3D, 0xD8, 0x00, 0xDE] = .char 0x1F600 4 := decode_utf16 0x1F600 (by decide) (by decide) true [] .utf16le (by decide)

end Spiff
