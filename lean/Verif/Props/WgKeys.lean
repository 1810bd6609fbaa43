import Verif.Spec.WgKeys
import Verif.Props.Base64
import Mathlib.Data.Nat.Digits.Lemmas
import Mathlib.Tactic.Ring
/-
C100: WireGuard keys.
-/
namespace Spiff
open Spec

theorem letters_char : ∀ d < 64, base64Letters.getD d '?' = b64Char d := by decide +kernel

theorem big_cons (b x : Nat) (r : List Nat) : Nat.ofDigits b (x :: r).reverse = x * b ^ r.length + Nat.ofDigits b r.reverse := by
  rw [List.reverse_cons, Nat.ofDigits_append, List.length_reverse, Nat.ofDigits_singleton]
  ring

theorem encode_digits (m : Nat) : ∀ bytes : List Nat, bytes.length = 3 * m + 2 → (∀ b ∈ bytes, b < 256) →
    ∃ ds : List Nat, ds.length = 4 * m + 3 ∧ (∀ d ∈ ds, d < 64) ∧ b64Encode bytes = ds.map b64Char ++ ['='] ∧
      Nat.ofDigits 64 ds.reverse = 4 * Nat.ofDigits 256 bytes.reverse := by
  induction m with
  | zero =>
    intro bytes hl hb
    match bytes, hl with
    | [a, b], _ =>
      have ha := hb a (by simp)
      have hb' := hb b (by simp)
      refine ⟨[a / 4, a % 4 * 16 + b / 16, b % 16 * 4], rfl, ?_, rfl, ?_⟩
      · intro d hd
        simp only [List.mem_cons, List.not_mem_nil, or_false] at hd
        omega
      · simp [Nat.ofDigits]
        omega
  | succ m ih =>
    intro bytes hl hb
    match bytes, hl with
    | a :: b :: c :: r, hl =>
      have ha := hb a (by simp)
      have hb' := hb b (by simp)
      have hc := hb c (by simp)
      obtain ⟨ds, h1, h2, h3, h4⟩ := ih r (by simp at hl; omega) (fun x hx => hb x (by simp [hx]))
      refine ⟨a / 4 :: (a % 4 * 16 + b / 16) :: (b % 16 * 4 + c / 64) :: c % 64 :: ds, by simp [h1]; omega, ?_, by rw [b64Encode, h3]; rfl, ?_⟩
      · intro d hd
        simp only [List.mem_cons] at hd
        rcases hd with hd | hd | hd | hd | hd
        · omega
        · omega
        · omega
        · omega
        · exact h2 d hd
      · have hr : r.length = 3 * m + 2 := by simp at hl; omega
        simp only [big_cons, h4, List.length_cons, h1, hr]
        have e1 : 64 ^ (4 * m + 3) = 4 * 256 ^ (3 * m + 2) := by
          rw [show (64 : Nat) = 2 ^ 6 by rfl, show (256 : Nat) = 2 ^ 8 by rfl, ← Nat.pow_mul, ← Nat.pow_mul, show 4 = 2 ^ 2 by rfl, ← Nat.pow_add]
          congr 1; omega
        generalize 3 * m + 2 = J at e1
        generalize 4 * m + 3 = K at e1
        simp only [Nat.pow_succ, e1]
        generalize 256 ^ J = P
        have e2 : a / 4 * (64 * 64 * 64) + (a % 4 * 16 + b / 16) * (64 * 64) + (b % 16 * 4 + c / 64) * 64 + c % 64 = a * (256 * 256) + b * 256 + c := by omega
        calc _ = (a / 4 * (64 * 64 * 64) + (a % 4 * 16 + b / 16) * (64 * 64) + (b % 16 * 4 + c / 64) * 64 + c % 64) * (4 * P) + 4 * Nat.ofDigits 256 r.reverse := by ring
          _ = _ := by rw [e2]; ring

/-- the text of a key is the one described -/
theorem keyText_iff (k : List UInt8) (s : String) : KeyText k s ↔ k.length = 32 ∧ s = keyText k := by
  constructor
  · rintro ⟨h1, ds, h2, h3, h4, h5⟩
    refine ⟨h1, ?_⟩
    obtain ⟨ds', g1, g2, g3, g4⟩ := encode_digits 10 (k.map UInt8.toNat) (by simp [h1]) (by
      intro b hb
      obtain ⟨x, -, rfl⟩ := List.mem_map.1 hb
      exact x.toNat_lt)
    have e : ds = ds' := by
      have := Nat.ofDigits_inj_of_len_eq (b := 64) (by omega) (L1 := ds.reverse) (L2 := ds'.reverse) (by simp [h2, g1]) (by simpa using h3) (by simpa using g2) (h5.trans g4.symm)
      exact List.reverse_inj.1 this
    subst e
    have : s.toList = b64Encode (k.map UInt8.toNat) := by
      rw [h4, g3]
      congr 1
      exact List.map_congr_left (fun d hd => letters_char d (h3 d hd))
    rw [keyText, ← this, String.ofList_toList]
  · rintro ⟨h1, rfl⟩
    obtain ⟨ds', g1, g2, g3, g4⟩ := encode_digits 10 (k.map UInt8.toNat) (by simp [h1]) (by
      intro b hb
      obtain ⟨x, -, rfl⟩ := List.mem_map.1 hb
      exact x.toNat_lt)
    refine ⟨h1, ds', g1, g2, ?_, g4⟩
    rw [keyText, String.toList_ofList, g3]
    congr 1
    exact List.map_congr_left (fun d hd => (letters_char d (g2 d hd)).symm)

/-- the text of a key is read as the key -/
theorem parse_key_text (k : List UInt8) (h : k.length = 32) : parseKey (keyText k) = some k := by
  have hb : ∀ b ∈ k.map UInt8.toNat, b < 256 := by
    intro b hb
    obtain ⟨x, -, rfl⟩ := List.mem_map.1 hb
    exact x.toNat_lt
  have h1 := base64_roundtrip (k.map UInt8.toNat) hb 0
  rw [show base64Encode (k.map UInt8.toNat) 0 = b64Encode (k.map UInt8.toNat) from rfl] at h1
  unfold parseKey keyText
  rw [String.toList_ofList, h1, Option.bind_some, List.map_map]
  have : k.map (UInt8.ofNat ∘ UInt8.toNat) = k := by
    conv_rhs => rw [← List.map_id k]
    exact List.map_congr_left (fun x _ => by simp)
  rw [this, newKey, if_pos h]

/-! ### the bits of a private key -/

theorem bit_digits (k : List UInt8) : ∀ i, (scalar k).testBit i = (k.getD (i / 8) 0).toNat.testBit (i % 8) := by
  induction k with
  | nil => intro i; simp [scalar]
  | cons b r ih =>
    intro i
    have e : scalar (b :: r) = 2 ^ 8 * scalar r + b.toNat := by
      simp only [scalar, List.map_cons, Nat.ofDigits_cons]
      simp [Nat.add_comm]
    rw [e, Nat.testBit_two_pow_mul_add _ b.toNat_lt]
    split
    · rename_i h
      rw [Nat.div_eq_of_lt h, Nat.mod_eq_of_lt h]
      rfl
    · rename_i h
      rw [ih (i - 8), show i / 8 = (i - 8) / 8 + 1 by omega, show (i - 8) % 8 = i % 8 by omega]
      rfl

theorem key_low_bits (b : UInt8) : ∀ i < 8, (b &&& 248).toNat.testBit i = (decide (3 ≤ i) && b.toNat.testBit i) := by
  intro i hi
  rw [UInt8.toNat_and, Nat.testBit_and]
  have : (248 : UInt8).toNat.testBit i = decide (3 ≤ i) := by
    revert i; decide
  rw [this, Bool.and_comm]

theorem key_high_bits (b : UInt8) : ∀ i < 8, ((b &&& 127) ||| 64).toNat.testBit i = (decide (i = 6) || (decide (i < 6) && b.toNat.testBit i)) := by
  intro i hi
  rw [UInt8.toNat_or, UInt8.toNat_and, Nat.testBit_or, Nat.testBit_and]
  have h1 : (64 : UInt8).toNat.testBit i = decide (i = 6) := by revert i; decide
  have h2 : (127 : UInt8).toNat.testBit i = decide (i < 7) := by revert i; decide
  rw [h1, h2]
  by_cases h : i = 6
  · simp [h]
  · by_cases h' : i < 6
    · simp [h, h', show i < 7 by omega]
    · simp [h, h', show ¬ i < 7 by omega]

theorem clamp_length (b : List UInt8) : (clampKey b).length = b.length := by simp [clampKey]

theorem clamp_at (b : List UInt8) (h : b.length = 32) (j : Nat) (hj : j < 32) :
    (clampKey b).getD j 0 = if j = 0 then b.getD 0 0 &&& 248 else if j = 31 then (b.getD 31 0 &&& 127) ||| 64 else b.getD j 0 := by
  simp only [clampKey, List.getD_eq_getElem?_getD, List.getElem?_set]
  by_cases h0 : j = 0
  · subst h0; simp [h]
  · by_cases h1 : j = 31
    · subst h1; simp [h]
    · simp [h0, h1, Ne.symm h0, Ne.symm h1]

theorem scalar_lt (k : List UInt8) (h : k.length = 32) : scalar k < 2 ^ 256 := by
  have := Nat.ofDigits_lt_base_pow_length (b := 256) (l := k.map UInt8.toNat) (by omega) (by
    intro b hb
    obtain ⟨x, -, rfl⟩ := List.mem_map.1 hb
    exact x.toNat_lt)
  rw [List.length_map, h, show (256 : Nat) ^ 32 = 2 ^ 256 by decide +kernel] at this
  exact this

theorem clamp_spec (b : List UInt8) (h : b.length = 32) : PrivateOf b (clampKey b) := by
  refine ⟨by rw [clamp_length, h], scalar_lt _ (by rw [clamp_length, h]), fun i hi => ?_⟩
  rw [bit_digits, bit_digits, clamp_at b h _ (by omega)]
  by_cases h0 : i / 8 = 0
  · rw [if_pos h0, key_low_bits _ _ (Nat.mod_lt _ (by omega)), h0, Nat.mod_eq_of_lt (by omega)]
    simp [show ¬ i = 254 by omega, show i < 254 by omega]
  · rw [if_neg h0]
    by_cases h1 : i / 8 = 31
    · rw [if_pos h1, key_high_bits _ _ (Nat.mod_lt _ (by omega)), h1]
      have e1 : decide (i % 8 = 6) = decide (i = 254) := decide_eq_decide.2 (by omega)
      have e2 : decide (i % 8 < 6) = decide (i < 254) := decide_eq_decide.2 (by omega)
      rw [e1, e2]
      simp [show 3 ≤ i by omega]
    · rw [if_neg h1]
      simp [show ¬ i = 254 by omega, show i < 254 by omega, show 3 ≤ i by omega]

theorem scalar_inj (k k' : List UInt8) (h : k.length = k'.length) (e : scalar k = scalar k') : k = k' := by
  have := Nat.ofDigits_inj_of_len_eq (b := 256) (by omega) (L1 := k.map UInt8.toNat) (L2 := k'.map UInt8.toNat) (by simpa using h)
    (by intro b hb; obtain ⟨x, -, rfl⟩ := List.mem_map.1 hb; exact x.toNat_lt)
    (by intro b hb; obtain ⟨x, -, rfl⟩ := List.mem_map.1 hb; exact x.toNat_lt) e
  exact (List.map_inj_right (fun a b h => UInt8.toNat_inj.1 h)).1 this

theorem clamp_private (b : List UInt8) (h : b.length = 32) (k : List UInt8) : PrivateOf b k ↔ k = clampKey b := by
  constructor
  · rintro ⟨h1, h2, h3⟩
    obtain ⟨g1, g2, g3⟩ := clamp_spec b h
    refine scalar_inj _ _ (h1.trans g1.symm) (Nat.eq_of_testBit_eq fun i => ?_)
    by_cases hi : i < 256
    · rw [h3 i hi, g3 i hi]
    · have hp : (2 : Nat) ^ 256 ≤ 2 ^ i := Nat.pow_le_pow_right (by omega) (by omega)
      rw [Nat.testBit_lt_two_pow (Nat.lt_of_lt_of_le h2 hp), Nat.testBit_lt_two_pow (Nat.lt_of_lt_of_le g2 hp)]
  · rintro rfl
    exact clamp_spec b h

/-! ### the functions -/

section
variable {E : Type}

/-- **C100**: the keys generated: a private key is made of 32 random bytes; a preshared key is these bytes. There is no other result, and an error for random
bytes that are not available. -/
theorem wggenkey_iff (L : WgLib) (hL : ∀ b, L.random 32 = some b → b.length = 32) (args : List (Val E)) (v : Val E) :
    funcWgGenKey L args = .ok v ↔ ∃ random, L.random 32 = some random ∧
      (((args = [] ∨ args = [.str "private"]) ∧ ∃ k s, PrivateOf random k ∧ KeyText k s ∧ v = .str s) ∨
       (args = [.str "preshared"] ∧ ∃ s, KeyText random s ∧ v = .str s)) := by
  have hg : generateKey L = L.random 32 := by
    unfold generateKey
    rcases h : L.random 32 with _ | b
    · rfl
    · simp [newKey, hL b h]
  have hpriv : wgKeyOf (E := E) L "private" = .ok v ↔ ∃ random, L.random 32 = some random ∧ ∃ k s, PrivateOf random k ∧ KeyText k s ∧ v = .str s := by
    unfold wgKeyOf generatePrivateKey
    rw [if_pos rfl, hg]
    rcases h : L.random 32 with _ | b
    · simp
    · have hb := hL b h
      simp only [Option.map_some, Out.ok.injEq, Option.some.injEq, exists_eq_left', keyText_iff, clamp_private b hb]
      constructor
      · rintro rfl; exact ⟨_, _, rfl, ⟨by rw [clamp_length, hb], rfl⟩, rfl⟩
      · rintro ⟨k, s, rfl, ⟨-, rfl⟩, rfl⟩; rfl
  have hpre : wgKeyOf (E := E) L "preshared" = .ok v ↔ ∃ random, L.random 32 = some random ∧ ∃ s, KeyText random s ∧ v = .str s := by
    unfold wgKeyOf
    rw [if_neg (by decide), if_pos rfl, hg]
    rcases h : L.random 32 with _ | b
    · simp
    · have hb := hL b h
      simp only [Out.ok.injEq, Option.some.injEq, exists_eq_left', keyText_iff]
      constructor
      · rintro rfl; exact ⟨_, ⟨hb, rfl⟩, rfl⟩
      · rintro ⟨s, ⟨-, rfl⟩, rfl⟩; rfl
  match args with
  | [] => rw [funcWgGenKey, hpriv]; simp
  | [.str s] =>
    rw [funcWgGenKey]
    by_cases h1 : s = "private"
    · subst h1; rw [hpriv]; simp
    · by_cases h2 : s = "preshared"
      · subst h2; rw [hpre]; simp
      · simp [wgKeyOf, h1, h2]
  | .str _ :: _ :: _ => simp [funcWgGenKey]
  | .nil :: _ => simp [funcWgGenKey]
  | .bool _ :: _ => simp [funcWgGenKey]
  | .int _ :: _ => simp [funcWgGenKey]
  | .float _ :: _ => simp [funcWgGenKey]
  | .list _ :: _ => simp [funcWgGenKey]
  | .map _ :: _ => simp [funcWgGenKey]
  | .expr _ :: _ => simp [funcWgGenKey]
  | .templ _ :: _ => simp [funcWgGenKey]
  | .lambda _ :: _ => simp [funcWgGenKey]

/-- **C100**: a private key is a multiple of 8 between 2^254 and 2^255. -/
theorem private_range {random k : List UInt8} (h : PrivateOf random k) : 8 ∣ scalar k ∧ 2 ^ 254 ≤ scalar k ∧ scalar k < 2 ^ 255 := by
  obtain ⟨-, h2, h3⟩ := h
  refine ⟨?_, ?_, ?_⟩
  · have : scalar k % 2 ^ 3 = 0 := by
      refine Nat.eq_of_testBit_eq fun i => ?_
      rw [Nat.testBit_mod_two_pow, Nat.zero_testBit]
      by_cases hi : i < 3
      · rw [h3 i (by omega)]
        simp [show ¬ i = 254 by omega, show ¬ 3 ≤ i by omega]
      · simp [hi]
    omega
  · refine Nat.ge_two_pow_of_testBit ?_
    rw [h3 254 (by omega)]
    rfl
  · refine Nat.lt_pow_two_of_testBit _ fun i hi => ?_
    by_cases hi' : i < 256
    · rw [h3 i hi']
      simp [show ¬ i = 254 by omega, show ¬ i < 254 by omega]
    · exact Nat.testBit_lt_two_pow (Nat.lt_of_lt_of_le h2 (Nat.pow_le_pow_right (by omega) (by omega)))

theorem val_lt {c : Char} {n : Nat} (h : b64Val c = some n) : n < 64 := by
  unfold b64Val at h
  split at h
  · rename_i hc; cases h; have := hc.2; simp only [Char.le_def, UInt32.le_iff_toNat_le] at this
    have h2 : c.toNat ≤ 90 := this
    omega
  · split at h
    · rename_i hc; cases h; have := hc.2; simp only [Char.le_def, UInt32.le_iff_toNat_le] at this
      have h2 : c.toNat ≤ 122 := this
      omega
    · split at h
      · rename_i hc; cases h; have := hc.2; simp only [Char.le_def, UInt32.le_iff_toNat_le] at this
        have h2 : c.toNat ≤ 57 := this
        omega
      · split at h
        · cases h; omega
        · split at h
          · cases h; omega
          · cases h

theorem quad_lt {a b c d : Char} {last : Bool} {x : List Nat} (h : b64Quad a b c d last = some x) : ∀ n ∈ x, n < 256 := by
  unfold b64Quad at h
  split at h
  · rename_i va vb ha hb
    have := val_lt ha
    have := val_lt hb
    split at h
    · split at h
      · cases h; intro n hn; simp at hn; omega
      · cases h
    · split at h
      · cases h
      · rename_i vc hc
        have := val_lt hc
        split at h
        · split at h
          · cases h; intro n hn; simp at hn; omega
          · cases h
        · split at h
          · cases h
          · rename_i vd hd
            have := val_lt hd
            cases h; intro n hn; simp at hn; omega
  · cases h

theorem quads_lt (s : List Char) : ∀ x, b64Quads s = some x → ∀ n ∈ x, n < 256 := by
  fun_induction b64Quads s with
  | case1 => intro x h; cases h; simp
  | case2 => intro x h; cases h
  | case3 a b c d r y hy ih =>
    intro x h
    obtain ⟨z, hz, rfl⟩ := Option.map_eq_some_iff.1 h
    intro n hn
    rcases List.mem_append.1 hn with hn | hn
    · exact quad_lt hy n hn
    · exact ih z hz n hn
  | case4 => intro x h; cases h

/-- **C100**: the public key of a text: the text is base64 for 32 bytes, and the result is the text of the point of these bytes. -/
theorem wgpublickey_iff (L : WgLib) (hL : ∀ k, (L.curve k).length = 32) (args : List (Val E)) (v : Val E) :
    funcWgPublicKey L args = .ok v ↔
      ∃ s bytes t, args = [.str s] ∧ b64Decode s.toList = some (bytes.map UInt8.toNat) ∧ bytes.length = 32 ∧ KeyText (L.curve bytes) t ∧ v = .str t := by
  have key : ∀ s : String, funcWgPublicKey L [(.str s : Val E)] = .ok v ↔
      ∃ bytes t, b64Decode s.toList = some (bytes.map UInt8.toNat) ∧ bytes.length = 32 ∧ KeyText (L.curve bytes) t ∧ v = .str t := by
    intro s
    simp only [funcWgPublicKey, parseKey]
    rcases hd : b64Decode s.toList with _ | d
    · simp
    · have hb := quads_lt _ d hd
      have hm : (d.map UInt8.ofNat).map UInt8.toNat = d := by
        rw [List.map_map]
        conv_rhs => rw [← List.map_id d]
        exact List.map_congr_left (fun x hx => by simp [Nat.mod_eq_of_lt (hb x hx)])
      have hu : ∀ bytes : List UInt8, d = bytes.map UInt8.toNat ↔ bytes = d.map UInt8.ofNat := by
        intro bytes
        constructor
        · rintro rfl
          rw [List.map_map]
          conv_lhs => rw [← List.map_id bytes]
          exact List.map_congr_left (fun x _ => by simp)
        · rintro rfl; exact hm.symm
      simp only [Option.bind_some, Option.some.injEq, hu, exists_and_left, exists_eq_left, keyText_iff, hL, true_and, newKey]
      by_cases hl : (d.map UInt8.ofNat).length = 32
      · rw [if_pos hl]
        simp only [Out.ok.injEq, publicKey]
        rw [List.length_map] at hl
        simp [hl, eq_comm]
      · rw [if_neg hl]
        rw [List.length_map] at hl
        simp [hl]
  match args with
  | [] => simp [funcWgPublicKey]
  | [.str s] => rw [key s]; simp
  | .str _ :: _ :: _ => simp [funcWgPublicKey]
  | .nil :: _ => simp [funcWgPublicKey]
  | .bool _ :: _ => simp [funcWgPublicKey]
  | .int _ :: _ => simp [funcWgPublicKey]
  | .float _ :: _ => simp [funcWgPublicKey]
  | .list _ :: _ => simp [funcWgPublicKey]
  | .map _ :: _ => simp [funcWgPublicKey]
  | .expr _ :: _ => simp [funcWgPublicKey]
  | .templ _ :: _ => simp [funcWgPublicKey]
  | .lambda _ :: _ => simp [funcWgPublicKey]

/-- **C100**: the public key of the text of a key. -/
theorem wgpublickey_key (L : WgLib) {k : List UInt8} {s t : String} (hs : KeyText k s) (ht : KeyText (L.curve k) t) :
    funcWgPublicKey L [(.str s : Val E)] = .ok (.str t) := by
  obtain ⟨h1, rfl⟩ := (keyText_iff k s).1 hs
  obtain ⟨-, rfl⟩ := (keyText_iff _ t).1 ht
  simp [funcWgPublicKey, parse_key_text k h1, publicKey]

/-- **C100**: every generated key has a public key. -/
theorem wg_roundtrip (L : WgLib) (hr : ∀ b, L.random 32 = some b → b.length = 32) (hL : ∀ k, (L.curve k).length = 32) {args : List (Val E)} {v : Val E}
    (h : funcWgGenKey L args = .ok v) : ∃ k t, KeyText (L.curve k) t ∧ funcWgPublicKey L [v] = .ok (.str t) := by
  obtain ⟨b, -, ⟨-, k, s, -, h2, rfl⟩ | ⟨-, s, h2, rfl⟩⟩ := (wggenkey_iff L hr args v).1 h
  · exact ⟨k, _, (keyText_iff _ _).2 ⟨hL k, rfl⟩, wgpublickey_key L h2 ((keyText_iff _ _).2 ⟨hL k, rfl⟩)⟩
  · exact ⟨b, _, (keyText_iff _ _).2 ⟨hL b, rfl⟩, wgpublickey_key L h2 ((keyText_iff _ _).2 ⟨hL b, rfl⟩)⟩

end

/-- a private key of zero bytes, and its public key for a library in which every point is the same -/
def toyWg : WgLib := { random := fun n => some (List.replicate n 255), curve := fun _ => List.replicate 32 9 }
example : funcWgGenKey toyWg [(.str "private" : Val Unit)] = .ok (.str "+P///////////////////////////////////////38=") := by
  rw [show ("+P///////////////////////////////////////38=" : String) = keyText (clampKey (List.replicate 32 255)) by decide +kernel]
  rfl
example : funcWgPublicKey toyWg [(.str "+P///////////////////////////////////////38=" : Val Unit)] = .ok (.str "CQkJCQkJCQkJCQkJCQkJCQkJCQkJCQkJCQkJCQkJCQk=") := by rfl
example : funcWgPublicKey toyWg [(.str "+P==" : Val Unit)] = .err := by rfl

end Spiff
