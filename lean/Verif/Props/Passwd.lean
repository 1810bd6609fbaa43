import Verif.Model.Passwd
import Verif.Spec.Passwd
import Mathlib.Data.Nat.Digits.Lemmas
import Mathlib.Tactic.Ring
/-
C98: password hashes.
-/
namespace Spiff
open Spec

/-! ### the characters -/

theorem getD_at {l : List UInt8} {i : Nat} (h : i < l.length) : l.getD i 0 = l[i] := by
  rw [List.getD_eq_getElem?_getD, List.getElem?_eq_getElem h]
  rfl

theorem letter_eq (v : Nat) : itoa64.getD (v &&& 0x3f) 0 = hashLetter (v % 64) := by
  have : v &&& 0x3f = v % 64 := Nat.and_two_pow_sub_one_eq_mod v 6
  rw [this]
  rfl

theorem letter_inj : ∀ a < 64, ∀ b < 64, hashLetter a = hashLetter b → a = b := by decide +kernel
theorem letter_no_dollar : ∀ a < 64, hashLetter a ≠ 36 := by decide +kernel

theorem drain_spec (v bits : Nat) (hv : v < 2 ^ bits) : ∃ ds : List Nat, (drainBits v bits).1 = ds.map hashLetter ∧ (∀ d ∈ ds, d < 64) ∧
    v = Nat.ofDigits 64 ds + 64 ^ ds.length * (drainBits v bits).2.1 ∧ bits = 6 * ds.length + (drainBits v bits).2.2 ∧
    (drainBits v bits).2.1 < 2 ^ (drainBits v bits).2.2 ∧ (drainBits v bits).2.2 ≤ 6 ∧ (0 < bits → 0 < (drainBits v bits).2.2) := by
  induction bits using Nat.strongRecOn generalizing v with
  | ind bits ih =>
    rw [drainBits]
    by_cases h : 6 < bits
    · rw [dif_pos h]
      have hs : v >>> 6 = v / 64 := Nat.shiftRight_eq_div_pow v 6
      have hv' : v / 64 < 2 ^ (bits - 6) := by
        rw [Nat.div_lt_iff_lt_mul (by omega)]
        have : 2 ^ bits = 2 ^ (bits - 6) * 64 := by rw [show (64 : Nat) = 2 ^ 6 from rfl, ← pow_add]; congr 1; omega
        omega
      obtain ⟨ds, h1, h2, h3, h4, h5, h6, h7⟩ := ih (bits - 6) (by omega) (v / 64) hv'
      rw [hs]
      refine ⟨v % 64 :: ds, ?_, ?_, ?_, ?_, h5, h6, fun _ => h7 (by omega)⟩
      · show itoa64.getD (v &&& 0x3f) 0 :: (drainBits (v / 64) (bits - 6)).1 = _
        rw [letter_eq, h1]; rfl
      · intro d hd
        rcases List.mem_cons.1 hd with rfl | hd
        · exact Nat.mod_lt _ (by omega)
        · exact h2 d hd
      · have := Nat.mod_add_div v 64
        simp only [Nat.ofDigits_cons, List.length_cons, pow_succ]
        calc v = v % 64 + 64 * (v / 64) := this.symm
          _ = v % 64 + 64 * (Nat.ofDigits 64 ds + 64 ^ ds.length * (drainBits (v / 64) (bits - 6)).2.1) := by rw [← h3]
          _ = _ := by push_cast; ring
      · simp only [List.length_cons]; omega
    · rw [dif_neg h]
      exact ⟨[], rfl, by simp, by simp, by simp, hv, Nat.not_lt.1 h, id⟩

theorem chars_spec (l : List UInt8) : ∀ (v bits : Nat), v < 2 ^ bits → bits ≤ 6 → (l = [] → 0 < bits) → ∃ ds : List Nat, cryptChars l v bits = ds.map hashLetter ∧
    (∀ d ∈ ds, d < 64) ∧ Nat.ofDigits 64 ds = v + 2 ^ bits * Nat.ofDigits 256 (l.map UInt8.toNat) ∧ 6 * ds.length < bits + 8 * l.length + 6 ∧ bits + 8 * l.length ≤ 6 * ds.length := by
  induction l with
  | nil =>
    intro v bits hv hb h0
    have : 2 ^ bits ≤ 2 ^ 6 := Nat.pow_le_pow_right (by omega) hb
    refine ⟨[v % 64], ?_, ?_, ?_, ?_, ?_⟩
    · rw [cryptChars, letter_eq]; rfl
    · intro d hd
      obtain rfl : d = v % 64 := by simpa using hd
      exact Nat.mod_lt _ (by omega)
    · simp; omega
    · have := h0 rfl; simp; omega
    · simp; omega
  | cons b r ih =>
    intro v bits hv hb _
    have hbb : b.toNat < 256 := b.toNat_lt
    have hor : v ||| (b.toNat <<< bits) = v + 2 ^ bits * b.toNat := by
      rw [Nat.or_comm, Nat.shiftLeft_eq, Nat.mul_comm, ← Nat.two_pow_add_eq_or_of_lt hv, Nat.add_comm]
    have hlt : v + 2 ^ bits * b.toNat < 2 ^ (bits + 8) := by
      have : 2 ^ bits * (b.toNat + 1) ≤ 2 ^ bits * 256 := Nat.mul_le_mul_left _ (by omega)
      rw [pow_add]; rw [Nat.mul_add] at this; omega
    rw [cryptChars, hor]
    obtain ⟨ds, h1, h2, h3, h4, h5, h6, h7⟩ := drain_spec _ _ hlt
    obtain ⟨es, g1, g2, g3, g4, g5⟩ := ih _ _ h5 h6 (fun _ => h7 (by omega))
    refine ⟨ds ++ es, ?_, ?_, ?_, ?_, ?_⟩
    · rw [h1, g1, List.map_append]
    · intro d hd
      rcases List.mem_append.1 hd with hd | hd
      · exact h2 d hd
      · exact g2 d hd
    · rw [Nat.ofDigits_append, g3]
      have e : 64 ^ ds.length * 2 ^ (drainBits (v + 2 ^ bits * b.toNat) (bits + 8)).2.2 = 2 ^ bits * 256 := by
        rw [show (64 : Nat) = 2 ^ 6 from rfl, ← pow_mul, ← pow_add, ← h4, pow_add]
        rfl
      simp only [List.map_cons, Nat.ofDigits_cons, Nat.cast_id]
      calc _ = (Nat.ofDigits 64 ds + 64 ^ ds.length * (drainBits (v + 2 ^ bits * b.toNat) (bits + 8)).2.1) +
            (64 ^ ds.length * 2 ^ (drainBits (v + 2 ^ bits * b.toNat) (bits + 8)).2.2) * Nat.ofDigits 256 (r.map UInt8.toNat) := by ring
        _ = _ := by rw [← h3, e]; ring
    · rw [List.length_append, List.length_cons]; omega
    · rw [List.length_append, List.length_cons]; omega

theorem chars_digest (digest : List UInt8) : DigestText digest (cryptChars (md5CryptSwaps.map (fun i => digest.getD i 0)) 0 0) := by
  obtain ⟨ds, h1, h2, h3, h4, h5⟩ := chars_spec (md5CryptSwaps.map (fun i => digest.getD i 0)) 0 0 (by simp) (by omega) (by simp [md5CryptSwaps])
  have hl : (md5CryptSwaps.map (fun i => digest.getD i 0)).length = 16 := by rw [List.length_map]; rfl
  refine ⟨ds, by omega, h2, h1, ?_⟩
  rw [h3, List.map_map]
  simp only [pow_zero, Nat.zero_add, Nat.one_mul]
  rfl

theorem digits_bytes_lt (l : List UInt8) : ∀ x ∈ l.map UInt8.toNat, x < 256 := by
  intro x hx
  obtain ⟨b, -, rfl⟩ := List.mem_map.1 hx
  exact b.toNat_lt

/-- **C98**: a digest has one text, and different digests have different texts -/
theorem digest_text_iff {d d' t t' : List UInt8} (hd : d.length = 16) (hd' : d'.length = 16) (h : DigestText d t) (h' : DigestText d' t') : t = t' ↔ d = d' := by
  obtain ⟨ds, a1, a2, rfl, a4⟩ := h
  obtain ⟨es, b1, b2, rfl, b4⟩ := h'
  have key : Nat.ofDigits 64 ds = Nat.ofDigits 64 es → ds = es :=
    fun h => Nat.ofDigits_inj_of_len_eq (by omega) (a1.trans b1.symm) (fun _ => a2 _) (fun _ => b2 _) h
  constructor
  · intro h
    have hde : ds = es := by
      apply List.ext_getElem (a1.trans b1.symm)
      intro i h1 h2
      have := List.getElem_of_eq h (by simpa using h1 : i < (ds.map hashLetter).length)
      rw [List.getElem_map, List.getElem_map] at this
      exact letter_inj _ (a2 _ (List.getElem_mem _)) _ (b2 _ (List.getElem_mem _)) this
    rw [hde, b4] at a4
    have hm : hashOrder.map (fun i => (d'.getD i 0).toNat) = hashOrder.map (fun i => (d.getD i 0).toNat) := by
      refine Nat.ofDigits_inj_of_len_eq (by omega) (by simp) ?_ ?_ a4
      · intro x hx; obtain ⟨i, -, rfl⟩ := List.mem_map.1 hx; exact UInt8.toNat_lt _
      · intro x hx; obtain ⟨i, -, rfl⟩ := List.mem_map.1 hx; exact UInt8.toNat_lt _
    apply List.ext_getElem (hd.trans hd'.symm)
    intro i h1 h2
    have hi : i ∈ hashOrder := by
      have : ∀ i < 16, i ∈ hashOrder := by decide
      exact this i (by omega)
    have := (List.map_inj_left.1 hm) i hi
    rw [getD_at h2, getD_at h1] at this
    exact (UInt8.toNat_inj.1 this).symm
  · rintro rfl
    rw [key (a4.trans b4.symm)]

/-! ### the digest -/

theorem length_marks (password : List UInt8) (n : Nat) (hn : n ≠ 0 → password ≠ []) :
    List.Forall₂ (fun b m => if b = 1 then m = 0 else password.head? = some m) (Nat.digits 2 n) (lengthBytes password n) := by
  induction n using Nat.strongRecOn with
  | ind n ih =>
    rw [lengthBytes]
    by_cases h : n = 0
    · subst h; rw [dif_pos rfl, Nat.digits_zero]; exact .nil
    · rw [dif_neg h, Nat.digits_def' (by omega) (by omega)]
      refine .cons ?_ (ih _ (by omega) (fun _ => hn h))
      by_cases h2 : n % 2 = 0
      · rw [if_pos h2, if_neg (by omega)]
        cases hp : password with
        | nil => exact absurd hp (hn h)
        | cons c w => rfl
      · rw [if_neg h2, if_pos (by omega)]

theorem rounds_state (md5 : List UInt8 → List UInt8) (password salt : List UInt8) (n : Nat) : ∀ (i : Nat) (d : List UInt8), ∃ state : Nat → List UInt8, state i = d ∧
    (∀ j, i ≤ j → j < i + n → state (j + 1) = md5 (roundText password salt (state j) j)) ∧ cryptRounds md5 password salt n i d = state (i + n) := by
  induction n with
  | zero => intro i d; exact ⟨fun _ => d, rfl, fun j h1 h2 => absurd h2 (by omega), rfl⟩
  | succ n ih =>
    intro i d
    obtain ⟨st, h1, h2, h3⟩ := ih (i + 1) (md5 (roundText password salt d i))
    refine ⟨fun j => if j = i then d else st j, if_pos rfl, fun j hj1 hj2 => ?_, ?_⟩
    · show (if j + 1 = i then d else st (j + 1)) = md5 (roundText password salt (if j = i then d else st j) j)
      rw [if_neg (by omega)]
      by_cases hji : j = i
      · subst hji; rw [if_pos rfl, h1]
      · rw [if_neg hji, h2 j (by omega) (by omega)]
    · show _ = if i + (n + 1) = i then d else st (i + (n + 1))
      rw [if_neg (by omega), cryptRounds, h3]
      congr 1; omega

theorem round_text (password salt d : List UInt8) (i : Nat) : roundText password salt d i = if i % 2 = 0
      then d ++ (if 3 ∣ i then [] else salt) ++ (if 7 ∣ i then [] else password) ++ password
      else password ++ (if 3 ∣ i then [] else salt) ++ (if 7 ∣ i then [] else password) ++ d := by
  unfold roundText
  have h3 : (i % 3 ≠ 0) ↔ ¬ 3 ∣ i := by omega
  have h7 : (i % 7 ≠ 0) ↔ ¬ 7 ∣ i := by omega
  simp only [h3, h7, ite_not]
  by_cases h : i % 2 = 0 <;> simp [h]

theorem digest_computed {md5 : List UInt8 → List UInt8} (hm : ∀ l, (md5 l).length = 16) (password salt magic : List UInt8) :
    HashDigest md5 password salt magic (cryptDigest md5 password salt magic) := by
  obtain ⟨st, h1, h2, h3⟩ := rounds_state md5 password salt 1000 0
    (md5 (password ++ magic ++ salt ++ mixinBytes (md5 (password ++ salt ++ password)) password.length ++ lengthBytes password password.length))
  refine ⟨_, mixinBytes (md5 (password ++ salt ++ password)) password.length, lengthBytes password password.length, st, rfl, ?_, ?_, ?_, h1, ?_, ?_⟩
  · simp [mixinBytes]
  · intro i h
    have : i % 16 < (md5 (password ++ salt ++ password)).length := by rw [hm]; omega
    simp only [mixinBytes, List.getElem_map, List.getElem_range]
    rw [getD_at this, List.getElem?_eq_getElem this]
  · exact length_marks _ _ (fun h => by rintro rfl; exact h rfl)
  · intro i hi
    rw [h2 i (by omega) (by omega), round_text]
  · rw [cryptDigest, h3]

theorem marks_unique {P : Nat → UInt8 → Prop} (hP : ∀ b m m', P b m → P b m' → m = m') : ∀ {l : List Nat} {a b : List UInt8}, List.Forall₂ P l a → List.Forall₂ P l b → a = b
  | _, _, _, .nil, .nil => rfl
  | _, _, _, .cons h1 r1, .cons h2 r2 => by rw [hP _ _ _ h1 h2, marks_unique hP r1 r2]

theorem digest_unique {md5 : List UInt8 → List UInt8} {password salt magic d d' : List UInt8} (h : HashDigest md5 password salt magic d) (h' : HashDigest md5 password salt magic d') : d = d' := by
  obtain ⟨mix, st, mk, s, rfl, a2, a3, a4, a5, a6, rfl⟩ := h
  obtain ⟨mix', st', mk', s', rfl, b2, b3, b4, b5, b6, rfl⟩ := h'
  have e1 : st = st' := by
    apply List.ext_getElem (a2.trans b2.symm)
    intro i h1 h2
    exact Option.some.inj ((a3 i h1).symm.trans (b3 i h2))
  have e2 : mk = mk' := marks_unique (fun b m m' h1 h2 => by
    by_cases hb : b = 1
    · rw [if_pos hb] at h1 h2; rw [h1, h2]
    · rw [if_neg hb] at h1 h2; exact Option.some.inj (h1.symm.trans h2)) a4 b4
  subst e1 e2
  have : ∀ i ≤ 1000, s i = s' i := by
    intro i
    induction i with
    | zero => intro _; rw [a5, b5]
    | succ i ih => intro hi; rw [a6 i (by omega), b6 i (by omega), ih (by omega)]
  exact this 1000 (by omega)

theorem digest_length {md5 : List UInt8 → List UInt8} (hm : ∀ l, (md5 l).length = 16) {password salt magic d : List UInt8} (h : HashDigest md5 password salt magic d) : d.length = 16 := by
  obtain ⟨_, _, _, s, _, _, _, _, _, a6, rfl⟩ := h
  rw [a6 999 (by omega), hm]

theorem dollar : textBytes "$" = [36] := by decide

/-- **C98**: what is computed is the hash of the published algorithm, and nothing else is -/
theorem md5crypt_hash {md5 : List UInt8 → List UInt8} (hm : ∀ l, (md5 l).length = 16) (password name salt out : List UInt8) :
    md5Crypt md5 password salt ([36] ++ name ++ [36]) = out ↔ HashOf md5 password name salt out := by
  constructor
  · rintro rfl
    exact ⟨_, _, by rw [dollar]; exact digest_computed hm _ _ _, chars_digest _, by rw [dollar]; rfl⟩
  · rintro ⟨d, t, h1, h2, rfl⟩
    rw [dollar] at h1 ⊢
    unfold md5Crypt
    have e := digest_unique h1 (digest_computed hm _ _ _)
    have hl := digest_length hm h1
    rw [(digest_text_iff hl (e ▸ hl) h2 (chars_digest _)).2 e]

/-! ### the parts of a hash -/

theorem split_plain {l : List UInt8} (h : 36 ∉ l) : splitDollar l = [l] := by
  induction l with
  | nil => rfl
  | cons c r ih =>
    rw [List.mem_cons, not_or] at h
    rw [splitDollar, if_neg (fun e => h.1 e.symm), ih h.2]

theorem split_cons {l : List UInt8} (h : 36 ∉ l) (r : List UInt8) : splitDollar (l ++ 36 :: r) = l :: splitDollar r := by
  induction l with
  | nil => rw [List.nil_append, splitDollar, if_pos rfl]
  | cons c w ih =>
    rw [List.mem_cons, not_or] at h
    rw [List.cons_append, splitDollar, if_neg (fun e => h.1 e.symm), ih h.2]

theorem dollar_parts (l : List UInt8) : (∀ p ∈ splitDollar l, 36 ∉ p) ∧ (splitDollar l).length = l.count 36 + 1 ∧ l = [36].intercalate (splitDollar l) := by
  induction l with
  | nil => exact ⟨by simp [splitDollar], rfl, rfl⟩
  | cons c r ih =>
    obtain ⟨h1, h2, h3⟩ := ih
    rw [splitDollar]
    by_cases hc : c = 36
    · subst hc
      rw [if_pos rfl]
      refine ⟨?_, by simp [h2], ?_⟩
      · intro p hp
        rcases List.mem_cons.1 hp with rfl | hp
        · simp
        · exact h1 p hp
      · cases hs : splitDollar r with
        | nil => rw [hs] at h2; simp at h2
        | cons p ps => rw [hs] at h3; simpa [List.intercalate, List.intersperse] using h3
    · rw [if_neg hc]
      cases hs : splitDollar r with
      | nil => rw [hs] at h2; simp at h2
      | cons p ps =>
        rw [hs] at h1 h2 h3
        refine ⟨?_, ?_, ?_⟩
        · intro q hq
          rcases List.mem_cons.1 hq with rfl | hq
          · rw [List.mem_cons, not_or]; exact ⟨fun e => hc e.symm, h1 p (List.mem_cons_self ..)⟩
          · exact h1 q (List.mem_cons_of_mem _ hq)
        · simp only [List.length_cons] at h2 ⊢; rw [h2, List.count_cons_of_ne (fun e => hc e)]
        · cases ps with
          | nil => simp [List.intercalate] at h3 ⊢; exact h3
          | cons q qs => simp [List.intercalate, List.intersperse] at h3 ⊢; exact h3

theorem text_no_dollar {d t : List UInt8} (h : DigestText d t) : 36 ∉ t := by
  obtain ⟨ds, -, h2, rfl, -⟩ := h
  intro hx
  obtain ⟨x, hx, e⟩ := List.mem_map.1 hx
  exact letter_no_dollar x (h2 x hx) e

theorem hash_split {md5 : List UInt8 → List UInt8} {password name salt out : List UInt8} (h : HashOf md5 password name salt out) (hn : 36 ∉ name) (hs : 36 ∉ salt) :
    ∃ t, splitDollar out = [[], name, salt, t] := by
  obtain ⟨d, t, -, h2, rfl⟩ := h
  refine ⟨t, ?_⟩
  rw [dollar]
  have : ([36] ++ name ++ [36] ++ salt ++ [36] ++ t : List UInt8) = [] ++ 36 :: (name ++ 36 :: (salt ++ 36 :: t)) := by simp
  rw [this, split_cons (by simp), split_cons hn, split_cons hs, split_plain (text_no_dollar h2)]

section
variable {V : Type} {C : PasswdVals V} {md5 : List UInt8 → List UInt8}

theorem check_eq {a b : V} {password hash : List UInt8} (ha : C.asStr a = some password) (hb : C.asStr b = some hash) : funcMd5cryptCheck C md5 [a, b] =
    match splitDollar hash with
      | [_, p1, p2, _] => .ok (C.bool (decide (md5Crypt md5 password p2 ([36] ++ p1 ++ [36]) = hash)))
      | _ => .err := by
  simp only [funcMd5cryptCheck, ha, hb]
  rfl

/-- **C98**: `md5crypt_check` is defined for hashes with three dollar signs, and true for the hashes of the password, with any name and salt -/
theorem md5crypt_check_iff (hm : ∀ l, (md5 l).length = 16) {a b : V} {password hash : List UInt8} (ha : C.asStr a = some password) (hb : C.asStr b = some hash) :
    (hash.count 36 ≠ 3 → funcMd5cryptCheck C md5 [a, b] = .err) ∧
    (hash.count 36 = 3 → ∃ r, funcMd5cryptCheck C md5 [a, b] = .ok (C.bool r) ∧ (r = true ↔ ∃ name salt, 36 ∉ name ∧ 36 ∉ salt ∧ HashOf md5 password name salt hash)) := by
  obtain ⟨h1, h2, h3⟩ := dollar_parts hash
  rw [check_eq ha hb]
  constructor
  · intro hc
    split
    · rename_i hs; rw [hs] at h2; simp at h2; omega
    · rfl
  · intro hc
    rw [hc] at h2
    match hs : splitDollar hash, h2 with
    | [p0, p1, p2, p3], _ =>
      refine ⟨_, rfl, ?_⟩
      rw [decide_eq_true_eq, md5crypt_hash hm]
      constructor
      · intro h
        exact ⟨p1, p2, h1 _ (by rw [hs]; simp), h1 _ (by rw [hs]; simp), h⟩
      · rintro ⟨name, salt, hn, hsa, h⟩
        obtain ⟨t, ht⟩ := hash_split h hn hsa
        rw [hs] at ht
        injection ht with _ ht
        injection ht with e1 ht
        injection ht with e2 _
        rw [e1, e2]; exact h

/-- **C98**: the hash `md5crypt` gives is one of the password, with the name `apr1` and a salt of eight letters -/
theorem md5crypt_result (hm : ∀ l, (md5 l).length = 16) (rand : Nat → Nat) {a : V} {password : List UInt8} (ha : C.asStr a = some password) :
    ∃ salt hash, funcMd5crypt C md5 rand [a] = .ok (C.str hash) ∧ salt.length = 8 ∧ (∀ c ∈ salt, c ∈ hashLetters) ∧ HashOf md5 password (textBytes "apr1") salt hash ∧ hash.count 36 = 3 := by
  have hmag : md5Magic = [36] ++ textBytes "apr1" ++ [36] := by decide
  have hall : ∀ i < 64, itoa64.getD i 0 ∈ hashLetters := by decide +kernel
  have hH : HashOf md5 password (textBytes "apr1") (generateSalt rand 8) (md5Crypt md5 password (generateSalt rand 8) md5Magic) := by
    rw [hmag]; exact (md5crypt_hash hm _ _ _ _).1 rfl
  have hs : ∀ c ∈ generateSalt rand 8, c ∈ hashLetters := by
    intro c hc
    obtain ⟨i, -, rfl⟩ := List.mem_map.1 hc
    exact hall _ (Nat.mod_lt _ (by omega))
  refine ⟨generateSalt rand 8, _, ?_, by simp [generateSalt], hs, hH, ?_⟩
  · simp only [funcMd5crypt, ha]
  · obtain ⟨t, ht⟩ := hash_split hH (by decide) (fun h => absurd (hs _ h) (by decide +kernel))
    have := (dollar_parts (md5Crypt md5 password (generateSalt rand 8) md5Magic)).2.1
    rw [ht] at this
    simpa using this.symm

/-- **C98**: a password is accepted for the hash of a password if and only if the two have the same digest with the salt of the hash; in particular the password itself is -/
theorem md5crypt_roundtrip (hm : ∀ l, (md5 l).length = 16) (hstr : ∀ t, C.asStr (C.str t) = some t) (rand : Nat → Nat) {a a' h : V} {password password' : List UInt8}
    (ha : C.asStr a = some password) (ha' : C.asStr a' = some password') (hh : funcMd5crypt C md5 rand [a] = .ok h) :
    ∃ r, funcMd5cryptCheck C md5 [a', h] = .ok (C.bool r) ∧ (password' = password → r = true) ∧
      (r = true ↔ ∃ hash salt digest, C.asStr h = some hash ∧ 36 ∉ salt ∧ HashOf md5 password (textBytes "apr1") salt hash ∧
        HashDigest md5 password salt (textBytes "$apr1$") digest ∧ HashDigest md5 password' salt (textBytes "$apr1$") digest) := by
  obtain ⟨salt, hash, h1, h2, h3, h4, h5⟩ := md5crypt_result hm rand ha
  rw [hh] at h1
  injection h1 with h1
  subst h1
  obtain ⟨r, g1, g2⟩ := (md5crypt_check_iff hm ha' (hstr hash)).2 h5
  have hsd : 36 ∉ salt := fun h => absurd (h3 _ h) (by decide +kernel)
  have hap : textBytes "$" ++ textBytes "apr1" ++ textBytes "$" = textBytes "$apr1$" := by decide
  refine ⟨r, g1, ?_, ?_⟩
  · rintro rfl
    exact g2.2 ⟨_, salt, by decide, hsd, h4⟩
  · rw [g2]
    obtain ⟨d, t, a1, a2, a3⟩ := h4
    constructor
    · rintro ⟨name, salt', b1, b2, b3⟩
      obtain ⟨t1, s1⟩ := hash_split ⟨d, t, a1, a2, a3⟩ (by decide) hsd
      obtain ⟨t2, s2⟩ := hash_split b3 b1 b2
      rw [s1] at s2
      injection s2 with _ s2
      injection s2 with e1 s2
      injection s2 with e2 s2
      subst e1 e2
      obtain ⟨d', t', c1, c2, c3⟩ := b3
      rw [a3] at c3
      have htt := List.append_cancel_left c3
      have hdd := (digest_text_iff (digest_length hm a1) (digest_length hm c1) a2 c2).1 htt
      subst hdd
      exact ⟨_, salt, d, hstr _, hsd, ⟨d, t, a1, a2, a3⟩, hap ▸ a1, hap ▸ c1⟩
    · rintro ⟨hash', salt', d', c1, c2, c3, c4, c5⟩
      rw [hstr] at c1
      obtain rfl := Option.some.inj c1
      obtain ⟨e, t', b1, b2, b3⟩ := c3
      rw [hap] at b1
      obtain rfl := digest_unique b1 c4
      exact ⟨_, salt', by decide, c2, e, t', hap.symm ▸ c5, b2, b3⟩

/-- **C98**: anything but one text, or two texts, is an error; there is no panic. -/
theorem md5crypt_args (rand : Nat → Nat) (args : List V) :
    ((∃ h, funcMd5crypt C md5 rand args = .ok h) ↔ ∃ a password, args = [a] ∧ C.asStr a = some password) ∧ ((¬ ∃ h, funcMd5crypt C md5 rand args = .ok h) → funcMd5crypt C md5 rand args = .err) ∧
    ((∃ h, funcMd5cryptCheck C md5 args = .ok h) → ∃ a b password hash, args = [a, b] ∧ C.asStr a = some password ∧ C.asStr b = some hash) ∧
    ((¬ ∃ h, funcMd5cryptCheck C md5 args = .ok h) → funcMd5cryptCheck C md5 args = .err) := by
  have h1 : ∀ args : List V, (∃ a password, args = [a] ∧ C.asStr a = some password ∧ ∃ h, funcMd5crypt C md5 rand args = .ok h) ∨
      ((¬ ∃ a password, args = [a] ∧ C.asStr a = some password) ∧ funcMd5crypt C md5 rand args = .err) := by
    intro args
    match args with
    | [] => exact .inr ⟨fun ⟨_, _, h, _⟩ => (nomatch h), rfl⟩
    | [a] =>
      cases ha : C.asStr a with
      | none => exact .inr ⟨fun ⟨a', p, h, hp⟩ => (by injection h with h; subst h; rw [ha] at hp; cases hp), by simp [funcMd5crypt, ha]⟩
      | some p => exact .inl ⟨a, p, rfl, ha, C.str (md5Crypt md5 p (generateSalt rand 8) md5Magic), by simp only [funcMd5crypt, ha]⟩
    | _ :: _ :: _ => exact .inr ⟨fun ⟨_, _, h, _⟩ => (nomatch h), rfl⟩
  have h2 : ∀ args : List V, (∃ a b password hash, args = [a, b] ∧ C.asStr a = some password ∧ C.asStr b = some hash ∧
      ((∃ h, funcMd5cryptCheck C md5 args = .ok h) ∨ funcMd5cryptCheck C md5 args = .err)) ∨ funcMd5cryptCheck C md5 args = .err := by
    intro args
    match args with
    | [] => exact .inr rfl
    | [_] => exact .inr rfl
    | [a, b] =>
      cases ha : C.asStr a with
      | none => exact .inr (by simp [funcMd5cryptCheck, ha])
      | some p =>
        cases hb : C.asStr b with
        | none => exact .inr (by simp [funcMd5cryptCheck, ha, hb])
        | some h =>
          refine .inl ⟨a, b, p, h, rfl, ha, hb, ?_⟩
          rw [check_eq ha hb]
          split
          · exact .inl ⟨_, rfl⟩
          · exact .inr rfl
    | _ :: _ :: _ :: _ => exact .inr rfl
  refine ⟨?_, ?_, ?_, ?_⟩
  · rcases h1 args with ⟨a, p, e, ha, hh⟩ | ⟨hn, he⟩
    · exact ⟨fun _ => ⟨a, p, e, ha⟩, fun _ => hh⟩
    · exact ⟨fun ⟨h, hh⟩ => (by rw [he] at hh; cases hh), fun h => absurd h hn⟩
  · intro hno
    rcases h1 args with ⟨_, _, _, _, hh⟩ | ⟨_, he⟩
    · exact absurd hh hno
    · exact he
  · rintro ⟨h, hh⟩
    rcases h2 args with ⟨a, b, p, q, e, ha, hb, _⟩ | he
    · exact ⟨a, b, p, q, e, ha, hb⟩
    · rw [he] at hh; cases hh
  · intro hno
    rcases h2 args with ⟨_, _, _, _, _, _, _, hh | he⟩ | he
    · exact absurd hh hno
    · exact he
    · exact he

end

/-! ### an example -/

/-- a sum of 16 bytes -/
def toySum (l : List UInt8) : List UInt8 := List.replicate 15 7 ++ [l.headD 0]

def toyPasswd : PasswdVals (List UInt8 ⊕ Bool) := ⟨.inl, .inr, fun | .inl s => some s | .inr _ => none⟩

/-- The hypotheses are met: the hash of a password is accepted for it, and not for another one. -/
example : (∀ l, (toySum l).length = 16) ∧ (∀ t, toyPasswd.asStr (toyPasswd.str t) = some t) ∧
    (match funcMd5crypt toyPasswd toySum (fun i => 77 * i) [.inl (textBytes "secret")] with
      | .ok h => match funcMd5cryptCheck toyPasswd toySum [.inl (textBytes "secret"), h], funcMd5cryptCheck toyPasswd toySum [.inl (textBytes "Secret"), h] with
        | .ok (.inr a), .ok (.inr b) => a && !b
        | _, _ => false
      | _ => false) = true := ⟨by intro l; simp [toySum], fun _ => rfl, by decide +kernel⟩

end Spiff
