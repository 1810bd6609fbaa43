import Verif.Model.StrFns
import Mathlib.Tactic.Ring
import Mathlib.Data.List.Basic
/-
C38: base64 with line wrapping.
-/
namespace Spiff

/-- text consisting of lines separated by `nl` -/
def unlines {α : Type} (nl : α) : List (List α) → List α
  | [] => []
  | [l] => l
  | l :: r => l ++ nl :: unlines nl r

theorem unlines_cons {α : Type} (nl : α) (l : List α) (r : List (List α)) (h : r ≠ []) :
    unlines nl (l :: r) = l ++ nl :: unlines nl r := by
  cases r with
  | nil => exact absurd rfl h
  | cons a r => rfl

theorem wrapLines_spec {α : Type} (nl : α) (max : Nat) (hmax : 0 < max) (fuel : Nat) : ∀ s : List α, s.length ≤ fuel →
    ∃ ls, wrapLines nl max fuel s = unlines nl ls ∧ ls ≠ [] ∧ ls.flatten = s ∧ (∀ l ∈ ls, l.length ≤ max) ∧
      (∀ l ∈ ls.dropLast, l.length = max) ∧ (s ≠ [] → ∀ l ∈ ls, l ≠ []) := by
  induction fuel with
  | zero =>
    intro s h
    have : s = [] := List.length_eq_zero_iff.1 (by omega)
    subst this
    exact ⟨[[]], rfl, by simp, by simp, by simp, by simp, by simp⟩
  | succ fuel ih =>
    intro s h
    unfold wrapLines
    split
    · next hl =>
      obtain ⟨ls, h1, h2, h3, h4, h5, h6⟩ := ih (s.drop max) (by simp; omega)
      refine ⟨s.take max :: ls, by rw [unlines_cons _ _ _ h2, h1], by simp, by simp [h3], ?_, ?_, ?_⟩
      · intro l hm
        rcases List.mem_cons.1 hm with rfl | hm
        · simp
        · exact h4 l hm
      · rw [List.dropLast_cons_of_ne_nil h2]
        intro l hm
        rcases List.mem_cons.1 hm with rfl | hm
        · simp; omega
        · exact h5 l hm
      · intro hs l hm
        rcases List.mem_cons.1 hm with rfl | hm
        · intro hc
          have := congrArg List.length hc
          simp at this
          rcases this with h | h
          · omega
          · exact hs h
        · refine h6 ?_ l hm
          intro hc
          have := congrArg List.length hc
          simp at this
          omega
    · exact ⟨[s], rfl, by simp, by simp, by simpa using (by omega), by simp, by simp⟩

theorem unlines_filter {α : Type} (nl : α) (p : α → Bool) (hp : p nl = false) (ls : List (List α)) :
    (unlines nl ls).filter p = ls.flatten.filter p := by
  induction ls with
  | nil => rfl
  | cons l ls ih =>
    by_cases h : ls = []
    · subst h; simp [unlines]
    · rw [unlines_cons _ _ _ h]
      simp [hp, ih]

/-- the characters of the encoding -/
theorem b64Char_ne : ∀ n < 64, b64Char n ≠ '\n' ∧ b64Char n ≠ '\r' ∧ b64Char n ≠ '=' ∧ b64Val (b64Char n) = some n := by
  decide +kernel

theorem b64Encode_chars (d : List Nat) (h : ∀ b ∈ d, b < 256) : ∀ c ∈ b64Encode d, c ≠ '\n' ∧ c ≠ '\r' := by
  have key : ∀ n, n < 64 → (b64Char n ≠ '\n' ∧ b64Char n ≠ '\r') := fun n hn => ⟨(b64Char_ne n hn).1, (b64Char_ne n hn).2.1⟩
  fun_induction b64Encode d with
  | case1 => simp
  | case2 a =>
    have ha := h a (by simp)
    intro c hc
    simp only [List.mem_cons, List.not_mem_nil, or_false] at hc
    rcases hc with rfl | rfl | rfl | rfl
    · exact key _ (by omega)
    · exact key _ (by omega)
    · decide
    · decide
  | case3 a b =>
    have ha := h a (by simp)
    have hb := h b (by simp)
    intro c hc
    simp only [List.mem_cons, List.not_mem_nil, or_false] at hc
    rcases hc with rfl | rfl | rfl | rfl
    · exact key _ (by omega)
    · exact key _ (by omega)
    · exact key _ (by omega)
    · decide
  | case4 a b x r ih =>
    have ha := h a (by simp)
    have hb := h b (by simp)
    have hx := h x (by simp)
    intro c hc
    simp only [List.mem_cons] at hc
    rcases hc with rfl | rfl | rfl | rfl | hc
    · exact key _ (by omega)
    · exact key _ (by omega)
    · exact key _ (by omega)
    · exact key _ (by omega)
    · exact ih (fun b hb => h b (by simp [hb])) c hc

theorem b64Encode_nil (d : List Nat) : (b64Encode d).isEmpty = d.isEmpty := by
  fun_cases b64Encode d <;> rfl

theorem b64Quads_encode (d : List Nat) (h : ∀ b ∈ d, b < 256) : b64Quads (b64Encode d) = some d := by
  have v : ∀ n, n < 64 → b64Val (b64Char n) = some n := fun n hn => (b64Char_ne n hn).2.2.2
  have e : ∀ n, n < 64 → ¬ b64Char n = '=' := fun n hn => (b64Char_ne n hn).2.2.1
  fun_induction b64Encode d with
  | case1 => rfl
  | case2 a =>
    have ha := h a (by simp)
    simp only [b64Quads, b64Quad, v (a / 4) (by omega), v (a % 4 * 16) (by omega)]
    simp
    omega
  | case3 a b =>
    have ha := h a (by simp)
    have hb := h b (by simp)
    simp only [b64Quads, b64Quad, v (a / 4) (by omega), v (a % 4 * 16 + b / 16) (by omega), e (b % 16 * 4) (by omega), if_false,
      v (b % 16 * 4) (by omega)]
    simp
    omega
  | case4 a b x r ih =>
    have ha := h a (by simp)
    have hb := h b (by simp)
    have hx := h x (by simp)
    simp only [b64Quads, b64Quad, v (a / 4) (by omega), v (a % 4 * 16 + b / 16) (by omega), e (b % 16 * 4 + x / 64) (by omega), if_false,
      v (b % 16 * 4 + x / 64) (by omega), e (x % 64) (by omega), v (x % 64) (by omega)]
    rw [ih (fun b hb => h b (by simp [hb]))]
    simp
    omega

theorem stripNl_id {α : Type} [DecidableEq α] (nl : α) (ls : List (List α)) (h : ∀ l ∈ ls, nl ∉ l ∧ l ≠ []) :
    stripNl nl (unlines nl ls) = unlines nl ls := by
  unfold stripNl
  rw [if_neg]
  intro hl
  induction ls with
  | nil => simp [unlines] at hl
  | cons l ls ih =>
    by_cases h0 : ls = []
    · subst h0
      simp only [unlines] at hl
      exact (h l (by simp)).1 (List.mem_of_getLast? hl)
    · rw [unlines_cons _ _ _ h0] at hl
      have hne : unlines nl ls ≠ [] := by
        obtain ⟨a, r, rfl⟩ := List.exists_cons_of_ne_nil h0
        have := (h a (by simp)).2
        cases r with
        | nil => simpa [unlines] using this
        | cons b r => simp [unlines]
      rw [List.getLast?_append_of_ne_nil _ (by simp)] at hl
      refine ih (fun x hx => h x (by simp [hx])) ?_
      rwa [show nl :: unlines nl ls = [nl] ++ unlines nl ls from rfl, List.getLast?_append_of_ne_nil _ hne] at hl

/-- C38: Wrapping to a line length `max > 0` yields lines of exactly `max` characters (the last one possibly shorter, but not
empty) whose concatenation is the unwrapped encoding; a non-positive length does not wrap. -/
theorem base64_lines (d : List Nat) (h : ∀ b ∈ d, b < 256) (max : Int) :
    (max ≤ 0 → base64Encode d max = b64Encode d) ∧
    (0 < max → ∃ ls, base64Encode d max = unlines '\n' ls ∧ ls.flatten = b64Encode d ∧
      (∀ l ∈ ls, (l.length : Int) ≤ max ∧ '\n' ∉ l) ∧ (∀ l ∈ ls.dropLast, (l.length : Int) = max) ∧ (d ≠ [] → ∀ l ∈ ls, l ≠ [])) := by
  constructor
  · intro hm
    unfold base64Encode
    simp only
    rw [if_neg (by omega)]
  · intro hm
    unfold base64Encode
    simp only
    rw [if_pos hm]
    obtain ⟨ls, h1, h2, h3, h4, h5, h6⟩ := wrapLines_spec '\n' max.toNat (by omega) _ (b64Encode d) (Nat.le_refl _)
    have hnl : ∀ l ∈ ls, '\n' ∉ l := by
      intro l hl hc
      refine (b64Encode_chars d h '\n' ?_).1 rfl
      rw [← h3]
      exact List.mem_flatten.2 ⟨l, hl, hc⟩
    have hne : d ≠ [] → b64Encode d ≠ [] := by
      intro hd hc
      have := b64Encode_nil d
      rw [hc] at this
      simp at this
      exact hd this
    refine ⟨ls, ?_, h3, ?_, ?_, fun hd => h6 (hne hd)⟩
    · rw [h1]
      by_cases hd : d = []
      · subst hd
        have h3' : ls.flatten = [] := h3
        have : unlines '\n' ls = wrapLines '\n' max.toNat 0 [] := h1.symm
        rw [this]
        rfl
      · exact stripNl_id _ _ (fun l hl => ⟨hnl l hl, h6 (hne hd) l hl⟩)
    · intro l hl
      have := h4 l hl
      exact ⟨by omega, hnl l hl⟩
    · intro l hl
      have := h5 l hl
      omega

/-- C38: Decoding an encoding restores the bytes, for every line length. -/
theorem base64_roundtrip (d : List Nat) (h : ∀ b ∈ d, b < 256) (max : Int) : b64Decode (base64Encode d max) = some d := by
  have hf : (base64Encode d max).filter (fun c => c ≠ '\n' ∧ c ≠ '\r') = b64Encode d := by
    have hid : (b64Encode d).filter (fun c => c ≠ '\n' ∧ c ≠ '\r') = b64Encode d := by
      rw [List.filter_eq_self]
      intro c hc
      simpa using b64Encode_chars d h c hc
    rcases Int.lt_or_le 0 max with hm | hm
    · obtain ⟨ls, h1, h2, -⟩ := (base64_lines d h max).2 hm
      rw [h1, unlines_filter _ _ (by simp), h2, hid]
    · rw [(base64_lines d h max).1 hm, hid]
  unfold b64Decode
  rw [hf, b64Quads_encode d h]

example : base64Encode [102, 111, 111, 98, 97] 4 = "Zm9v\nYmE=".toList := by decide +kernel

end Spiff
