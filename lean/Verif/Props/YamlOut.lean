import Verif.Props.YamlScalar
import Verif.Spec.YamlOut
import Verif.Props.Sanitize
import Verif.Props.Tags
import Verif.Props.Mapping
/-
C74: written documents are read as the same documents.
-/
namespace Spiff
open Spec
variable {E : Type}

/-! ### analysis of scalars -/

/-- one step of the analysis -/
structure APos where
  first : Bool
  preceded : Bool
  prevSpace : Bool
  prevBreak : Bool
  c : Char
  rest : YText

/-- all steps of the analysis -/
def apositions : (first preceded prevSpace prevBreak : Bool) → YText → List APos
  | _, _, _, _, [] => []
  | fi, pr, ps, pb, c :: r => ⟨fi, pr, ps, pb, c, r⟩ :: apositions false (isBlankzC c) (c = ' ') (c ≠ ' ' && isBreakC c) r

theorem analyze_fields : ∀ (s : YText) (fi pr ps pb : Bool) (f : Findings), analyzeLoop fi pr ps pb s f =
    { blockIndicators := f.blockIndicators || (apositions fi pr ps pb s).any (fun p => indicates p.first p.preceded (followedBy p.rest) p.c)
      lineBreaks := f.lineBreaks || s.any isBreakC
      special := f.special || s.any (fun c => !isPlainC c)
      leadingSpace := f.leadingSpace || (apositions fi pr ps pb s).any (fun p => p.c = ' ' && p.first)
      leadingBreak := f.leadingBreak || (apositions fi pr ps pb s).any (fun p => p.c ≠ ' ' && isBreakC p.c && p.first)
      trailingSpace := f.trailingSpace || (apositions fi pr ps pb s).any (fun p => p.c = ' ' && p.rest.isEmpty)
      trailingBreak := f.trailingBreak || (apositions fi pr ps pb s).any (fun p => p.c ≠ ' ' && isBreakC p.c && p.rest.isEmpty)
      breakSpace := f.breakSpace || (apositions fi pr ps pb s).any (fun p => p.c = ' ' && p.prevBreak)
      spaceBreak := f.spaceBreak || (apositions fi pr ps pb s).any (fun p => p.c ≠ ' ' && isBreakC p.c && p.prevSpace) } := by
  intro s
  induction s with
  | nil => intro fi pr ps pb f; simp [analyzeLoop, apositions]
  | cons c r ih =>
    intro fi pr ps pb f
    simp only [analyzeLoop, apositions, List.any_cons]
    rw [ih]
    by_cases hc : c = ' '
    · subst hc
      simp [Bool.or_assoc]
    · by_cases hb : isBreakC c = true
      · simp [hc, hb, Bool.or_assoc]
      · simp [hc, hb, Bool.or_assoc]

theorem mem_positions : ∀ (s : YText) (fi pr ps pb : Bool) (q : APos), q ∈ apositions fi pr ps pb s ↔
    (∃ r, s = q.c :: r ∧ q = ⟨fi, pr, ps, pb, q.c, r⟩) ∨
    (∃ a d, s = a ++ d :: q.c :: q.rest ∧ q.first = false ∧ q.preceded = isBlankzC d ∧ q.prevSpace = decide (d = ' ') ∧
      q.prevBreak = (decide (d ≠ ' ') && isBreakC d)) := by
  intro s
  induction s with
  | nil => intro fi pr ps pb q; simp [apositions]
  | cons c r ih =>
    intro fi pr ps pb q
    simp only [apositions, List.mem_cons, ih]
    constructor
    · rintro (rfl | ⟨r', rfl, h⟩ | ⟨a, d, rfl, h⟩)
      · exact .inl ⟨r, rfl, rfl⟩
      · obtain ⟨q1, q2, q3, q4, q5, q6⟩ := q
        cases h
        exact .inr ⟨[], c, rfl, rfl, rfl, rfl, rfl⟩
      · exact .inr ⟨c :: a, d, rfl, h⟩
    · rintro (⟨r', h, hq⟩ | ⟨a, d, h, hq⟩)
      · cases h; exact .inl hq
      · cases a with
        | nil =>
          cases h
          obtain ⟨q1, q2, q3, q4, q5, q6⟩ := q
          obtain ⟨h1, h2, h3, h4⟩ := hq
          simp only at h1 h2 h3 h4
          subst h1 h2 h3 h4
          exact .inr (.inl ⟨_, rfl, rfl⟩)
        | cons x a =>
          cases h
          exact .inr (.inr ⟨a, d, rfl, hq⟩)

theorem ascii_not_break {c : Char} (h : AsciiC c) : isBreakC c = false := by
  cases hb : isBreakC c with
  | false => rfl
  | true =>
    simp only [isBreakC, Bool.or_eq_true, decide_eq_true_eq] at hb
    rcases hb with (((rfl | rfl) | rfl) | rfl) | rfl <;> exact absurd h (by unfold AsciiC; decide)

theorem ascii_blankz {c : Char} (h : AsciiC c) : isBlankzC c = true ↔ c = ' ' := by
  have hb := ascii_not_break h
  constructor
  · intro hz
    simp only [isBlankzC, isBlankC, isZeroC, hb, Bool.or_eq_true, decide_eq_true_eq] at hz
    rcases hz with ((rfl | rfl) | h') | rfl
    · rfl
    · exact absurd h (by unfold AsciiC; decide)
    · simp at h'
    · exact absurd h (by unfold AsciiC; decide)
  · rintro rfl; decide

theorem isPlainC_iff (c : Char) : isPlainC c = true ↔ c = '\n' ∨ AsciiC c := by
  unfold isPlainC AsciiC
  simp

theorem followed_iff {r : List Char} (h : ∀ c ∈ r, AsciiC c) : followedBy r = true ↔ r = [] ∨ r.head? = some ' ' := by
  cases r with
  | nil => simp [followedBy]
  | cons d r => simp only [followedBy, ascii_blankz (h d (by simp))]; simp

theorem marker_iff (s : List Char) : markerLike s = false ↔ ∀ r, s ≠ '-' :: '-' :: '-' :: r ∧ s ≠ '.' :: '.' :: '.' :: r := by
  constructor
  · intro h r
    constructor <;> (rintro rfl; simp [markerLike] at h)
  · intro h
    unfold markerLike
    split
    · exact absurd rfl (h _).1
    · exact absurd rfl (h _).2
    · rfl

/-- **C74**: the texts written without quotes are those which cannot be taken for something else. -/
theorem plain_text_iff (s : List Char) : (analyzeScalar s).plain = true ↔ PlainText s := by
  unfold analyzeScalar
  split
  · rename_i h
    subst h
    refine ⟨fun _ => ⟨?_, ?_, ?_, ?_, ?_, ?_, ?_, ?_, ?_⟩, fun _ => rfl⟩ <;> simp
  · rename_i hne
    dsimp only
    rw [analyze_fields]
    simp only [Bool.not_eq_true', Bool.or_eq_false_iff, Bool.false_or, List.any_eq_false]
    constructor
    · rintro ⟨⟨⟨⟨⟨⟨⟨⟨hls, hlb⟩, hts⟩, htb⟩, hbs⟩, hsb⟩, hsp⟩, hln⟩, hmk, hin⟩
      have hasc : ∀ c ∈ s, AsciiC c := by
        intro c hc
        have h1 := hsp c hc
        have h2 := hln c hc
        rcases (isPlainC_iff c).1 (by simpa using h1) with rfl | h
        · exact absurd (by decide) h2
        · exact h
      have hin' : ∀ q ∈ apositions true true false false s, indicates q.first q.preceded (followedBy q.rest) q.c = false := by
        intro q hq; simpa using hin q hq
      refine ⟨hasc, ?_, ?_, ?_, ?_, ?_, ?_, ?_, (marker_iff s).1 hmk⟩
      · rintro r rfl
        exact hls ⟨true, true, false, false, ' ', r⟩ ((mem_positions _ _ _ _ _ _).2 (.inl ⟨r, rfl, rfl⟩)) (by simp)
      · rintro r rfl
        cases h : r.reverse with
        | nil =>
          have : r = [] := by simpa using h
          subst this
          exact hts ⟨true, true, false, false, ' ', []⟩ ((mem_positions _ _ _ _ _ _).2 (.inl ⟨[], rfl, rfl⟩)) (by simp)
        | cons d a =>
          have : r = a.reverse ++ [d] := by rw [← List.reverse_reverse r, h]; simp
          subst this
          exact hts ⟨false, isBlankzC d, decide (d = ' '), decide (d ≠ ' ') && isBreakC d, ' ', []⟩
            ((mem_positions _ _ _ _ _ _).2 (.inr ⟨a.reverse, d, by simp, rfl, rfl, rfl, rfl⟩)) (by simp)
      · rintro a b rfl
        have := hin' ⟨false, isBlankzC ' ', true, false, '#', b⟩ ((mem_positions _ _ _ _ _ _).2 (.inr ⟨a, ' ', by simp, rfl, rfl, by simp, by simp⟩))
        simp [indicates, isBlankzC, isBlankC] at this
      · rintro a b rfl
        cases h : a.reverse with
        | nil =>
          have : a = [] := by simpa using h
          subst this
          have := hin' ⟨true, true, false, false, ':', ' ' :: b⟩ ((mem_positions _ _ _ _ _ _).2 (.inl ⟨_, rfl, rfl⟩))
          simp [indicates, followedBy, isBlankzC, isBlankC] at this
        | cons d t =>
          have : a = t.reverse ++ [d] := by rw [← List.reverse_reverse a, h]; simp
          subst this
          have := hin' ⟨false, isBlankzC d, decide (d = ' '), decide (d ≠ ' ') && isBreakC d, ':', ' ' :: b⟩
            ((mem_positions _ _ _ _ _ _).2 (.inr ⟨t.reverse, d, by simp, rfl, rfl, rfl, rfl⟩))
          simp [indicates, followedBy, isBlankzC, isBlankC] at this
      · rintro a rfl
        cases h : a.reverse with
        | nil =>
          have : a = [] := by simpa using h
          subst this
          have := hin' ⟨true, true, false, false, ':', []⟩ ((mem_positions _ _ _ _ _ _).2 (.inl ⟨_, rfl, rfl⟩))
          simp [indicates, followedBy] at this
        | cons d t =>
          have : a = t.reverse ++ [d] := by rw [← List.reverse_reverse a, h]; simp
          subst this
          have := hin' ⟨false, isBlankzC d, decide (d = ' '), decide (d ≠ ' ') && isBreakC d, ':', []⟩
            ((mem_positions _ _ _ _ _ _).2 (.inr ⟨t.reverse, d, by simp, rfl, rfl, rfl, rfl⟩))
          simp [indicates, followedBy] at this
      · rintro c r rfl hc
        have := hin' ⟨true, true, false, false, c, r⟩ ((mem_positions _ _ _ _ _ _).2 (.inl ⟨_, rfl, rfl⟩))
        have hc' : indicatorChars.contains c = true := by
          unfold indicatorChars
          simpa using hc
        rw [indicates, if_pos rfl, hc'] at this
        simp at this
      · rintro c r rfl hc
        have := hin' ⟨true, true, false, false, c, r⟩ ((mem_positions _ _ _ _ _ _).2 (.inl ⟨_, rfl, rfl⟩))
        have hf : followedBy r = false := by
          cases hf : followedBy r with
          | false => rfl
          | true =>
            rw [indicates, if_pos rfl] at this
            simp only [hf] at this
            rcases hc with rfl | rfl | rfl <;> simp at this
        have hr := followed_iff (r := r) (fun c hc => hasc c (by simp [hc]))
        rw [hf] at hr
        simp only [Bool.false_eq_true, false_iff, not_or] at hr
        exact hr
    · intro h
      have hnb : ∀ c ∈ s, isBreakC c = false := fun c hc => ascii_not_break (h.printable c hc)
      have hmem : ∀ q ∈ apositions true true false false s, q.c ∈ s ∧ ∀ d ∈ q.rest, d ∈ s := by
        intro q hq
        rcases (mem_positions _ _ _ _ _ _).1 hq with ⟨r, hs, hq⟩ | ⟨a, d, hs, _⟩
        · rw [hq, hs]
          refine ⟨by simp, fun d hd => by simp; right; exact hd⟩
        · rw [hs]
          exact ⟨by simp, fun d hd => by simp [hd]⟩
      refine ⟨⟨⟨⟨⟨⟨⟨⟨?_, ?_⟩, ?_⟩, ?_⟩, ?_⟩, ?_⟩, ?_⟩, ?_⟩, (marker_iff s).2 h.marker, ?_⟩
      · intro q hq hc
        simp only [Bool.and_eq_true, decide_eq_true_eq] at hc
        rcases (mem_positions _ _ _ _ _ _).1 hq with ⟨r, hs, _⟩ | ⟨a, d, hs, hf, _⟩
        · rw [hc.1] at hs; exact h.begin _ hs
        · rw [hf] at hc; simp at hc
      · intro q hq hc
        simp [hnb _ (hmem q hq).1] at hc
      · intro q hq hc
        simp only [Bool.and_eq_true, decide_eq_true_eq, List.isEmpty_iff] at hc
        rcases (mem_positions _ _ _ _ _ _).1 hq with ⟨r, hs, hq'⟩ | ⟨a, d, hs, hf, _⟩
        · have hr : q.rest = r := by rw [hq']
          rw [hc.1, ← hr, hc.2] at hs
          exact h.ending [] hs
        · rw [hc.1, hc.2] at hs
          exact h.ending (a ++ [d]) (by simp [hs])
      · intro q hq hc
        simp [hnb _ (hmem q hq).1] at hc
      · intro q hq hc
        simp only [Bool.and_eq_true, decide_eq_true_eq] at hc
        rcases (mem_positions _ _ _ _ _ _).1 hq with ⟨r, hs, hq'⟩ | ⟨a, d, hs, hf, _, _, hpb⟩
        · rw [hq'] at hc; simp at hc
        · rw [hpb, hnb d (by rw [hs]; simp)] at hc; simp at hc
      · intro q hq hc
        simp [hnb _ (hmem q hq).1] at hc
      · intro c hc
        simp [(isPlainC_iff c).2 (.inr (h.printable c hc))]
      · intro c hc
        simp [hnb c hc]
      · intro q hq hi
        have hfr := followed_iff (r := q.rest) (fun c hc => h.printable c ((hmem q hq).2 c hc))
        rcases (mem_positions _ _ _ _ _ _).1 hq with ⟨r, hs, hq'⟩ | ⟨a, d, hs, hf, hp, _, _⟩
        · have hr : q.rest = r := by rw [hq']
          have hf : q.first = true := by rw [hq']
          rw [indicates, if_pos hf] at hi
          simp only [Bool.or_eq_true, Bool.and_eq_true, decide_eq_true_eq] at hi
          rcases hi with hi | ⟨hi, hfo⟩
          · refine h.indicator _ _ hs ?_
            unfold indicatorChars at hi
            simpa using hi
          · obtain ⟨h1, h2⟩ := h.entry _ _ hs (by rcases hi with (h | h) | h <;> simp [h])
            rw [hfr, hr] at hfo
            rcases hfo with h | h
            · exact h1 h
            · exact h2 h
        · rw [indicates, if_neg (by simp [hf])] at hi
          simp only [Bool.or_eq_true, Bool.and_eq_true, decide_eq_true_eq] at hi
          rcases hi with ⟨hi, hfo⟩ | ⟨hi, hpr⟩
          · rw [hfr] at hfo
            rw [hi] at hs
            rcases hfo with h' | h'
            · rw [h'] at hs
              exact h.keyEnd (a ++ [d]) (by simp [hs])
            · obtain ⟨b, hb⟩ : ∃ b, q.rest = ' ' :: b := by
                cases hq6 : q.rest with
                | nil => rw [hq6] at h'; simp at h'
                | cons x b => rw [hq6] at h'; simp at h'; exact ⟨b, by rw [h']⟩
              rw [hb] at hs
              exact h.key (a ++ [d]) b (by simp [hs])
          · rw [hp, ascii_blankz (h.printable d (by rw [hs]; simp))] at hpr
            rw [hi, hpr] at hs
            exact h.comment a _ hs

end Spiff
