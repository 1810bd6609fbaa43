import Verif.Spec.Interpol
import Mathlib.Data.List.Induction
/-
C14: string interpolation.
-/
namespace Spiff
open Spec

theorem blankSep_concat (D : List (List Char)) (x : List Char) :
    blankSep (D ++ [x]) = if D = [] then x else blankSep D ++ ' ' :: x := by
  induction D with
  | nil => rfl
  | cons a r ih =>
    cases r with
    | nil => simp [blankSep]
    | cons b r' =>
      simp only [List.cons_append] at ih ⊢
      rw [blankSep, ih]
      · simp [blankSep]
      · simp

theorem blankSep_eq_nil (D : List (List Char)) (h : ∀ p ∈ D, p ≠ []) : blankSep D = [] ↔ D = [] := by
  cases D with
  | nil => simp [blankSep]
  | cons a r =>
    have := h a (by simp)
    cases r with
    | nil => simpa [blankSep] using this
    | cons b r' => simp [blankSep]

/-- finished operands and pending literal after a part -/
def accStep (quote : List Char → List Char) (u : Bool) (x : List (List Char) × List Char) (p : Part) :
    List (List Char) × List Char :=
  match p with
  | .ex b => (x.1 ++ litPiece quote x.2 ++ ["( ".toList ++ trimSpace b ++ " )".toList], [])
  | q => (x.1, x.2 ++ q.literal u)

def acc (quote : List Char → List Char) (u : Bool) (ps : List Part) : List (List Char) × List Char :=
  ps.foldl (accStep quote u) ([], [])

theorem acc_pieces_aux (quote : List Char → List Char) (u : Bool) (ps : List Part) (D : List (List Char)) (p : List Char) :
    D ++ pieces quote u ps p = (ps.foldl (accStep quote u) (D, p)).1 ++ litPiece quote (ps.foldl (accStep quote u) (D, p)).2 := by
  induction ps generalizing D p with
  | nil => rfl
  | cons x r ih =>
    cases x with
    | text t => simp only [List.foldl_cons, accStep]; rw [← ih]; rfl
    | esc t => simp only [List.foldl_cons, accStep]; rw [← ih]; rfl
    | ex b =>
      simp only [List.foldl_cons, accStep]
      rw [← ih]
      simp [pieces]

theorem acc_pieces (quote : List Char → List Char) (u : Bool) (ps : List Part) :
    pieces quote u ps [] = (acc quote u ps).1 ++ litPiece quote (acc quote u ps).2 := by
  exact acc_pieces_aux quote u ps [] []

theorem acc_concat (quote : List Char → List Char) (u : Bool) (ps : List Part) (p : Part) :
    acc quote u (ps ++ [p]) = accStep quote u (acc quote u ps) p := by
  simp [acc]

/-- invariant of the scanner: `ps` are the parts seen so far, `cur` is the text since then -/
structure Inv (quote : List Char → List Char) (u : Bool) (seen : List Char) (s : CState) (ps : List Part)
    (cur : List Char) : Prop where
  seen : seen = renderParts ps ++ cur ++ (if s.start then '(' :: '(' :: s.expr else [])
  str : s.str = (acc quote u ps).2 ++ cur
  result : s.result = blankSep (acc quote u ps).1
  ne : ∀ p ∈ (acc quote u ps).1, p ≠ []
  found : s.found = ps.any Part.isEx
  lit : ps.any Part.isEx = false → (acc quote u ps).1 = [] ∧ (acc quote u ps).2 = (ps.map (Part.literal u)).flatten
  exs : ps.any Part.isEx = true → (acc quote u ps).1 ≠ []
  good : ∀ b, Part.ex b ∈ ps → b ≠ [] ∧ b.head? ≠ some '!'
  outside : s.start = false → s.expr = [] ∧ ∃ pre, cur = pre ++ List.replicate s.ob '('
  inside : s.start = true → s.expr ≠ [] ∧ (s.ob = 0 ∨ (s.ob = 1 ∧ s.quote = false ∧ ∃ b, b ≠ [] ∧ s.expr = b ++ [')']))
  quoted : s.quote = true → s.start = true ∧ s.ob = 0

theorem bang_prefix (l : List Char) : (['!'].isPrefixOf l = true) ↔ l.head? = some '!' := by
  cases l with
  | nil => simp
  | cons a r =>
    simp only [List.isPrefixOf, Bool.and_true, beq_iff_eq, List.head?_cons, Option.some.injEq]
    exact ⟨Eq.symm, Eq.symm⟩

/-- effect of `addExpr` at the end of an escaped expression -/
theorem addExpr_esc (quote : List Char → List Char) (u : Bool) (s : CState) (b : List Char)
    (he : s.expr = '!' :: b ++ [')']) :
    addExpr quote false u s = ({ s with str := s.str ++ (Part.esc b).literal u, expr := [] }, false) := by
  cases u
  · simp [addExpr, he, Part.literal]
  · simp [addExpr, he, Part.literal]

/-- effect of `addExpr` at the end of an expression -/
theorem addExpr_ex (quote : List Char → List Char) (hq : ∀ l, quote l ≠ []) (u : Bool) (s : CState) (b : List Char)
    (he : s.expr = b ++ [')']) (hb : b ≠ []) (hn : b.head? ≠ some '!') (D : List (List Char))
    (hr : s.result = blankSep D) (hD : ∀ p ∈ D, p ≠ []) :
    addExpr quote false u s =
      ({ s with
          str := [], expr := [],
          result := blankSep (D ++ litPiece quote s.str ++ ["( ".toList ++ trimSpace b ++ " )".toList]) }, true) := by
  have hp : ['!'].isPrefixOf s.expr = false := by
    rw [Bool.eq_false_iff, Ne, bang_prefix, he]
    cases b with
    | nil => exact absurd rfl hb
    | cons a r => simpa using hn
  have he' : s.expr ≠ [] := by rw [he]; simp
  unfold addExpr
  have h1 : (if u && ['!'].isPrefixOf s.expr then
      { s with str := s.str ++ "((".toList ++ s.expr.tail ++ [')'], expr := [] } else s) = s := by simp [hp]
  have h2 : (if ['!'].isPrefixOf s.expr then
      { s with str := s.str ++ "((".toList ++ s.expr ++ [')'], expr := [] } else s) = s := by simp [hp]
  simp only [h1, h2]
  simp only [he', decide_false, Bool.false_and, Bool.false_eq_true, if_false, ne_eq, not_false_eq_true, if_true]
  have hdl : s.expr.dropLast = b := by rw [he]; simp
  rw [hdl, hr]
  have hD' := blankSep_eq_nil D hD
  congr 1
  · congr 1
    rw [blankSep_concat]
    unfold litPiece
    by_cases hs : s.str = []
    · simp only [hs, not_true, if_false, if_true, List.append_nil]
      by_cases hd : D = []
      · subst hd; simp [blankSep]
      · have : blankSep D ≠ [] := fun h => hd (hD'.1 h)
        simp [hd, this]
    · simp only [hs, not_false_eq_true, if_true, if_false]
      rw [blankSep_concat]
      by_cases hd : D = []
      · subst hd; simp [blankSep, hq]
      · have : blankSep D ≠ [] := fun h => hd (hD'.1 h)
        simp [hd, this]

theorem renderParts_concat (ps : List Part) (p : Part) : renderParts (ps ++ [p]) = renderParts ps ++ p.render := by
  simp [renderParts]

theorem inv_text {quote : List Char → List Char} {u : Bool} {ps : List Part} {cur : List Char} : (acc quote u (ps ++ [.text cur])) = ((acc quote u ps).1, (acc quote u ps).2 ++ cur) := by
  rw [acc_concat]; rfl

/-- The invariant is kept by every character. -/
theorem inv_step (quote : List Char → List Char) (hq : ∀ l, quote l ≠ []) (u : Bool) (seen : List Char) (s : CState)
    (ps : List Part) (cur : List Char) (h : Inv quote u seen s ps cur) (c : Char) :
    ∃ ps' cur', Inv quote u (seen ++ [c]) (convStep quote u s c) ps' cur' := by
  cases hst : s.start with
  | true =>
    cases hqu : s.quote with
    | true =>
      obtain ⟨_, hob⟩ := h.quoted hqu
      refine ⟨ps, cur, ?_⟩
      have hseen : seen ++ [c] = renderParts ps ++ cur ++ '(' :: '(' :: (s.expr ++ [c]) := by
        rw [h.seen, hst]; simp
      have key : ∀ q m, Inv quote u (seen ++ [c]) { s with quote := q, mask := m, expr := s.expr ++ [c] } ps cur := by
        intro q m
        exact ⟨by rw [hseen]; simp [hst], h.str, h.result, h.ne, h.found, h.lit, h.exs, h.good, by simp [hst],
          fun _ => ⟨by simp, Or.inl hob⟩, fun _ => ⟨hst, hob⟩⟩
      unfold convStep
      simp only [hst, hqu, if_true]
      by_cases h1 : c = '"'
      · simp only [h1, if_true]
        rw [← h1]
        have := key (if s.mask then true else false) false
        simpa [hst] using this
      · by_cases h2 : c = '\\'
        · simp only [h2]
          rw [← h2]
          have := key s.quote (!s.mask)
          rw [hqu] at this
          simpa [hqu, h1, h2, hst] using this
        · simp only [h1, h2, if_false]
          have := key s.quote false
          simpa [hqu, hst] using this
    | false =>
      obtain ⟨hne, hob⟩ := h.inside hst
      by_cases hcl : c = ')' ∧ ¬ s.lvl > 0 ∧ s.ob + 1 = 2
      · -- end of the expression
        obtain ⟨rfl, hl, h2⟩ := hcl
        have hob1 : s.ob = 1 := by omega
        obtain ⟨b, hb, he⟩ : ∃ b, b ≠ [] ∧ s.expr = b ++ [')'] := by
          rcases hob with h0 | ⟨_, _, h0⟩
          · omega
          · exact h0
        have hseen : seen ++ [')'] = renderParts ps ++ cur ++ ('(' :: '(' :: b ++ [')', ')']) := by
          rw [h.seen, hst, he]; simp
        have hcs : convStep quote u s ')' =
            { (addExpr quote false u { s with start := false, ob := 0 }).1 with
              found := (addExpr quote false u { s with start := false, ob := 0 }).2 ||
                (addExpr quote false u { s with start := false, ob := 0 }).1.found } := by
          unfold convStep
          simp only [hst, hqu, if_true, hl, h2]
          have hstart : (addExpr quote false u { s with start := false, ob := 0 }).1.start = false := by
            unfold addExpr; simp only; split <;> (repeat' split) <;> simp
          simp only [hqu] at hstart
          simp [hstart]
        rw [hcs]
        by_cases hx : b.head? = some '!'
        · -- escaped
          obtain ⟨b', rfl⟩ : ∃ b', b = '!' :: b' := by
            cases b with
            | nil => simp at hx
            | cons a r => simp at hx; exact ⟨r, by rw [hx]⟩
          rw [addExpr_esc quote u { s with start := false, ob := 0 } b' he]
          refine ⟨ps ++ [.text cur, .esc b'], [], ?_⟩
          have ha : acc quote u (ps ++ [.text cur, .esc b']) =
              ((acc quote u ps).1, (acc quote u ps).2 ++ cur ++ (Part.esc b').literal u) := by
            rw [show ps ++ [Part.text cur, .esc b'] = (ps ++ [.text cur]) ++ [.esc b'] by simp, acc_concat, acc_concat]
            rfl
          have hany : (ps ++ [Part.text cur, .esc b']).any Part.isEx = ps.any Part.isEx := by
            simp [Part.isEx]
          refine ⟨?_, ?_, ?_, ?_, ?_, ?_, ?_, ?_, ?_, ?_, ?_⟩
          · rw [hseen]
            rw [show ps ++ [Part.text cur, .esc b'] = (ps ++ [.text cur]) ++ [.esc b'] by simp, renderParts_concat,
              renderParts_concat]
            simp [Part.render]
          · rw [ha]; simp [h.str]
          · rw [ha]; exact h.result
          · rw [ha]; exact h.ne
          · rw [hany]; simpa using h.found
          · rw [hany, ha]
            intro hp
            refine ⟨(h.lit hp).1, ?_⟩
            rw [(h.lit hp).2]
            simp [Part.literal]
          · rw [hany, ha]; exact h.exs
          · intro x hx
            simp at hx
            exact h.good x hx
          · intro _; exact ⟨rfl, [], by simp⟩
          · intro hh; simp at hh
          · intro hh; simp [hqu] at hh
        · rw [addExpr_ex quote hq u { s with start := false, ob := 0 } b he hb hx (acc quote u ps).1 h.result h.ne]
          refine ⟨ps ++ [.text cur, .ex b], [], ?_⟩
          have ha : acc quote u (ps ++ [.text cur, .ex b]) =
              ((acc quote u ps).1 ++ litPiece quote s.str ++ ["( ".toList ++ trimSpace b ++ " )".toList], []) := by
            rw [show ps ++ [Part.text cur, .ex b] = (ps ++ [.text cur]) ++ [.ex b] by simp, acc_concat, acc_concat, h.str]
            rfl
          have hany : (ps ++ [Part.text cur, .ex b]).any Part.isEx = true := by simp [Part.isEx]
          refine ⟨?_, ?_, ?_, ?_, ?_, ?_, ?_, ?_, ?_, ?_, ?_⟩
          · rw [hseen]
            rw [show ps ++ [Part.text cur, .ex b] = (ps ++ [.text cur]) ++ [.ex b] by simp, renderParts_concat,
              renderParts_concat]
            simp [Part.render]
          · rw [ha]; rfl
          · rw [ha]
          · rw [ha]
            intro p hp
            simp only [List.mem_append, List.mem_singleton] at hp
            rcases hp with (hp | hp) | hp
            · exact h.ne p hp
            · unfold litPiece at hp
              split at hp
              · simp at hp
              · simp at hp; rw [hp]; exact hq _
            · rw [hp, show "( ".toList = ['(', ' '] from rfl]; simp
          · rw [hany]; rfl
          · rw [hany]; simp
          · rw [ha]; simp
          · intro x hx'
            simp at hx'
            rcases hx' with hx' | rfl
            · exact h.good x hx'
            · exact ⟨hb, hx⟩
          · intro _; exact ⟨rfl, [], by simp⟩
          · intro hh; simp at hh
          · intro hh; simp [hqu] at hh
      · -- the expression goes on
        refine ⟨ps, cur, ?_⟩
        have hseen : seen ++ [c] = renderParts ps ++ cur ++ '(' :: '(' :: (s.expr ++ [c]) := by
          rw [h.seen, hst]; simp
        have key : ∀ q l o, (q = true → o = 0) → (o = 0 ∨ (o = 1 ∧ q = false ∧ c = ')')) →
            Inv quote u (seen ++ [c]) { s with quote := q, lvl := l, ob := o, expr := s.expr ++ [c] } ps cur := by
          intro q l o hqo ho
          refine ⟨by rw [hseen]; simp [hst], h.str, h.result, h.ne, h.found, h.lit, h.exs, h.good, by simp [hst],
            fun _ => ⟨by simp, ?_⟩, fun hh => ⟨hst, hqo hh⟩⟩
          rcases ho with ho | ⟨ho, hq, hc⟩
          · exact Or.inl ho
          · exact Or.inr ⟨ho, hq, s.expr, hne, by rw [hc]⟩
        unfold convStep
        simp only [hst, hqu, if_true]
        by_cases h1 : c = '('
        · have := key false (s.lvl + 1) 0 (by simp) (Or.inl rfl)
          simpa [h1, hst, hqu] using this
        · by_cases h2 : c = ')'
          · by_cases h3 : s.lvl > 0
            · have hob0 : s.ob = 0 ∨ s.ob = 1 := by omega
              have := key false (s.lvl - 1) s.ob (by simp) (by
                rcases hob0 with h0 | h0
                · exact Or.inl h0
                · exact Or.inr ⟨h0, rfl, h2⟩)
              simpa [h2, h3, hst, hqu] using this
            · have h4 : ¬ s.ob + 1 = 2 := fun h4 => hcl ⟨h2, h3, h4⟩
              have hob0 : s.ob = 0 := by rcases hob with h0 | h0 <;> omega
              have := key false s.lvl (s.ob + 1) (by simp) (Or.inr ⟨by omega, rfl, h2⟩)
              simpa [h2, h3, h4, hst, hqu] using this
          · by_cases h3 : c = '"'
            · have := key true s.lvl 0 (by simp) (Or.inl rfl)
              simpa [h1, h2, h3, hst, hqu] using this
            · have := key false s.lvl 0 (by simp) (Or.inl rfl)
              simpa [h1, h2, h3, hst, hqu] using this
  | false =>
    obtain ⟨he, pre, hcur⟩ := h.outside hst
    have hseen : seen = renderParts ps ++ cur := by rw [h.seen, hst]; simp
    have hquf : s.quote = false := by
      cases hh : s.quote with
      | false => rfl
      | true => have := (h.quoted hh).1; rw [hst] at this; simp at this
    unfold convStep
    simp only [hst]
    by_cases h1 : c = '('
    · subst h1
      refine ⟨ps, cur ++ ['('], ?_⟩
      refine ⟨by rw [hseen]; simp [hst], by simp [h.str], by simp [h.result], h.ne, by simp [h.found], h.lit, h.exs, h.good,
        fun _ => ⟨by simp [he], pre, ?_⟩, by simp [hst], by simp [hquf]⟩
      rw [hcur]
      simp [List.replicate_succ', hst]
    · by_cases h2 : s.ob ≥ 2
      · -- start of an expression
        obtain ⟨k, hk⟩ : ∃ k, s.ob = k + 2 := ⟨s.ob - 2, by omega⟩
        have hcur' : cur = (pre ++ List.replicate k '(') ++ ['(', '('] := by
          rw [hcur, hk, List.replicate_succ', List.replicate_succ']; simp
        have hstr : s.str = ((acc quote u ps).2 ++ (pre ++ List.replicate k '(')) ++ ['(', '('] := by
          rw [h.str, hcur']; simp
        have htake : s.str.take (s.str.length - 2) = (acc quote u ps).2 ++ (pre ++ List.replicate k '(') := by
          rw [hstr]
          rw [List.take_append_of_le_length (by simp; omega), List.take_of_length_le (by simp; omega)]
        refine ⟨ps, pre ++ List.replicate k '(', ?_⟩
        refine ⟨by rw [hseen, hcur']; simp [h1, h2], by simp [h1, h2, htake], by simp [h1, h2, h.result], h.ne,
          by simp [h1, h2, h.found], h.lit, h.exs, h.good, by simp [h1, h2], fun _ => ⟨by simp [h1, h2], Or.inl (by simp [h1, h2])⟩,
          by simp [h1, h2, hquf]⟩
      · refine ⟨ps, cur ++ [c], ?_⟩
        refine ⟨by rw [hseen]; simp [h1, h2, hst], by simp [h1, h2, hst, h.str], by simp [h1, h2, hst, h.result], h.ne,
          by simp [h1, h2, hst, h.found], h.lit, h.exs, h.good,
          fun _ => ⟨by simp [h1, h2, hst, he], cur ++ [c], by simp [h1, h2, hst]⟩, by simp [h1, h2, hst],
          by simp [h1, h2, hst, hquf]⟩

theorem inv_init (quote : List Char → List Char) (u : Bool) : Inv quote u [] {} [] [] := by
  refine ⟨rfl, rfl, rfl, ?_, rfl, fun _ => ⟨rfl, rfl⟩, ?_, ?_, fun _ => ⟨rfl, [], rfl⟩, ?_, ?_⟩ <;> simp [acc]

theorem inv_run (quote : List Char → List Char) (hq : ∀ l, quote l ≠ []) (u : Bool) (cs : List Char) :
    ∀ seen s ps cur, Inv quote u seen s ps cur →
      ∃ ps' cur', Inv quote u (seen ++ cs) (cs.foldl (convStep quote u) s) ps' cur' := by
  induction cs with
  | nil => intro seen s ps cur h; exact ⟨ps, cur, by simpa using h⟩
  | cons c r ih =>
    intro seen s ps cur h
    obtain ⟨ps1, cur1, h1⟩ := inv_step quote hq u seen s ps cur h c
    obtain ⟨ps2, cur2, h2⟩ := ih _ _ _ _ h1
    exact ⟨ps2, cur2, by simpa using h2⟩

/-- the output for a sequence of parts: the literal text if there is no expression, otherwise the
concatenation expression -/
def outputOf (quote : List Char → List Char) (u : Bool) (ps : List Part) : List Char ⊕ List Char :=
  if ps.any Part.isEx then .inr (blankSep (pieces quote u ps []))
  else .inl (ps.map (Part.literal u)).flatten

/-- the end of the scan -/
theorem finish_of_inv (quote : List Char → List Char) (hq : ∀ l, quote l ≠ []) (u : Bool) (str : List Char)
    (ps : List Part) (cur : List Char) (h : Inv quote u str (str.foldl (convStep quote u) {}) ps cur) :
    ∃ ps', renderParts ps' = str ∧ (∀ b, Part.ex b ∈ ps' → b ≠ [] ∧ b.head? ≠ some '!') ∧
      (∃ t, ps' = ps ++ [.text t]) ∧
      convertToExpression quote str u = outputOf quote u ps' := by
  generalize hst : str.foldl (convStep quote u) {} = st at h
  let t := cur ++ (if st.start then '(' :: '(' :: st.expr else [])
  refine ⟨ps ++ [.text t], ?_, ?_, ⟨t, rfl⟩, ?_⟩
  · rw [renderParts_concat, h.seen]; simp [Part.render, t]
  · intro b hb
    simp at hb
    exact h.good b hb
  · have hany : (ps ++ [Part.text t]).any Part.isEx = ps.any Part.isEx := by simp [Part.isEx]
    have hacc : acc quote u (ps ++ [Part.text t]) = ((acc quote u ps).1, (acc quote u ps).2 ++ t) := by
      rw [acc_concat]; rfl
    unfold convertToExpression
    simp only [hst]
    have hst' : (if st.start = true then { st with str := st.str ++ "((".toList ++ st.expr, expr := [] } else st)
        = { st with str := (acc quote u ps).2 ++ t, expr := [] } := by
      cases hs : st.start with
      | true => simp [t, hs, h.str]
      | false =>
        have he := (h.outside hs).1
        have hstr : st.str = (acc quote u ps).2 ++ t := by simp [t, hs, h.str]
        cases st
        simp only at hs he hstr ⊢
        simp [hs, he, ← hstr]
    rw [hst']
    unfold outputOf
    rw [hany]
    cases hp : ps.any Part.isEx with
    | false =>
      obtain ⟨h1, h2⟩ := h.lit hp
      have hr : st.result = [] := by rw [h.result, h1]; rfl
      have hf : st.found = false := by rw [h.found, hp]
      simp [addExpr, hr, hf, h2, Part.literal]
    | true =>
      have hr : st.result = blankSep (acc quote u ps).1 := h.result
      have hrne : blankSep (acc quote u ps).1 ≠ [] := fun hh => h.exs hp ((blankSep_eq_nil _ h.ne).1 hh)
      rw [acc_pieces, hacc]
      simp only
      have : (acc quote u ps).1 ≠ [] := h.exs hp
      unfold litPiece
      by_cases hs : (acc quote u ps).2 ++ t = []
      · simp [addExpr, hr, hrne, hs]
      · rw [if_neg hs, blankSep_concat, if_neg this]
        simp [addExpr, hr, hrne, hs]

/-- C14: for every string: the string is a sequence of texts, escaped expressions and
expressions, and the result of the conversion is the literal text (without expressions) or the
blank separated sequence of the quoted literals and parenthesized expressions in source
order. Nothing is lost, duplicated or reordered. -/
theorem interpolation_complete (quote : List Char → List Char) (hq : ∀ l, quote l ≠ []) (u : Bool) (str : List Char) :
    ∃ ps, renderParts ps = str ∧ (∀ b, Part.ex b ∈ ps → b ≠ [] ∧ b.head? ≠ some '!') ∧
      convertToExpression quote str u = outputOf quote u ps := by
  obtain ⟨ps, cur, h⟩ := inv_run quote hq u str [] {} [] [] (inv_init quote u)
  obtain ⟨ps', h1, h2, _, h3⟩ := finish_of_inv quote hq u str ps cur (by simpa using h)
  exact ⟨ps', h1, h2, h3⟩

/-- C14: a string that is not converted is left unchanged. -/
theorem not_converted_unchanged (quote : List Char → List Char) (hq : ∀ l, quote l ≠ []) (str t : List Char)
    (h : convertToExpression quote str false = .inl t) : t = str := by
  obtain ⟨ps, h1, _, h3⟩ := interpolation_complete quote hq false str
  rw [h] at h3
  unfold outputOf at h3
  split at h3
  · cases h3
  · next hp =>
    cases h3
    rw [← h1]
    unfold renderParts
    congr 1
    apply List.map_congr_left
    intro p hp'
    cases p with
    | text t => rfl
    | esc b => rfl
    | ex b => exact absurd (List.any_eq_true.2 ⟨_, hp', rfl⟩) hp

/-! ### well-formed strings -/

theorem acc_facts (quote : List Char → List Char) (hq : ∀ l, quote l ≠ []) (u : Bool) (ps : List Part) :
    (∀ p ∈ (acc quote u ps).1, p ≠ []) ∧
    (ps.any Part.isEx = false → (acc quote u ps).1 = [] ∧ (acc quote u ps).2 = (ps.map (Part.literal u)).flatten) ∧
    (ps.any Part.isEx = true → (acc quote u ps).1 ≠ []) := by
  induction ps using List.reverseRecOn with
  | nil => simp [acc]
  | append_singleton ps p ih =>
    obtain ⟨h1, h2, h3⟩ := ih
    rw [acc_concat]
    cases p with
    | text t =>
      simp only [accStep, List.any_append, List.any_cons, Part.isEx, List.any_nil, Bool.or_false]
      refine ⟨h1, fun h => ⟨(h2 h).1, ?_⟩, h3⟩
      rw [(h2 h).2]; simp
    | esc t =>
      simp only [accStep, List.any_append, List.any_cons, Part.isEx, List.any_nil, Bool.or_false]
      refine ⟨h1, fun h => ⟨(h2 h).1, ?_⟩, h3⟩
      rw [(h2 h).2]; simp
    | ex b =>
      simp only [accStep, List.any_append, List.any_cons, Part.isEx, List.any_nil, Bool.or_false, Bool.or_true]
      refine ⟨?_, by simp, by simp⟩
      intro p hp
      simp only [List.mem_append, List.mem_singleton] at hp
      rcases hp with (hp | hp) | hp
      · exact h1 p hp
      · unfold litPiece at hp
        split at hp
        · simp at hp
        · simp at hp; rw [hp]; exact hq _
      · rw [hp, show "( ".toList = ['(', ' '] from rfl]; simp

/-- the scanner between two parts -/
structure At (quote : List Char → List Char) (u : Bool) (s : CState) (ps : List Part) : Prop where
  start : s.start = false
  noquote : s.quote = false
  mask : s.mask = false
  lvl : s.lvl = 0
  expr : s.expr = []
  ob : s.ob ≤ 1
  str : s.str = (acc quote u ps).2
  result : s.result = blankSep (acc quote u ps).1
  found : s.found = ps.any Part.isEx

theorem run_text (quote : List Char → List Char) (u : Bool) (t : List Char) :
    ∀ s : CState, s.start = false → s.ob ≤ 1 → (s.ob = 1 → t.head? ≠ some '(') → NoOpen t →
      ∃ o, o ≤ 1 ∧ t.foldl (convStep quote u) s = { s with str := s.str ++ t, ob := o } := by
  induction t with
  | nil => intro s _ hob _ _; exact ⟨s.ob, hob, by simp⟩
  | cons c r ih =>
    intro s hst hob hhd hno
    have hc : convStep quote u s c = { s with str := s.str ++ [c], ob := if c = '(' then s.ob + 1 else 0 } := by
      unfold convStep
      simp only [hst]
      by_cases h1 : c = '('
      · simp [h1, hst]
      · have : ¬ s.ob ≥ 2 := by omega
        simp [h1, this, hst]
    have hno' : NoOpen r := by
      unfold NoOpen at hno
      split at hno
      · exact hno.elim
      · next heq => cases heq; exact hno
      · next heq => cases heq
    have hr : c = '(' → r.head? ≠ some '(' := by
      rintro rfl hh
      cases r with
      | nil => simp at hh
      | cons a r' => simp at hh; subst hh; simp [NoOpen] at hno
    have hob' : (if c = '(' then s.ob + 1 else 0) ≤ 1 := by
      split
      · next h => subst h; have : s.ob ≠ 1 := fun h => hhd h (by simp); omega
      · omega
    obtain ⟨o, ho, he⟩ := ih { s with str := s.str ++ [c], ob := if c = '(' then s.ob + 1 else 0 } hst hob'
      (by
        simp only
        intro h1
        split at h1
        · next h => exact hr h
        · omega) hno'
    refine ⟨o, ho, ?_⟩
    rw [List.foldl_cons, hc, he]
    simp

theorem run_open (quote : List Char → List Char) (u : Bool) (s : CState) (c : Char) (hc : c ≠ '(') (hst : s.start = false) :
    ['(', '(', c].foldl (convStep quote u) s = { s with start := true, expr := [c], ob := 0 } := by
  simp [convStep, hst, hc]

theorem run_quoted (quote : List Char → List Char) (u : Bool) (q : List Char) (h : Quoted q) :
    ∀ s : CState, s.start = true → s.quote = true → s.mask = false →
      q.foldl (convStep quote u) s = { s with expr := s.expr ++ q } := by
  induction h with
  | nil => intro s _ _ _; simp
  | char c r h _ ih =>
    intro s h1 h2 h3
    have : convStep quote u s c = { s with expr := s.expr ++ [c] } := by
      simp [convStep, h1, h2, h3, h.1, h.2]
    rw [List.foldl_cons, this, ih { s with expr := s.expr ++ [c] } h1 h2 h3]
    simp
  | masked c r _ ih =>
    intro s h1 h2 h3
    have e1 : convStep quote u s '\\' = { s with mask := true, expr := s.expr ++ ['\\'] } := by
      simp [convStep, h1, h2, h3]
    have e2 : convStep quote u { s with mask := true, expr := s.expr ++ ['\\'] } c
        = { s with mask := false, expr := s.expr ++ ['\\', c] } := by
      by_cases a : c = '"'
      · simp [convStep, h1, h2, a]
      · by_cases b : c = '\\'
        · simp [convStep, h1, h2, b]
        · simp [convStep, h1, h2, a, b]
    rw [List.foldl_cons, List.foldl_cons, e1, e2, ih { s with mask := false, expr := s.expr ++ ['\\', c] } h1 h2 rfl]
    simp [h3]

theorem run_balanced (quote : List Char → List Char) (u : Bool) (b : List Char) (h : Balanced b) :
    ∀ s : CState, s.start = true → s.quote = false → s.mask = false → s.ob = 0 →
      b.foldl (convStep quote u) s = { s with expr := s.expr ++ b } := by
  induction h with
  | nil => intro s _ _ _ _; simp
  | char c r h _ ih =>
    intro s h1 h2 h3 h4
    have : convStep quote u s c = { s with expr := s.expr ++ [c] } := by
      simp [convStep, h1, h2, h.1, h.2.1, h.2.2, h4]
    rw [List.foldl_cons, this, ih { s with expr := s.expr ++ [c] } h1 h2 h3 h4]
    simp
  | paren b r _ _ ihb ihr =>
    intro s h1 h2 h3 h4
    have e1 : convStep quote u s '(' = { s with lvl := s.lvl + 1, expr := s.expr ++ ['('] } := by
      simp [convStep, h1, h2, h4]
    have e2 : convStep quote u { s with lvl := s.lvl + 1, expr := s.expr ++ ['('] ++ b } ')'
        = { s with expr := s.expr ++ '(' :: b ++ [')'] } := by
      simp [convStep, h1, h2]
    rw [List.cons_append, List.foldl_cons, List.foldl_append, List.foldl_cons, e1,
      ihb { s with lvl := s.lvl + 1, expr := s.expr ++ ['('] } h1 h2 h3 h4, e2,
      ihr { s with expr := s.expr ++ '(' :: b ++ [')'] } h1 h2 h3 h4]
    simp
  | quoted q r hq _ ihr =>
    intro s h1 h2 h3 h4
    have e1 : convStep quote u s '"' = { s with quote := true, expr := s.expr ++ ['"'] } := by
      simp [convStep, h1, h2, h4]
    have e2 : convStep quote u { s with quote := true, expr := s.expr ++ ['"'] ++ q } '"'
        = { s with quote := false, expr := s.expr ++ '"' :: q ++ ['"'] } := by
      simp [convStep, h1, h3]
    rw [List.cons_append, List.foldl_cons, List.foldl_append, List.foldl_cons, e1,
      run_quoted quote u q hq { s with quote := true, expr := s.expr ++ ['"'] } h1 rfl h3, e2,
      ihr { s with quote := false, expr := s.expr ++ '"' :: q ++ ['"'] } h1 rfl h3 h4]
    simp [h2]

theorem run_close (quote : List Char → List Char) (u : Bool) (s : CState) (h1 : s.start = true) (h2 : s.quote = false)
    (h3 : s.lvl = 0) (h4 : s.ob = 0) :
    [')', ')'].foldl (convStep quote u) s =
      { (addExpr quote false u { s with start := false, expr := s.expr ++ [')'] }).1 with
        found := (addExpr quote false u { s with start := false, expr := s.expr ++ [')'] }).2 ||
          (addExpr quote false u { s with start := false, expr := s.expr ++ [')'] }).1.found } := by
  have e1 : convStep quote u s ')' = { s with ob := 1, expr := s.expr ++ [')'] } := by
    simp [convStep, h1, h2, h3, h4]
  have hs : (addExpr quote false u { s with start := false, expr := s.expr ++ [')'] }).1.start = false := by
    unfold addExpr; simp only; split <;> (repeat' split) <;> simp
  simp only [List.foldl_cons, List.foldl_nil, e1]
  unfold convStep
  simp only [h2, h3, h4] at hs
  simp [h1, h2, h3, h4, hs]

/-- the scanner reads the body of an expression -/
theorem run_body (quote : List Char → List Char) (u : Bool) (s : CState) (ps : List Part) (h : At quote u s ps)
    (c : Char) (r : List Char) (hc : c ≠ '(') (hr : Balanced r) :
    ('(' :: '(' :: (c :: r) ++ [')', ')']).foldl (convStep quote u) s =
      { (addExpr quote false u { s with ob := 0, expr := c :: r ++ [')'] }).1 with
        found := (addExpr quote false u { s with ob := 0, expr := c :: r ++ [')'] }).2 ||
          (addExpr quote false u { s with ob := 0, expr := c :: r ++ [')'] }).1.found } := by
  rw [show '(' :: '(' :: (c :: r) ++ [')', ')'] = ['(', '(', c] ++ (r ++ [')', ')']) by simp, List.foldl_append,
    List.foldl_append, run_open quote u s c hc h.start, run_balanced quote u r hr { s with start := true, expr := [c], ob := 0 } rfl h.noquote h.mask rfl,
    run_close quote u { s with start := true, expr := [c] ++ r, ob := 0 } rfl h.noquote h.lvl rfl]
  simp [h.start]

theorem run_parts (quote : List Char → List Char) (hq : ∀ l, quote l ≠ []) (u : Bool) (ps : List Part) :
    ∀ s ps0, At quote u s ps0 → (s.ob = 1 → ∀ t r, ps ≠ .text t :: r) → WellFormed ps →
      At quote u ((renderParts ps).foldl (convStep quote u) s) (ps0 ++ ps) := by
  induction ps with
  | nil => intro s ps0 h _ _; simpa [renderParts] using h
  | cons p r ih =>
    intro s ps0 h hob hw
    have hrender : renderParts (p :: r) = p.render ++ renderParts r := by simp [renderParts]
    rw [hrender, List.foldl_append]
    rw [show ps0 ++ p :: r = (ps0 ++ [p]) ++ r by simp]
    cases p with
    | text t =>
      simp only [WellFormed] at hw
      obtain ⟨h1, h2, h3⟩ := hw
      have hob0 : s.ob ≠ 1 := fun hh => hob hh t r rfl
      obtain ⟨o, ho, he⟩ := run_text quote u t s h.start h.ob (fun hh => absurd hh hob0) h1
      rw [Part.render, he]
      refine ih _ _ ⟨h.start, h.noquote, h.mask, h.lvl, h.expr, ho, ?_, ?_, ?_⟩ (fun _ => h2) h3
      · rw [acc_concat]; simp [accStep, h.str, Part.literal]
      · rw [acc_concat]; exact h.result
      · simp [h.found, Part.isEx]
    | esc b =>
      simp only [WellFormed] at hw
      rw [Part.render, show '(' :: '(' :: '!' :: b ++ [')', ')'] = '(' :: '(' :: ('!' :: b) ++ [')', ')'] from rfl,
        run_body quote u s ps0 h '!' b (by decide) hw.1, addExpr_esc quote u _ b rfl]
      refine ih _ _ ⟨h.start, h.noquote, h.mask, h.lvl, rfl, by simp, ?_, ?_, ?_⟩ (by simp) hw.2
      · rw [acc_concat]; simp [accStep, h.str]
      · rw [acc_concat]; exact h.result
      · simp [h.found, Part.isEx]
    | ex b =>
      simp only [WellFormed] at hw
      obtain ⟨⟨c, r', rfl, hc1, _, _, hb⟩, hbang, hw'⟩ := hw
      rw [Part.render, run_body quote u s ps0 h c r' hc1 hb,
        addExpr_ex quote hq u { s with ob := 0, expr := c :: r' ++ [')'] } (c :: r') rfl (by simp) hbang (acc quote u ps0).1 h.result
          (acc_facts quote hq u ps0).1]
      refine ih _ _ ⟨h.start, h.noquote, h.mask, h.lvl, rfl, by simp, ?_, ?_, ?_⟩ (by simp) hw'
      · rw [acc_concat]; rfl
      · rw [acc_concat]; simp [accStep, h.str]
      · simp [Part.isEx]

/-- C14: a string composed of texts without `((`, escaped expressions `((!…))` and expressions
`((…))` with balanced parentheses (quoted strings being skipped) is converted to exactly the
concatenation of these parts; without any expression the literal text is returned, where
one level of escaping is removed if requested. -/
theorem interpolation_wellformed (quote : List Char → List Char) (hq : ∀ l, quote l ≠ []) (u : Bool) (ps : List Part)
    (hw : WellFormed ps) : convertToExpression quote (renderParts ps) u = outputOf quote u ps := by
  have h := run_parts quote hq u ps {} [] ⟨rfl, rfl, rfl, rfl, rfl, by simp, rfl, rfl, rfl⟩ (by simp) hw
  simp only [List.nil_append] at h
  unfold convertToExpression outputOf
  generalize (renderParts ps).foldl (convStep quote u) {} = st at h
  obtain ⟨h1, h2, h3⟩ := acc_facts quote hq u ps
  have hstart := h.start
  have hstr := h.str
  have hexpr := h.expr
  have hres := h.result
  have hfound := h.found
  cases hp : ps.any Part.isEx with
  | false =>
    rw [hp] at hfound
    rw [(h2 hp).1] at hres
    rw [(h2 hp).2] at hstr
    simp [addExpr, hstart, hexpr, hres, hfound, blankSep, hstr]
  | true =>
    have hrne : blankSep (acc quote u ps).1 ≠ [] := fun hh => h3 hp ((blankSep_eq_nil _ h1).1 hh)
    rw [acc_pieces]
    unfold litPiece
    by_cases hs : (acc quote u ps).2 = []
    · simp [addExpr, hstart, hexpr, hres, hrne, hstr, hs]
    · rw [if_neg hs, blankSep_concat, if_neg (h3 hp)]
      simp [addExpr, hstart, hexpr, hres, hrne, hstr, hs]

/-- C14: a string without `((` is never converted. -/
theorem interpolation_plain (quote : List Char → List Char) (hq : ∀ l, quote l ≠ []) (u : Bool) (t : List Char)
    (h : NoOpen t) : convertToExpression quote t u = .inl t := by
  have := interpolation_wellformed quote hq u [.text t] ⟨h, by simp, trivial⟩
  simpa [renderParts, Part.render, outputOf, Part.isEx, Part.literal] using this

/-- C14: a string whose expressions are all escaped is emitted with one level of escaping removed. -/
theorem interpolation_unescape (quote : List Char → List Char) (hq : ∀ l, quote l ≠ []) (t1 b t2 : List Char)
    (h1 : NoOpen t1) (hb : Balanced b) (h2 : NoOpen t2) :
    convertToExpression quote (t1 ++ ('(' :: '(' :: '!' :: b ++ [')', ')']) ++ t2) true =
      .inl (t1 ++ ('(' :: '(' :: b ++ [')', ')']) ++ t2) := by
  have := interpolation_wellformed quote hq true [.text t1, .esc b, .text t2]
    ⟨h1, by simp, hb, h2, by simp, trivial⟩
  simpa [renderParts, Part.render, outputOf, Part.isEx, Part.literal] using this

/-! ### non-triviality -/

/-- `a((f("x)") ))b((!c))` becomes `"a" ( f("x)") ) "b((!c))"` -/
example : convertToExpression (fun l => '"' :: l ++ ['"']) "a((f(\"x)\") ))b((!c))".toList false =
    .inr "\"a\" ( f(\"x)\") ) \"b((!c))\"".toList := by decide

example : WellFormed [.text ['a'], .ex ['f', '(', '"', 'x', ')', '"', ')', ' '], .text ['b'], .esc ['c']] := by
  refine ⟨by simp [NoOpen], by simp, ⟨'f', _, rfl, by decide, by decide, by decide, ?_⟩, by simp, by simp [NoOpen], by simp,
    .char 'c' [] (by decide) .nil, trivial⟩
  exact .paren ['"', 'x', ')', '"'] [' '] (.quoted ['x', ')'] [] (.char _ _ (by decide) (.char _ _ (by decide) .nil)) .nil)
    (.char ' ' [] (by decide) .nil)

/-- Limit of the well-formedness: a quoted string directly after `((` is not recognised as such (the
first character is not examined), so a `)` in it ends the expression too early. -/
theorem interpolation_leading_quote :
    convertToExpression (fun l => '"' :: l ++ ['"']) "((\"))\"))x".toList false =
      .inr "( \" ) \"\"))x\"".toList := by decide

end Spiff
