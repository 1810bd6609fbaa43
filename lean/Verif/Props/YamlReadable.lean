import Verif.Props.YamlKeys
import Verif.Spec.YamlLayout
/-
C86: the texts written consist of characters the reader accepts.
-/
namespace Spiff
open Spec

/-- printable ASCII and line feeds only -/
structure PlainChars (t : YText) : Prop where
  all : ∀ c ∈ t, isPlainC c = true

theorem PlainChars.append {a b : YText} (ha : PlainChars a) (hb : PlainChars b) : PlainChars (a ++ b) := by
  refine ⟨fun c hc => ?_⟩
  rcases List.mem_append.1 hc with h | h
  · exact ha.all c h
  · exact hb.all c h

theorem PlainChars.nil : PlainChars [] := ⟨by intro c hc; cases hc⟩

theorem PlainChars.cons {c : Char} {t : YText} (hc : isPlainC c = true) (ht : PlainChars t) : PlainChars (c :: t) := by
  refine ⟨fun d hd => ?_⟩
  rcases List.mem_cons.1 hd with rfl | hd
  · exact hc
  · exact ht.all d hd

theorem PlainChars.readable {t : YText} (h : PlainChars t) : t.all isReadableC = true := by
  rw [List.all_eq_true]
  intro c hc
  have := h.all c hc
  rcases (isPlainC_iff c).1 this with rfl | ⟨h1, h2⟩
  · decide
  · simp only [isReadableC, Bool.or_eq_true, Bool.and_eq_true, decide_eq_true_eq]
    omega

theorem plain_spaces (n : Nat) : PlainChars (List.replicate n ' ') := by
  refine ⟨fun c hc => ?_⟩
  rw [(List.mem_replicate.1 hc).2]
  decide

theorem plain_indent (n : Nat) (e : EPos) : PlainChars (writeIndent n e).1 := by
  unfold writeIndent
  split
  · exact .cons (by decide) (plain_spaces _)
  · exact plain_spaces _

theorem plain_indicator {t : YText} (h : PlainChars t) (a b c : Bool) (e : EPos) : PlainChars (writeIndicator t a b c e).1 := by
  unfold writeIndicator
  refine PlainChars.append ?_ h
  split
  · exact .cons (by decide) .nil
  · exact .nil

theorem plain_singleBody (q : Bool) (n : Nat) (allow : Bool) : ∀ (s : YText), PlainChars s → ∀ (first sp br : Bool) (e : EPos),
    PlainChars (singleBody q n allow first sp br e s).1 := by
  intro s
  induction s with
  | nil => intro _ _ _ _ _; exact .nil
  | cons c r ih =>
    intro h first sp br e
    have hc := h.all c (List.mem_cons_self ..)
    have ih := ih ⟨fun d hd => h.all d (List.mem_cons_of_mem _ hd)⟩
    rw [singleBody]
    by_cases c1 : c = ' '
    · rw [if_pos c1]
      split
      · exact PlainChars.append (plain_indent ..) (ih ..)
      · exact PlainChars.append (.cons (by decide) .nil) (ih ..)
    · rw [if_neg c1]
      by_cases c2 : isBreakC c = true
      · rw [if_pos c2]
        refine PlainChars.append (.append ?_ (.cons hc .nil)) (ih ..)
        split
        · exact .cons (by decide) .nil
        · exact .nil
      · rw [if_neg c2]
        refine PlainChars.append (.append ?_ (.append ?_ (.cons hc .nil))) (ih ..)
        · split
          · exact plain_indent ..
          · exact .nil
        · split
          · exact .cons (by decide) .nil
          · exact .nil

theorem plain_hexUpper : ∀ d < 16, isPlainC (hexUpper d) = true := by decide

theorem plain_hexText (v : Nat) : ∀ w, PlainChars (hexText w v) := by
  intro w
  induction w with
  | zero => exact .nil
  | succ w ih => exact .cons (plain_hexUpper _ (Nat.mod_lt _ (by decide))) ih

theorem plain_letter {v : Nat} {l : Char} (h : escapeLetter v = some l) : isPlainC l = true := by
  unfold escapeLetter at h
  split at h <;> first | (cases h; decide) | cases h

theorem plain_escape (c : Char) : PlainChars (escapeText c) := by
  unfold escapeText
  split
  · rename_i l h
    exact .cons (by decide) (.cons (plain_letter h) .nil)
  · split
    · exact .cons (by decide) (.cons (by decide) (plain_hexText ..))
    · split
      · exact .cons (by decide) (.cons (by decide) (plain_hexText ..))
      · exact .cons (by decide) (.cons (by decide) (plain_hexText ..))

theorem plain_doubleBody (n : Nat) (allow : Bool) : ∀ (s : YText) (first sp : Bool) (e : EPos), PlainChars (doubleBody n allow first sp e s).1 := by
  intro s
  induction s with
  | nil => intro _ _ _; exact .nil
  | cons c r ih =>
    intro first sp e
    rw [doubleBody]
    by_cases c1 : escapedC c = true
    · rw [if_pos c1]
      exact PlainChars.append (plain_escape c) (ih ..)
    · rw [if_neg c1]
      by_cases c2 : c = ' '
      · rw [if_pos c2]
        split
        · refine PlainChars.append (.append (plain_indent ..) ?_) (ih ..)
          split
          · exact .cons (by decide) .nil
          · exact .nil
        · exact PlainChars.append (.cons (by decide) .nil) (ih ..)
      · rw [if_neg c2]
        refine PlainChars.append (.cons ?_ .nil) (ih ..)
        simp only [escapedC, Bool.or_eq_true, not_or, Bool.not_eq_true, Bool.not_eq_false'] at c1
        exact c1.1.1.1

theorem plain_literalBody (n : Nat) : ∀ (s : YText), PlainChars s → ∀ (br : Bool) (e : EPos), PlainChars (literalBody n br e s).1 := by
  intro s
  induction s with
  | nil => intro _ _ _; exact .nil
  | cons c r ih =>
    intro h br e
    have hc := h.all c (List.mem_cons_self ..)
    have ih := ih ⟨fun d hd => h.all d (List.mem_cons_of_mem _ hd)⟩
    rw [literalBody]
    split
    · exact PlainChars.append (.cons hc .nil) (ih ..)
    · refine PlainChars.append (.append ?_ (.cons hc .nil)) (ih ..)
      split
      · exact plain_indent ..
      · exact .nil

theorem plain_hints (s : YText) : PlainChars (blockHints s) := by
  unfold blockHints
  refine PlainChars.append ?_ ?_
  · split
    · split
      · exact .cons (by decide) .nil
      · exact .nil
    · exact .nil
  · split
    · exact .cons (by decide) .nil
    · split
      · exact .cons (by decide) .nil
      · exact .cons (by decide) .nil

theorem plain_writeText (simple : Bool) (n : Nat) (e : EPos) (st : YStyle) (s : YText) (h : st = .double ∨ PlainChars s) :
    PlainChars (writeText simple n e st s).1 := by
  have hq : PlainChars ['\''] := .cons (by decide) .nil
  have hd : PlainChars ['"'] := .cons (by decide) .nil
  have hl : PlainChars ['|'] := .cons (by decide) .nil
  cases st with
  | double => exact PlainChars.append (.append (plain_indicator hd ..) (plain_doubleBody ..)) (plain_indicator hd ..)
  | plain =>
    have h : PlainChars s := by simpa using h
    refine PlainChars.append ?_ (plain_singleBody _ _ _ s h ..)
    split
    · exact .cons (by decide) .nil
    · exact .nil
  | single =>
    have h : PlainChars s := by simpa using h
    exact PlainChars.append (.append (plain_indicator hq ..) (plain_singleBody _ _ _ s h ..)) (plain_indicator hq ..)
  | literal =>
    have h : PlainChars s := by simpa using h
    exact PlainChars.append (.append (.append (plain_indicator hl ..) (plain_hints s)) (.cons (by decide) .nil)) (plain_literalBody _ s h ..)

/-- the styles of events fit their texts -/
def StyleOk : WEvent → Prop
  | .scalar v st => st = .double ∨ PlainChars v
  | _ => True

theorem selected_ok (k : Bool) (s : YText) (req : YStyle) (hr : Asked s req) : StyleOk (.scalar s (selectStyle k s req)) := by
  unfold StyleOk
  cases h : selectStyle k s req with
  | double => exact .inl rfl
  | plain => exact .inr ⟨fun c hc => (isPlainC_iff c).2 (.inr ((selected_plain k s req h).2.printable c hc))⟩
  | single => exact .inr ⟨fun c hc => (isPlainC_iff c).2 (.inr ((selected_single h hr).2 c hc))⟩
  | literal => exact .inr ⟨(selected_literal h).2.2⟩

theorem node_styles {a : List WEvent} (h : NodeEvents a) : ∀ ev ∈ a, StyleOk ev := by
  refine NodeEvents.rec (motive_1 := fun a _ => ∀ ev ∈ a, StyleOk ev) (motive_2 := fun a _ => ∀ ev ∈ a, StyleOk ev)
    (motive_3 := fun a _ => ∀ ev ∈ a, StyleOk ev) ?_ ?_ ?_ ?_ ?_ ?_ ?_ h
  · intro s st hr ev hev
    rw [List.mem_singleton.1 hev]
    exact selected_ok _ _ _ hr
  · intro es _ ih ev hev
    rcases List.mem_cons.1 hev with rfl | hev
    · trivial
    · rcases List.mem_append.1 hev with hev | hev
      · exact ih ev hev
      · rw [List.mem_singleton.1 hev]; trivial
  · intro es _ ih ev hev
    rcases List.mem_cons.1 hev with rfl | hev
    · trivial
    · rcases List.mem_append.1 hev with hev | hev
      · exact ih ev hev
      · rw [List.mem_singleton.1 hev]; trivial
  · intro ev hev; cases hev
  · intro a b _ _ h1 h2 ev hev
    rcases List.mem_append.1 hev with hev | hev
    · exact h1 ev hev
    · exact h2 ev hev
  · intro ev hev; cases hev
  · intro k st a b hr _ _ h1 h2 ev hev
    rcases List.mem_cons.1 hev with rfl | hev
    · exact selected_ok _ _ _ hr
    · rcases List.mem_append.1 hev with hev | hev
      · exact h1 ev hev
      · exact h2 ev hev

/-- what is written by a step -/
def PlainOut (r : Emitted) : Prop := ∀ x, r = some x → PlainChars x.1

theorem plain_put {t : YText} {r : Emitted} (ht : PlainChars t) (hr : PlainOut r) : PlainOut (put t r) := by
  intro x hx
  unfold put at hx
  obtain ⟨y, h1, rfl⟩ := Option.map_eq_some_iff.1 hx
  exact .append ht (hr y h1)

theorem plain_emitNode (map simple : Bool) {ev : WEvent} (h : StyleOk ev) (next : Option WEvent) (s : Emitter) : PlainOut (emitNode map simple ev next s) := by
  intro x hx
  cases ev with
  | scalar v st =>
    simp only [emitNode, emitScalar] at hx
    obtain ⟨y, -, rfl⟩ := Option.map_eq_some_iff.1 hx
    exact plain_writeText _ _ _ _ _ h
  | seqStart => simp only [emitNode] at hx; cases hx; exact .nil
  | mapStart => simp only [emitNode] at hx; cases hx; exact .nil
  | seqEnd => simp [emitNode] at hx
  | mapEnd => simp [emitNode] at hx

theorem plain_empty {o c : Char} (ho : isPlainC o = true) (hc : isPlainC c = true) (s : Emitter) : PlainOut (emitEmpty o c s) := by
  intro x hx
  unfold emitEmpty at hx
  obtain ⟨s2, -, hx⟩ := Option.bind_eq_some_iff.1 hx
  obtain ⟨y, -, rfl⟩ := Option.map_eq_some_iff.1 hx
  exact .append (plain_indicator (.cons ho .nil) ..) (plain_indicator (.cons hc .nil) ..)

theorem plain_seqItem {ev : WEvent} (h : StyleOk ev) (next : Option WEvent) (s : Emitter) : PlainOut (emitSeqItem ev next s) := by
  unfold emitSeqItem
  split
  · intro x hx
    obtain ⟨y, -, rfl⟩ := Option.map_eq_some_iff.1 hx
    exact .nil
  · exact plain_put (.append (plain_indent ..) (plain_indicator (.cons (by decide) .nil) ..)) (plain_emitNode _ _ h _ _)

theorem plain_mapKey {ev : WEvent} (h : StyleOk ev) (next : Option WEvent) (s : Emitter) : PlainOut (emitMapKey ev next s) := by
  unfold emitMapKey
  split
  · intro x hx
    obtain ⟨y, -, rfl⟩ := Option.map_eq_some_iff.1 hx
    exact .nil
  · simp only
    split
    · exact plain_put (plain_indent ..) (plain_emitNode _ _ h _ _)
    · exact plain_put (.append (plain_indent ..) (plain_indicator (.cons (by decide) .nil) ..)) (plain_emitNode _ _ h _ _)

theorem plain_mapValue (simple : Bool) {ev : WEvent} (h : StyleOk ev) (next : Option WEvent) (s : Emitter) : PlainOut (emitMapValue simple ev next s) := by
  unfold emitMapValue
  split
  · exact plain_put (plain_indicator (.cons (by decide) .nil) ..) (plain_emitNode _ _ h _ _)
  · exact plain_put (.append (plain_indent ..) (plain_indicator (.cons (by decide) .nil) ..)) (plain_emitNode _ _ h _ _)

theorem plain_step {ev : WEvent} (h : StyleOk ev) (next : Option WEvent) (s : Emitter) : PlainOut (emitStep ev next s) := by
  unfold emitStep
  split
  · exact plain_emitNode _ _ h _ _
  · intro x hx; cases hx
  · split
    · exact plain_empty (by decide) (by decide) _
    · intro x hx; cases hx
  · split
    · exact plain_empty (by decide) (by decide) _
    · intro x hx; cases hx
  · exact plain_seqItem h _ _
  · exact plain_seqItem h _ _
  · exact plain_mapKey h _ _
  · exact plain_mapKey h _ _
  · exact plain_mapValue _ h _ _
  · exact plain_mapValue _ h _ _

theorem plain_emitAll : ∀ (es : List WEvent), (∀ ev ∈ es, StyleOk ev) → ∀ s, PlainOut (emitAll es s) := by
  intro es
  induction es with
  | nil => intro _ s x hx; simp only [emitAll, Option.some.injEq] at hx; subst hx; exact .nil
  | cons ev r ih =>
    intro h s x hx
    rw [emitAll] at hx
    obtain ⟨y, h1, hx⟩ := Option.bind_eq_some_iff.1 hx
    exact plain_put (plain_step (h ev (List.mem_cons_self ..)) _ s y h1) (ih (fun e he => h e (List.mem_cons_of_mem _ he)) _) x hx

/-- **C86**: the text of a document is printable ASCII -/
theorem document_plain {es : List WEvent} (h : NodeEvents es) {t : YText} (ht : writeDocument es = some t) : PlainChars t := by
  unfold writeDocument at ht
  obtain ⟨x, h1, ht⟩ := Option.bind_eq_some_iff.1 ht
  split at ht
  · cases ht
    exact .append (plain_emitAll es (node_styles h) _ x h1) (plain_indent ..)
  · cases ht

/-- **C86**: so is the whole output -/
theorem printed_plain (docs : List (Option (List WEvent))) (h : ∀ es, some es ∈ docs → NodeEvents es) (many : Bool) :
    PlainChars (docs.flatMap (fun d => printDocument many (d.bind writeDocument))) := by
  refine ⟨fun c hc => ?_⟩
  obtain ⟨d, hd, hc⟩ := List.mem_flatMap.1 hc
  have ht : PlainChars ((d.bind writeDocument).getD []) := by
    cases d with
    | none => exact .nil
    | some es =>
      cases hw : writeDocument es with
      | none => simp only [Option.bind_some, hw, Option.getD_none]; exact .nil
      | some t => simp only [Option.bind_some, hw, Option.getD_some]; exact document_plain (h es hd) hw
  have hp : PlainChars (printDocument many (d.bind writeDocument)) := ?_
  · exact hp.all c hc
  unfold printDocument
  refine .append ?_ ht
  split
  · exact .cons (by decide) (.cons (by decide) (.cons (by decide) (.cons (by decide) .nil)))
  · exact .nil

end Spiff
