import Verif.Spec.LibText
import Verif.Props.Library
import Verif.Props.SheetText
/-
C99: texts processed through the library.
-/
namespace Spiff
open Spec

section
variable {φ σ E S : Type} (L : CmdLib E S)

theorem forall2_split {α β : Type} {R : α → β → Prop} : ∀ {a b : List α} {l : List β}, List.Forall₂ R (a ++ b) l → ∃ x y, List.Forall₂ R a x ∧ List.Forall₂ R b y ∧ l = x ++ y
  | [], _, l, h => ⟨[], l, .nil, h, rfl⟩
  | _ :: a, b, _, .cons h hr => by
    obtain ⟨x, y, h1, h2, rfl⟩ := forall2_split (a := a) hr
    exact ⟨_ :: x, y, .cons h h1, h2, rfl⟩

theorem source_ok (src : TextSource) (n : Node E) : unmarshalSource L src = .ok n ↔ SourceDoc L src n := by
  unfold unmarshalSource SourceDoc
  cases h : src.data with
  | none => simp
  | some b => simp [parseOne_ok]

theorem sources_ok (l : List TextSource) (ns : List (Node E)) : unmarshalSources L l = .ok ns ↔ List.Forall₂ (SourceDoc L) l ns := by
  induction l generalizing ns with
  | nil =>
    simp only [unmarshalSources, Except.ok.injEq]
    constructor
    · rintro rfl; exact .nil
    · intro h; cases h; rfl
  | cons s r ih =>
    rw [unmarshalSources]
    cases h : unmarshalSource L s with
    | error x =>
      simp only [Except.bind, reduceCtorEq, false_iff]
      intro hf
      cases hf with
      | cons h1 _ => rw [(source_ok L s _).2 h1] at h; cases h
    | ok n =>
      cases h' : unmarshalSources L r with
      | error x =>
        simp only [Except.bind, Except.map, reduceCtorEq, false_iff]
        intro hf
        cases hf with
        | cons h1 h2 => rw [(ih _).2 h2] at h'; cases h'
      | ok ms =>
        simp only [Except.bind, Except.map, Except.ok.injEq]
        constructor
        · rintro rfl
          exact .cons ((source_ok L s n).1 h) ((ih ms).1 h')
        · intro hf
          cases hf with
          | cons h1 h2 =>
            rw [(source_ok L s _).2 h1] at h; cases h
            rw [(ih _).2 h2] at h'; cases h'
            rfl

variable [Inhabited (Node E)] (G : Engine φ σ S (Node E)) (grow : Nat → Nat → Nat)

theorem nodes_ok (w : LibWorld φ σ S (Node E)) {i : Nat} {c : LibCtx σ S} (hc : w.ctxs[i]? = some c) (t : Node E) (stubs : List (Node E)) (r : Node E) :
    (cascadeNodes G grow w i t stubs).2 = .ok r ↔ CascadeResult G w.shared c.settings (w.tagsOf c) t stubs r := by
  have hs : (⟨w.arrays.length, stubs.length, stubs.length + 0⟩ : Slice).OK (w.arrays ++ [stubs]) := by
    refine ⟨by simp, by simp, ?_⟩
    simp [List.getD_eq_getElem?_getD]
  have hr : (⟨w.arrays.length, stubs.length, stubs.length + 0⟩ : Slice).read (w.arrays ++ [stubs]) = stubs := by
    simp [Slice.read, List.getD_eq_getElem?_getD]
  have he := cascade_eq G grow { w with arrays := w.arrays ++ [stubs] } hc t hs [] r
  have ho := cascade_out G grow { w with arrays := w.arrays ++ [stubs] } hc t ⟨w.arrays.length, stubs.length, stubs.length + 0⟩ []
  rw [hr, List.append_nil] at he
  rw [show (LibWorld.tagsOf { w with arrays := w.arrays ++ [stubs] } c) = w.tagsOf c from rfl] at he
  rw [← he]
  have e : w.step G grow (.alloc stubs []) = ({ w with arrays := w.arrays ++ [stubs] }, .slice ⟨w.arrays.length, stubs.length, stubs.length + 0⟩) := by
    simp [LibWorld.step]
  unfold cascadeNodes
  rw [e]
  simp only
  rcases hst : LibWorld.step G grow { w with arrays := w.arrays ++ [stubs] } (.cascade i t ⟨w.arrays.length, stubs.length, stubs.length + 0⟩ []) with ⟨w', o⟩
  rw [hst] at ho
  rcases ho with ⟨r', ho⟩ | ho
  · simp only at ho; subst ho; simp
  · simp only at ho; subst ho; simp

/-- **C99**: `Process` gives the text of the result of processing the document of a text, in a state given only by settings, tags and features of the context -/
theorem process_text_iff (w : LibWorld φ σ S (Node E)) {i : Nat} {c : LibCtx σ S} (hc : w.ctxs[i]? = some c) (src : TextSource) (out : Bytes) :
    (processText L G grow w i src).2 = .ok out ↔
      ∃ t r, SourceDoc L src t ∧ CascadeResult G w.shared c.settings (w.tagsOf c) t [] r ∧ L.yaml r = some out := by
  unfold processText
  cases h : unmarshalSource L src with
  | error x =>
    simp only [reduceCtorEq, false_iff]
    rintro ⟨t, r, h1, -⟩
    rw [(source_ok L src t).2 h1] at h; cases h
  | ok t =>
    have hn := fun r => nodes_ok G grow w hc t [] r
    have ht := (source_ok L src t).1 h
    simp only
    rcases hcn : cascadeNodes G grow w i t [] with ⟨w', o⟩
    rw [hcn] at hn
    have hu : ∀ t', SourceDoc L src t' → t' = t := fun t' h' => by
      rw [(source_ok L src t').2 h'] at h; injection h
    cases o with
    | error x =>
      simp only [reduceCtorEq, false_iff]
      rintro ⟨t', r, h1, h2, -⟩
      rw [hu t' h1] at h2
      exact absurd ((hn r).2 h2) (by simp)
    | ok r =>
      simp only [orFatal_ok]
      constructor
      · intro hy; exact ⟨t, r, ht, (hn r).1 rfl, hy⟩
      · rintro ⟨t', r', h1, h2, h3⟩
        rw [hu t' h1] at h2
        have := (hn r').2 h2
        injection this with this
        rw [this]; exact h3

/-- **C99**: `Cascade` on texts: the stubs and then the states are the stubs of the processing; the texts of the result and of its state fields are returned -/
theorem cascade_texts_iff (w : LibWorld φ σ S (Node E)) {i : Nat} {c : LibCtx σ S} (hc : w.ctxs[i]? = some c) (template : TextSource) (stubs states : List TextSource) (out st : Bytes) :
    (cascadeTexts L G grow w i template stubs states).2 = .ok (out, st) ↔
      ∃ t ss ts r, SourceDoc L template t ∧ List.Forall₂ (SourceDoc L) stubs ss ∧ List.Forall₂ (SourceDoc L) states ts ∧
        CascadeResult G w.shared c.settings (w.tagsOf c) t (ss ++ ts) r ∧ L.yaml r = some out ∧ L.yaml (determineState r) = some st := by
  unfold cascadeTexts
  cases hs : unmarshalSources L (stubs ++ states) with
  | error x =>
    simp only [reduceCtorEq, false_iff]
    rintro ⟨t, ss, ts, r, h1, h2, h3, -⟩
    rw [(sources_ok L _ _).2 (List.rel_append h2 h3)] at hs; cases hs
  | ok ns =>
    have hu : ∀ ss ts, List.Forall₂ (SourceDoc L) stubs ss → List.Forall₂ (SourceDoc L) states ts → ss ++ ts = ns := fun ss ts h1 h2 => by
      rw [(sources_ok L _ _).2 (List.rel_append h1 h2)] at hs; injection hs
    obtain ⟨ss, ts, hss, hts, hns⟩ : ∃ ss ts, List.Forall₂ (SourceDoc L) stubs ss ∧ List.Forall₂ (SourceDoc L) states ts ∧ ns = ss ++ ts := by
      exact forall2_split ((sources_ok L _ _).1 hs)
    simp only
    cases h : unmarshalSource L template with
    | error x =>
      simp only [reduceCtorEq, false_iff]
      rintro ⟨t, ss, ts, r, h1, -⟩
      rw [(source_ok L template t).2 h1] at h; cases h
    | ok t =>
      have hn := fun r => nodes_ok G grow w hc t ns r
      have ht := (source_ok L template t).1 h
      have hut : ∀ t', SourceDoc L template t' → t' = t := fun t' h' => by
        rw [(source_ok L template t').2 h'] at h; injection h
      simp only
      rcases hcn : cascadeNodes G grow w i t ns with ⟨w', o⟩
      rw [hcn] at hn
      cases o with
      | error x =>
        simp only [reduceCtorEq, false_iff]
        rintro ⟨t', ss', ts', r, h1, h2, h3, h4, -⟩
        rw [hut t' h1, hu ss' ts' h2 h3] at h4
        exact absurd ((hn r).2 h4) (by simp)
      | ok r =>
        have key : ((orFatal (L.yaml r)).bind (fun b => (orFatal (L.yaml (determineState r))).map (fun s => (b, s))) = .ok (out, st)) ↔
            L.yaml r = some out ∧ L.yaml (determineState r) = some st := by
          cases L.yaml r <;> cases L.yaml (determineState r) <;> simp [orFatal, Except.bind, Except.map]
        simp only [key]
        constructor
        · rintro ⟨h1, h2⟩
          exact ⟨t, ss, ts, r, ht, hss, hts, hns ▸ (hn r).1 rfl, h1, h2⟩
        · rintro ⟨t', ss', ts', r', h1, h2, h3, h4, h5, h6⟩
          rw [hut t' h1, hu ss' ts' h2 h3] at h4
          have := (hn r').2 h4
          injection this with this
          rw [this]; exact ⟨h5, h6⟩

theorem lines_plain {l : Bytes} (h : 10 ∉ l) : splitLines l = [l] := by
  induction l with
  | nil => rfl
  | cons c r ih =>
    rw [List.mem_cons, not_or] at h
    rw [splitLines, if_neg (fun e => h.1 e.symm), ih h.2]

theorem lines_break {l : Bytes} (h : 10 ∉ l) (r : Bytes) : splitLines (l ++ 10 :: r) = l :: splitLines r := by
  induction l with
  | nil => rw [List.nil_append, splitLines, if_pos rfl]
  | cons c w ih =>
    rw [List.mem_cons, not_or] at h
    rw [List.cons_append, splitLines, if_neg (fun e => h.1 e.symm), ih h.2]

theorem lines_empty {r : Bytes} (h : splitLines r = [[]]) : r = [] := by
  cases r with
  | nil => rfl
  | cons c w =>
    rw [splitLines] at h
    by_cases hc : c = 10
    · rw [if_pos hc] at h
      injection h with _ h
      cases w with
      | nil => cases h
      | cons d w =>
        rw [splitLines] at h
        split at h
        · cases h
        · split at h <;> cases h
    · rw [if_neg hc] at h
      split at h
      · injection h with h _; cases h
      · injection h with h _; cases h

theorem first_break {b : Bytes} (h : (10 : UInt8) ∈ b) : ∃ a r, b = a ++ 10 :: r ∧ 10 ∉ a := by
  induction b with
  | nil => cases h
  | cons c w ih =>
    by_cases hc : c = 10
    · exact ⟨[], w, by rw [hc]; rfl, by simp⟩
    · rcases List.mem_cons.1 h with h | h
      · exact absurd h.symm hc
      · obtain ⟨a, r, rfl, ha⟩ := ih h
        exact ⟨c :: a, r, rfl, by rw [List.mem_cons, not_or]; exact ⟨fun e => hc e.symm, ha⟩⟩

theorem one_line_spec (b : Bytes) : (∃ l, 10 ∉ l ∧ b = l ++ [10] ∧ oneLine b = l) ∨ ((∀ l, 10 ∉ l → b ≠ l ++ [10]) ∧ oneLine b = b) := by
  by_cases h : ∃ l, 10 ∉ l ∧ b = l ++ [10]
  · obtain ⟨l, h1, rfl⟩ := h
    left
    refine ⟨l, h1, rfl, ?_⟩
    rw [oneLine, lines_break h1]
    rfl
  · right
    have h' : ∀ l, 10 ∉ l → b ≠ l ++ [10] := fun l hl e => h ⟨l, hl, e⟩
    refine ⟨h', ?_⟩
    unfold oneLine
    split
    · rename_i l hs
      exfalso
      by_cases hb : (10 : UInt8) ∈ b
      · obtain ⟨a, r, ha, hr⟩ := first_break hb
        rw [ha, lines_break hr] at hs
        injection hs with e1 e2
        have : r = [] := lines_empty e2
        subst this
        exact h' a hr ha
      · rw [lines_plain hb] at hs
        cases hs
    · rfl

/-- **C99**: an expression evaluated through the library: the text of its value, without the line break if it is a single line -/
theorem evaluate_text_iff (w : LibWorld φ σ S (Node E)) {i : Nat} {c : LibCtx σ S} (hc : w.ctxs[i]? = some c) (expr out : Bytes) :
    (evaluateText L G grow w i expr).2 = .ok out ↔
      ∃ t r text, DocsOf L "dynaml" (asciiBytes "(( " ++ expr ++ asciiBytes " ))") [t] ∧ CascadeResult G w.shared c.settings (w.tagsOf c) t [] r ∧ L.yaml r = some text ∧
        ((10 ∉ out ∧ text = out ++ [10]) ∨ ((∀ l, 10 ∉ l → text ≠ l ++ [10]) ∧ out = text)) := by
  have ea : asciiBytes "(( " ++ expr ++ asciiBytes " ))" = [40, 40, 32] ++ expr ++ [32, 41, 41] := by
    rw [show asciiBytes "(( " = [40, 40, 32] by decide, show asciiBytes " ))" = [32, 41, 41] by decide]
  rw [ea]
  have hp := fun o => process_text_iff L G grow w hc ⟨"dynaml", some ([40, 40, 32] ++ expr ++ [32, 41, 41])⟩ o
  have hsd : ∀ t, SourceDoc L ⟨"dynaml", some ([40, 40, 32] ++ expr ++ [32, 41, 41])⟩ t ↔ DocsOf L "dynaml" ([40, 40, 32] ++ expr ++ [32, 41, 41]) [t] := by
    intro t; simp [SourceDoc]
  simp only [hsd] at hp
  unfold evaluateText
  rcases hpt : processText L G grow w i ⟨"dynaml", some ([40, 40, 32] ++ expr ++ [32, 41, 41])⟩ with ⟨w', o⟩
  rw [hpt] at hp
  have hl : ∀ text, oneLine text = out ↔ ((10 ∉ out ∧ text = out ++ [10]) ∨ ((∀ l, 10 ∉ l → text ≠ l ++ [10]) ∧ out = text)) := by
    intro text
    rcases one_line_spec text with ⟨l, h1, h2, h3⟩ | ⟨h1, h2⟩
    · rw [h3]
      constructor
      · rintro rfl; exact .inl ⟨h1, h2⟩
      · rintro (⟨h4, h5⟩ | ⟨h4, -⟩)
        · rw [h2] at h5; exact List.append_cancel_right h5
        · exact absurd h2 (h4 l h1)
    · rw [h2]
      constructor
      · rintro rfl; exact .inr ⟨h1, rfl⟩
      · rintro (⟨h4, h5⟩ | ⟨-, h4⟩)
        · exact absurd h5 (h1 out h4)
        · exact h4.symm
  cases o with
  | error x =>
    simp only [reduceCtorEq, false_iff]
    rintro ⟨t, r, text, h1, h2, h3, -⟩
    exact absurd ((hp text).2 ⟨t, r, h1, h2, h3⟩) (by simp)
  | ok b =>
    simp only [Except.ok.injEq, hl]
    constructor
    · intro h
      obtain ⟨t, r, h1, h2, h3⟩ := (hp b).1 rfl
      exact ⟨t, r, b, h1, h2, h3, h⟩
    · rintro ⟨t, r, text, h1, h2, h3, h4⟩
      have := (hp text).2 ⟨t, r, h1, h2, h3⟩
      injection this with this
      rw [this]; exact h4

end

/-! ### the library and the command -/

section
variable {φ σ E S : Type}

theorem cascade_result_command (L : CmdLib E S) (start : σ → List (String × Node E) → S) (ip : φ → Bool) (f : φ) (settings : σ) (tags : List (String × Node E)) (t : Node E) (stubs : List (Node E)) (r : Node E) :
    CascadeResult (libEngine L start ip) f settings tags t stubs r ↔
      ∃ s prepared, prepareAll L false (start settings tags) stubs = (s, some prepared) ∧ ∃ s', applyDoc L (ip f) {} prepared (L.reset s) t = (s', r, none) := by
  unfold CascadeResult
  constructor
  · rintro ⟨b, prepared, h1, h2⟩
    refine ⟨b, prepared, (loop_command L start ip f _ _ _ _).1 ((loop_iff _ _ _ _ _ _).2 h1), ?_⟩
    have := (apply_iff _ _ _ _ _ _).2 h2
    rcases h : applyStubs (libEngine L start ip) f ((libEngine L start ip).reset b) t prepared with ⟨s', o⟩
    rw [h] at this
    simp only at this
    subst this
    exact ⟨s', (apply_command L start ip f _ _ _ _ _).1 h⟩
  · rintro ⟨s, prepared, h1, s', h2⟩
    refine ⟨s, prepared, (loop_iff _ _ _ _ _ _).1 ((loop_command L start ip f _ _ _ _).2 h1), (apply_iff _ _ _ _ _ _).1 ?_⟩
    have := (apply_command L start ip f (L.reset s) t prepared s' r).2 h2
    show (applyStubs (libEngine L start ip) f (L.reset s) t prepared).2 = some r
    rw [this]

/-- the inputs of a run without options -/
theorem inputs_plain (L : CmdLib E S) {w : Surroundings} (hw : envFlags w.envFeatures = []) {f : String} {files : List String} (hone : (f :: files).count "-" ≤ 1) {b : Bytes} (hb : TextOf w f b) {t : Node E} {stubs : List (Node E)}
    (hd : DocsOf L f b [t]) (hs : List.Forall₂ (DocOf L w) files stubs) :
    readInputs L w { template := f, stubs := files } false [] = .ok ⟨[t], stubs, none, []⟩ := by
  have ht : readTemplate w false f = .ok (b, decide (f = "-")) := by
    unfold TextOf at hb
    unfold readTemplate
    split at hb
    · rename_i hf
      subst hb
      rw [if_pos hf]; simp [hf]
    · rename_i hf
      rw [if_neg hf, (readFile_iff w f b).2 hb]
      simp [hf, orFatal, Except.map]
  have hst : readStubs L w (decide (f = "-")) files = .ok stubs := by
    rw [readStubs_ok]
    refine ⟨hs, ?_⟩
    by_cases hf : f = "-"
    · subst hf
      rw [List.count_cons_self] at hone
      simp only [decide_true, if_true]
      omega
    · rw [List.count_cons_of_ne (by simpa using hf)] at hone
      simpa [hf] using hone
  unfold readInputs
  simp only [ht, Except.bind, (parseMulti_iff _ f b [t]).2 hd, orFatal, readState, readYAML, if_true, defineValues, readTags,
    hst, cmdFeatures, List.flatMap_nil, setFlags, Except.map, Bool.false_eq_true, if_false, hw, cmdContext]
  simp

/-- a run without options on a template with one document -/
theorem command_one (L : CmdLib E S) {w : Surroundings} (hw : envFlags w.envFeatures = []) {f : String} {files : List String} (hone : (f :: files).count "-" ≤ 1) {b : Bytes} (hb : TextOf w f b) {t : Node E} {stubs : List (Node E)}
    (hd : DocsOf L f b [t]) (hn : t.val.isNil = false) (hs : List.Forall₂ (DocOf L w) files stubs) (out : Bytes) :
    mergeMain L w { template := f, stubs := files } [] = ⟨out, w.fs, none⟩ ↔
      ∃ s prepared s' r, prepareAll L false (L.start none) stubs = (s, some prepared) ∧ applyDoc L (Features.enabled [] "interpolation") {} prepared (L.reset s) t = (s', r, none) ∧
        ((r.ann.flags.temporary = true ∧ out = []) ∨ (r.ann.flags.temporary = false ∧ ∃ text, L.yaml r = some text ∧ out = if text = [] then dashes else text)) := by
  unfold mergeMain
  rw [show createValues [] = some [] from rfl]
  simp only
  unfold mergeCmd
  rw [show ({ template := f, stubs := files, values := [] } : Job) = { template := f, stubs := files } from rfl, inputs_plain L hw hone hb hd hs]
  simp only
  rcases hp : prepareAll L false (L.start none) stubs with ⟨s, o⟩
  cases o with
  | none => simp
  | some prepared =>
    simp only [allDocs, oneDoc, hn, Bool.false_eq_true, if_false, flowedDoc]
    rcases ha : applyDoc L (Features.enabled [] "interpolation") {} prepared (L.reset s) t with ⟨s', r, e⟩
    have hid : ∀ (Q : Node E → Prop), (∃ s0 p0 s1 r1, (s, some prepared) = (s0, some p0) ∧ applyDoc L (Features.enabled [] "interpolation") {} p0 (L.reset s0) t = (s1, r1, none) ∧ Q r1) ↔ (e = none ∧ Q r) := by
      intro Q
      constructor
      · rintro ⟨s0, p0, s1, r1, h1, h2, h3⟩
        cases h1
        rw [ha] at h2
        cases h2
        exact ⟨rfl, h3⟩
      · rintro ⟨rfl, h⟩
        exact ⟨s, prepared, s', r, rfl, ha, h⟩
    rw [hid (fun r => (r.ann.flags.temporary = true ∧ out = []) ∨ (r.ann.flags.temporary = false ∧ ∃ text, L.yaml r = some text ∧ out = if text = [] then dashes else text))]
    cases e with
    | some e => simp [conclude]
    | none =>
      by_cases htmp : r.ann.flags.temporary = true
      · simp only [Bool.not_false, Option.isSome_none, Bool.and_false, Bool.false_eq_true, if_false, Bool.true_and, htmp, if_true]
        simp [conclude, printAll, eq_comm]
      · have htmp' : r.ann.flags.temporary = false := by simpa using htmp
        simp only [Bool.not_false, Option.isSome_none, Bool.and_false, Bool.false_eq_true, if_false, Bool.true_and, htmp']
        rcases hy : L.yaml r with _ | text
        · simp [takePath, writeState, finishDoc, evaluateExpr, selectFields, renderDoc, hy, conclude, renderText, orFatal, Except.bind, Except.map, htmp']
        · simp only [takePath, writeState, finishDoc, evaluateExpr, selectFields, renderDoc, hy, conclude, renderText, orFatal, Except.bind, Except.map, htmp', if_true, Bool.false_eq_true, if_false]
          have hpr : printAll false [some text] = if text = [] then dashes else text := by
            cases text <;> simp [printAll, printOne]
          simp [hpr, eq_comm]

theorem source_docs (L : CmdLib E S) {w : Surroundings} : ∀ {files : List String} {srcs : List TextSource} {ns : List (Node E)},
    List.Forall₂ (SourceOf w) files srcs → List.Forall₂ (SourceDoc L) srcs ns → List.Forall₂ (DocOf L w) files ns := by
  intro files srcs ns h
  induction h generalizing ns with
  | nil => intro h2; cases h2; exact .nil
  | cons h1 _ ih =>
    intro h2
    cases h2 with
    | cons h3 h4 =>
      refine .cons ?_ (ih h4)
      obtain ⟨e, b, hb, hd⟩ := h1
      obtain ⟨b', hb', hdd⟩ := h3
      rw [hd] at hb'
      cases hb'
      exact ⟨b, hb, e ▸ hdd⟩

/-- **C99**: the library and the command yield the same text for the same sources. A result marked as temporary is not printed by the command. -/
theorem library_same_text (L : CmdLib E S) (start : σ → List (String × Node E) → S) (ip : φ → Bool) [Inhabited (Node E)] (grow : Nat → Nat → Nat)
    {w : Surroundings} (hw : envFlags w.envFeatures = []) (lw : LibWorld φ σ S (Node E)) {i : Nat} {c : LibCtx σ S} (hc : lw.ctxs[i]? = some c)
    (hstart : start c.settings (lw.tagsOf c) = L.start none) (hip : ip lw.shared = Features.enabled [] "interpolation")
    {f : String} {files : List String} (hone : (f :: files).count "-" ≤ 1) {template : TextSource} {stubs : List TextSource}
    (hf : SourceOf w f template) (hfs : List.Forall₂ (SourceOf w) files stubs)
    {t : Node E} {ss : List (Node E)} (ht : SourceDoc L template t) (hn : t.val.isNil = false) (hs : List.Forall₂ (SourceDoc L) stubs ss) (out : Bytes) (hout : out ≠ []) :
    ((∃ st, (cascadeTexts L (libEngine L start ip) grow lw i template stubs []).2 = .ok (out, st)) →
      mergeMain L w { template := f, stubs := files } [] = ⟨out, w.fs, none⟩ ∨ mergeMain L w { template := f, stubs := files } [] = ⟨[], w.fs, none⟩) ∧
    (mergeMain L w { template := f, stubs := files } [] = ⟨out, w.fs, none⟩ → out ≠ dashes →
      ((∃ st, (cascadeTexts L (libEngine L start ip) grow lw i template stubs []).2 = .ok (out, st)) ∨ ∃ r, L.yaml r = some out ∧ L.yaml (determineState r) = none) ∧
      (stubs = [] → (processText L (libEngine L start ip) grow lw i template).2 = .ok out)) := by
  obtain ⟨e, b, hb, hd⟩ := hf
  obtain ⟨b', hb', hdd⟩ := id ht
  rw [hd] at hb'
  cases hb'
  rw [e] at hdd
  have hcmd := command_one L hw hone hb hdd hn (source_docs L hfs hs)
  constructor
  · rintro ⟨st, h⟩
    obtain ⟨t', ss', ts, r, h1, h2, h3, h4, h5, -⟩ := (cascade_texts_iff L _ grow lw hc template stubs [] out st).1 h
    cases h3
    have e1 : t' = t := by
      have a := (source_ok L template t').2 h1
      rw [(source_ok L template t).2 ht] at a
      injection a with a
      exact a.symm
    have e2 : ss' = ss := by
      have a := (sources_ok L stubs ss').2 h2
      rw [(sources_ok L stubs ss).2 hs] at a
      injection a with a
      exact a.symm
    subst e1 e2
    rw [List.append_nil, cascade_result_command, hstart, hip] at h4
    obtain ⟨s, prepared, h6, s', h7⟩ := h4
    cases htmp : r.ann.flags.temporary with
    | true => exact .inr ((hcmd []).2 ⟨s, prepared, s', r, h6, h7, .inl ⟨htmp, rfl⟩⟩)
    | false => exact .inl ((hcmd out).2 ⟨s, prepared, s', r, h6, h7, .inr ⟨htmp, out, h5, by rw [if_neg hout]⟩⟩)
  · intro h hdash
    obtain ⟨s, prepared, s', r, h6, h7, h8⟩ := (hcmd out).1 h
    rcases h8 with ⟨-, h8⟩ | ⟨-, text, h8, h9⟩
    · exact absurd h8 hout
    · have htext : out = text := by
        by_cases hz : text = []
        · rw [if_pos hz] at h9; exact absurd h9 hdash
        · rw [if_neg hz] at h9; exact h9
      subst htext
      have hres : CascadeResult (libEngine L start ip) lw.shared c.settings (lw.tagsOf c) t ss r := by
        rw [cascade_result_command, hstart, hip]
        exact ⟨s, prepared, h6, s', h7⟩
      constructor
      · rcases hst : L.yaml (determineState r) with _ | st
        · exact .inr ⟨r, h8, hst⟩
        · exact .inl ⟨st, (cascade_texts_iff L _ grow lw hc template stubs [] out st).2 ⟨t, ss, [], r, ht, hs, .nil, by rw [List.append_nil]; exact hres, h8, hst⟩⟩
      · rintro rfl
        cases hs
        exact (process_text_iff L _ grow lw hc template out).2 ⟨t, r, ht, hres, h8⟩

end

instance : Inhabited (Node Ex) := ⟨Node.new .nil ""⟩

/-- a run without stubs -/
def onlyWorld : Surroundings := { fs := [("f", sumTemplate)] }
theorem only_run : shown (mergeMain (sumLib 80 20) onlyWorld { template := "f", stubs := [] } []) =
    (asciiBytes "base: 8\noffset: 80\nport: 8000\ntotal: 8080\n", onlyWorld.fs, none) := by decide +kernel

/-- The hypotheses of `library_same_text` are met: the library yields the output of the command. -/
theorem library_same_example : (processText (sumLib 80 20) (libEngine (sumLib 80 20) (fun (_ : Unit) _ => ()) id) (fun _ n => n) ⟨[⟨(), none, none⟩], [], [], false⟩ 0
    ⟨"f", some sumTemplate⟩).2 = Except.ok (asciiBytes "base: 8\noffset: 80\nport: 8000\ntotal: 8080\n") := by
  have hf : SourceOf onlyWorld "f" ⟨"f", some sumTemplate⟩ :=
    ⟨rfl, sumTemplate, by simp only [TextOf]; rw [if_neg (by decide)]; rw [← readFile_iff]; rfl, rfl⟩
  have ht : DocsOf (sumLib 80 20) "f" sumTemplate [(Sheet.block sumTop "f").source] := readsB_ok (by decide +kernel)
  have hm := only_run
  rcases hl : mergeMain (sumLib 80 20) onlyWorld { template := "f", stubs := [] } [] with ⟨o, fs, e⟩
  rw [hl] at hm
  simp only [shown, Prod.mk.injEq] at hm
  obtain ⟨rfl, rfl, rfl⟩ := hm
  exact ((library_same_text (sumLib 80 20) (fun (_ : Unit) _ => ()) id (fun _ n => n) (w := onlyWorld) (by decide) ⟨[⟨(), none, none⟩], [], [], false⟩ (c := ⟨(), none, none⟩) rfl rfl (by decide)
    (by decide) hf .nil ⟨sumTemplate, rfl, ht⟩ rfl .nil (asciiBytes "base: 8\noffset: 80\nport: 8000\ntotal: 8080\n") (by decide)).2 hl (by decide)).2 rfl

end Spiff
