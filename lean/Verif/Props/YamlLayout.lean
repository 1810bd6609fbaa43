import Verif.Props.YamlReadable
/-
C86: the text written for documents is read as the same documents.
-/
namespace Spiff
open Spec

/-! ### writing -/

theorem put_put (a b : YText) (r : Emitted) : put a (put b r) = put (a ++ b) r := by
  cases r <;> simp [put]

theorem put_nil (r : Emitted) : put [] r = r := by
  cases r <;> simp [put]

/-- a node is written: its first event by `emitNode`, the other ones by the state machine -/
def runNode (map simple : Bool) : List WEvent → Emitter → Emitted
  | [], _ => none
  | ev :: r, s => (emitNode map simple ev r.head? s).bind fun x => put x.1 (emitAll r x.2)

theorem put_bind (a : YText) (r : Emitted) (f : Emitter → Emitted) :
    (put a r).bind (fun x => put x.1 (f x.2)) = put a (r.bind fun x => put x.1 (f x.2)) := by
  cases r with
  | none => rfl
  | some x => simp only [put, Option.map_some, Option.bind_some]; rw [show ∀ y : Emitted, Option.map (fun x_1 => (a ++ x.1 ++ x_1.1, x_1.2)) y = put (a ++ x.1) y from fun _ => rfl, ← put_put]; rfl

theorem node_head {a : List WEvent} (h : NodeEvents a) : ∃ ev r, a = ev :: r ∧ ev ≠ .seqEnd ∧ ev ≠ .mapEnd := by
  cases h with
  | scalar => exact ⟨_, _, rfl, by simp, by simp⟩
  | seq => exact ⟨_, _, rfl, by simp, by simp⟩
  | map => exact ⟨_, _, rfl, by simp, by simp⟩

/-- an element is written -/
theorem emit_item {a : List WEvent} (h : NodeEvents a) (more : List WEvent) (mds : List EmitMode) (i : Nat) (ids : List Int) (mc : Bool) (e : EPos) :
    emitAll (a ++ more) ⟨.blockSeqItem, mds, i, ids, mc, e⟩ = put ((writeIndent i e).1 ++ ['-'])
      (runNode false false (a ++ more) ⟨.blockSeqItem, .blockSeqItem :: mds, i, ids, mc, ⟨i + 1, false, true⟩⟩) := by
  obtain ⟨ev, r, rfl, h1, _⟩ := node_head h
  rw [List.cons_append, emitAll, emitStep]
  simp only [emitSeqItem, if_neg h1, indentText, Int.toNat_natCast, writeIndent_pos]
  rw [put_bind]
  rfl

/-- the first element is written -/
theorem emit_item_first {a : List WEvent} (h : NodeEvents a) (more : List WEvent) (s : Emitter) (hm : s.mode = .blockSeqFirst)
    (hs : { increaseIndent false (s.mapCtx && !s.pos.ind) s with mode := .blockSeqItem } = s') :
    emitAll (a ++ more) s = emitAll (a ++ more) s' := by
  obtain ⟨ev, r, rfl, h1, _⟩ := node_head h
  subst hs
  rw [List.cons_append, emitAll, emitAll]
  congr 1
  unfold emitStep
  rw [hm]
  simp only [emitSeqItem, if_neg h1]
  cases ev <;> rfl

/-- a simple key is written -/
theorem emit_key (k : YText) (st : YStyle) (hk : checkSimpleKey k = true) (more : List WEvent) (mds : List EmitMode) (i : Nat) (ids : List Int) (mc : Bool)
    (e : EPos) : emitAll (.scalar k st :: more) ⟨.blockMapKey, mds, i, ids, mc, e⟩ =
      put ((writeIndent i e).1 ++ (writeText true (i + 2) ⟨i, true, true⟩ st k).1)
        (emitAll more ⟨.blockMapSimpleValue, mds, i, ids, true, (writeText true (i + 2) ⟨i, true, true⟩ st k).2⟩) := by
  rw [emitAll, emitStep]
  have hi : ¬ ((i : Int) < 0) := by omega
  have hi2 : ((i : Int) + 2).toNat = i + 2 := by omega
  simp only [emitMapKey, simpleKeyEvent, hk, if_true, indentText, Int.toNat_natCast, writeIndent_pos, reduceCtorEq, if_false, emitNode, emitScalar,
    increaseIndent, hi, Bool.false_eq_true, popIndent, popMode, Option.bind_some, Option.map_some, hi2]
  rw [put, Option.map_some, Option.bind_some]

/-- a key which is not simple -/
theorem emit_question (k : YText) (st : YStyle) (hk : checkSimpleKey k = false) (more : List WEvent) (mds : List EmitMode) (i : Nat) (ids : List Int)
    (mc : Bool) (e : EPos) : emitAll (.scalar k st :: more) ⟨.blockMapKey, mds, i, ids, mc, e⟩ = put ((writeIndent i e).1 ++ ['?'])
      (runNode true false (.scalar k st :: more) ⟨.blockMapKey, .blockMapValue :: mds, i, ids, mc, ⟨i + 1, false, true⟩⟩) := by
  rw [emitAll, emitStep]
  simp only [emitMapKey, simpleKeyEvent, hk, if_false, indentText, Int.toNat_natCast, writeIndent_pos, reduceCtorEq, Bool.false_eq_true]
  rw [put_bind]
  rfl

/-- the value of a simple key -/
theorem emit_value {a : List WEvent} (h : NodeEvents a) (more : List WEvent) (mds : List EmitMode) (i : Int) (ids : List Int) (mc : Bool) (e : EPos) :
    emitAll (a ++ more) ⟨.blockMapSimpleValue, mds, i, ids, mc, e⟩ = put [':']
      (runNode true false (a ++ more) ⟨.blockMapSimpleValue, .blockMapKey :: mds, i, ids, mc, ⟨e.col + 1, false, false⟩⟩) := by
  obtain ⟨ev, r, rfl, _⟩ := node_head h
  rw [List.cons_append, emitAll, emitStep]
  simp only [emitMapValue, if_true, writeIndicator_plain]
  rw [put_bind]
  simp [writeIndicator, runNode]

/-- the value of another key -/
theorem emit_value2 {a : List WEvent} (h : NodeEvents a) (more : List WEvent) (mds : List EmitMode) (i : Nat) (ids : List Int) (mc : Bool) (e : EPos) :
    emitAll (a ++ more) ⟨.blockMapValue, mds, i, ids, mc, e⟩ = put ((writeIndent i e).1 ++ [':'])
      (runNode true false (a ++ more) ⟨.blockMapValue, .blockMapKey :: mds, i, ids, mc, ⟨i + 1, false, true⟩⟩) := by
  obtain ⟨ev, r, rfl, _⟩ := node_head h
  rw [List.cons_append, emitAll, emitStep]
  simp only [emitMapValue, Bool.false_eq_true, if_false, indentText, Int.toNat_natCast, writeIndent_pos]
  rw [put_bind]
  rfl

/-- the first key is written -/
theorem emit_key_first (k : YText) (st : YStyle) (more : List WEvent) (s : Emitter) (hm : s.mode = .blockMapFirst)
    (hs : { increaseIndent false false s with mode := .blockMapKey } = s') :
    emitAll (.scalar k st :: more) s = emitAll (.scalar k st :: more) s' := by
  subst hs
  rw [emitAll, emitAll]
  congr 1
  unfold emitStep
  rw [hm]
  simp only [emitMapKey, reduceCtorEq, if_false]
  cases h : simpleKeyEvent (.scalar k st) <;> simp only [if_true, if_false, Bool.false_eq_true] <;> rfl

/-! ### nodes -/

/-- the situations in which a node is written: a document, an element (or a value behind `: `), a value on the line of its key. `i`: indentation,
`m`: whether the node belongs to a mapping; for the scanner: column, and whether simple keys are possible -/
inductive EmitCtx : Int → EPos → Bool → Nat → Bool → Prop
  | root : EmitCtx (-1) ⟨0, true, true⟩ false 0 true
  | dash (i : Nat) (m : Bool) : EmitCtx i ⟨i + 1, false, true⟩ m (i + 1) true
  | colon (i c col : Nat) : i < col → EmitCtx i ⟨c, false, false⟩ true col false

theorem EmitCtx.bounds {i : Int} {e : EPos} {m : Bool} {col : Nat} {al : Bool} (h : EmitCtx i e m col al) : -1 ≤ i ∧ i < (col + (gap e).length : Nat) := by
  cases h with
  | root => exact ⟨by decide, by decide⟩
  | dash i m => exact ⟨by omega, by simp [gap]; omega⟩
  | colon i c col h => exact ⟨by omega, by simp [gap]; omega⟩

theorem toNext_gap (al : Bool) (col : Nat) (e : EPos) (t : YText) : toNext 0 al false col (gap e ++ t) = toNext 0 al false (col + (gap e).length) t := by
  unfold gap
  cases e.ws
  · exact toNext_space 0 al col t
  · simp

/-- the state behind a node -/
def NodeOK (a : List WEvent) : Prop := ∀ (i : Int) (e : EPos) (m : Bool), (∃ col al, EmitCtx i e m col al) →
  ∃ txt e' ts, PosEnd e' ∧ NodeT (m && !e.ind) a ts ∧ (e.ws = false → Blank1 txt) ∧
    (∀ (mode md : EmitMode) (mds : List EmitMode) (ids : List Int) (mc : Bool) (more : List WEvent), ∃ mc',
      runNode m false (a ++ more) ⟨mode, md :: mds, i, ids, mc, e⟩ = put txt (emitAll more ⟨md, mds, i, ids, mc', e'⟩)) ∧
    (∀ (col : Nat) (al : Bool), EmitCtx i e m col al → ∀ (k : Nat) (r : YText) (is : List Int) (T : List YTok), Next i k r →
      Leads ⟨txt ++ ((writeIndent k e').1 ++ r), col, i, is, 0, al, [none], T⟩ ⟨r, k, i, is, 0, true, [none], T ++ ts⟩)

/-- elements of a list in column `i` -/
def ItemsOK (es : List WEvent) : Prop := es ≠ [] → ∀ i' : Nat,
  ∃ body e' ts, PosEnd e' ∧ ItemsT es ts ∧ ts ≠ [] ∧ Vis body ∧
    (∀ (md : EmitMode) (mds : List EmitMode) (i : Int) (ids : List Int) (mc : Bool) (e : EPos) (more : List WEvent), ∃ mc',
      emitAll (es ++ .seqEnd :: more) ⟨.blockSeqItem, md :: mds, i', i :: ids, mc, e⟩ =
        put ((writeIndent i' e).1 ++ body) (emitAll more ⟨md, mds, i, ids, mc', e'⟩)) ∧
    (∀ (j : Int) (js : List Int) (T : List YTok) (k : Nat) (r : YText), -1 ≤ j → j ≤ i' → Next i' k r →
      Leads ⟨body ++ ((writeIndent k e').1 ++ r), i', j, js, 0, true, [none], T⟩
        ⟨r, k, i', openIs i' j js, 0, true, [none], openTs i' j T .blockSeqStart ++ ts⟩)

/-- entries of a map in column `i` -/
def EntriesOK (es : List WEvent) : Prop := es ≠ [] → ∀ i' : Nat,
  ∃ body e' ts, PosEnd e' ∧ PairsT es ts ∧ Vis body ∧
    (∀ (md : EmitMode) (mds : List EmitMode) (i : Int) (ids : List Int) (mc : Bool) (e : EPos) (more : List WEvent), ∃ mc',
      emitAll (es ++ .mapEnd :: more) ⟨.blockMapKey, md :: mds, i', i :: ids, mc, e⟩ =
        put ((writeIndent i' e).1 ++ body) (emitAll more ⟨md, mds, i, ids, mc', e'⟩)) ∧
    (∀ (j : Int) (js : List Int) (T : List YTok) (k : Nat) (r : YText), -1 ≤ j → j ≤ i' → Next i' k r →
      Leads ⟨body ++ ((writeIndent k e').1 ++ r), i', j, js, 0, true, [none], T⟩
        ⟨r, k, i', openIs i' j js, 0, true, [none], openTs i' j T .blockMapStart ++ ts⟩)

theorem node_scalar (s : YText) (req : YStyle) (hr : Asked s req) : NodeOK [.scalar s (selectStyle false s req)] := by
  intro i e m hc
  have hb : -1 ≤ i := by obtain ⟨col, al, h⟩ := hc; exact h.bounds.1
  have hn : (((if i < 0 then (2 : Int) else i + 2).toNat : Nat) : Int) = max i 0 + 2 := by split <;> omega
  obtain ⟨body, e', h1, h2, h3, h4⟩ := scalar_leads hb hn s req hr e
  refine ⟨gap e ++ body, e', _, h2, .scalar _ _ _, ?_, ?_, ?_⟩
  · intro hw
    left
    simp [gap, hw]
  · intro mode md mds ids mc more
    refine ⟨m, ?_⟩
    simp only [List.singleton_append, runNode, emitNode, emitScalar, increaseIndent, popIndent, popMode, Option.bind_some, Option.map_some, if_true,
      Bool.false_eq_true, if_false]
    rw [h1]
  · intro col al hctx k r is T hk
    rw [List.append_assoc]
    exact (Leads.blanks (toNext_gap al col e _) (by simp) i is _ T).trans (h4 k r hk.nextLine _ al is T hctx.bounds.2)

theorem node_empty {o c : Char} {ta tb : YTok} (hoc : (o = '[' ∧ c = ']' ∧ ta = .flowSeqStart ∧ tb = .flowSeqEnd) ∨
      (o = '{' ∧ c = '}' ∧ ta = .flowMapStart ∧ tb = .flowMapEnd)) {ev1 ev2 : WEvent}
    (hev : (ev1 = .seqStart ∧ ev2 = .seqEnd ∧ o = '[') ∨ (ev1 = .mapStart ∧ ev2 = .mapEnd ∧ o = '{')) : NodeOK [ev1, ev2] := by
  intro i e m hc
  refine ⟨gap e ++ [o, c], ⟨e.col + (gap e).length + 2, false, false⟩, [ta, tb], .inl rfl, ?_, ?_, ?_, ?_⟩
  · rcases hev with ⟨rfl, rfl, rfl⟩ | ⟨rfl, rfl, rfl⟩
    · rcases hoc with ⟨_, _, rfl, rfl⟩ | ⟨h, _⟩
      · exact .emptySeq _
      · cases h
    · rcases hoc with ⟨h, _⟩ | ⟨_, _, rfl, rfl⟩
      · cases h
      · exact .emptyMap _
  · intro hw
    left
    simp [gap, hw]
  · intro mode md mds ids mc more
    refine ⟨m, ?_⟩
    have hg : writeIndicator [o] true true false e = (gap e ++ [o], ⟨e.col + (gap e).length + 1, true, false⟩) := by
      unfold writeIndicator gap
      cases e.ws <;> simp
    have hcl : ∀ x n, writeIndicator [x] false false false ⟨n, true, false⟩ = ([x], ⟨n + 1, false, false⟩) := fun _ _ => rfl
    rcases hev with ⟨rfl, rfl, rfl⟩ | ⟨rfl, rfl, rfl⟩ <;> rcases hoc with ⟨h, rfl, _, _⟩ | ⟨h, rfl, _, _⟩ <;> first | (cases h; done) | skip
    all_goals
      simp only [List.cons_append, List.nil_append, runNode, emitNode, emitAll, emitStep, emitEmpty, hg, increaseIndent, popIndent, popMode, List.head?_cons,
        if_true, Option.bind_some, Option.map_some, hcl, List.append_assoc]
      rw [put_nil]
  · intro col al hctx k r is T hk
    rw [List.append_assoc]
    refine (Leads.blanks (toNext_gap al col e _) (by simp) i is _ T).trans ?_
    exact empty_leads hoc hctx.bounds.2 rfl k r al is T

/-- the column of a collection -/
def collectionCol (i : Int) (flat : Bool) : Nat := (if i < 0 then (0 : Int) else if flat then i else i + 2).toNat

theorem increase_col {i : Int} (flat : Bool) (mode : EmitMode) (mds : List EmitMode) (ids : List Int) (mc : Bool) (e : EPos) :
    increaseIndent false flat ⟨mode, mds, i, ids, mc, e⟩ = ⟨mode, mds, collectionCol i flat, i :: ids, mc, e⟩ := by
  unfold increaseIndent collectionCol
  simp only [Bool.false_eq_true, if_false, Emitter.mk.injEq, true_and, and_true]
  split
  · rfl
  · split <;> omega

theorem collection_le {i : Int} (hi : -1 ≤ i) (flat : Bool) : i ≤ collectionCol i flat ∧ (flat = false → i < collectionCol i flat) := by
  unfold collectionCol
  split
  · exact ⟨by omega, by omega⟩
  · cases flat
    · exact ⟨by simp; omega, by simp; omega⟩
    · exact ⟨by simp, by simp⟩

/-- the indentation of a collection -/
theorem ctx_indent {i : Int} {e : EPos} {m : Bool} {col : Nat} {al : Bool} (h : EmitCtx i e m col al) {flat : Bool} (hf : flat = true → (m && !e.ind) = true)
    (t : YText) (is : List Int) (T : List YTok) :
    Leads ⟨(writeIndent (collectionCol i flat) e).1 ++ t, col, i, is, 0, al, [none], T⟩ ⟨t, collectionCol i flat, i, is, 0, true, [none], T⟩ ∧
    (e.ws = false → Blank1 ((writeIndent (collectionCol i flat) e).1 ++ t)) := by
  cases h with
  | root =>
    refine ⟨Leads.blanks ?_ (by simp) _ is _ T, by simp⟩
    simp [collectionCol, writeIndent]
  | dash i m =>
    have hfl : flat = false := by
      cases flat with
      | false => rfl
      | true => exact absurd (hf rfl) (by simp)
    subst hfl
    have hc : collectionCol i false = i + 2 := by unfold collectionCol; rw [if_neg (by omega)]; simp; omega
    have hw : (writeIndent (i + 2) ⟨i + 1, false, true⟩).1 = [' '] := by
      unfold writeIndent
      rw [if_neg (by simp)]
      simp
    rw [hc, hw]
    exact ⟨Leads.blanks (toNext_space ..) (by simp) _ is _ T, fun _ => .inl rfl⟩
  | colon i c col h =>
    rw [writeIndent_end (.inl rfl)]
    refine ⟨Leads.blanks ?_ (by simp; omega) _ is _ T, fun _ => .inr rfl⟩
    rw [List.append_assoc]
    exact toNext_line false col _ t

theorem vis_eq {a b : YText} (h : Vis a) : Vis (a ++ b) := h.append b

theorem node_mono {a : List WEvent} {ts : List YTok} (h : NodeT false a ts) (f : Bool) : NodeT f a ts := by
  generalize hb : false = b at h
  cases h with
  | scalar => exact .scalar ..
  | emptySeq => exact .emptySeq _
  | emptyMap => exact .emptyMap _
  | seq _ h hne => exact .seq _ h hne
  | flat => cases hb
  | map _ h => exact .map _ h

theorem node_seq {es : List WEvent} (hes : ItemEvents es) (hne : es ≠ []) (h : ItemsOK es) : NodeOK (.seqStart :: (es ++ [.seqEnd])) := by
  intro i e m hc
  have hb : -1 ≤ i := by obtain ⟨col, al, h⟩ := hc; exact h.bounds.1
  obtain ⟨hle, hlt⟩ := collection_le hb (m && !e.ind)
  obtain ⟨body, e', ts, h1, h2, h3, h4, h5, h6⟩ := h hne (collectionCol i (m && !e.ind))
  obtain ⟨a, b, rfl, ha⟩ : ∃ a b, es = a ++ b ∧ NodeEvents a := by
    cases hes with
    | nil => exact absurd rfl hne
    | cons ha _ => exact ⟨_, _, rfl, ha⟩
  obtain ⟨ev, u, rfl, he1, _⟩ := node_head ha
  have hemit : ∀ (mode md : EmitMode) (mds : List EmitMode) (ids : List Int) (mc : Bool) (more : List WEvent), ∃ mc',
      runNode m false (.seqStart :: (ev :: u ++ b ++ [.seqEnd]) ++ more) ⟨mode, md :: mds, i, ids, mc, e⟩ =
        put ((writeIndent (collectionCol i (m && !e.ind)) e).1 ++ body) (emitAll more ⟨md, mds, i, ids, mc', e'⟩) := by
    intro mode md mds ids mc more
    obtain ⟨mc', h5⟩ := h5 md mds i ids m e more
    refine ⟨mc', ?_⟩
    rw [← h5]
    simp only [List.cons_append, runNode, emitNode, List.head?_cons, Option.some.injEq, if_neg he1, Option.bind_some]
    rw [put_nil]
    simp only [← List.cons_append, List.append_assoc]
    refine emit_item_first ha _ _ rfl ?_
    simp only [increase_col]
  cases hfl : (m && !e.ind) with
  | false =>
    rw [hfl] at h5 h6 hlt hemit
    refine ⟨(writeIndent (collectionCol i false) e).1 ++ body, e', .blockSeqStart :: (ts ++ [.blockEnd]), h1, .seq _ h2 h3, ?_, hemit, ?_⟩
    · obtain ⟨col, al, h⟩ := hc
      exact (ctx_indent h (flat := false) (by simp) body [] []).2
    · intro col al hctx k r is T hk
      rw [List.append_assoc]
      refine ((ctx_indent hctx (flat := false) (by simp) _ is T).1.trans (h6 i is T k r hb (by have := hlt rfl; omega) (hk.mono (by have := hlt rfl; omega)))).trans ?_
      have hl := hlt rfl
      have := blockEnd_leads hl hb hk is (T ++ [.blockSeqStart] ++ ts)
      simp only [openIs, openTs, hl, if_true]
      simpa using this
  | true =>
    rw [hfl] at h5 h6 hlt hemit
    have hi0 : ((collectionCol i true : Nat) : Int) = i := by
      obtain ⟨col, al, h⟩ := hc
      unfold collectionCol
      cases h with
      | root => simp at hfl
      | dash => simp at hfl
      | colon i c col h => rw [if_neg (by omega)]; simp
    refine ⟨(writeIndent (collectionCol i true) e).1 ++ body, e', ts, h1, .flat h2 h3, ?_, hemit, ?_⟩
    · obtain ⟨col, al, h⟩ := hc
      exact (ctx_indent h (flat := true) (fun _ => hfl) body [] []).2
    · intro col al hctx k r is T hk
      rw [List.append_assoc]
      refine (ctx_indent hctx (flat := true) (fun _ => hfl) _ is T).1.trans ?_
      have := h6 i is T k r hb (by omega) (hk.mono (by omega))
      have e1 : openIs (collectionCol i true) i is = is := by simp [openIs, hi0]
      have e2 : openTs (collectionCol i true) i T .blockSeqStart = T := by simp [openTs, hi0]
      rw [e1, e2] at this
      simpa only [hi0] using this

theorem node_map {es : List WEvent} (hes : EntryEvents es) (hne : es ≠ []) (h : EntriesOK es) : NodeOK (.mapStart :: (es ++ [.mapEnd])) := by
  intro i e m hc
  have hb : -1 ≤ i := by obtain ⟨col, al, h⟩ := hc; exact h.bounds.1
  obtain ⟨hle, hlt⟩ := collection_le hb false
  obtain ⟨body, e', ts, h1, h2, h4, h5, h6⟩ := h hne (collectionCol i false)
  obtain ⟨k, st, b, rfl⟩ : ∃ k st b, es = .scalar k st :: b := by
    cases hes with
    | nil => exact absurd rfl hne
    | cons => exact ⟨_, _, _, rfl⟩
  refine ⟨(writeIndent (collectionCol i false) e).1 ++ body, e', .blockMapStart :: (ts ++ [.blockEnd]), h1, .map _ h2, ?_, ?_, ?_⟩
  · obtain ⟨col, al, h⟩ := hc
    exact (ctx_indent h (flat := false) (by simp) body [] []).2
  · intro mode md mds ids mc more
    obtain ⟨mc', h5⟩ := h5 md mds i ids m e more
    refine ⟨mc', ?_⟩
    rw [← h5]
    simp only [List.cons_append, runNode, emitNode, List.head?_cons, Option.some.injEq, reduceCtorEq, if_false, Option.bind_some]
    rw [put_nil, List.append_assoc]
    refine emit_key_first _ _ _ _ rfl ?_
    simp only [increase_col]
  · intro col al hctx k r is T hk
    rw [List.append_assoc]
    have hl := hlt rfl
    refine ((ctx_indent hctx (flat := false) (by simp) _ is T).1.trans (h6 i is T k r hb (by omega) (hk.mono (by omega)))).trans ?_
    have := blockEnd_leads hl hb hk is (T ++ [.blockMapStart] ++ ts)
    simp only [openIs, openTs, hl, if_true]
    simpa using this

/-! ### elements and entries -/

theorem vis_next {t : YText} (h : Vis t) (i : Nat) : Next i i t := .inl ⟨h, Int.le_refl _⟩

theorem items_cons {a b : List WEvent} (hna : NodeEvents a) (ha : NodeOK a) (hb : ItemsOK b) : ItemsOK (a ++ b) := by
  intro _ i'
  obtain ⟨txt, e1, ts, h1, h2, h3, h4, h5⟩ := ha i' ⟨i' + 1, false, true⟩ false ⟨_, _, .dash i' false⟩
  have hblank := h3 rfl
  by_cases hbe : b = []
  · subst hbe
    refine ⟨'-' :: txt, e1, .blockEntry :: (ts ++ []), h1, .cons h2 .nil, by simp, vis_entry _, ?_, ?_⟩
    · intro md mds i ids mc e more
      obtain ⟨mc', h4⟩ := h4 .blockSeqItem .blockSeqItem (md :: mds) (i :: ids) mc (.seqEnd :: more)
      refine ⟨mc', ?_⟩
      rw [List.append_nil, emit_item hna, h4, put_put, emitAll, emitStep]
      simp only [emitSeqItem, if_true, popIndent, popMode, Option.bind_some, Option.map_some]
      rw [put_nil]
      simp
    · intro j js T k r hj1 hj2 hk
      rw [List.cons_append]
      have hb1 : Blank1 (txt ++ ((writeIndent k e1).1 ++ r)) := by
        unfold Blank1 at hblank ⊢
        rcases hblank with h | h
        · left; rw [List.head?_append, h]; rfl
        · right; rw [List.head?_append, h]; rfl
      refine (entry_leads hj2 hb1 js T).trans ?_
      have := h5 _ _ (.dash i' false) k r (openIs i' j js) (openTs i' j T .blockSeqStart ++ [.blockEntry]) hk
      simpa using this
  · obtain ⟨body2, e2, ts2, g1, g2, g3, g4, g5, g6⟩ := hb hbe i'
    refine ⟨'-' :: (txt ++ ((writeIndent i' e1).1 ++ body2)), e2, .blockEntry :: (ts ++ ts2), g1, .cons h2 g2, by simp, vis_entry _, ?_, ?_⟩
    · intro md mds i ids mc e more
      obtain ⟨mc1, h4⟩ := h4 .blockSeqItem .blockSeqItem (md :: mds) (i :: ids) mc (b ++ .seqEnd :: more)
      obtain ⟨mc2, g5⟩ := g5 md mds i ids mc1 e1 more
      refine ⟨mc2, ?_⟩
      rw [List.append_assoc, emit_item hna, h4, g5, put_put, put_put]
      simp
    · intro j js T k r hj1 hj2 hk
      have hb1 : ∀ u, Blank1 (txt ++ u) := by
        intro u
        unfold Blank1 at hblank ⊢
        rcases hblank with h | h
        · left; rw [List.head?_append, h]; rfl
        · right; rw [List.head?_append, h]; rfl
      have e0 : '-' :: (txt ++ ((writeIndent i' e1).1 ++ body2)) ++ ((writeIndent k e2).1 ++ r) =
          '-' :: (txt ++ ((writeIndent i' e1).1 ++ (body2 ++ ((writeIndent k e2).1 ++ r)))) := by simp
      rw [e0]
      refine (entry_leads hj2 (hb1 _) js T).trans ?_
      refine (h5 _ _ (.dash i' false) i' (body2 ++ ((writeIndent k e2).1 ++ r)) (openIs i' j js) _ (vis_next (g4.append _) i')).trans ?_
      have := g6 i' (openIs i' j js) (openTs i' j T .blockSeqStart ++ [.blockEntry] ++ ts) k r (by omega) (Int.le_refl _) hk
      rw [openIs_same, openTs_same] at this
      simpa using this

theorem blank_append {t : YText} (h : Blank1 t) (u : YText) : Blank1 (t ++ u) := by
  unfold Blank1 at h ⊢
  rcases h with h | h
  · left; rw [List.head?_append, h]; rfl
  · right; rw [List.head?_append, h]; rfl

/-- an entry, up to the end of its value -/
theorem entry_run {k : YText} {req : YStyle} (hr : Asked k req) {a : List WEvent} (hna : NodeEvents a) (ha : NodeOK a) (i' : Nat) :
    ∃ body e' ts, PosEnd e' ∧ NodeT true a ts ∧ Vis body ∧
    (∀ (mds : List EmitMode) (ids : List Int) (mc : Bool) (e : EPos) (more : List WEvent), ∃ mc',
      emitAll (.scalar k (selectStyle (checkSimpleKey k) k req) :: (a ++ more)) ⟨.blockMapKey, mds, i', ids, mc, e⟩ =
        put ((writeIndent i' e).1 ++ body) (emitAll more ⟨.blockMapKey, mds, i', ids, mc', e'⟩)) ∧
    (∀ (j : Int) (js : List Int) (T : List YTok) (l : Nat) (r : YText), -1 ≤ j → j ≤ i' → Next i' l r →
      Leads ⟨body ++ ((writeIndent l e').1 ++ r), i', j, js, 0, true, [none], T⟩
        ⟨r, l, i', openIs i' j js, 0, true, [none],
          openTs i' j T .blockMapStart ++ (.key :: .scalar (selectStyle (checkSimpleKey k) k req) k :: .value :: ts)⟩) := by
  cases hk : checkSimpleKey k with
  | true =>
    obtain ⟨kb, ek, k1, k2, k3, k4, _⟩ := key_leads (i := i') (j := -1) (Int.le_refl _) (by omega) k req hr hk
    obtain ⟨txt, e1, ts, h1, h2, h3, h4, h5⟩ := ha i' ⟨ek.col + 1, false, false⟩ true ⟨i' + 1, _, .colon i' _ _ (by omega)⟩
    refine ⟨kb ++ ':' :: txt, e1, ts, h1, h2, k4.append _, ?_, ?_⟩
    · intro mds ids mc e more
      obtain ⟨mc', h4⟩ := h4 .blockMapSimpleValue .blockMapKey mds ids true more
      refine ⟨mc', ?_⟩
      rw [emit_key k _ hk, k1, emit_value hna, h4, put_put, put_put]
      simp
    · intro j js T l r hj1 hj2 hl
      obtain ⟨kb', ek', k1', _, _, _, k5⟩ := key_leads hj1 hj2 k req hr hk
      rw [k1] at k1'
      cases k1'
      rw [List.append_assoc, List.cons_append]
      obtain ⟨col', c1, c2⟩ := k5 (txt ++ ((writeIndent l e1).1 ++ r)) (blank_append (h3 rfl) _)
      refine (c2 js T).trans ?_
      have := h5 _ _ (.colon i' (ek.col + 1) (col' + 1) (by omega)) l r (openIs i' j js) (openTs i' j T .blockMapStart ++ [.key, .scalar (selectStyle true k req) k, .value]) hl
      simpa using this
  | false =>
    obtain ⟨kt, ek, kts, k1, k2, k3, k4, k5⟩ := node_scalar k req hr i' ⟨i' + 1, false, true⟩ true ⟨_, _, .dash i' true⟩
    obtain ⟨txt, e1, ts, h1, h2, h3, h4, h5⟩ := ha i' ⟨i' + 1, false, true⟩ true ⟨_, _, .dash i' true⟩
    have hkts : kts = [.scalar (selectStyle false k req) k] := by
      simp only [Bool.not_true, Bool.and_false] at k2
      generalize hx : [WEvent.scalar k (selectStyle false k req)] = x at k2
      cases k2 <;> cases hx
      rfl
    subst hkts
    refine ⟨'?' :: (kt ++ ((writeIndent i' ek).1 ++ ':' :: txt)), e1, ts, h1, node_mono h2 true, vis_key _, ?_, ?_⟩
    · intro mds ids mc e more
      obtain ⟨mc1, k4⟩ := k4 .blockMapKey .blockMapValue mds ids mc (a ++ more)
      obtain ⟨mc2, h4⟩ := h4 .blockMapValue .blockMapKey mds ids mc1 more
      refine ⟨mc2, ?_⟩
      rw [emit_question k _ hk]
      rw [List.singleton_append] at k4
      rw [k4, emit_value2 hna, h4, put_put, put_put, put_put]
      simp
    · intro j js T l r hj1 hj2 hl
      have e0 : '?' :: (kt ++ ((writeIndent i' ek).1 ++ ':' :: txt)) ++ ((writeIndent l e1).1 ++ r) =
          '?' :: (kt ++ ((writeIndent i' ek).1 ++ ':' :: (txt ++ ((writeIndent l e1).1 ++ r)))) := by simp
      rw [e0]
      refine (question_leads hj2 (blank_append (k3 rfl) _) js T).trans ?_
      refine (k5 _ _ (.dash i' true) i' (':' :: (txt ++ ((writeIndent l e1).1 ++ r))) (openIs i' j js) _ (vis_next (vis_value _) i')).trans ?_
      refine (value_leads (blank_append (h3 rfl) _) _ _).trans ?_
      have := h5 _ _ (.dash i' true) l r (openIs i' j js) (openTs i' j T .blockMapStart ++ [.key] ++ [.scalar (selectStyle false k req) k] ++ [.value]) hl
      simpa using this

theorem entries_cons {k : YText} {req : YStyle} (hr : Asked k req) {a b : List WEvent} (hna : NodeEvents a) (ha : NodeOK a) (hb : EntriesOK b) :
    EntriesOK (.scalar k (selectStyle (checkSimpleKey k) k req) :: (a ++ b)) := by
  intro _ i'
  obtain ⟨body, e1, ts, h1, h2, h3, h4, h5⟩ := entry_run hr hna ha i'
  by_cases hbe : b = []
  · subst hbe
    refine ⟨body, e1, .key :: .scalar _ k :: .value :: (ts ++ []), h1, .cons k _ h2 .nil, h3, ?_, ?_⟩
    · intro md mds i ids mc e more
      obtain ⟨mc', h4⟩ := h4 (md :: mds) (i :: ids) mc e (.mapEnd :: more)
      refine ⟨mc', ?_⟩
      rw [List.append_nil, List.cons_append, h4, emitAll, emitStep]
      simp only [emitMapKey, if_true, popIndent, popMode, Option.bind_some, Option.map_some]
      rw [put_nil]
    · intro j js T l r hj1 hj2 hl
      rw [List.append_nil]
      exact h5 j js T l r hj1 hj2 hl
  · obtain ⟨body2, e2, ts2, g1, g2, g4, g5, g6⟩ := hb hbe i'
    refine ⟨body ++ ((writeIndent i' e1).1 ++ body2), e2, .key :: .scalar _ k :: .value :: (ts ++ ts2), g1, .cons k _ h2 g2, h3.append _, ?_, ?_⟩
    · intro md mds i ids mc e more
      obtain ⟨mc1, h4⟩ := h4 (md :: mds) (i :: ids) mc e (b ++ .mapEnd :: more)
      obtain ⟨mc2, g5⟩ := g5 md mds i ids mc1 e1 more
      refine ⟨mc2, ?_⟩
      rw [List.cons_append, List.append_assoc, h4, g5, put_put]
      simp
    · intro j js T l r hj1 hj2 hl
      have e0 : body ++ ((writeIndent i' e1).1 ++ body2) ++ ((writeIndent l e2).1 ++ r) =
          body ++ ((writeIndent i' e1).1 ++ (body2 ++ ((writeIndent l e2).1 ++ r))) := by simp
      rw [e0]
      refine (h5 j js T i' _ hj1 hj2 (vis_next (g4.append _) i')).trans ?_
      have := g6 i' (openIs i' j js) (openTs i' j T .blockMapStart ++ (.key :: .scalar (selectStyle (checkSimpleKey k) k req) k :: .value :: ts)) l r
        (by omega) (Int.le_refl _) hl
      rw [openIs_same, openTs_same] at this
      simpa using this

theorem node_ok {a : List WEvent} (h : NodeEvents a) : NodeOK a := by
  refine NodeEvents.rec (motive_1 := fun a _ => NodeOK a) (motive_2 := fun es _ => ItemsOK es) (motive_3 := fun es _ => EntriesOK es)
    ?_ ?_ ?_ ?_ ?_ ?_ ?_ h
  · intro s req hr
    exact node_scalar s req hr
  · intro es hes ih
    by_cases hne : es = []
    · subst hne
      exact node_empty (.inl ⟨rfl, rfl, rfl, rfl⟩) (.inl ⟨rfl, rfl, rfl⟩)
    · exact node_seq hes hne ih
  · intro es hes ih
    by_cases hne : es = []
    · subst hne
      exact node_empty (.inr ⟨rfl, rfl, rfl, rfl⟩) (.inr ⟨rfl, rfl, rfl⟩)
    · exact node_map hes hne ih
  · intro h; exact absurd rfl h
  · intro a b hna hib iha ihb
    exact items_cons hna iha ihb
  · intro h; exact absurd rfl h
  · intro k req a b hr hna hb iha ihb
    exact entries_cons hr hna iha ihb

/-! ### documents -/

/-- the text of a document, and its tokens -/
theorem document_tokens {es : List WEvent} (h : NodeEvents es) : ∃ t ts, writeDocument es = some t ∧ NodeT false es ts ∧
    ∀ (r : YText) (is : List Int) (T : List YTok), r = [] ∨ DocumentLine r →
      Leads ⟨t ++ r, 0, -1, is, 0, true, [none], T⟩ ⟨r, 0, -1, is, 0, true, [none], T ++ ts⟩ := by
  obtain ⟨txt, e', ts, h1, h2, _, h4, h5⟩ := node_ok h (-1) ⟨0, true, true⟩ false ⟨_, _, .root⟩
  refine ⟨txt ++ (writeIndent 0 e').1, ts, ?_, h2, ?_⟩
  · obtain ⟨mc, h4⟩ := h4 .documentContent .documentEnd [] [] false []
    obtain ⟨ev, u, rfl, _⟩ := node_head h
    rw [List.append_nil] at h4
    unfold writeDocument
    have : emitAll (ev :: u) Emitter.start = runNode false false (ev :: u) ⟨.documentContent, [.documentEnd], -1, [], false, ⟨0, true, true⟩⟩ := rfl
    rw [this, h4]
    simp [put, emitAll, indentText]
  · intro r is T hr
    rw [List.append_assoc]
    exact h5 _ _ .root 0 r is T (hr.elim (fun h => .inr (.inl ⟨rfl, h⟩)) (fun h => .inr (.inr ⟨rfl, h⟩)))

theorem scan_end {t : YText} {T : List YTok} (hT : Leads (.start t) ⟨[], 0, -1, [], 0, true, [none], T⟩) :
    scanText t = some (T ++ [.streamEnd]) := by
  obtain ⟨c, hc, h⟩ := hT
  unfold scanText
  simp only [Scanner.start, List.length_nil, Nat.add_zero] at hc
  obtain ⟨m, hm⟩ : ∃ m, t.length + 1 = (m + 1) + c := ⟨t.length - c, by omega⟩
  rw [hm, h, scanAll]
  simp [fetchNext, settle, toNext, staleKeys, unrollIndent, unrollLevels, dispatch, tokenKind, fetchStreamEnd, removeKey]

/-- **C86**: the text written for a document is read as this document. -/
theorem document_text_roundtrip {es : List WEvent} (h : NodeEvents es) :
    ∃ t, writeDocument es = some t ∧ readEvents t = some (documentEvents [some es]) := by
  obtain ⟨t, ts, h1, h2, h3⟩ := document_tokens h
  refine ⟨t, h1, ?_⟩
  have := h3 [] [] [.streamStart] (.inl rfl)
  rw [List.append_nil] at this
  unfold readEvents
  rw [if_pos (document_plain h h1).readable, scan_end this, Option.bind_some]
  simpa using parse_single h2

/-! ### streams of documents -/

/-- the line in front of a document -/
theorem dashes_leads (u : YText) (T : List YTok) :
    Leads ⟨"---\n".toList ++ u, 0, -1, [], 0, true, [none], T⟩ ⟨u, 0, -1, [], 0, true, [none], T ++ [.documentStart]⟩ := by
  have hd : DocumentLine ("---\n".toList ++ u) := ⟨"---".toList, '\n' :: u, .inl rfl, rfl, .inr (.inr rfl)⟩
  refine (Leads.step (m := ⟨'\n' :: u, 3, -1, [], 0, false, [none], T ++ [.documentStart]⟩) ?_ (by simp) (by simp)).trans ?_
  · unfold fetchNext
    have e0 : "---\n".toList ++ u = '-' :: '-' :: '-' :: '\n' :: u := rfl
    rw [e0] at hd ⊢
    rw [settle_at (vis_entry _) (by decide), Option.bind_some, dispatch]
    have hk : tokenKind 0 ('-' :: '-' :: '-' :: '\n' :: u) = .documentStart := by
      have hm := documentLine_marker hd
      simp [tokenKind, isZeroC, hm]
    rw [hk]
    simp [fetchDocument, unrollIndent, unrollLevels, removeKey]
  · exact Leads.blanks (toNext_nl false 3 u) (by simp) _ _ _ _

theorem printed_line (docs : List (Option YText)) : docs.flatMap (printDocument true) = [] ∨ DocumentLine (docs.flatMap (printDocument true)) := by
  cases docs with
  | nil => exact .inl rfl
  | cons d r =>
    refine .inr ⟨"---".toList, '\n' :: (d.getD [] ++ r.flatMap (printDocument true)), .inl rfl, ?_, .inr (.inr rfl)⟩
    simp [printDocument]

/-- several documents, and their tokens -/
theorem stream_tokens (docs : List (Option (List WEvent))) (h : ∀ es, some es ∈ docs → NodeEvents es) :
    ∃ l : List (Option (List WEvent) × List YTok), l.map Prod.fst = docs ∧ (∀ d ∈ l, DocT d.1 d.2) ∧
      ∀ T, Leads ⟨(docs.map (·.bind writeDocument)).flatMap (printDocument true), 0, -1, [], 0, true, [none], T⟩
        ⟨[], 0, -1, [], 0, true, [none], T ++ l.flatMap (fun d => .documentStart :: d.2)⟩ := by
  induction docs with
  | nil => exact ⟨[], rfl, by simp, fun T => ⟨0, by simp, fun n => by simp⟩⟩
  | cons d r ih =>
    obtain ⟨l, h1, h2, h3⟩ := ih (fun es he => h es (List.mem_cons_of_mem _ he))
    cases d with
    | none =>
      refine ⟨(none, []) :: l, by simp [h1], ?_, fun T => ?_⟩
      · intro d hd
        rcases List.mem_cons.1 hd with rfl | hd
        · rfl
        · exact h2 d hd
      · have e0 : (((none : Option (List WEvent)) :: r).map (·.bind writeDocument)).flatMap (printDocument true) =
            "---\n".toList ++ (r.map (·.bind writeDocument)).flatMap (printDocument true) := by simp [printDocument]
        rw [e0]
        have := (dashes_leads _ T).trans (h3 (T ++ [.documentStart]))
        simpa using this
    | some es =>
      obtain ⟨t, ts, g1, g2, g3⟩ := document_tokens (h es (List.mem_cons_self ..))
      refine ⟨(some es, ts) :: l, by simp [h1], ?_, fun T => ?_⟩
      · intro d hd
        rcases List.mem_cons.1 hd with rfl | hd
        · exact g2
        · exact h2 d hd
      · have e0 : ((some es :: r).map (·.bind writeDocument)).flatMap (printDocument true) =
            "---\n".toList ++ (t ++ (r.map (·.bind writeDocument)).flatMap (printDocument true)) := by simp [printDocument, g1]
        rw [e0]
        have := ((dashes_leads _ T).trans (g3 _ [] (T ++ [.documentStart]) (printed_line _))).trans (h3 _)
        simpa using this

theorem dashed_roundtrip (docs : List (Option (List WEvent))) (hne : docs ≠ []) (h : ∀ es, some es ∈ docs → NodeEvents es) :
    readEvents ((docs.map (·.bind writeDocument)).flatMap (printDocument true)) = some (documentEvents docs) := by
  obtain ⟨l, h1, h2, h3⟩ := stream_tokens docs h
  have hp := (printed_plain docs h true).readable
  unfold readEvents
  rw [List.flatMap_map, if_pos hp, ← List.flatMap_map (f := fun d : Option (List WEvent) => d.bind writeDocument) (g := printDocument true),
    scan_end (h3 [.streamStart]), Option.bind_some]
  have := parse_stream l (by rintro rfl; exact hne h1.symm) h2
  rw [h1] at this
  simpa using this

/-- **C86**: the documents printed by the program are read as the same documents, whether they have a content or not. -/
theorem stream_text_roundtrip (docs : List (Option (List WEvent))) (hne : docs ≠ []) (h : ∀ es, some es ∈ docs → NodeEvents es) :
    readEvents (printDocuments (docs.map (·.bind writeDocument))) = some (documentEvents docs) := by
  unfold printDocuments
  by_cases hl : docs.length > 1
  · simp only [List.length_map, hl, decide_true]
    exact dashed_roundtrip docs hne h
  · simp only [List.length_map, hl, decide_false]
    obtain ⟨d, rfl⟩ : ∃ d, docs = [d] := by
      cases docs with
      | nil => exact absurd rfl hne
      | cons d r =>
        cases r with
        | nil => exact ⟨d, rfl⟩
        | cons => simp at hl
    cases d with
    | none => exact dashed_roundtrip [none] hne h
    | some es =>
      obtain ⟨t, h1, h2⟩ := document_text_roundtrip (h es (List.mem_cons_self ..))
      have ht : t.isEmpty = false := by
        cases t with
        | nil =>
          rw [show readEvents [] = some [.streamStart, .streamEnd] by decide] at h2
          simp [documentEvents] at h2
        | cons => rfl
      simp [printDocument, h1, ht, h2]

end Spiff
