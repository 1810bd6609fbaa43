import Verif.Props.YamlDecode
/-
C72: properties of all streams, and anchors the reader does not support.
-/
namespace Spiff
open Spec

/-! ### the number of steps does not matter -/

/-- the first result is still running, or both are the same -/
def Le {α : Type} (a b : YRes α) : Prop := a = .running ∨ a = b

theorem Le.refl {α : Type} (a : YRes α) : Le a a := .inr rfl

theorem Le.bind {α β : Type} {a b : YRes α} {f g : α → YRes β} (h : Le a b) (hf : ∀ x, Le (f x) (g x)) : Le (a.bind f) (b.bind g) := by
  rcases h with rfl | rfl
  · exact .inl rfl
  · cases a with
    | ok x => exact hf x
    | error => exact .refl _
    | panic => exact .refl _
    | running => exact .refl _

theorem steps_mono (X : YLib) : ∀ n, (∀ s, Le (yValue X n s) (yValue X (n + 1) s)) ∧ (∀ acc s, Le (ySeq X n acc s) (ySeq X (n + 1) acc s)) ∧
    (∀ acc s, Le (yMap X n acc s) (yMap X (n + 1) acc s)) ∧ (∀ a s, Le (yAlias X n a s) (yAlias X (n + 1) a s)) ∧
    (∀ s, Le (yParse X n s) (yParse X (n + 1) s)) := by
  intro n
  induction n with
  | zero =>
    exact ⟨fun s => .inl (by rw [yValue]), fun acc s => .inl (by rw [ySeq]), fun acc s => .inl (by rw [yMap]), fun a s => .inl (by rw [yAlias]),
      fun s => .inl (by rw [yParse])⟩
  | succ n ih =>
    obtain ⟨i1, i2, i3, i4, i5⟩ := ih
    refine ⟨fun s => ?_, fun acc s => ?_, fun acc s => ?_, fun a s => ?_, fun s => ?_⟩
    · rw [yValue, yValue]
      split
      · exact (Le.refl _).bind fun s => (i2 _ _).bind fun _ => .refl _
      · exact (Le.refl _).bind fun s => (i3 _ _).bind fun _ => .refl _
      · exact .refl _
      · exact i4 _ _
      · exact .refl _
      · exact .refl _
    · rw [ySeq, ySeq]
      split
      · exact .refl _
      · exact .refl _
      · exact (i1 _).bind fun _ => i2 _ _
    · rw [yMap, yMap]
      split
      · exact .refl _
      · exact .refl _
      · exact (i1 _).bind fun _ => (i1 _).bind fun _ => (Le.refl _).bind fun _ => i3 _ _
    · rw [yAlias, yAlias]
      split
      · exact .refl _
      · exact (Le.refl _).bind fun _ => i5 _
    · rw [yParse, yParse]
      split
      · exact (Le.refl _).bind fun s => (i2 _ _).bind fun _ => .refl _
      · exact (Le.refl _).bind fun s => (i3 _ _).bind fun _ => .refl _
      · exact .refl _
      · exact i4 _ _
      · exact .refl _
      · exact .refl _

theorem yDocument_mono (X : YLib) (n : Nat) (s : YState) : Le (yDocument X n s) (yDocument X (n + 1) s) := by
  unfold yDocument
  split
  · exact (Le.refl _).bind fun _ => ((steps_mono X n).2.2.2.2 _).bind fun _ => .refl _
  · exact .refl _

theorem yDocuments_mono (X : YLib) : ∀ n s, Le (yDocuments X n s) (yDocuments X (n + 1) s) := by
  intro n
  induction n with
  | zero => exact fun s => .inl (by rw [yDocuments])
  | succ n ih =>
    intro s
    rw [yDocuments, yDocuments]
    refine (yDocument_mono X n s).bind fun r => ?_
    split
    · exact .refl _
    · exact (ih _).bind fun _ => .refl _

/-- **C72**: a result, once reached, does not depend on the number of steps. -/
theorem read_stable (X : YLib) (es : List YEvent) (n m : Nat) (h : n ≤ m) (hr : yDecode X n es ≠ .running) : yDecode X m es = yDecode X n es := by
  have step : ∀ k, Le (yDecode X k es) (yDecode X (k + 1) es) := by
    intro k
    unfold yDecode
    split
    · exact yDocuments_mono X k _
    · exact .refl _
  induction h with
  | refl => rfl
  | step h ih =>
    rename_i m
    rcases step m with h | h
    · exact absurd (ih ▸ h) hr
    · rw [← h, ih]

/-- **C72**: a stream is never read as an empty list of documents; if there is no document at all, this is an error. -/
theorem read_some_document (X : YLib) (n : Nat) (es : List YEvent) (ds : List Data) (h : yDecode X n es = .ok ds) : ds ≠ [] := by
  unfold yDecode at h
  split at h
  · rename_i e r
    cases n with
    | zero => rw [yDocuments] at h; cases h
    | succ n =>
      rw [yDocuments] at h
      generalize yDocument X n _ = o at h
      cases o with
      | ok q =>
        simp only [YRes.bind] at h
        split at h
        · cases h; simp
        · generalize yDocuments X n _ = o at h
          cases o <;> simp at h
          rw [← h]; simp
      | error => cases h
      | panic => cases h
      | running => cases h
  · cases h

theorem read_no_document (X : YLib) (n : Nat) : yDecode X (n + 1) [.streamStart, .streamEnd] = .error := by
  simp [yDecode, yDocuments, yDocument, YRes.bind]

/-! ### unsupported anchors -/

/-- a quoted text -/
def quoted (s : String) : YScalar := { value := s.toList, implicit := false }

theorem resolve_quoted (X : YLib) (s : String) : (resolveInterface X (quoted s)).2 = .str s := by
  simp [resolveInterface, quoted]

/-- **C72** (defect): a node with an anchor, directly followed by an alias, cannot be used: `[&a x, *a]` crashes the program. -/
theorem alias_after_anchor_defect (X : YLib) (a : String) (ha : a ≠ "") (x : YScalar) :
    ∃ N, ∀ n, N ≤ n → yDecode X n (.streamStart :: docEvents [.seq "" [.scalar a x, .alias a]]) = .panic := by
  refine ⟨7, fun n hn => ?_⟩
  obtain ⟨n, rfl⟩ : ∃ k, n = k + 7 := ⟨n - 7, by omega⟩
  simp [yDecode, docEvents, YTree.events, eventsL, yDocuments, yDocument, yParse, ySeq, yValue, yAlias, nextEvent, beginAnchor, endAnchor, track,
    YRes.bind, ha, mset, mget, bareFirst]

theorem ySeq_stuck (X : YLib) : ∀ (n : Nat) (acc : List Data) (s : YState), s.cur = .mapEnd → ySeq X n acc s = .running := by
  intro n
  induction n with
  | zero => intro acc s _; rw [ySeq]
  | succ n ih =>
    intro acc s hs
    rw [ySeq, hs]
    cases n with
    | zero => simp [yValue, YRes.bind]
    | succ n => simp only [yValue, hs, YRes.bind]; exact ih _ _ hs

theorem ySeq_scalar (X : YLib) (n : Nat) (acc : List Data) (a e i r A T) : ySeq X (n + 1) acc ⟨.scalar a e, i, r, A, T⟩ =
    (yValue X n ⟨.scalar a e, i, r, A, T⟩).bind fun r => ySeq X n (acc ++ [r.1]) r.2 := by
  rw [ySeq]

theorem ySeq_close (X : YLib) (n : Nat) (acc : List Data) (i r A T) : ySeq X (n + 1) acc ⟨.seqEnd, i, r, A, T⟩ =
    (nextEvent ⟨.seqEnd, i, r, A, T⟩).bind fun s => .ok (.seq acc, s) := by
  rw [ySeq]; simp [closeCollection]

theorem yMap_scalar (X : YLib) (n : Nat) (acc : List (Key × Data)) (a e i r A T) : yMap X (n + 1) acc ⟨.scalar a e, i, r, A, T⟩ =
    (yValue X n ⟨.scalar a e, i, r, A, T⟩).bind fun k => (yValue X n k.2).bind fun v =>
      (assignKey acc k.1 v.1).bind fun m => yMap X n m v.2 := by
  rw [yMap]

theorem yMap_close (X : YLib) (n : Nat) (acc : List (Key × Data)) (i r A T) : yMap X (n + 1) acc ⟨.mapEnd, i, r, A, T⟩ =
    (nextEvent ⟨.mapEnd, i, r, A, T⟩).bind fun s => .ok (.dict acc, s) := by
  rw [yMap]; simp [closeCollection]

theorem yValue_scalar (X : YLib) (n : Nat) (a e i r A T) : yValue X (n + 1) ⟨.scalar a e, i, r, A, T⟩ =
    (nextEvent (beginAnchor a ⟨.scalar a e, i, r, A, T⟩)).bind fun s => .ok ((resolveInterface X e).2, endAnchor a s) := by
  rw [yValue]

theorem yValue_seq (X : YLib) (n : Nat) (a i r A T) : yValue X (n + 1) ⟨.seqStart a, i, r, A, T⟩ =
    (nextEvent (beginAnchor a ⟨.seqStart a, i, r, A, T⟩)).bind fun s => (ySeq X n [] s).bind fun r => .ok (r.1, endAnchor a r.2) := by
  rw [yValue]

theorem yValue_alias (X : YLib) (n : Nat) (a i r A T) : yValue X (n + 1) ⟨.alias a, i, r, A, T⟩ = yAlias X n a ⟨.alias a, i, r, A, T⟩ := by
  rw [yValue]

theorem yParse_seq (X : YLib) (n : Nat) (a i r A T) : yParse X (n + 1) ⟨.seqStart a, i, r, A, T⟩ =
    (nextEvent (beginAnchor a ⟨.seqStart a, i, r, A, T⟩)).bind fun s => (ySeq X n [] s).bind fun r => .ok (r.1, endAnchor a r.2) := by
  rw [yParse]

theorem yParse_map (X : YLib) (n : Nat) (a i r A T) : yParse X (n + 1) ⟨.mapStart a, i, r, A, T⟩ =
    (nextEvent (beginAnchor a ⟨.mapStart a, i, r, A, T⟩)).bind fun s => (yMap X n [] s).bind fun r => .ok (r.1, endAnchor a r.2) := by
  rw [yParse]

theorem yAlias_eq (X : YLib) (n : Nat) (a c i r A T) : yAlias X (n + 1) a ⟨c, i, r, A, T⟩ =
    match mget A a with
    | none => .error
    | some es => (nextEvent ⟨c, i, some es, A, T⟩).bind fun s => yParse X n s := by
  rw [yAlias]
  rfl

theorem yDocument_eq (X : YLib) (n : Nat) (i r A T) : yDocument X n ⟨.docStart, i, r, A, T⟩ =
    (nextEvent ⟨.docStart, i, r, A, T⟩).bind fun s => (yParse X n s).bind fun r =>
      if r.2.cur = .docEnd then (nextEvent r.2).bind fun s => .ok (r.1, s) else .error := by
  unfold yDocument; simp

theorem yDocuments_eq (X : YLib) (n : Nat) (i r A T) : yDocuments X (n + 1) ⟨.docStart, i, r, A, T⟩ =
    (yDocument X n ⟨.docStart, i, r, A, T⟩).bind fun r =>
      if r.2.cur = .streamEnd then .ok [r.1] else (yDocuments X n r.2).bind fun ds => .ok (r.1 :: ds) := by
  rw [yDocuments]

/-- **C72** (defect): an alias of a node which contains another anchor: the document `{k: &a [&b x], l: *a}` is never read completely, the
program runs (and consumes memory) for ever. -/
theorem nested_anchor_loop_defect (X : YLib) (a b k l : String) (ha : a ≠ "") (hb : b ≠ "") (x : YScalar) (n : Nat) :
    yDecode X n (.streamStart :: docEvents [.map "" [(.scalar "" (quoted k), .seq a [.scalar b x]), (.scalar "" (quoted l), .alias a)]]) = .running := by
  refine Classical.byContradiction fun hr => ?_
  have := read_stable X _ n (n + 20) (by omega) hr
  rw [← this] at hr
  apply hr
  clear hr this
  have hget : ∀ v w : List YEvent, mget (if b = a then [(a, v)] else [(b, w), (a, v)]) a = some v := by
    intro v w; by_cases h : b = a <;> simp [h, mget]
  simp [yDecode, docEvents, YTree.events, eventsL, eventsM, yDocuments_eq, yDocument_eq, yParse_seq, yParse_map, yMap_scalar, yMap_close, ySeq_scalar,
    ySeq_close, ySeq_stuck, yValue_scalar, yValue_seq, yValue_alias, yAlias_eq, nextEvent, beginAnchor, endAnchor, track, YRes.bind, ha, hb, mset,
    hget, bareFirst, resolve_quoted, assignKey, yKey, kset, YEvent.bare]

/-- **C72** (defect): of a node containing another anchor an alias repeats the inner node and loses the following one:
`[&a [&b x, y], z, *a]` is read as `[[x, y], z, [x, x]]`. -/
theorem nested_anchor_value_defect (X : YLib) (a b : String) (ha : a ≠ "") (hb : b ≠ "") (x y z : YScalar) :
    ∃ N, ∀ n, N ≤ n → yDecode X n (.streamStart :: docEvents [.seq "" [.seq a [.scalar b x, .scalar "" y], .scalar "" z, .alias a]]) =
      .ok [.seq [.seq [(resolveInterface X x).2, (resolveInterface X y).2], (resolveInterface X z).2,
        .seq [(resolveInterface X x).2, (resolveInterface X x).2]]] := by
  refine ⟨20, fun n hn => ?_⟩
  obtain ⟨n, rfl⟩ : ∃ k, n = k + 20 := ⟨n - 20, by omega⟩
  have hget : ∀ v w : List YEvent, mget (if b = a then [(a, v)] else [(b, w), (a, v)]) a = some v := by
    intro v w; by_cases h : b = a <;> simp [h, mget]
  have hseq : ∀ (n : Nat) (acc : List Data) (a i r A T), ySeq X (n + 1) acc ⟨.seqStart a, i, r, A, T⟩ =
      (yValue X n ⟨.seqStart a, i, r, A, T⟩).bind fun r => ySeq X n (acc ++ [r.1]) r.2 := fun _ _ _ _ _ _ _ => by rw [ySeq]
  have hali : ∀ (n : Nat) (acc : List Data) (a i r A T), ySeq X (n + 1) acc ⟨.alias a, i, r, A, T⟩ =
      (yValue X n ⟨.alias a, i, r, A, T⟩).bind fun r => ySeq X n (acc ++ [r.1]) r.2 := fun _ _ _ _ _ _ _ => by rw [ySeq]
  simp [yDecode, docEvents, YTree.events, eventsL, yDocuments_eq, yDocument_eq, yParse_seq, ySeq_scalar, hseq, hali,
    ySeq_close, yValue_scalar, yValue_seq, yValue_alias, yAlias_eq, nextEvent, beginAnchor, endAnchor, track, YRes.bind, ha, hb, mset,
    hget, bareFirst, YEvent.bare]

/-- **C72** (defect): a quoted word for null is read as null, if it is the whole document. -/
theorem quoted_null_document_defect (X : YLib) (a : String) (s : YScalar) (h : QuotedNull s) :
    ∃ N, ∀ n, N ≤ n → yDecode X n (.streamStart :: docEvents [.scalar a s]) = .ok [.nil] := by
  have hn : resolveValue X s = .nil := by simp [resolveValue, (isNullWord_iff _).2 h.2.2]
  refine ⟨3, fun n hn' => ?_⟩
  obtain ⟨n, rfl⟩ : ∃ k, n = k + 3 := ⟨n - 3, by omega⟩
  have hp : ∀ (n : Nat) (a e i r A T), yParse X (n + 1) ⟨.scalar a e, i, r, A, T⟩ =
    (nextEvent (beginAnchor a ⟨.scalar a e, i, r, A, T⟩)).bind fun s => .ok (resolveValue X e, endAnchor a s) := fun _ _ _ _ _ _ _ => by rw [yParse]
  by_cases ha : a = ""
  · subst ha
    simp [yDecode, docEvents, YTree.events, yDocuments_eq, yDocument_eq, hp, hn, nextEvent, YRes.bind, beginAnchor, endAnchor]
  · simp [yDecode, docEvents, YTree.events, yDocuments_eq, yDocument_eq, hp, hn, nextEvent, YRes.bind, beginAnchor, endAnchor, ha, track]

/-- **C72** (defect): an alias of a quoted word for null is null: `[&a "null", x, *a]` is read as `["null", x, null]`. -/
theorem quoted_null_alias_defect (X : YLib) (a : String) (ha : a ≠ "") (s x : YScalar) (h : QuotedNull s) :
    ∃ N, ∀ n, N ≤ n → yDecode X n (.streamStart :: docEvents [.seq "" [.scalar a s, .scalar "" x, .alias a]]) =
      .ok [.seq [.str (String.ofList s.value), (resolveInterface X x).2, .nil]] := by
  have hn : resolveValue X s = .nil := by simp [resolveValue, (isNullWord_iff _).2 h.2.2]
  have hs : (resolveInterface X s).2 = .str (String.ofList s.value) := by simp [resolveInterface, h.1, h.2.1]
  refine ⟨20, fun n hn' => ?_⟩
  obtain ⟨n, rfl⟩ : ∃ k, n = k + 20 := ⟨n - 20, by omega⟩
  have hp : ∀ (n : Nat) (a e i r A T), yParse X (n + 1) ⟨.scalar a e, i, r, A, T⟩ =
    (nextEvent (beginAnchor a ⟨.scalar a e, i, r, A, T⟩)).bind fun s => .ok (resolveValue X e, endAnchor a s) := fun _ _ _ _ _ _ _ => by rw [yParse]
  have hali : ∀ (n : Nat) (acc : List Data) (a i r A T), ySeq X (n + 1) acc ⟨.alias a, i, r, A, T⟩ =
      (yValue X n ⟨.alias a, i, r, A, T⟩).bind fun r => ySeq X n (acc ++ [r.1]) r.2 := fun _ _ _ _ _ _ _ => by rw [ySeq]
  simp [yDecode, docEvents, YTree.events, eventsL, yDocuments_eq, yDocument_eq, yParse_seq, ySeq_scalar, hali, hp, hn, hs,
    ySeq_close, yValue_scalar, yValue_alias, yAlias_eq, nextEvent, beginAnchor, endAnchor, track, YRes.bind, ha, mset,
    mget, bareFirst, YEvent.bare]

/-- **C72** (defect): an alias may use an anchor of an earlier document. -/
theorem alias_across_documents_defect (X : YLib) (a : String) (ha : a ≠ "") (x : YScalar) (hx : ¬ QuotedNull x) :
    ∃ N, ∀ n, N ≤ n → yDecode X n (.streamStart :: docEvents [.scalar a x, .alias a]) = .ok [(resolveInterface X x).2, (resolveInterface X x).2] := by
  have := read_documents X [.scalar a x, .alias a] (by simp) (by
    intro t ht
    simp only [List.mem_cons, List.not_mem_nil, or_false] at ht
    rcases ht with rfl | rfl
    · exact ⟨.inr hx, fun _ _ h => by cases h; exact hx⟩
    · exact ⟨trivial, fun _ _ h => by cases h⟩)
  simpa [dataDocs, YTree.data, YRes.bind, YEnv.define, ha] using this

/-! ### examples -/

/-- `{a: &x [p, q], b: *x, c: {d: *x}}` -/
def anchorExample : YTree :=
  .map "" [(.scalar "" (quoted "a"), .seq "x" [.scalar "" (quoted "p"), .scalar "" (quoted "q")]),
    (.scalar "" (quoted "b"), .alias "x"), (.scalar "" (quoted "c"), .map "" [(.scalar "" (quoted "d"), .alias "x")])]

theorem anchorExample_tame : TameDoc anchorExample := by
  refine ⟨?_, fun a s h => by cases h⟩
  simp [anchorExample, YTree.tame, tameM, noAnchorsL, YTree.noAnchors, Apart, YTree.anchor, YTree.isAlias]

/-- **C72**: an anchored list used twice. -/
theorem anchor_example (X : YLib) :
    ∃ N, ∀ n, N ≤ n → yDecode X n (.streamStart :: docEvents [anchorExample]) =
      .ok [.dict [(.str "a", .seq [.str "p", .str "q"]), (.str "b", .seq [.str "p", .str "q"]),
        (.str "c", .dict [(.str "d", .seq [.str "p", .str "q"])])]] := by
  have := read_documents X [anchorExample] (by simp) (by simpa using anchorExample_tame)
  simpa [dataDocs, anchorExample, YTree.data, dataM, dataL, YRes.bind, YEnv.define, resolve_quoted, assignKey, yKey, kset] using this

/-- **C72**: an alias without an anchor before it is an error. -/
theorem unknown_alias (X : YLib) (a k : String) :
    ∃ N, ∀ n, N ≤ n → yDecode X n (.streamStart :: docEvents [.map "" [(.scalar "" (quoted k), .alias a)]]) = .error := by
  have := read_documents X [.map "" [(.scalar "" (quoted k), .alias a)]] (by simp) (by
    intro t ht
    simp only [List.mem_singleton] at ht
    subst ht
    refine ⟨?_, fun a s h => by cases h⟩
    simp [YTree.tame, tameM, Apart, YTree.anchor])
  simpa [dataDocs, YTree.data, dataM, YRes.bind, YEnv.define] using this

/-- **C72** (defect): a key may be given twice, the last value counts. -/
theorem duplicate_key_defect (X : YLib) (k v w : String) :
    ∃ N, ∀ n, N ≤ n → yDecode X n (.streamStart :: docEvents [.map "" [(.scalar "" (quoted k), .scalar "" (quoted v)),
      (.scalar "" (quoted k), .scalar "" (quoted w))]]) = .ok [.dict [(.str k, .str w)]] := by
  have := read_documents X [.map "" [(.scalar "" (quoted k), .scalar "" (quoted v)), (.scalar "" (quoted k), .scalar "" (quoted w))]] (by simp) (by
    intro t ht
    simp only [List.mem_singleton] at ht
    subst ht
    refine ⟨?_, fun a s h => by cases h⟩
    simp [YTree.tame, tameM, Apart, YTree.anchor])
  simpa [dataDocs, YTree.data, dataM, YRes.bind, YEnv.define, resolve_quoted, assignKey, yKey, kset] using this

/-- **C72** (defect): a collection as key crashes the program: `{[]: v}`. -/
theorem collection_key_defect (X : YLib) (v : String) :
    ∃ N, ∀ n, N ≤ n → yDecode X n (.streamStart :: docEvents [.map "" [(.seq "" [], .scalar "" (quoted v))]]) = .panic := by
  have := read_documents X [.map "" [(.seq "" [], .scalar "" (quoted v))]] (by simp) (by
    intro t ht
    simp only [List.mem_singleton] at ht
    subst ht
    refine ⟨?_, fun a s h => by cases h⟩
    simp [YTree.tame, tameM, tameL, Apart, YTree.anchor])
  simpa [dataDocs, YTree.data, dataM, dataL, YRes.bind, YEnv.define, resolve_quoted, assignKey, yKey, kset] using this

/-- **C72**: entries of maps: assigning a key replaces its value, or adds the key, and leaves the others as they are. -/
theorem assigned_key (m : List (Key × Data)) (k : Data) (k' q : Key) (v : Data) (hk : yKey k = some k') :
    ∃ m', assignKey m k v = .ok m' ∧ m'.lookup q = if q = k' then some v else m.lookup q := by
  refine ⟨kset m k' v, by simp [assignKey, hk], ?_⟩
  induction m with
  | nil =>
    by_cases h : q = k'
    · simp [kset, List.lookup, h]
    · have : (q == k') = false := by simpa using h
      simp [kset, List.lookup, h, this]
  | cons e r ih =>
    obtain ⟨k0, v0⟩ := e
    by_cases h0 : k0 = k'
    · subst h0
      by_cases h : q = k0
      · simp [kset, List.lookup, h]
      · have : (q == k0) = false := by simpa using h
        simp [kset, List.lookup, h, this]
    · by_cases h : q = k0
      · subst h
        simp [kset, h0, List.lookup]
      · have : (q == k0) = false := by simpa using h
        simp only [kset, h0, if_false, List.lookup, this]
        exact ih

/-- **C72**: only a text is the key with this text: a null, a boolean, a number or a time as key is no text (such documents are refused later, C80). -/
theorem text_keys (m m' : List (Key × Data)) (k v : Data) (s : String) (h : assignKey m k v = .ok m') :
    (k = .str s → m'.lookup (.str s) = some v) ∧ (k ≠ .str s → m'.lookup (.str s) = m.lookup (.str s)) := by
  cases hk : yKey k with
  | none => rw [assignKey, hk] at h; cases h
  | some k' =>
    obtain ⟨m1, h1, h2⟩ := assigned_key m k k' (.str s) v hk
    rw [h1] at h
    cases h
    refine ⟨fun he => ?_, fun hn => ?_⟩
    · subst he
      cases hk
      simpa using h2
    · have : Key.str s ≠ k' := by
        rintro rfl
        cases k <;> simp_all [yKey]
      simpa [this] using h2

example : assignKey [(.str "a", .bool true)] .nil (.str "x") = .ok [(.str "a", .bool true), (.other "nil", .str "x")] := rfl

end Spiff
