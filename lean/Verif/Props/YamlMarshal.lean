import Verif.Props.YamlLayout
import Verif.Props.YamlWrite
/-
C86: documents written by the program, as texts, are read as the same documents.
-/
namespace Spiff
open Spec
variable {E : Type}

theorem node_scalarEvents (s : YText) (st : YStyle) (h : Asked s st) : NodeEvents [writeScalar s st] := .scalar s st h

theorem flat_entries (X : YLib) (em : List (String × List WEvent)) (ks : List String) (h : ∀ k ∈ ks, ∃ es, mget em k = some es ∧ NodeEvents es) :
    EntryEvents (ks.flatMap (fun k => writeKey X k :: (mget em k).getD [])) := by
  induction ks with
  | nil => exact .nil
  | cons k r ih =>
    obtain ⟨es, h1, h2⟩ := h k (List.mem_cons_self ..)
    rw [List.flatMap_cons, h1, Option.getD_some, List.cons_append]
    exact .cons k.toList _ (asked_string X _) h2 (ih (fun x hx => h x (List.mem_cons_of_mem _ hx)))

/-- the text of a float can be asked for -/
theorem asked_float {F : Nat → YText} (hF : ∀ b, F b ≠ [] ∧ '\n' ∉ F b) (b : Nat) : Asked (floatText F b) .plain := by
  unfold floatText
  split
  · exact ⟨by decide, by decide⟩
  · split
    · exact ⟨by decide, by decide⟩
    · split
      · exact ⟨by decide, by decide⟩
      · exact hF b

theorem asked_int (i : Int) : Asked (toString i).toList .plain := by
  have h := int_shape i
  refine ⟨?_, fun hn => ?_⟩
  · obtain ⟨sg, d, r, h, -⟩ := h
    rw [h]
    simp
  · have := (numberShape_plain _ h).printable _ hn
    unfold AsciiC at this
    exact absurd this (by decide)

/-- every written document is made of lists, maps and scalars -/
theorem encode_events (X : YLib) {F : Nat → YText} (hF : ∀ b, F b ≠ [] ∧ '\n' ∉ F b) (n : Node E) : ∀ es, encode X F n = some es → NodeEvents es := by
  refine Node.rec (motive_1 := fun v => ∀ es, encodeV X F v = some es → NodeEvents es)
    (motive_2 := fun n => ∀ es, encode X F n = some es → NodeEvents es)
    (motive_3 := fun l => ∀ es, encodeL X F l = some es → ItemEvents es)
    (motive_4 := fun m => ∀ em, encodeM X F m = some em → ∀ e ∈ em, NodeEvents e.2)
    (motive_5 := fun e => ∀ es, encode X F e.2 = some es → NodeEvents es)
    ?_ ?_ ?_ ?_ ?_ ?_ ?_ ?_ ?_ ?_ ?_ ?_ ?_ ?_ ?_ ?_ n
  · intro es h; simp only [encodeV, Option.some.injEq] at h; subst h; exact node_scalarEvents _ _ ⟨by decide, by decide⟩
  · intro b es h; simp only [encodeV, Option.some.injEq] at h; subst h; refine node_scalarEvents _ _ ?_; cases b <;> exact ⟨by decide, by decide⟩
  · intro i es h; simp only [encodeV, Option.some.injEq] at h; subst h; exact node_scalarEvents _ _ (asked_int i)
  · intro b es h; simp only [encodeV, Option.some.injEq] at h; subst h; exact node_scalarEvents _ _ (asked_float hF b)
  · intro s es h; simp only [encodeV, Option.some.injEq] at h; subst h; exact node_scalarEvents _ _ (asked_string X _)
  · intro l ih es h
    simp only [encodeV, Option.map_eq_some_iff] at h
    obtain ⟨a, h1, rfl⟩ := h
    exact .seq (ih a h1)
  · intro m ih es h
    simp only [encodeV, Option.map_eq_some_iff] at h
    obtain ⟨em, h1, rfl⟩ := h
    refine .map (flat_entries X em _ (fun k hk => ?_))
    have hk : k ∈ mkeys em := (sortStr_perm _).mem_iff.1 hk
    cases hg : mget em k with
    | none => exact absurd hk (mget_none_iff.1 hg)
    | some w => exact ⟨w, rfl, ih em h1 _ (mget_some_mem hg)⟩
  · intro e es h; simp [encodeV] at h
  · intro n ih es h; exact ih es (by simpa [encodeV] using h)
  · intro s es h; simp only [encodeV, Option.some.injEq] at h; subst h; exact node_scalarEvents _ _ (asked_string X _)
  · intro v s a ih es h; exact ih es (by simpa [encode] using h)
  · intro es h; simp only [encodeL, Option.some.injEq] at h; subst h; exact .nil
  · intro n r h1 h2 es h
    cases ha : encode X F n with
    | none => simp [encodeL, ha] at h
    | some a =>
      cases hb : encodeL X F r with
      | none => simp [encodeL, ha, hb] at h
      | some b =>
        simp only [encodeL, ha, hb, Option.some.injEq] at h
        subst h
        exact .cons (h1 a ha) (h2 b hb)
  · intro em h; simp only [encodeM, Option.some.injEq] at h; subst h; simp
  · rintro ⟨k, n⟩ r h1 h2 em h
    cases ha : encode X F n with
    | none => simp [encodeM, ha] at h
    | some a =>
      cases hb : encodeM X F r with
      | none => simp [encodeM, ha, hb] at h
      | some b =>
        simp only [encodeM, ha, hb, Option.some.injEq] at h
        subst h
        intro e he
        rcases List.mem_cons.1 he with rfl | he
        · exact h1 a ha
        · exact h2 b hb e he
  · intro k n ih; exact ih

/-- every value without expressions can be written -/
theorem marshal_total (X : YLib) {F : Nat → YText} (hF : ∀ b, F b ≠ [] ∧ '\n' ∉ F b) {n : Node E} {es : List WEvent} (h : encode X F n = some es) :
    ∃ t, marshal X F n = some t := by
  obtain ⟨t, h1, -⟩ := document_text_roundtrip (encode_events X hF n es h)
  exact ⟨t, by simp [marshal, h, h1]⟩

/-- blank texts have no documents -/
theorem blank_toNext (t : YText) (h : t.all isTrimmedC = true) : ∀ col, ∃ col' r, toNext 0 true false col t = (true, col', r) ∧ (r = [] ∨ ∃ u, r = '\t' :: u) := by
  induction t with
  | nil => intro col; exact ⟨col, [], rfl, .inl rfl⟩
  | cons c r ih =>
    intro col
    simp only [List.all_cons, Bool.and_eq_true] at h
    have hc := h.1
    simp only [isTrimmedC, Bool.or_eq_true, decide_eq_true_eq] at hc
    rcases hc with ((rfl | rfl) | rfl) | rfl
    · rw [toNext_space]; exact ih h.2 _
    · exact ⟨col, _, by simp [toNext, isBreakC], .inr ⟨r, rfl⟩⟩
    · rw [toNext_nl]; exact ih h.2 _
    · have : toNext 0 true false col ('\r' :: r) = toNext 0 true false 0 r := by simp [toNext, isBreakC]
      rw [this]; exact ih h.2 _

theorem blank_not_read {t : YText} (h : t.all isTrimmedC = true) {docs : List (Option (List WEvent))} (hr : readEvents t = some (documentEvents docs))
    (hne : docs ≠ []) : False := by
  obtain ⟨col, r, h1, h2⟩ := blank_toNext t h 0
  have hs : settle (.start t) = some ⟨r, col, -1, [], 0, true, [none], [.streamStart]⟩ := by
    simp [settle, Scanner.start, h1, staleKeys, unrollIndent, unrollLevels]
  have hf : fetchNext (.start t) = dispatch ⟨r, col, -1, [], 0, true, [none], [.streamStart]⟩ := by
    unfold fetchNext
    rw [hs, Option.bind_some]
  rcases h2 with rfl | ⟨u, rfl⟩
  · have : scanText t = some [.streamStart, .streamEnd] := by
      unfold scanText
      rw [scanAll, hf]
      simp [dispatch, tokenKind, fetchStreamEnd, unrollIndent, unrollLevels, removeKey]
    have hr := (Option.ite_none_right_eq_some.1 hr).2
    rw [this] at hr
    cases docs with
    | nil => exact hne rfl
    | cons d ds =>
      rw [show (some [YTok.streamStart, .streamEnd]).bind parseTokens = some [.streamStart, .streamEnd] by decide] at hr
      simp [documentEvents] at hr
  · have : scanText t = none := by
      unfold scanText
      rw [scanAll, hf]
      have hk : tokenKind col ('\t' :: u) = .bad := by simp [tokenKind, isZeroC, isBlankzC, isBlankC]
      simp [dispatch, hk]
    have hr := (Option.ite_none_right_eq_some.1 hr).2
    rw [this] at hr
    simp at hr

/-- what is read for printed documents -/
theorem printed_ok (X : YLib) {F : Nat → YText} (hF : ∀ b, F b ≠ [] ∧ '\n' ∉ F b) (src : String) (docs : List (Node E)) (texts : List (Option YText))
    (h : List.Forall₂ (PrintedAs X F) docs texts) (hd : ∀ n ∈ docs, Writable X F n) :
    ∃ (ess : List (Option (List WEvent))) (ts : List YTree) (ds : List Data) (ns : List (Node E)),
      texts = ess.map (·.bind writeDocument) ∧ (∀ es, some es ∈ ess → NodeEvents es) ∧ ess.length = docs.length ∧
      ess.flatMap (fun d => .docStart :: (contentEvents d ++ [.docEnd])) ++ [.streamEnd] = docEvents ts ∧
      ts.length = docs.length ∧ (∀ t ∈ ts, TameDoc t) ∧ (∀ env, dataDocs X ts env = .ok ds) ∧ sanitizeL src ds = some ns ∧
      List.Forall₂ SameContent docs ns ∧ ∀ n ∈ ns, n.src = src ∧ n.ann = {} := by
  induction h with
  | nil => exact ⟨[], [], [], [], rfl, by simp, rfl, rfl, rfl, by simp, fun _ => rfl, rfl, .nil, by simp⟩
  | @cons n x docs texts h hr ih =>
    obtain ⟨ess, ts, ds, ns, h1, h2, h3, h4, h5, h6, h7, h8, h9, h10⟩ := ih (fun m hm => hd m (List.mem_cons_of_mem _ hm))
    obtain ⟨ho, hn, hg, hnum, hroot⟩ := hd n (List.mem_cons_self ..)
    rcases h with ⟨rfl, hnil⟩ | ⟨y, rfl, hy⟩
    · refine ⟨none :: ess, .scalar "" { value := [] } :: ts, .nil :: ds, Node.new .nil src :: ns, by simp [h1], by simpa using h2, by simp [h3], ?_, by simp [h5],
        ?_, ?_, by simp [sanitizeL, h8, sanitize, consOpt], .cons ?_ h9, ?_⟩
      · rw [List.flatMap_cons, List.append_assoc, h4]; rfl
      · intro t ht
        rcases List.mem_cons.1 ht with rfl | ht
        · exact ⟨.inl rfl, fun a s hs hq => by cases hs; exact absurd hq.2.1 (by simp)⟩
        · exact h6 t ht
      · intro env
        rw [dataDocs, scalar_data]
        simp only [YRes.bind, h7]
        rfl
      · obtain ⟨v, s, a⟩ := n
        cases hnil
        exact sameContent_leaf trivial (fun i => by cases i <;> rfl)
      · intro m hm
        rcases List.mem_cons.1 hm with rfl | hm
        · exact ⟨rfl, rfl⟩
        · exact h10 m hm
    · obtain ⟨es, t, d, n', g1, g2, g3, g4, g5, g6, g7, g8, g9⟩ := written_ok X F src n ho hn hg hnum
      have hw : writeDocument es = some y := by simpa [marshal, g1] using hy
      refine ⟨some es :: ess, t :: ts, d :: ds, n' :: ns, by simp [h1, hw], ?_, by simp [h3], ?_, by simp [h5],
        ?_, ?_, by simp [sanitizeL, h8, g5, consOpt], .cons g6 h9, ?_⟩
      · intro e he
        rcases List.mem_cons.1 he with he | he
        · cases he; exact encode_events X hF n es g1
        · exact h2 e he
      · rw [List.flatMap_cons, List.append_assoc, h4, contentEvents, g2]; simp [docEvents]
      · intro u hu
        rcases List.mem_cons.1 hu with rfl | hu
        · refine ⟨(noAnchors_tame u g3).1, fun a s hs hq => ?_⟩
          obtain ⟨w, hw, hm⟩ := g9 a s hs hq
          apply hroot w hw
          obtain ⟨w', hw', he⟩ := List.mem_map.1 hm
          rw [String.toList_inj] at he
          rw [← he]
          exact hw'
        · exact h6 u hu
      · intro env
        rw [dataDocs, g4]
        simp only [YRes.bind, h7]
      · intro m hm
        rcases List.mem_cons.1 hm with rfl | hm
        · exact ⟨g7, g8⟩
        · exact h10 m hm

/-- **C86**: the output of the program for documents is read as the same documents. -/
theorem print_read (X : YLib) {F : Nat → YText} (hF : ∀ b, F b ≠ [] ∧ '\n' ∉ F b) (src : String) (docs : List (Node E)) (hne : docs ≠ [])
    (hd : ∀ n ∈ docs, Writable X F n) (texts : List (Option YText)) (h : List.Forall₂ (PrintedAs X F) docs texts) :
    ∃ ns : List (Node E), (∃ N, ∀ fuel, N ≤ fuel → parseDocuments X fuel src (printDocuments texts) = .ok ns) ∧
      List.Forall₂ SameContent docs ns ∧ ∀ n ∈ ns, n.src = src ∧ n.ann = {} := by
  obtain ⟨ess, ts, ds, ns, h1, h2, h3, h4, h5, h6, h7, h8, h9, h10⟩ := printed_ok X hF src docs texts h hd
  refine ⟨ns, ?_, h9, h10⟩
  have hess : ess ≠ [] := by rintro rfl; exact hne (List.length_eq_zero_iff.1 h3.symm)
  have hr := stream_text_roundtrip ess hess h2
  rw [← h1] at hr
  obtain ⟨N, hN⟩ := read_documents X ts (by rintro rfl; exact hne (List.length_eq_zero_iff.1 h5.symm)) h6
  refine ⟨N, fun f hf => ?_⟩
  have hnb : (printDocuments texts).all isTrimmedC = false := by
    by_contra hc
    exact blank_not_read (by simpa using hc) hr hess
  unfold parseDocuments
  rw [hnb, if_neg Bool.false_ne_true, hr]
  simp only [documentEvents, h4, hN f hf, h7, YRes.bind, h8]

/-! ### examples -/

/-- the whole output for two documents, the second one without content: all kinds of lists and maps, texts in all styles, and a long key -/
def marshalExample : List (Node Unit) :=
  [.mk (.map [("z", .mk (.list [.mk (.int (-12)) "" {}, .mk (.str "no") "" {}, .mk (.str "a: b") "" {}, .mk (.list [.mk (.list []) "" {},
      .mk (.map [("k", .mk (.str "l1\nl2\n") "" {}), ("l", .mk (.list [.mk (.bool true) "" {}]) "" {})]) "" {}]) "" {}]) "" {}),
    ("two\nlines", .mk (.map [("x", .mk (.map []) "" {})]) "" {})]) "" {}, .mk .nil "" {}]

theorem marshal_example : (marshalExample.map (fun n => if n.val.isNil then none else marshal writeExampleLib writeExampleF n)).map (·.map String.ofList) =
    [some "? |-\n  two\n  lines\n: x: {}\nz:\n- -12\n- \"no\"\n- 'a: b'\n- - []\n  - k: |+\n      l1\n      l2\n    l:\n    - true\n", none] := by
  decide +kernel

theorem print_example : readEvents (printDocuments (marshalExample.map (fun n => if n.val.isNil then none else marshal writeExampleLib writeExampleF n))) =
    some (documentEvents (marshalExample.map (fun n => if n.val.isNil then none else encode writeExampleLib writeExampleF n))) := by
  decide +kernel

/-- the hypotheses of `print_read` -/
example : (∀ b, writeExampleF b ≠ [] ∧ '\n' ∉ writeExampleF b) ∧ Writable writeExampleLib writeExampleF writeExample ∧
    (marshal writeExampleLib writeExampleF writeExample).map String.ofList =
      some "\"5\": null\na: 1.5\nz:\n- -12\n- \"no\"\n- 'a: b'\n" := by
  refine ⟨fun b => ?_, ?_, by decide +kernel⟩
  · unfold writeExampleF
    split <;> exact ⟨by decide, by decide⟩
  · obtain ⟨h1, h2, h3, h4, h5⟩ := write_example_ok
    exact ⟨h1, h2, h3, h4, h5⟩

end Spiff
