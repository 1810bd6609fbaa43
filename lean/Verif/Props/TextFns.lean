import Verif.Model.TextFns
import Verif.Props.Pipeline
import Verif.Props.JsonMore
/-
C93: texts of values can be parsed again.
-/
namespace Spiff
open Spec
variable {E : Type}

/-! ### bytes of strings -/

theorem utf8_char (c : Char) : (String.utf8EncodeChar c).map UInt8.toNat = utf8Octets c := by
  have hr := char_range c
  unfold String.utf8EncodeChar utf8Octets
  have hv : c.val.toNat = c.toNat := rfl
  simp only [hv]
  generalize c.toNat = n at hr ⊢
  by_cases h1 : n < 0x80
  · rw [if_pos (by omega), if_pos h1]
    simp only [List.map_cons, List.map_nil, List.cons.injEq, and_true]
    simp; omega
  rw [if_neg (by omega), if_neg h1]
  by_cases h2 : n < 0x800
  · rw [if_pos (by omega), if_pos h2]
    simp; omega
  rw [if_neg (by omega), if_neg h2]
  by_cases h3 : n < 0x10000
  · rw [if_pos (by omega), if_pos h3]
    simp; omega
  rw [if_neg (by omega), if_neg h3]
  simp; omega

theorem utf8_bytes (t : YText) : (utf8Bytes (String.ofList t)).map UInt8.ofNat = utf8Out t := by
  rw [utf8Out_eq]
  unfold utf8Bytes encodedUtf8
  rw [String.toList_ofList]
  congr 1
  exact List.flatMap_congr (fun c _ => utf8_char c)

theorem blank_text (t : YText) : blankSource (utf8Out t) = t.all isTrimmedC := by
  rw [utf8Out_eq]
  unfold encodedUtf8 blankSource
  induction t with
  | nil => rfl
  | cons c t ih =>
    rw [List.flatMap_cons, List.map_append, List.all_append, ih, List.all_cons]
    congr 1
    have hr := char_range c
    have hn : ∀ (n : Nat) (d : Char), n < 128 → d.toNat = n → c.toNat < 128 → (UInt8.ofNat c.toNat = UInt8.ofNat n ↔ c = d) := by
      intro n d hn hd h
      constructor
      · intro he
        apply Char.toNat_inj.1
        have := congrArg UInt8.toNat he
        rw [UInt8.toNat_ofNat', UInt8.toNat_ofNat'] at this
        omega
      · rintro rfl; rw [hd]
    unfold utf8Octets
    by_cases h : c.toNat < 0x80
    · rw [if_pos h]
      have e1 : (UInt8.ofNat c.toNat = 32) = (c = ' ') := propext (hn 32 ' ' (by decide) rfl h)
      have e2 : (UInt8.ofNat c.toNat = 9) = (c = '\t') := propext (hn 9 '\t' (by decide) rfl h)
      have e3 : (UInt8.ofNat c.toNat = 10) = (c = '\n') := propext (hn 10 '\n' (by decide) rfl h)
      have e4 : (UInt8.ofNat c.toNat = 13) = (c = '\r') := propext (hn 13 '\r' (by decide) rfl h)
      simp only [List.map_cons, List.map_nil, List.all_cons, List.all_nil, Bool.and_true, e1, e2, e3, e4, isTrimmedC]
    · have hc : isTrimmedC c = false := by
        unfold isTrimmedC
        have : ∀ d : Char, d.toNat < 128 → c ≠ d := by rintro d hd rfl; omega
        simp [this ' ' (by decide), this '\t' (by decide), this '\n' (by decide), this '\r' (by decide)]
      rw [hc]
      have ho : ∀ (o : Nat) (r : List Nat), 0x80 ≤ o → o < 256 → ((o :: r).map UInt8.ofNat).all (fun c => c = 32 || c = 9 || c = 10 || c = 13) = false := by
        intro o r h1 h2
        have : ∀ k < 128, UInt8.ofNat o ≠ UInt8.ofNat k := by
          intro k hk he
          have := congrArg UInt8.toNat he
          rw [UInt8.toNat_ofNat', UInt8.toNat_ofNat'] at this
          omega
        have e1 : UInt8.ofNat o ≠ 32 := this 32 (by decide)
        have e2 : UInt8.ofNat o ≠ 9 := this 9 (by decide)
        have e3 : UInt8.ofNat o ≠ 10 := this 10 (by decide)
        have e4 : UInt8.ofNat o ≠ 13 := this 13 (by decide)
        simp [e1, e2, e3, e4]
      rw [if_neg h]
      by_cases h2 : c.toNat < 0x800
      · rw [if_pos h2]; exact ho _ _ (by omega) (by omega)
      rw [if_neg h2]
      by_cases h3 : c.toNat < 0x10000
      · rw [if_pos h3]; exact ho _ _ (by omega) (by omega)
      rw [if_neg h3]
      exact ho _ _ (by omega) (by omega)

theorem readableC_iff (c : Char) : isReadableC c = true ↔ YamlC c := by
  rw [← readable_iff]
  have hr := char_range c
  unfold isReadableC readableCode
  generalize c.toNat = n at hr ⊢
  simp only [Bool.or_eq_true, Bool.and_eq_true, decide_eq_true_eq]
  omega

theorem octets_inj : ∀ u w : YText, u.flatMap utf8Octets = w.flatMap utf8Octets → u = w := by
  intro u
  induction u with
  | nil =>
    intro w h
    cases w with
    | nil => rfl
    | cons d w =>
      obtain ⟨o, r, h1, -⟩ := utf8_shape d
      rw [List.flatMap_cons, h1] at h
      cases h
  | cons c u ih =>
    intro w h
    obtain ⟨o, r, h1, -, -, h2, h3, -⟩ := utf8_shape c
    cases w with
    | nil => rw [List.flatMap_cons, h1] at h; cases h
    | cons d w =>
      obtain ⟨o', r', g1, -, -, g2, g3, -⟩ := utf8_shape d
      rw [List.flatMap_cons, List.flatMap_cons, h1, g1, List.cons_append, List.cons_append, List.cons.injEq] at h
      obtain ⟨rfl, h⟩ := h
      obtain ⟨hr, h'⟩ := List.append_inj h (by omega)
      rw [hr, g3] at h3
      have : c = d := Char.toNat_inj.1 (Option.some.inj h3).symm
      rw [this, ih w h']

theorem encoded_inj {u w : YText} (h : encodedUtf8 u = encodedUtf8 w) : u = w := by
  apply octets_inj
  have := congrArg (·.map UInt8.toNat) h
  have hb : ∀ t : YText, (encodedUtf8 t).map UInt8.toNat = t.flatMap utf8Octets := by
    intro t
    unfold encodedUtf8
    rw [List.map_map]
    conv => rhs; rw [← List.map_id (t.flatMap utf8Octets)]
    refine List.map_congr_left (fun b hb => ?_)
    obtain ⟨c, -, hc⟩ := List.mem_flatMap.1 hb
    obtain ⟨o, r, h1, h2, h3, -⟩ := utf8_shape c
    rw [h1] at hc
    have : b < 256 := by
      rcases List.mem_cons.1 hc with rfl | hc
      · exact h2
      · exact h3 b hc
    simp only [Function.comp, UInt8.toNat_ofNat', id]
    omega
  simpa only [hb] using this

/-- The documents of the bytes of a text are those of the text, if it does not begin with a byte order mark. -/
theorem read_docs_text (X : YLib) (fuel : Nat) (src : String) (t : YText) (hm : ∀ r, t ≠ '\uFEFF' :: r) (ns : List (Node E)) :
    readDocs X fuel src (utf8Bytes (String.ofList t)) = some ns ↔ parseDocuments X fuel src t = .ok ns := by
  unfold readDocs parseDocuments
  rw [utf8_bytes, blank_text]
  have main : ∀ u : YText, (∀ r, u ≠ '\uFEFF' :: r) → ((decodeBytes X fuel (utf8Out u)).bind (sanitizeAll src) = some ns ↔
      (match readEvents u with
        | none => .error
        | some es => (yDecode X fuel es).bind fun ds => match sanitizeL src ds with | some ns => .ok ns | none => .error : YRes (List (Node E))) = .ok ns) := by
    intro u hu
    unfold decodeBytes
    by_cases hr : u.all isReadableC = true
    · have : readText [utf8Out u] = some u := by
        refine read_encoded _ u ?_ (fun c hc => (readableC_iff c).1 (List.all_eq_true.1 hr c hc)) hu
        rw [List.flatten_cons, List.flatten_nil, List.append_nil, utf8Out_eq]
      rw [this, Option.bind_some]
      cases he : readEvents u with
      | none => simp
      | some es =>
        simp only [Option.bind_some]
        cases hd : yDecode X fuel es <;> simp only [YRes.bind, Option.bind_none, Option.bind_some, reduceCtorEq]
        rw [sanitizeAll_eq]
        cases sanitizeL (E := E) src _ <;> simp
    · have h1 : readEvents u = none := by unfold readEvents; rw [if_neg hr]
      have h2 : readText [utf8Out u] = none := by
        cases h : readText [utf8Out u] with
        | none => rfl
        | some w =>
          have hnm : ¬ ByteOrderMarked ([utf8Out u].flatten) := by
            rw [List.flatten_cons, List.flatten_nil, List.append_nil, utf8Out_eq, marked_iff]
            rintro ⟨r, hr⟩; exact hu r hr
          obtain ⟨h3, h4⟩ := (read_utf8 _ w hnm).1 h
          rw [List.flatten_cons, List.flatten_nil, List.append_nil, utf8Out_eq] at h3
          have : u = w := encoded_inj h3
          subst this
          exact absurd (List.all_eq_true.2 (fun c hc => (readableC_iff c).2 (h4 c hc))) hr
      rw [h1, h2]
      simp
  cases hb : t.all isTrimmedC with
  | true =>
    rw [if_pos rfl, if_pos rfl]
    exact main "---\n".toList (by intro r h; cases h)
  | false =>
    rw [if_neg Bool.false_ne_true, if_neg Bool.false_ne_true]
    exact main t hm

/-! ### parsing texts -/

/-- `parse` of a text with one document -/
theorem parse_text (X : YLib) (fuel : Nat) (R : ReadLib E) (path : List String) (t : YText) (hm : ∀ r, t ≠ '\uFEFF' :: r) (n : Node E)
    (h : parseDocuments X fuel (String.intercalate "." path) t = .ok [n]) :
    funcParse (textRead X fuel R) path [.str (String.ofList t)] = .ok (.value n.val true) := by
  have := (read_docs_text X fuel _ t hm [n]).2 h
  have hd : parseMode (textRead X fuel R) (String.intercalate "." path) (String.intercalate "." path) (utf8Bytes (String.ofList t)) false "import" = .ok (.value n.val true) := by
    unfold parseMode
    rw [if_neg (by decide), if_neg (by decide), if_neg (by decide), if_neg (by decide), if_pos rfl]
    have : (textRead X fuel R).docs (String.intercalate "." path) (utf8Bytes (String.ofList t)) = some [n] := this
    unfold parseSingle
    rw [this]
  exact hd

/-- `read` of a file with one document, as it is -/
theorem read_text_file (X : YLib) (fuel : Nat) (R : ReadLib E) (content : String → Option (List Nat)) (file : String) (t : YText) (hm : ∀ r, t ≠ '\uFEFF' :: r) (n : Node E)
    (hc : content file = some (utf8Bytes (String.ofList t))) (h : parseDocuments X fuel file t = .ok [n]) :
    funcRead (textRead X fuel R) true content [.str file, .str "import"] = .ok (.value n.val true) := by
  have := (read_docs_text X fuel _ t hm [n]).2 h
  have hd : parseMode (textRead X fuel R) file file (utf8Bytes (String.ofList t)) false "import" = .ok (.value n.val true) := by
    unfold parseMode
    rw [if_neg (by decide), if_neg (by decide), if_neg (by decide), if_neg (by decide), if_pos rfl]
    have : (textRead X fuel R).docs file (utf8Bytes (String.ofList t)) = some [n] := this
    unfold parseSingle
    rw [this]
  simp only [funcRead, List.length_cons, List.length_nil, Bool.not_true, Bool.false_eq_true, if_false, hc]
  exact hd

/-- The text `s` is understood as the value: by `parse` at any place, and by `read` for any file with this content. -/
def Spec.TextOfValue (X : YLib) (R : ReadLib E) (s : String) (v : Val E) : Prop :=
  (∀ path, ∃ (n : Node E) (N : Nat), SameContent (Node.new v "") n ∧ ∀ fuel ≥ N, funcParse (textRead X fuel R) path [.str s] = .ok (.value n.val true)) ∧
  (∀ file content, content file = some (utf8Bytes s) →
    ∃ (n : Node E) (N : Nat), SameContent (Node.new v "") n ∧ ∀ fuel ≥ N, funcRead (textRead X fuel R) true content [.str file, .str "import"] = .ok (.value n.val true))

theorem text_of_value (X : YLib) (R : ReadLib E) (t : YText) (v : Val E) (hm : ∀ r, t ≠ '\uFEFF' :: r)
    (h : ∀ src, ∃ n : Node E, (∃ N, ∀ fuel, N ≤ fuel → parseDocuments X fuel src t = .ok [n]) ∧ SameContent (Node.new v "") n) : TextOfValue X R (String.ofList t) v := by
  constructor
  · intro path
    obtain ⟨n, ⟨N, hN⟩, hc⟩ := h (String.intercalate "." path)
    exact ⟨n, N, hc, fun fuel hf => parse_text X fuel R path t hm n (hN fuel hf)⟩
  · intro file content hcon
    obtain ⟨n, ⟨N, hN⟩, hc⟩ := h file
    exact ⟨n, N, hc, fun fuel hf => read_text_file X fuel R content file t hm n hcon (hN fuel hf)⟩

/-- **C93**: `parse(as_yaml(v))` is `v`, and so is the content of a file with this text. -/
theorem parse_as_yaml (X : YLib) {F : Nat → YText} (hF : ∀ b, F b ≠ [] ∧ '\n' ∉ F b) (R : ReadLib E) (v : Val E) (h : Writable X F (Node.new v "")) :
    ∃ s, funcAsYaml X F [v] = .ok (.str s) ∧ TextOfValue X R s v := by
  obtain ⟨es, -, -, -, he, -⟩ := written_ok X F "" _ h.data h.numbers h.maps h.written
  obtain ⟨t, ht⟩ := marshal_total X hF he
  refine ⟨String.ofList t, by simp only [funcAsYaml, ht], text_of_value X R t v ?_ (fun src => ?_)⟩
  · have hd : writeDocument es = some t := by
      have := ht
      unfold marshal at this
      rwa [he] at this
    exact (plain_utf8 (document_plain (encode_events X hF _ es he) hd)).2
  · obtain ⟨ns, ⟨N, hN⟩, hc, -⟩ := print_read X hF src [Node.new v ""] (by simp) (by simpa using h) [some t] (.cons (.inr ⟨t, rfl, ht⟩) .nil)
    cases hc with
    | cons hc hr =>
      cases hr
      refine ⟨_, ⟨N, fun fuel hf => ?_⟩, hc⟩
      have := hN fuel hf
      cases t with
      | nil => exact this
      | cons c r => simpa [printDocuments, printDocument] using this

/-- **C93**: `parse(as_json(v))` is `v`, and so is the content of a file with this text. -/
theorem parse_as_json (X : YLib) (J : Nat → YText) (R : ReadLib E) (v : Val E) (h : JsonWritable X J (Node.new v "")) :
    ∃ s, funcAsJson J [v] = .ok (.str s) ∧ TextOfValue X R s v := by
  obtain ⟨t, -, -, h1, h2, -⟩ := json_ok X J "" _ h.maps (JsonWritable.good h)
  refine ⟨String.ofList t.print, by simp only [funcAsJson, h1], text_of_value X R t.print v ?_ (fun src => ?_)⟩
  · intro r hr
    cases t with
    | word w =>
      have : ('\uFEFF' : Char) ∈ w := by rw [JTree.print] at hr; rw [hr]; simp
      have := h2.plain.printable _ this
      exact absurd this (by unfold AsciiC; decide)
    | text s => rw [JTree.print, jsonQuote] at hr; cases hr
    | seq l => rw [JTree.print] at hr; cases hr
    | map m => rw [JTree.print] at hr; cases hr
  · obtain ⟨t', n, g1, ⟨N, hN⟩, hc, -⟩ := json_read X J src _ h
    rw [h1] at g1
    cases g1
    exact ⟨n, ⟨N, fun fuel hf => (hN fuel hf).1⟩, hc⟩

/-- The functions take one argument, and fail for values with unresolved expressions. -/
theorem as_text_fails (X : YLib) (F J : Nat → YText) (args : List (Val E)) (h : args.length ≠ 1 ∨ ∃ v e, args = [v] ∧ GoMaps (Node.new v "") ∧
    ∃ p x, locate (Node.new v "") p = some x ∧ x.val = .expr e) : funcAsJson J args = .err ∧ (args.length ≠ 1 → funcAsYaml X F args = .err) := by
  rcases h with h | ⟨v, e, rfl, hg, p, x, hx, he⟩
  · match args with
    | [] => exact ⟨rfl, fun _ => rfl⟩
    | [v] => exact absurd rfl h
    | _ :: _ :: _ => exact ⟨rfl, fun _ => rfl⟩
  · have := (normalize_fails_iff (Node.new v "") hg).2 ⟨p, x, e, hx, he⟩
    refine ⟨?_, fun h => absurd rfl h⟩
    simp only [funcAsJson, toJson, this, Option.bind_none]

/-- the texts of a value -/
theorem text_fns_example : (match funcAsYaml writeExampleLib writeExampleF [writeExample.val], funcAsJson writeExampleF [writeExample.val] with
    | .ok (.str a), .ok (.str b) => some (a, b)
    | _, _ => none) = some ("\"5\": null\na: 1.5\nz:\n- -12\n- \"no\"\n- 'a: b'\n", "{\"5\":null,\"a\":1.5,\"z\":[-12,\"no\",\"a: b\"]}") := by
  decide +kernel

/-- the hypotheses of `parse_as_yaml` and `parse_as_json` -/
theorem text_fns_example_ok : (∀ b, writeExampleF b ≠ [] ∧ '\n' ∉ writeExampleF b) ∧ Writable writeExampleLib writeExampleF (Node.new writeExample.val "") ∧
    JsonWritable writeExampleLib writeExampleF (Node.new writeExample.val "") := by
  obtain ⟨h1, h2, h3, h4, h5⟩ := write_example_ok
  refine ⟨fun b => ?_, ⟨h1, h2, h3, h4, h5⟩, json_example_writable⟩
  unfold writeExampleF
  split <;> exact ⟨by decide, by decide⟩

end Spiff
