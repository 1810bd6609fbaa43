import Verif.Props.Command3
/-
The commands `convert` and `diff` (C67, C68), and concrete runs.
-/
namespace Spiff
open Spiff.Spec
variable {E S : Type}

/-! ### convert -/

theorem noFeature (x : String) : Features.enabled [] x = false := by
  simp [Features.enabled, mget]

theorem convertDoc_ok (L : CmdLib E S) (j : Job) (t : Node E) (outs : List (Option Bytes)) :
    convertDoc L j t = .ok outs ↔ DocConverted L j t outs := by
  unfold convertDoc
  by_cases hn : t.val = .nil
  · rw [if_pos ((isNil_iff _).2 hn)]
    constructor
    · intro h; cases h; exact .empty t hn
    · intro h
      cases h with
      | empty => rfl
      | shown n x parts outs h => exact absurd hn h
  · rw [if_neg (fun h => hn ((isNil_iff _).1 h))]
    simp only [ebind_ok, takePath_ok, selectFields_ok, renderDoc_ok, noFeature]
    constructor
    · rintro ⟨n, hp, x, hs, parts, hparts, houts⟩
      exact .shown t n x parts outs hn hp hs hparts houts
    · intro h
      cases h with
      | empty => exact absurd ‹_› hn
      | shown n x parts _ _ hp hs hparts houts => exact ⟨n, hp, x, hs, parts, hparts, houts⟩

theorem convertDocs_ok (L : CmdLib E S) (j : Job) (ts : List (Node E)) : ∀ outs, convertDocs L j ts = .ok outs ↔
    ∃ os, List.Forall₂ (DocConverted L j) ts os ∧ outs = os.flatten := by
  induction ts with
  | nil =>
    intro outs
    constructor
    · intro h; cases h; exact ⟨[], .nil, rfl⟩
    · rintro ⟨os, h, rfl⟩; cases h; rfl
  | cons t ts ih =>
    intro outs
    unfold convertDocs
    simp only [ebind_ok, emap_ok, convertDoc_ok, ih]
    constructor
    · rintro ⟨a, ha, b, ⟨os, hos, rfl⟩, rfl⟩
      exact ⟨a :: os, .cons ha hos, rfl⟩
    · rintro ⟨os, h, rfl⟩
      cases h with
      | cons h1 h2 => exact ⟨_, h1, _, ⟨_, h2, rfl⟩, rfl⟩

/-- **C67**: `convert` ends normally exactly if the template can be read and every document can be shown; it then prints the documents without
processing them and changes no file. -/
theorem convert_ok_iff (L : CmdLib E S) (w : Surroundings) (j : Job) (out : Bytes) (fs : FileSys) :
    convertMain L w j = ⟨out, fs, none⟩ ↔ fs = w.fs ∧ ∃ b docs os, TextOf w j.template b ∧ DocsOf L j.template b docs ∧
      List.Forall₂ (DocConverted L j) docs os ∧ Printed j.json os.flatten out := by
  have ht : ∀ t u, readTemplate w false j.template = .ok (t, u) → TextOf w j.template t := by
    intro t u h
    unfold readTemplate at h
    unfold TextOf
    split at h
    · next hd => rw [if_pos hd]; cases h; rfl
    · next hd =>
      rw [if_neg hd]
      simp only [emap_ok, orFatal_ok] at h
      obtain ⟨b, hb, h⟩ := h
      cases h
      exact (readFile_iff _ _ _).1 hb
  have ht' : ∀ b, TextOf w j.template b → ∃ u, readTemplate w false j.template = .ok (b, u) := by
    intro b h
    unfold TextOf at h
    unfold readTemplate
    split
    · next hd => rw [if_pos hd] at h; subst h; exact ⟨_, rfl⟩
    · next hd => rw [if_neg hd] at h; rw [(readFile_iff _ _ _).2 h]; exact ⟨_, rfl⟩
  have hc : ∀ r : Step? (List (Option Bytes)), conclude j.json w.fs r = ⟨out, fs, none⟩ ↔ fs = w.fs ∧ ∃ os, r = .ok os ∧ printAll j.json os = out := by
    intro r
    rcases r with x | os
    · simp [conclude]
    · simp [conclude, eq_comm, and_comm]
  unfold convertMain
  rw [hc]
  simp only [ebind_ok, orFatal_ok, parseMulti_iff, convertDocs_ok, printed_iff]
  constructor
  · rintro ⟨rfl, outs, ⟨⟨t, u⟩, h1, docs, h2, os, h3, rfl⟩, h4⟩
    exact ⟨rfl, t, docs, os, ht t u h1, h2, h3, h4⟩
  · rintro ⟨rfl, b, docs, os, h1, h2, h3, h4⟩
    obtain ⟨u, hu⟩ := ht' b h1
    exact ⟨rfl, _, ⟨(b, u), hu, docs, h2, os, h3, rfl⟩, h4⟩

/-- **C67**: a run which fails prints nothing. -/
theorem convert_silent (L : CmdLib E S) (w : Surroundings) (j : Job) (h : (convertMain L w j).halt ≠ none) :
    (convertMain L w j).stdout = [] := by
  unfold convertMain at h ⊢
  generalize (readTemplate w false j.template).bind _ = r at h ⊢
  rcases r with x | os
  · rfl
  · exact absurd rfl h

/-- the options `convert` and `merge` have in common -/
def sharedOptions (j : Job) : Job :=
  { template := j.template, json := j.json, split := j.split, subpath := j.subpath, selection := j.selection }

theorem allDocs_unchanged (L : CmdLib E S) (w : Surroundings) (j : Job) (ts : List (Node E))
    (h : ∀ t ∈ ts, ∀ s, (applyDoc L false {} [] s t).2 = (t, none) ∧ t.ann.flags.temporary = false) :
    ∀ s fs, allDocs L w (sharedOptions j) [] [] s fs ts = (fs, convertDocs L j ts) := by
  induction ts with
  | nil => intro s fs; rfl
  | cons t ts ih =>
    intro s fs
    have ih' := ih (fun x hx => h x (List.mem_cons_of_mem _ hx))
    have ht := h t List.mem_cons_self
    have hone : ∃ s', oneDoc L w (sharedOptions j) [] [] s fs t = (s', fs, convertDoc L j t) := by
      unfold oneDoc convertDoc
      split
      · exact ⟨_, rfl⟩
      · have ha := ht s
        unfold flowedDoc
        rw [noFeature]
        rcases hap : applyDoc L false (sharedOptions j).opts [] s t with ⟨s1, r, err⟩
        have hap' : applyDoc L false {} [] s t = (s1, r, err) := hap
        rw [hap'] at ha
        obtain ⟨he, hf⟩ := ha
        simp only [Prod.mk.injEq] at he
        obtain ⟨rfl, rfl⟩ := he
        refine ⟨s1, ?_⟩
        simp only [sharedOptions, Option.isSome_none, Bool.and_false, Bool.false_eq_true, if_false, hf]
        rcases takePath [] j.subpath r with x | n
        · rfl
        · rfl
    obtain ⟨s', hs'⟩ := hone
    unfold allDocs convertDocs
    rw [hs']
    rcases convertDoc L j t with x | a
    · rfl
    · simp only [ih']
      rcases convertDocs L j ts with x | b <;> rfl

/-- **C67**: for documents the processing leaves unchanged, `merge` and `convert` are the same. -/
theorem convert_is_merge (L : CmdLib E S) (w : Surroundings) (j : Job) (he : w.envFeatures = [])
    (h : ∀ b docs, TextOf w j.template b → DocsOf L j.template b docs → ∀ t ∈ docs, ∀ s,
      (applyDoc L false {} [] s t).2 = (t, none) ∧ t.ann.flags.temporary = false) :
    mergeMain L w (sharedOptions j) [] = convertMain L w j := by
  unfold mergeMain convertMain
  simp only [createValues, createValues.go]
  unfold mergeCmd readInputs
  have hf : cmdFeatures w (sharedOptions j) = .ok [] := by
    unfold cmdFeatures envFlags
    rw [he]
    have : (splitCh ',' []).foldl (fun (f : Features) n => (f.set (String.ofList (trimSpace n)) true).1) [] = [] := by decide +kernel
    rw [this]; rfl
  have h' : ∀ (t : Bytes) u docs, readTemplate w false j.template = .ok (t, u) → parseMulti L j.template t = some docs →
      ∀ x ∈ docs, ∀ s, (applyDoc L false {} [] s x).2 = (x, none) ∧ x.ann.flags.temporary = false := by
    intro t u docs h1 h2
    refine h t docs ?_ ((parseMulti_iff _ _ _ _).1 h2)
    unfold readTemplate at h1
    unfold TextOf
    split at h1
    · next hd => rw [if_pos hd]; cases h1; rfl
    · next hd =>
      rw [if_neg hd]
      simp only [emap_ok, orFatal_ok] at h1
      obtain ⟨b, hb, h1⟩ := h1
      cases h1
      exact (readFile_iff _ _ _).1 hb
  rcases hT : readTemplate w false j.template with x | ⟨t, u⟩
  · simp [sharedOptions, hT, Except.bind, conclude]
  · rcases hD : parseMulti L j.template t with _ | docs
    · simp [sharedOptions, hT, hD, orFatal, Except.bind, conclude]
    · have hx := h' t u docs hT hD
      have hread : ∃ ctx, readInputs L w { sharedOptions j with values := [] } false [] = .ok ⟨docs, [], ctx, []⟩ := by
        unfold readInputs
        have h1 : readTemplate w false (sharedOptions j).template = .ok (t, u) := hT
        have h2 : parseMulti L (sharedOptions j).template t = some docs := hD
        have h3 : cmdFeatures w { sharedOptions j with values := [] } = .ok [] := hf
        simp only [h1, h2, h3, orFatal, Except.bind]
        have h4 : ∃ ctx : Option (CmdCtx E), cmdContext none [] [] docs.length = .ok ctx := by
          unfold cmdContext
          split
          · exact ⟨_, rfl⟩
          · exact ⟨_, rfl⟩
        obtain ⟨ctx, h4⟩ := h4
        refine ⟨ctx, ?_⟩
        simp [sharedOptions, readState, readYAML, defineValues, readTags, readStubs, h4, Except.map]
      obtain ⟨ctx, hread⟩ := hread
      unfold readInputs at hread
      rw [hread]
      have hall := allDocs_unchanged L w j docs hx (L.reset (L.start ctx)) w.fs
      simp only [prepareAll]
      have hall' : allDocs L w { sharedOptions j with values := [] } [] [] (L.reset (L.start ctx)) w.fs docs = (w.fs, convertDocs L j docs) := hall
      rw [hall']
      simp only [hD, orFatal, Except.bind]
      rfl

/-! ### diff -/

section Diff
variable [DecidableEq E]

theorem compareAll_some (as : List (Node E)) : ∀ (bs : List (Node E)) ds, as.length = bs.length → (compareAll as bs = some ds ↔
    ds.length = as.length ∧ ∀ (k : Nat) a b, as[k]? = some a → bs[k]? = some b → ∃ d, ds[k]? = some d ∧ compareDocs a b = some d) := by
  induction as with
  | nil =>
    intro bs ds h
    cases bs with
    | nil =>
      constructor
      · intro h; cases h; exact ⟨rfl, by simp⟩
      · rintro ⟨h, _⟩; cases List.length_eq_zero_iff.1 h; rfl
    | cons b bs => simp at h
  | cons a as ih =>
    intro bs ds h
    cases bs with
    | nil => simp at h
    | cons b bs =>
      have hl : as.length = bs.length := by simpa using h
      unfold compareAll
      rw [consOpt_some]
      constructor
      · rintro ⟨d, ds', h1, h2, rfl⟩
        obtain ⟨h3, h4⟩ := (ih bs ds' hl).1 h2
        refine ⟨by simp [h3], ?_⟩
        intro k x y hx hy
        cases k with
        | zero => simp at hx hy; subst hx hy; exact ⟨d, rfl, h1⟩
        | succ k => exact h4 k x y (by simpa using hx) (by simpa using hy)
      · rintro ⟨h1, h2⟩
        obtain ⟨d, hd, hc⟩ := h2 0 a b rfl rfl
        cases ds with
        | nil => simp at hd
        | cons d' ds =>
          simp at hd; subst hd
          refine ⟨d', ds, hc, (ih bs ds hl).2 ⟨by simpa using h1, ?_⟩, rfl⟩
          intro k x y hx hy
          have := h2 (k + 1) x y (by simpa using hx) (by simpa using hy)
          simpa using this

/-- **C17**: `diff` reports "no differences" exactly if both files have the same number of documents and documents with the same position are the same. -/
theorem diff_same_iff (L : CmdLib E S) (w : Surroundings) (fa fb : String) (ba bb : Bytes) (as bs : List (Node E))
    (ha : FileText w fa ba) (hb : FileText w fb bb) (hda : DocsOf L fa ba as) (hdb : DocsOf L fb bb bs)
    (hga : ∀ a ∈ as, GoMaps a ∧ WellNamed a) (hgb : ∀ b ∈ bs, GoMaps b)
    (hj : ∀ a ∈ as, ∀ b ∈ bs, ∀ x y, field a "jobs" = some x → field b "jobs" = some y → ¬ (IsList x.val ∧ IsList y.val)) :
    diffMain L w fa fb = .same ↔ List.Forall₂ SameDoc as bs := by
  unfold diffMain
  rw [(readFile_iff _ _ _).2 ha, (readFile_iff _ _ _).2 hb, Option.bind_some, Option.bind_some,
    (parseMulti_iff _ _ _ _).2 hda, (parseMulti_iff _ _ _ _).2 hdb]
  simp only
  by_cases hl : as.length = bs.length
  swap
  · rw [if_pos hl]
    simp only [reduceCtorEq, false_iff]
    intro h; exact hl h.length_eq
  rw [if_neg (not_not.2 hl)]
  have hsame : ∀ (k : Nat) a b, as[k]? = some a → bs[k]? = some b → (compareDocs a b = some [] ↔ SameDoc a b) := by
    intro k a b h1 h2
    have m1 := List.mem_of_getElem? h1
    have m2 := List.mem_of_getElem? h2
    exact compare_empty_iff a b (hga a m1).1 (hgb b m2) (hga a m1).2 (hj a m1 b m2)
  rw [List.forall₂_iff_get]
  constructor
  · intro h
    refine ⟨hl, ?_⟩
    intro k h1 h2
    rcases hc : compareAll as bs with _ | ds
    · rw [hc] at h; cases h
    · rw [hc] at h
      simp only at h
      split at h
      · next hall =>
        obtain ⟨_, h4⟩ := (compareAll_some as bs ds hl).1 hc
        have e1 : as[k]? = some (as.get ⟨k, h1⟩) := by simp
        have e2 : bs[k]? = some (bs.get ⟨k, h2⟩) := by simp
        obtain ⟨d, hd, hcd⟩ := h4 k _ _ e1 e2
        have := List.all_eq_true.1 hall d (List.mem_of_getElem? hd)
        have hd0 : d = [] := by simpa using this
        subst hd0
        exact (hsame k _ _ e1 e2).1 hcd
      · cases h
  · rintro ⟨_, h⟩
    have hc : compareAll as bs = some (List.replicate as.length []) := by
      rw [compareAll_some as bs _ hl]
      refine ⟨by simp, ?_⟩
      intro k a b h1 h2
      obtain ⟨k1, e1⟩ := List.getElem?_eq_some_iff.1 h1
      obtain ⟨k2, e2⟩ := List.getElem?_eq_some_iff.1 h2
      refine ⟨[], by simp [k1], (hsame k a b h1 h2).2 ?_⟩
      have := h k k1 k2
      simpa [e1, e2] using this
    rw [hc]
    simp

/-- **C17**: the numbers of documents are reported if they differ. -/
theorem diff_counts (L : CmdLib E S) (w : Surroundings) (fa fb : String) (ba bb : Bytes) (as bs : List (Node E))
    (ha : FileText w fa ba) (hb : FileText w fb bb) (hda : DocsOf L fa ba as) (hdb : DocsOf L fb bb bs) (h : as.length ≠ bs.length) :
    diffMain L w fa fb = .counts as.length bs.length := by
  unfold diffMain
  rw [(readFile_iff _ _ _).2 ha, (readFile_iff _ _ _).2 hb, Option.bind_some, Option.bind_some,
    (parseMulti_iff _ _ _ _).2 hda, (parseMulti_iff _ _ _ _).2 hdb]
  simp [h]

end Diff

/-! ### concrete runs -/

/-- a library for one document: the text `a` is the document `{a: 1}` and the empty document is written as `---` -/
def toyLib : CmdLib Unit Unit where
  decode b := if b = [97] then some [.dict [(.str "a", .num .int64 1)]] else if b = [98] then some [.dict [(.str "b", .num .int64 2)]]
    else if b = dashes then some [.nil] else if b = [35] then some [] else none
  yaml n := if (field n "a").isSome then some [97] else some [98]
  json _ := some [123, 125]
  parse _ := none
  text _ := ""
  quote := id
  start _ := ()
  flow _ n _ := ((), n, none)
  reset _ := ()
  push _ _ := ()
  evaluate _ _ _ := ((), none)

def toyWorld : Surroundings := { fs := [("t.yml", [97]), ("s.yml", [98]), ("e.yml", []), ("c.yml", [35])] }

/-- what a run shows -/
def shown (l : RunEnd) : Bytes × FileSys × Option Halt := (l.stdout, l.fs, l.halt)

example : shown (mergeMain toyLib toyWorld { template := "t.yml", stubs := ["s.yml"] } []) = ([97], toyWorld.fs, none) := by decide +kernel
example : shown (mergeMain toyLib toyWorld { template := "e.yml" } []) = (dashes, toyWorld.fs, none) := by decide +kernel
example : shown (mergeMain toyLib toyWorld { template := "e.yml", json := true } []) = ([], toyWorld.fs, none) := by decide +kernel
example : shown (mergeMain toyLib toyWorld { template := "t.yml", stubs := ["c.yml"] } []) = ([], toyWorld.fs, some .panic) := by decide +kernel
example : shown (mergeMain toyLib toyWorld { template := "t.yml", stubs := ["m.yml"] } []) = ([], toyWorld.fs, some .fatal) := by decide +kernel
example : shown (processMain toyLib toyWorld "m.yml" { template := "t.yml" } []) = ([97], toyWorld.fs, none) := by decide +kernel
example : shown (mergeMain toyLib toyWorld { template := "t.yml", selection := ["a", "."] } []) = ([], toyWorld.fs, some .panic) := by decide +kernel
/-- the state is updated although the run fails -/
example : let l := mergeMain toyLib toyWorld { template := "s.yml", statePath := "t.yml", expr := ")" } []
    l.halt = some .fatal ∧ mget toyWorld.fs "t.yml" = some [97] ∧ mget l.fs "t.yml" = some [98] := by decide +kernel
/-- `ReadsBack` holds for the document written here -/
example : ReadsBack toyLib (Node.new (.map [("b", Node.new (.int 2) "")]) "") := by
  intro d hd
  cases hd
  exact ⟨[98], .dict [(.str "b", .num .int64 2)], rfl, rfl, rfl, fun _ => rfl⟩

/-- a document the state of which is read back by the next run -/
def stateDoc : Node Unit := Node.new (.map [("b", (Node.new (.int 2) "" : Node Unit).withAnn { flags := { state := true } })]) ""
example : normalize (determineState stateDoc) = some (.smap [("b", .num .int64 2)]) := rfl
theorem stateDoc_nodes (p : List Ix) (x : Node Unit) (h : locate (determineState stateDoc) p = some x) :
    x.val = (determineState stateDoc).val ∨ x.val = .int 2 := by
  cases p with
  | nil => cases h; exact .inl rfl
  | cons i p =>
    right
    cases i with
    | idx n => cases h
    | body => cases h
    | key k =>
      by_cases hk : k = "b"
      · subst hk
        cases p with
        | nil => cases h; rfl
        | cons i p => cases i <;> cases h
      · exfalso
        have : child (determineState stateDoc).val (.key k) = none := by
          show mget [("b", _)] k = none
          simp [mget, Ne.symm hk]
        simp [locate, this] at h
example : ReadsBack toyLib (determineState stateDoc) ∧ OnlyData (determineState stateDoc) ∧ NoNaN (determineState stateDoc) ∧
    GoMaps (determineState stateDoc) := by
  refine ⟨?_, ?_, ?_, ?_⟩
  · intro d hd
    cases hd
    exact ⟨[98], .dict [(.str "b", .num .int64 2)], rfl, rfl, rfl, fun _ => rfl⟩
  · intro p x h
    rcases stateDoc_nodes p x h with h | h <;> rw [h]
    · exact ⟨(by intro e h; cases h), (by intro e h; cases h), (by intro e h; cases h)⟩
    · simp
  · intro p x b h hx
    rcases stateDoc_nodes p x h with h | h <;> rw [h] at hx <;> cases hx
  · exact ⟨by unfold MapOK; decide, trivial, trivial⟩

/-- `merge` and `convert` are the same for the example -/
example : mergeMain toyLib toyWorld (sharedOptions { template := "t.yml" }) [] = convertMain toyLib toyWorld { template := "t.yml" } := by
  refine convert_is_merge toyLib toyWorld { template := "t.yml" } rfl ?_
  intro b docs hb hd t ht s
  have hb' : b = [97] := by
    have := (readFile_iff _ _ _).2 (show FileText toyWorld "t.yml" b from hb)
    have h2 : readFile toyWorld "t.yml" = some [97] := by decide +kernel
    rw [h2] at this; cases this; rfl
  subst hb'
  have := (parseMulti_iff _ _ _ _).2 hd
  have h2 : parseMulti toyLib "t.yml" [97] = some [Node.new (.map [("a", Node.new (.int 1) "t.yml")]) "t.yml"] := rfl
  have hd' := Option.some.inj (h2.symm.trans this)
  subst hd'
  simp only [List.mem_singleton] at ht
  subst ht
  exact ⟨rfl, rfl⟩

/-! ### standard input -/

/-- **C67** (defect): `process - -` is accepted: the standard input is the document, and the template is empty. -/
theorem process_stdin_twice_defect (L : CmdLib E S) (w : Surroundings) (d : Node E) (s : S) (prepared : List (Node E)) (hd : DocsOf L "-" w.stdin [d])
    (he : L.decode (asciiBytes "---\n") = some [.nil]) (hf : w.envFeatures = [])
    (hp : StubsPrepared L false (L.start none) (processStubs d "-") s prepared) :
    processMain L w "-" { template := "-" } [] = ⟨asciiBytes "---\n", w.fs, none⟩ := by
  rw [← prepared_iff] at hp
  have hone : parseOne L "-" w.stdin = .ok d := (parseOne_ok _ _ _ _).2 hd
  have hm : parseMulti L "-" [] = some [(Node.new .nil "-" : Node E)] :=
    (parseMulti_iff _ _ _ _).2 ⟨[.nil], by simpa using he, .cons (by simp [sanitize]) .nil⟩
  have hfe : cmdFeatures w { template := "-" } = .ok [] := by
    unfold cmdFeatures envFlags
    rw [hf]
    have : (splitCh ',' []).foldl (fun (f : Features) n => (f.set (String.ofList (trimSpace n)) true).1) [] = [] := by decide +kernel
    rw [this]; rfl
  have hread : readInputs L w { template := "-" } true (processStubs d "-") = .ok ⟨[Node.new .nil "-"], processStubs d "-", none, []⟩ := by
    unfold readInputs readTemplate
    simp [hm, hfe, orFatal, Except.bind, readState, readYAML, defineValues, readTags, readStubs, cmdContext, Except.map]
  unfold processMain
  simp only [if_true, hone, createValues, createValues.go, decide_true]
  unfold mergeCmd
  simp only [hread, hp, allDocs, oneDoc]
  have : (Node.new Val.nil "-" : Node E).val.isNil = true := rfl
  simp only [this, if_true, conclude]
  rw [← dashes_eq]
  rfl

example : shown (processMain toyLib { toyWorld with stdin := [97] } "-" { template := "-" } []) = (dashes, toyWorld.fs, none) := by decide +kernel

end Spiff
