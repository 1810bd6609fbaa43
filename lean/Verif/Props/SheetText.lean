import Verif.Props.MergeText
import Verif.Props.SheetExample
/-
C96: complete runs of the merge command with expressions, from the bytes of the files to the bytes of the output.
-/
namespace Spiff
open Spec

/-! ### the results of a sheet -/

/-- every node for a cell with a value is plain -/
theorem result_quiet {L : Lang Ex} {fns : Fns} : ∀ (x : Sheet) {around : Blocks} {n : Node Ex}, Tidy L x → AllCells (fun around c => ∃ v, Computes L fns around c v) around x →
    Filled (CellResult L fns) around x n → Quiet n := by
  have hkeys : ∀ (fs : List (String × Sheet)) {around : Blocks} {m : List (String × Node Ex)}, FilledM (CellResult L fns) around fs m → mkeys m = mkeys fs := by
    intro fs
    induction fs with
    | nil => intro around m h; rw [FilledM] at h; subst h; rfl
    | cons e r ih =>
      obtain ⟨k, x⟩ := e
      intro around m h
      rw [FilledM] at h
      obtain ⟨n, m', rfl, -, h2⟩ := h
      have := ih h2
      simp only [mkeys, List.map_cons] at this ⊢
      rw [this]
  intro x
  refine Sheet.rec (motive_1 := fun x => ∀ {around : Blocks} {n : Node Ex}, Tidy L x → AllCells (fun around c => ∃ v, Computes L fns around c v) around x →
    Filled (CellResult L fns) around x n → Quiet n)
    (motive_2 := fun fs => ∀ {around : Blocks} {m : List (String × Node Ex)}, TidyM L fs → AllCellsM (fun around c => ∃ v, Computes L fns around c v) around fs →
    FilledM (CellResult L fns) around fs m → ∀ e ∈ m, Quiet e.2)
    (motive_3 := fun e => ∀ {around : Blocks} {n : Node Ex}, Tidy L e.2 → AllCells (fun around c => ∃ v, Computes L fns around c v) around e.2 →
    Filled (CellResult L fns) around e.2 n → Quiet n) ?_ ?_ ?_ ?_ ?_ x
  · intro c around n ht hc h
    cases c with
    | data d =>
      have h' : n = d := h
      subst h'
      exact plain_quiet L n ht
    | formula t s o =>
      obtain ⟨v, hv⟩ := hc
      have h' := h.1 v hv
      subst h'
      exact plain_quiet L _ (getD_plain ht (computes_plain ht hv) s)
  · intro fs s ih around n ht hc h
    rw [Filled] at h
    rw [Tidy] at ht
    obtain ⟨m, rfl, hm⟩ := h
    refine .map _ _ ?_ (ih ht.2 hc hm)
    rw [MapOK, hkeys fs hm]
    exact ht.1
  · intro around m _ _ h e he
    rw [FilledM] at h
    subst h
    cases he
  · intro e r ih1 ih2 around m ht hc h
    obtain ⟨k, x⟩ := e
    rw [FilledM] at h
    rw [TidyM] at ht
    rw [AllCellsM] at hc
    obtain ⟨n, m', rfl, h1, h2⟩ := h
    intro e he
    rcases List.mem_cons.1 he with rfl | he
    · exact ih1 ht.2.1 hc.1 h1
    · exact ih2 ht.2.2 hc.2 h2 e he
  · intro k x ih
    exact ih

/-- the values determine the result -/
theorem result_unique {L : Lang Ex} {fns : Fns} : ∀ (x : Sheet) {around : Blocks} {n n' : Node Ex}, AllCells (fun around c => ∃ v, Computes L fns around c v) around x →
    Filled (CellResult L fns) around x n → Filled (CellResult L fns) around x n' → n = n' := by
  intro x
  refine Sheet.rec (motive_1 := fun x => ∀ {around : Blocks} {n n' : Node Ex}, AllCells (fun around c => ∃ v, Computes L fns around c v) around x →
    Filled (CellResult L fns) around x n → Filled (CellResult L fns) around x n' → n = n')
    (motive_2 := fun fs => ∀ {around : Blocks} {m m' : List (String × Node Ex)}, AllCellsM (fun around c => ∃ v, Computes L fns around c v) around fs →
    FilledM (CellResult L fns) around fs m → FilledM (CellResult L fns) around fs m' → m = m')
    (motive_3 := fun e => ∀ {around : Blocks} {n n' : Node Ex}, AllCells (fun around c => ∃ v, Computes L fns around c v) around e.2 →
    Filled (CellResult L fns) around e.2 n → Filled (CellResult L fns) around e.2 n' → n = n') ?_ ?_ ?_ ?_ ?_ x
  · intro c around n n' hc h h'
    cases c with
    | data d =>
      have h1 : n = d := h
      have h2 : n' = d := h'
      rw [h1, h2]
    | formula t s o =>
      obtain ⟨v, hv⟩ := hc
      rw [h.1 v hv, h'.1 v hv]
  · intro fs s ih around n n' hc h h'
    rw [Filled] at h h'
    obtain ⟨m, rfl, hm⟩ := h
    obtain ⟨m', rfl, hm'⟩ := h'
    rw [ih hc hm hm']
  · intro around m m' _ h h'
    rw [FilledM] at h h'
    rw [h, h']
  · intro e r ih1 ih2 around m m' hc h h'
    obtain ⟨k, x⟩ := e
    rw [FilledM] at h h'
    rw [AllCellsM] at hc
    obtain ⟨n, m1, rfl, h1, h2⟩ := h
    obtain ⟨n', m1', rfl, h1', h2'⟩ := h'
    rw [ih1 hc.1 h1 h1', ih2 hc.2 h2 h2']
  · intro k x ih
    exact ih

/-- names of sources and annotations are not content -/
theorem strip_content {n : Node E} (h : Quiet n) (hi : Inert n) : SameContent n (strip n) := by
  intro p
  rw [locate_strip]
  cases hl : locate n p with
  | none => exact trivial
  | some x =>
    show SameKind x.val (strip x).val
    rw [strip_val]
    have : ∀ (p : List Ix) {n x : Node E}, Quiet n → locate n p = some x → Quiet x := by
      intro p
      induction p with
      | nil => intro n x h hx; cases hx; exact h
      | cons i p ih =>
        intro n x h hx
        rw [locate] at hx
        split at hx
        · rename_i c hc
          refine ih ?_ hx
          cases h with
          | leaf v s hv => cases v <;> simp only [Scalar] at hv <;> cases i <;> cases hc
          | list l s a ha h =>
            cases i <;> simp only [Node.val_mk, child, reduceCtorEq] at hc
            exact h _ (List.mem_of_getElem? hc)
          | map m s hm h =>
            cases i <;> simp only [Node.val_mk, child, reduceCtorEq] at hc
            exact h _ (mget_some_mem hc)
        · cases hx
    cases this p h hl with
    | leaf v s hv =>
      cases v <;> simp only [Scalar] at hv <;> simp [stripV, SameKind]
      exact floatEq_refl (hi.floats p _ _ hl rfl).1
    | list => simp [stripV, SameKind, stripL_eq]
    | map => simp [stripV, SameKind]

theorem content_trans {a b c : Node E} (h : SameContent a b) (h' : SameContent b c) : SameContent a c := by
  intro p
  have h1 := h p
  have h2 := h' p
  cases ha : locate a p <;> cases hb : locate b p <;> cases hc : locate c p <;> simp_all [Both]
  exact SameKind_trans h1 h2

/-! ### the run -/

section
variable [DecidableEq E] (X : YLib) (F J : Nat → YText) (L : Lang E)  (C : CmdLib E S) (envOf : S → Env E)

/-- the writer accepts what is inert -/
theorem quiet_marshal (hF : ∀ b, F b ≠ [] ∧ '\n' ∉ F b) {r : Node E} (hqr : Quiet r) (hir : Inert r) (hnr : NumbersOk X F r) (hrm : ∃ m, r.val = .map m) :
    Writable X F (strip r) ∧ ∃ t, marshal X F (strip r) = some t := by
  refine inert_writable X hF (quiet_fresh hqr) (content_inert (strip_content hqr hir) hir) ?_ (by
    intro s hs; obtain ⟨m, hm⟩ := hrm; rw [strip_val, hm] at hs; cases hs)
  intro p x hx
  rw [locate_strip] at hx
  obtain ⟨y, hy, rfl⟩ := Option.map_eq_some_iff.1 hx
  obtain ⟨h1, h2⟩ := hnr p y hy
  rw [strip_val]
  refine ⟨fun i hi => h1 i ?_, fun b hb => h2 b ?_⟩
  · cases hv : y.val <;> rw [hv] at hi <;> simp_all [stripV]
  · cases hv : y.val <;> rw [hv] at hb <;> simp_all [stripV]

/-- one document with a complete result -/
theorem one_done (hF : ∀ b, F b ≠ [] ∧ '\n' ∉ F b) (hq : ∀ l, L.quote l ≠ []) {fuel passes : Nat} {prep : List (Node E)} {n r : Node E} {s : S} (hmap : ∃ m, n.val = .map m) (hqr : Quiet r) (hir : Inert r)
    (hnr : NumbersOk X F r) (hrm : ∃ m, r.val = .map m) (hfl : flowBytes L fuel passes envOf s n prep = (s, r, none))
    (w : Surroundings) (j : Job) (ft : Features) (fs : FileSys) (j1 : j.opts = {}) (j2 : j.json = false) (j3 : j.split = false) (j4 : j.subpath = "") (j5 : j.selection = [])
    (j6 : j.statePath = "") (j7 : j.expr = "") :
    ∃ s', oneDoc (textLib X F J L fuel passes C envOf) w j ft prep s fs n = (s', fs, .ok [(textOf X F r).map utf8Out]) := by
  have hnn : n.val.isNil = false := by obtain ⟨m, hm⟩ := hmap; rw [hm]; rfl
  have hrn : r.val.isNil = false := by obtain ⟨m, hm⟩ := hrm; rw [hm]; rfl
  have hra : r.ann = bare := by
    cases hqr with
    | leaf => rfl
    | list l s a => obtain ⟨m, hm⟩ := hrm; cases hm
    | map => rfl
  obtain ⟨t, ht⟩ : ∃ t, marshal X F r = some t := by
    obtain ⟨t, ht⟩ := (quiet_marshal X F hF hqr hir hnr hrm).2
    exact ⟨t, by unfold marshal at ht ⊢; rw [encode_strip] at ht; exact ht⟩
  unfold oneDoc
  rw [hnn, if_neg Bool.false_ne_true, j1]
  have ha : applyDoc (textLib X F J L fuel passes C envOf) (ft.enabled "interpolation") {} prep s n = (C.push s r, r, none) := by
    unfold applyDoc
    rw [show (textLib X F J L fuel passes C envOf).flow s n prep = (s, r, none) from hfl]
    simp only [Bool.false_eq_true, if_false, quiet_cleanup discardTemporary rfl rfl hqr]
    rw [show (textLib X F J L fuel passes C envOf).quote = L.quote from rfl, (quiet_unescape L.quote hq _ hqr hir).2]
    rfl
  have hflow : flowedDoc (textLib X F J L fuel passes C envOf) (ft.enabled "interpolation") {} prep s n = (C.push s r, .ok (some r)) := by
    unfold flowedDoc
    rw [ha]
    simp only [Option.isSome_none, Bool.and_false, Bool.false_eq_true, if_false, hra]
    rfl
  rw [hflow]
  refine ⟨C.push s r, ?_⟩
  simp only [takePath, if_true, writeState, finishDoc, evaluateExpr, selectFields, Except.bind, renderDoc, renderText, Bool.false_eq_true, if_false, j2, j3, j4, j5, j6, j7]
  rw [show (textLib X F J L fuel passes C envOf).yaml r = (marshal X F r).map utf8Out from rfl, ht, textOf, hrn, if_neg Bool.false_ne_true, ht]
  rfl

/-- without a state file no file is written -/
theorem one_files (A : CmdLib E S) (w : Surroundings) (j : Job) (ft : Features) (prep : List (Node E)) (s : S) (fs : FileSys) (n : Node E) (hj : j.statePath = "") :
    (oneDoc A w j ft prep s fs n).2.1 = fs := by
  unfold oneDoc
  split
  · rfl
  · split
    · rfl
    · rfl
    · split
      · rfl
      · simp only [writeState, hj, if_true]

/-- a document with unresolved nodes ends the run -/
theorem docs_fail (A : CmdLib E S) (w : Surroundings) (j : Job) (ft : Features) (prep : List (Node E)) (hj : j.statePath = "") (ho : j.opts = {}) :
    ∀ (docs : List (Node E)) (s : S) (fs : FileSys), (∃ n ∈ docs, n.val.isNil = false ∧ ∀ s, ((A.flow s n prep).2.2).isSome = true) →
      ∃ e, allDocs A w j ft prep s fs docs = (fs, .error e) := by
  intro docs
  induction docs with
  | nil => rintro s fs ⟨n, hn, -⟩; cases hn
  | cons d r ih =>
    rintro s fs ⟨n, hn, h1, h2⟩
    rw [allDocs]
    have hfs := one_files A w j ft prep s fs d hj
    rcases List.mem_cons.1 hn with rfl | hn
    · have : ∃ s', oneDoc A w j ft prep s fs n = (s', fs, .error .fatal) := by
        unfold oneDoc
        rw [h1, if_neg Bool.false_ne_true, ho]
        have hfl : ∃ s', flowedDoc A (ft.enabled "interpolation") {} prep s n = (s', .error .fatal) := by
          unfold flowedDoc applyDoc
          have := h2 s
          rcases hf : A.flow s n prep with ⟨s', r, e⟩
          rw [hf] at this
          cases e with
          | none => cases this
          | some e =>
            simp only
            exact ⟨_, rfl⟩
        obtain ⟨s', hfl⟩ := hfl
        rw [hfl]
        exact ⟨s', rfl⟩
      obtain ⟨s', this⟩ := this
      rw [this]
      exact ⟨_, rfl⟩
    · rcases ho : oneDoc A w j ft prep s fs d with ⟨s', fs', res⟩
      rw [ho] at hfs
      simp only at hfs
      subst hfs
      cases res with
      | error e => exact ⟨e, rfl⟩
      | ok a =>
        simp only
        obtain ⟨e, he⟩ := ih s' fs' ⟨n, hn, h1, h2⟩
        rw [he]
        exact ⟨e, rfl⟩

/-- what is read with some fuel is read with more -/
theorem read_more {fuel passes : Nat} {file : String} {b : Bytes} {docs : List (Node E)} (hdocs : DocsOf (textLib X F J L fuel passes C envOf) file b docs) :
    (∀ n ∈ docs, Fresh file n) ∧ docs ≠ [] ∧ ∀ g ≥ fuel, ∀ k, DocsOf (textLib X F J L g k C envOf) file b docs := by
  obtain ⟨ds, hds, hdocs'⟩ := Option.bind_eq_some_iff.1 ((parseMulti_iff _ file b docs).2 hdocs)
  rw [sanitizeAll_eq] at hdocs'
  change decodeBytes X fuel _ = some ds at hds
  refine ⟨sanitizeL_fresh file (decodeBytes_maps X _ _ ds hds) docs hdocs', ?_, fun g hg k => ?_⟩
  · rintro rfl
    refine decode_some X hds ?_
    have := ((sanitizeL_iff file ds ([] : List (Node E))).1 hdocs').1
    exact List.length_eq_zero_iff.1 this
  · rw [← parseMulti_iff]
    unfold parseMulti
    change (decodeBytes X g _).bind _ = _
    rw [decode_more X hg hds, Option.bind_some, sanitizeAll_eq, hdocs']

theorem read_stubs_more {fuel passes : Nat} {w : Surroundings} {files : List String} {stubs : List (Node E)} (hstubs : List.Forall₂ (DocOf (textLib X F J L fuel passes C envOf) w) files stubs) :
    (∀ n ∈ stubs, ∃ src, Fresh src n) ∧ ∀ g ≥ fuel, ∀ k, List.Forall₂ (DocOf (textLib X F J L g k C envOf) w) files stubs := by
  induction hstubs with
  | nil => exact ⟨by simp, fun _ _ _ => .nil⟩
  | @cons file n fr nr h _ ih =>
    obtain ⟨b, hb, hdo⟩ := h
    obtain ⟨h1, -, h3⟩ := read_more X F J L C envOf hdo
    refine ⟨fun x hx => ?_, fun g hg k => .cons ⟨b, hb, h3 g hg k⟩ (ih.2 g hg k)⟩
    rcases List.mem_cons.1 hx with rfl | hx
    · exact ⟨file, h1 x (by simp)⟩
    · exact ih.1 x hx

/-- the inputs of a run -/
theorem read_inputs {w : Surroundings} {f : String} {files : List String} (hone : (f :: files).count "-" ≤ 1) {b : Bytes} (hb : TextOf w f b) {docs stubs : List (Node E)} {g k : Nat}
    (hd : DocsOf (textLib X F J L g k C envOf) f b docs) (hs : List.Forall₂ (DocOf (textLib X F J L g k C envOf) w) files stubs) :
    ∃ c ft, readInputs (textLib X F J L g k C envOf) w { template := f, stubs := files } false [] = .ok ⟨docs, stubs, c, ft⟩ := by
  have ht : readTemplate w false f = .ok (b, decide (f = "-")) := by
    unfold TextOf at hb
    unfold readTemplate
    split at hb
    · rename_i hf
      subst hb
      rw [if_pos hf]; simp [hf]
    · rename_i hf
      rw [if_neg hf, (readFile_iff w f b).2 hb]
      simp [hf, orFatal, Except.map]
  have hc : ∃ c, cmdContext (E := E) none (envFlags w.envFeatures) [] docs.length = .ok c := by
    unfold cmdContext
    split
    · exact ⟨_, rfl⟩
    · exact ⟨_, rfl⟩
  obtain ⟨c, hc⟩ := hc
  have hst : readStubs (textLib X F J L g k C envOf) w (decide (f = "-")) files = .ok stubs := by
    rw [readStubs_ok]
    refine ⟨hs, ?_⟩
    by_cases hf : f = "-"
    · subst hf
      rw [List.count_cons_self] at hone
      simp only [decide_true, if_true]
      omega
    · rw [List.count_cons_of_ne (by simpa using hf)] at hone
      simpa [hf] using hone
  refine ⟨c, envFlags w.envFeatures, ?_⟩
  unfold readInputs
  simp only [ht, Except.bind, (parseMulti_iff _ f b docs).2 hd, orFatal, readState, readYAML, if_true, defineValues, readTags,
    hst, cmdFeatures, List.flatMap_nil, setFlags, Except.map, Bool.false_eq_true, if_false, hc]
  rw [show ([] ++ stubs ++ (none : Option (Node E)).toList) = stubs by simp]

/-- a run with given inputs and prepared stubs -/
theorem main_run {w : Surroundings} {f : String} {files : List String} {docs stubs prep : List (Node E)} {g k : Nat}
    {c : Option (CmdCtx E)} {ft : Features} (hi : readInputs (textLib X F J L g k C envOf) w { template := f, stubs := files } false [] = .ok ⟨docs, stubs, c, ft⟩)
    (hp : ∀ s, ∃ s', prepareAll (textLib X F J L g k C envOf) false s stubs = (s', some prep)) :
    ∃ s, mergeMain (textLib X F J L g k C envOf) w { template := f, stubs := files } [] =
      conclude false (allDocs (textLib X F J L g k C envOf) w { template := f, stubs := files } ft prep s w.fs docs).1
        (allDocs (textLib X F J L g k C envOf) w { template := f, stubs := files } ft prep s w.fs docs).2 := by
  obtain ⟨s', hs'⟩ := hp ((textLib X F J L g k C envOf).start c)
  refine ⟨(textLib X F J L g k C envOf).reset s', ?_⟩
  unfold mergeMain
  rw [show createValues [] = some [] from rfl]
  simp only
  unfold mergeCmd
  rw [show ({ template := f, stubs := files, values := [] } : Job) = { template := f, stubs := files } from rfl, hi]
  simp only
  rw [hs']

end

section
variable (Y : YLib) (F J : Nat → YText) {X : EvLib} {R : RefLib Ex} {base : Lang Ex} {fns : Fns} (C : CmdLib Ex S) (envOf : S → Env Ex)

/-- a document with a complete result, in a run -/
theorem sheet_flow (hX : X.ctl = false) (hR : R.ctl = false) (hf : FnsOk X fns) (henv : ∀ s, (envOf s).outer = [] ∧ (envOf s).scopes = []) (prep : List (Node Ex))
    (hp : ∀ p ∈ prep, Plain (exLang X R base) p) (fs : List (String × Sheet)) (src : String) (ht : Tidy (exLang X R base) (.block fs src)) (hfit : FitsAll prep [] (.block fs src))
    (hc : AllCells (fun around c => (∃ v, Computes (exLang X R base) fns around c v) ∨ Circular (exLang X R base) fns around c) [] ((Sheet.block fs src).merged prep [])) :
    ∃ N, ∀ fuel ≥ N, ∀ passes ≥ N, ∀ s, ∃ r e, flowBytes (exLang X R base) fuel passes envOf s (Sheet.block fs src).source prep = (s, r, e) ∧
      Filled (CellResult (exLang X R base) fns) [] ((Sheet.block fs src).merged prep []) r ∧
      (e = none ↔ ∀ p around c, descend p [] ((Sheet.block fs src).merged prep []) = .place around c [] → ¬ Circular (exLang X R base) fns around c) := by
  obtain ⟨N, h⟩ := sheet_merged hX hR hf prep hp fs src ht hfit hc
  refine ⟨N, fun fuel hfu passes hpa s => ?_⟩
  obtain ⟨r, report, h1, h2, h3⟩ := h fuel hfu passes hpa
    { envOf s with stubs := prep, stubPath := [], nomerge := false, sourceName := (Sheet.block fs src).source.src, currentSourceName := (Sheet.block fs src).source.src }
    true rfl rfl rfl (henv s).1 (henv s).2
  unfold flowBytes
  rw [h1]
  cases report with
  | nil =>
    refine ⟨r, none, rfl, h2, fun _ p around c hd hcc => ?_, fun _ => rfl⟩
    obtain ⟨u, hu, -⟩ := (h3 p).2 ⟨around, c, hd, hcc⟩
    cases hu
  | cons u rest =>
    refine ⟨r, some _, rfl, h2, fun h => (nomatch h), fun hno => ?_⟩
    obtain ⟨around, c, hd, hcc⟩ := (h3 u.context).1 ⟨u, by simp, rfl⟩
    exact absurd hcc (hno _ _ _ hd)

variable (hF : ∀ b, F b ≠ [] ∧ '\n' ∉ F b) (hq : ∀ l, base.quote l ≠ []) (hL : ∀ k, base.requireTemplate k = true → ∃ r, k.toList = '<' :: '<' :: r)

include hF hq in
/-- all documents of a run -/
theorem sheets_done (hX : X.ctl = false) (hR : R.ctl = false) (hf : FnsOk X fns) (henv : ∀ s, (envOf s).outer = [] ∧ (envOf s).scopes = []) (prep : List (Node Ex))
    (hp : ∀ p ∈ prep, Plain (exLang X R base) p) (xs : List (List (String × Sheet) × String))
    (hx : ∀ x ∈ xs, Tidy (exLang X R base) (.block x.1 x.2) ∧ FitsAll prep [] (.block x.1 x.2) ∧
      AllCells (fun around c => ∃ v, Computes (exLang X R base) fns around c v) [] ((Sheet.block x.1 x.2).merged prep []) ∧
      ∀ r, Filled (CellResult (exLang X R base) fns) [] ((Sheet.block x.1 x.2).merged prep []) r → Inert r ∧ NumbersOk Y F r) :
    ∃ (rs : List (Node Ex)) (N : Nat), List.Forall₂ (fun x r => Filled (CellResult (exLang X R base) fns) [] ((Sheet.block x.1 x.2).merged prep []) r ∧
        Quiet r ∧ Inert r ∧ NumbersOk Y F r ∧ ∃ m, r.val = .map m) xs rs ∧
      ∀ fuel ≥ N, ∀ passes ≥ N, ∀ w j ft s fs, j.opts = {} → j.json = false → j.split = false → j.subpath = "" → j.selection = [] → j.statePath = "" → j.expr = "" →
        allDocs (textLib Y F J (exLang X R base) fuel passes C envOf) w j ft prep s fs (xs.map (fun x => (Sheet.block x.1 x.2).source)) =
          (fs, .ok (rs.map (fun n => (textOf Y F n).map utf8Out))) := by
  induction xs with
  | nil => exact ⟨[], 0, .nil, fun _ _ _ _ _ _ _ _ _ _ _ _ _ _ _ _ => rfl⟩
  | cons x rest ih =>
    obtain ⟨rs, N, h1, h2⟩ := ih (fun x hx' => hx x (by simp [hx']))
    obtain ⟨f1, f2, f3, f4⟩ := hx x (by simp)
    obtain ⟨M, g⟩ := sheet_flow (base := base) envOf hX hR hf henv prep hp x.1 x.2 f1 f2 (cells_mono (fun _ _ h => .inl h) _ f3)
    have hno : ∀ p around c, descend p [] ((Sheet.block x.1 x.2).merged prep []) = .place around c [] → ¬ Circular (exLang X R base) fns around c := by
      intro p around c hd hcc
      obtain ⟨v, hv⟩ := cells_descend _ _ f3 hd
      exact circular_no_value hv hcc
    have htm := (sheet_merges hp _ f1 f2).1
    have huniq : ∃ r, Filled (CellResult (exLang X R base) fns) [] ((Sheet.block x.1 x.2).merged prep []) r ∧
        ∀ fuel ≥ M, ∀ passes ≥ M, ∀ s, flowBytes (exLang X R base) fuel passes envOf s (Sheet.block x.1 x.2).source prep = (s, r, none) := by
      obtain ⟨M', g'⟩ := sheet_merged (base := base) hX hR hf prep hp x.1 x.2 f1 f2 (cells_mono (fun _ _ h => .inl h) _ f3)
      obtain ⟨r, -, -, hr, -⟩ := g' M' (Nat.le_refl _) M' (Nat.le_refl _) { stubs := prep } true rfl rfl rfl rfl rfl
      refine ⟨r, hr, fun fuel hfu passes hpa s => ?_⟩
      obtain ⟨r', e, e1, e2, e3⟩ := g fuel hfu passes hpa s
      rw [e1, e3.2 hno, result_unique _ f3 e2 hr]
    obtain ⟨r, hr, hfl⟩ := huniq
    have hqr := result_quiet _ htm f3 hr
    obtain ⟨hir, hnr⟩ := f4 r hr
    have hrm : ∃ m, r.val = .map m := by
      rw [Sheet.merged, Filled] at hr
      obtain ⟨m, rfl, -⟩ := hr
      exact ⟨m, rfl⟩
    refine ⟨r :: rs, max N M, .cons ⟨hr, hqr, hir, hnr, hrm⟩ h1, fun fuel hfu passes hpa w j ft s fs j1 j2 j3 j4 j5 j6 j7 => ?_⟩
    obtain ⟨s', hs⟩ := one_done Y F J (exLang X R base) C envOf hF hq (n := (Sheet.block x.1 x.2).source) ⟨_, rfl⟩ hqr hir hnr hrm
      (hfl fuel (by omega) passes (by omega) s) w j ft fs j1 j2 j3 j4 j5 j6 j7
    rw [List.map_cons, allDocs, hs]
    simp only
    rw [h2 fuel (by omega) passes (by omega) w j ft s' fs j1 j2 j3 j4 j5 j6 j7]
    rfl


include hF hq hL in
/-- **C96**: a run with expressions, from files to the output. -/
theorem sheet_texts (hX : X.ctl = false) (hR : R.ctl = false) (hf : FnsOk X fns) (henv : ∀ s, (envOf s).outer = [] ∧ (envOf s).scopes = [])
    (w : Surroundings) (f : String) (files : List String) (hone : (f :: files).count "-" ≤ 1) (fuel passes : Nat) (b : Bytes) (hb : TextOf w f b)
    (xs : List (List (String × Sheet) × String)) (stubs : List (Node Ex))
    (hdocs : DocsOf (textLib Y F J (exLang X R base) fuel passes C envOf) f b (xs.map (fun x => (Sheet.block x.1 x.2).source)))
    (hstubs : List.Forall₂ (DocOf (textLib Y F J (exLang X R base) fuel passes C envOf) w) files stubs)
    (hd : ∀ n ∈ stubs, Inert n ∧ NumbersOk Y F n ∧ Simple (erase n) ∧ NamesOK (erase n)) :
    ∃ prep, prep.map erase = effective (stubs.map erase) ∧
      ((∀ x ∈ xs, Tidy (exLang X R base) (.block x.1 x.2) ∧ FitsAll prep [] (.block x.1 x.2) ∧
          AllCells (fun around c => ∃ v, Computes (exLang X R base) fns around c v) [] ((Sheet.block x.1 x.2).merged prep []) ∧
          ∀ r, Filled (CellResult (exLang X R base) fns) [] ((Sheet.block x.1 x.2).merged prep []) r → Inert r ∧ NumbersOk Y F r) →
        ∃ out N, ∀ fuel ≥ N, ∀ passes ≥ N,
          mergeMain (textLib Y F J (exLang X R base) fuel passes C envOf) w { template := f, stubs := files } [] = ⟨out, w.fs, none⟩ ∧
          ∀ file, ∃ again, DocsOf (textLib Y F J (exLang X R base) fuel passes C envOf) file out again ∧
            List.Forall₂ (fun x n => ∃ r, Filled (CellResult (exLang X R base) fns) [] ((Sheet.block x.1 x.2).merged prep []) r ∧ SameContent r n) xs again) ∧
      ((∃ x ∈ xs, Tidy (exLang X R base) (.block x.1 x.2) ∧ FitsAll prep [] (.block x.1 x.2) ∧
          AllCells (fun around c => (∃ v, Computes (exLang X R base) fns around c v) ∨ Circular (exLang X R base) fns around c) [] ((Sheet.block x.1 x.2).merged prep []) ∧
          ∃ p around c, descend p [] ((Sheet.block x.1 x.2).merged prep []) = .place around c [] ∧ Circular (exLang X R base) fns around c) →
        ∃ N, ∀ fuel ≥ N, ∀ passes ≥ N, ∃ e,
          mergeMain (textLib Y F J (exLang X R base) fuel passes C envOf) w { template := f, stubs := files } [] = ⟨[], w.fs, some e⟩) := by
  have hq' : ∀ l, (exLang X R base).quote l ≠ [] := hq
  have hL' : ∀ k, (exLang X R base).requireTemplate k = true → ∃ r, k.toList = '<' :: '<' :: r := hL
  obtain ⟨-, hne, hdg⟩ := read_more Y F J (exLang X R base) C envOf hdocs
  obtain ⟨hfs, hsg⟩ := read_stubs_more Y F J (exLang X R base) C envOf hstubs
  obtain ⟨prep, N1, p1, p2, p3⟩ := stubs_prepared Y F J (exLang X R base) hq' hL' C envOf stubs (fun n hn => by
    obtain ⟨src, h⟩ := hfs n hn
    obtain ⟨h1, h2, h3, h4⟩ := hd n hn
    exact ⟨src, h, h1, h2, h3, h4⟩)
  have hrun : ∀ g ≥ max fuel N1, ∀ k ≥ 3, ∃ ft s, mergeMain (textLib Y F J (exLang X R base) g k C envOf) w { template := f, stubs := files } [] =
      conclude false (allDocs (textLib Y F J (exLang X R base) g k C envOf) w { template := f, stubs := files } ft prep s w.fs (xs.map (fun x => (Sheet.block x.1 x.2).source))).1
        (allDocs (textLib Y F J (exLang X R base) g k C envOf) w { template := f, stubs := files } ft prep s w.fs (xs.map (fun x => (Sheet.block x.1 x.2).source))).2 := by
    intro g hg k hk
    obtain ⟨c, ft, hi⟩ := read_inputs Y F J (exLang X R base) C envOf hone hb (hdg g (by omega) k) (hsg g (by omega) k)
    obtain ⟨k, rfl⟩ : ∃ i, k = i + 3 := ⟨k - 3, by omega⟩
    obtain ⟨s, hs⟩ := main_run Y F J (exLang X R base) C envOf hi (fun s => p3 g (by omega) k s)
    exact ⟨ft, s, hs⟩
  refine ⟨prep, p2, fun hx => ?_, fun hx => ?_⟩
  · obtain ⟨rs, N2, r1, r2⟩ := sheets_done Y F J C envOf hF hq hX hR hf henv prep (fun p hp => (p1 p hp).1) xs hx
    have hw : ∀ n ∈ rs.map strip, Writable Y F n ∧ ∃ t, marshal Y F n = some t := by
      intro n hn
      obtain ⟨r, hr, rfl⟩ := List.mem_map.1 hn
      obtain ⟨i, hi⟩ := List.mem_iff_getElem?.1 hr
      obtain ⟨hi1, hi2⟩ := List.getElem?_eq_some_iff.1 hi
      have hlt : i < xs.length := by rw [r1.length_eq]; exact hi1
      have hc := (List.forall₂_iff_get.1 r1).2 i hlt hi1
      simp only [List.get_eq_getElem, hi2] at hc
      obtain ⟨-, q1, q2, q3, q4⟩ := hc
      exact quiet_marshal Y F hF q1 q2 q3 q4
    have hne' : rs.map strip ≠ [] := by
      intro h
      have := congrArg List.length h
      rw [List.length_map, ← r1.length_eq] at this
      rw [List.length_eq_zero_iff.1 this] at hne
      exact hne rfl
    obtain ⟨N3, ds', hblank, hdec, hns⟩ := printed_data Y hF (rs.map strip) hne' (fun n hn => (hw n hn).1) ((rs.map strip).map (textOf Y F))
      (printed_as Y _ (fun n hn => (hw n hn).2))
    have htext : (rs.map strip).map (textOf Y F) = rs.map (textOf Y F) := by
      rw [List.map_map]
      exact List.map_congr_left (fun n _ => textOf_strip Y F n)
    rw [htext] at hblank hdec
    refine ⟨utf8Out (printDocuments (rs.map (textOf Y F))), max (max fuel N1) (max (max N2 N3) 3), fun g hg k hk => ⟨?_, fun file => ?_⟩⟩
    · obtain ⟨ft, s, hs⟩ := hrun g (by omega) k (by omega)
      rw [hs, r2 g (by omega) k (by omega) w _ ft s w.fs rfl rfl rfl rfl rfl rfl rfl]
      simp only [conclude]
      rw [← print_bytes, List.map_map]
      rfl
    · obtain ⟨ns, h1, h2, h3⟩ := hns file
      refine ⟨ns, (parseMulti_iff _ file _ ns).1 ?_, ?_⟩
      · unfold parseMulti
        rw [hblank, if_neg Bool.false_ne_true]
        change (decodeBytes Y g _).bind _ = _
        rw [hdec g (by omega), Option.bind_some, sanitizeAll_eq, h1]
      · rw [List.forall₂_map_left_iff] at h2
        rw [List.forall₂_iff_get] at r1 h2 ⊢
        refine ⟨r1.1.trans h2.1, fun i hi hi' => ?_⟩
        have hir : i < rs.length := by rw [h2.1]; exact hi'
        obtain ⟨q0, q1, q2, -, -⟩ := r1.2 i hi hir
        refine ⟨_, q0, ?_⟩
        exact content_trans (strip_content q1 q2) (h2.2 i hir hi')
  · obtain ⟨x, hx, f1, f2, f3, p, around, c, hdc, hcc⟩ := hx
    obtain ⟨M, g⟩ := sheet_flow (base := base) envOf hX hR hf henv prep (fun p hp => (p1 p hp).1) x.1 x.2 f1 f2 f3
    refine ⟨max (max fuel N1) (max M 3), fun fu hfu k hk => ?_⟩
    obtain ⟨ft, s, hs⟩ := hrun fu (by omega) k (by omega)
    have hfail : ∀ s, (((textLib Y F J (exLang X R base) fu k C envOf).flow s (Sheet.block x.1 x.2).source prep).2.2).isSome = true := by
      intro s
      obtain ⟨r, e, e1, -, e3⟩ := g fu (by omega) k (by omega) s
      rw [show (textLib Y F J (exLang X R base) fu k C envOf).flow s (Sheet.block x.1 x.2).source prep = _ from e1]
      cases e with
      | none => exact absurd hcc (e3.1 rfl p around c hdc)
      | some e => rfl
    obtain ⟨e, he⟩ := docs_fail (textLib Y F J (exLang X R base) fu k C envOf) w { template := f, stubs := files } ft prep rfl rfl
      (xs.map (fun x => (Sheet.block x.1 x.2).source)) s w.fs ⟨_, List.mem_map.2 ⟨x, hx, rfl⟩, rfl, hfail⟩
    refine ⟨e, ?_⟩
    rw [hs, he]
    rfl

end

/-! ### an example -/

def exPortSum : Ex := Ex.bin .add (Ex.ref ["port"]) (Ex.ref ["offset"])

/-- a parser for the texts of the example -/
def sumBase : Lang Ex := { orderBase with
  parse := fun s _ _ => mget [(" port + offset ", exPortSum), (" limits.low || base * 10 ", exOffset), (" ring.next + 1 ", exLoop)] s
  quote := fun l => '"' :: (l ++ ['"']) }
def sumLang : Lang Ex := exLang orderLib orderRefs sumBase

def sumCmd : CmdLib Ex Unit where
  decode _ := none
  yaml _ := none
  json _ := none
  parse _ := none
  text _ := ""
  quote := id
  start _ := ()
  flow _ n _ := ((), n, none)
  reset _ := ()
  push _ _ := ()
  evaluate _ _ _ := ((), none)

def sumLib (fuel passes : Nat) : CmdLib Ex Unit := textLib writeExampleLib writeExampleF writeExampleF sumLang fuel passes sumCmd (fun _ => {})

def sumTemplate : Bytes := asciiBytes "total: (( port + offset ))\nport: 8000\noffset: (( limits.low || base * 10 ))\nbase: 8\n"
def sumStub : Bytes := asciiBytes "port: 9000\n"

theorem sum_example : shown (mergeMain (sumLib 80 20) { fs := [("f", sumTemplate), ("g", sumStub)] } { template := "f", stubs := ["g"] } []) =
    (asciiBytes "base: 8\noffset: 80\nport: 9000\ntotal: 9080\n", [("f", sumTemplate), ("g", sumStub)], none) := by decide +kernel

mutual
/-- a test for equality used for the example -/
def sameB : Node Ex → Node Ex → Bool
  | .mk v s a, n => decide (s = n.src) && decide (a = n.ann) && sameV v n.val
termination_by structural n => n
def sameV : Val Ex → Val Ex → Bool
  | .int i, v => match v with | .int j => decide (i = j) | _ => false
  | .str i, v => match v with | .str j => decide (i = j) | _ => false
  | .map m, v => match v with | .map m' => sameM m m' | _ => false
  | .nil, _ => false
  | .bool _, _ => false
  | .float _, _ => false
  | .list _, _ => false
  | .expr _, _ => false
  | .templ _, _ => false
  | .lambda _, _ => false
termination_by structural n => n
def sameM : List (String × Node Ex) → List (String × Node Ex) → Bool
  | [], m => m.isEmpty
  | (k, n) :: r, m => match m with | (k', n') :: r' => decide (k = k') && sameB n n' && sameM r r' | [] => false
termination_by structural n => n
end

theorem sameB_eq (n : Node Ex) : ∀ n', sameB n n' = true → n = n' := by
  refine Node.rec (motive_1 := fun v => ∀ v', sameV v v' = true → v = v') (motive_2 := fun n => ∀ n', sameB n n' = true → n = n')
    (motive_3 := fun _ => True) (motive_4 := fun m => ∀ m', sameM m m' = true → m = m')
    (motive_5 := fun e => ∀ n', sameB e.2 n' = true → e.2 = n') ?_ ?_ ?_ ?_ ?_ ?_ ?_ ?_ ?_ ?_ ?_ ?_ ?_ ?_ ?_ ?_ n
  · intro v' h; cases h
  · intro _ v' h; cases h
  · intro i v' h; cases v' <;> simp_all [sameV]
  · intro _ v' h; cases h
  · intro i v' h; cases v' <;> simp_all [sameV]
  · intro _ _ v' h; cases h
  · intro m ih v' h
    cases v' <;> simp only [sameV] at h <;> try (cases h; done)
    rw [ih _ h]
  · intro _ v' h; cases h
  · intro _ _ v' h; cases h
  · intro _ v' h; cases h
  · intro v s a ih n' h
    obtain ⟨v', s', a'⟩ := n'
    simp only [sameB, Bool.and_eq_true, decide_eq_true_eq] at h
    obtain ⟨⟨rfl, rfl⟩, h⟩ := h
    rw [ih _ h]
    rfl
  · trivial
  · intro _ _ _ _; trivial
  · intro m' h
    cases m' with
    | nil => rfl
    | cons => cases h
  · rintro ⟨k, n⟩ r ih1 ih2 m' h
    cases m' with
    | nil => cases h
    | cons e r' =>
      obtain ⟨k', n'⟩ := e
      simp only [sameM, Bool.and_eq_true, decide_eq_true_eq] at h
      obtain ⟨⟨rfl, h1⟩, h2⟩ := h
      rw [show n = n' from ih1 _ h1, ih2 _ h2]
  · intro k n ih
    exact ih

/-- what is read, tested -/
def readsB (file : String) (b : Bytes) (n : Node Ex) : Bool := match parseMulti (sumLib 80 20) file b with
  | some [n'] => sameB n n'
  | _ => false
theorem readsB_ok {file : String} {b : Bytes} {n : Node Ex} (h : readsB file b n = true) : DocsOf (sumLib 80 20) file b [n] := by
  rw [← parseMulti_iff]
  unfold readsB at h
  split at h
  · rename_i n' hp
    rw [hp, sameB_eq _ _ h]
  · cases h

def sumTop : List (String × Sheet) :=
  [("total", textCell "(( port + offset ))"), ("port", dataCell (.int 8000)), ("offset", textCell "(( limits.low || base * 10 ))"), ("base", dataCell (.int 8))]
def sumNode : Node Ex := .mk (.map [("port", .mk (.int 9000) "g" {})]) "g" {}

/-- the document with a value from a stub -/
def sumMerged (s : String) (a : Ann) : List (String × Sheet) :=
  [("total", textCell "(( port + offset ))"), ("port", .cell (.data (.mk (.int 9000) s a))), ("offset", textCell "(( limits.low || base * 10 ))"), ("base", dataCell (.int 8))]

theorem sum_parses {t : String} {e : Ex} (sub : List Char) (h : decide (embeddedDynaml sumLang.quote false t.toList = some sub) = true) (h' : decide (sumBase.parse (String.ofList sub) [] [] = some e) = true) :
    ParsesTo sumLang t e := ⟨sub, of_decide_eq_true h, fun _ _ => of_decide_eq_true h'⟩

/-- the language of the example with another parser -/
def sumWith (P : String → List String → List String → Option Ex) : Lang Ex := exLang orderLib orderRefs { sumBase with parse := P }
def sumLibWith (P : String → List String → List String → Option Ex) (fuel passes : Nat) : CmdLib Ex Unit :=
  textLib writeExampleLib writeExampleF writeExampleF (sumWith P) fuel passes sumCmd (fun _ => {})

section
variable {P : String → List String → List String → Option Ex}

theorem reads_with {file : String} {b : Bytes} {ds : List (Node Ex)} (h : DocsOf (sumLib 80 20) file b ds) : DocsOf (sumLibWith P 80 20) file b ds := by
  unfold DocsOf at *
  exact h

theorem sum_offset (hP : ParsesTo (sumWith P) "(( limits.low || base * 10 ))" exOffset) (s : String) (a : Ann) : ComputesIn (sumWith P) sheetFns 1 [sumMerged s a] (.formula "(( limits.low || base * 10 ))" "f" none) (.int 80) :=
  ⟨_, rfl, rfl, exOffset, hP,
    .second rfl (.bin (ref_data [sumMerged s a] (.mk (.int 8) "f" {}) [] rfl rfl) (.lit _) (.mul 8 10))⟩
theorem sum_total (hP : ParsesTo (sumWith P) "(( limits.low || base * 10 ))" exOffset) (hQ : ParsesTo (sumWith P) "(( port + offset ))" exPortSum) (s : String) (a : Ann) : ComputesIn (sumWith P) sheetFns 2 [sumMerged s a] (.formula "(( port + offset ))" "f" none) (.int 9080) :=
  ⟨_, rfl, rfl, exPortSum, hQ,
    .bin (ref_data [sumMerged s a] (.mk (.int 9000) s a) [] rfl rfl) (ref_means _ _ [] _ rfl (sum_offset hP s a) rfl) (.add 9000 80)⟩

/-- The hypotheses of `sheet_texts` are met by the run above, whatever parser is used for the two expressions; the numbers in the output are those of the specification. -/
theorem sum_run (hP : ParsesTo (sumWith P) "(( limits.low || base * 10 ))" exOffset) (hQ : ParsesTo (sumWith P) "(( port + offset ))" exPortSum) : ∃ out N, ∀ fuel ≥ N, ∀ passes ≥ N,
    mergeMain (sumLibWith P fuel passes) { fs := [("f", sumTemplate), ("g", sumStub)] } { template := "f", stubs := ["g"] } [] = ⟨out, [("f", sumTemplate), ("g", sumStub)], none⟩ ∧
    ∃ n, DocsOf (sumLibWith P fuel passes) "again" out [n] ∧ ∃ x, locate n [.key "total"] = some x ∧ x.val = .int 9080 := by
  obtain ⟨prep, h1, h2, -⟩ := sheet_texts writeExampleLib writeExampleF writeExampleF (X := orderLib) (R := orderRefs) (base := { sumBase with parse := P }) (fns := sheetFns) sumCmd (fun _ => {})
    (by intro b; unfold writeExampleF; split <;> decide) (by intro l h; cases h) (fun k h => nomatch h) rfl rfl sheetFns_ok (fun _ => ⟨rfl, rfl⟩)
    { fs := [("f", sumTemplate), ("g", sumStub)] } "f" ["g"] (by decide) 80 20 sumTemplate (by simp only [TextOf]; rw [if_neg (by decide)]; rw [← readFile_iff]; rfl)
    [(sumTop, "f")] [sumNode] (reads_with (readsB_ok (by decide +kernel))) (.cons ⟨sumStub, by simp only [TextOf]; rw [if_neg (by decide)]; rw [← readFile_iff]; rfl, reads_with (readsB_ok (by decide +kernel))⟩ .nil) (fun n hn => by
      obtain rfl : n = sumNode := by simpa using hn
      obtain ⟨g1, g2, -⟩ := inertB_ok sumNode (by decide +kernel)
      exact ⟨g1, g2, namesB_ok _ (by decide +kernel)⟩)
  obtain ⟨s, a, s', a', rfl⟩ : ∃ s a s' a', prep = [.mk (.map [("port", .mk (.int 9000) s a)]) s' a'] := by
    have hprep : prep.map erase = [.map [("port", .int 9000)]] := h1
    rw [List.map_eq_singleton_iff] at hprep
    obtain ⟨p, rfl, hp⟩ := hprep
    obtain ⟨v, s', a'⟩ := p
    cases v <;> simp only [erase, eraseV, reduceCtorEq, Doc.map.injEq] at hp
    rename_i m
    rw [eraseM_eq, List.map_eq_singleton_iff] at hp
    obtain ⟨⟨k, n⟩, rfl, hp⟩ := hp
    obtain ⟨v, s, a⟩ := n
    rw [Prod.mk.injEq] at hp
    obtain ⟨rfl, hp⟩ := hp
    cases v <;> simp only [erase, eraseV, reduceCtorEq, Doc.int.injEq] at hp
    subst hp
    exact ⟨s, a, s', a', rfl⟩
  have hm : (Sheet.block sumTop "f").merged [.mk (.map [("port", .mk (.int 9000) s a)]) s' a'] [] = .block (sumMerged s a) "f" := rfl
  have hfill : ∀ r, Filled (CellResult (sumWith P) sheetFns) [] (.block (sumMerged s a) "f") r →
      r = .mk (.map [("total", .mk (.int 9080) "f" {}), ("port", .mk (.int 9000) s a), ("offset", .mk (.int 80) "f" {}), ("base", .mk (.int 8) "f" {})]) "f" {} := by
    intro r hr
    obtain ⟨m, rfl, x1, m1, rfl, c1, x2, m2, rfl, c2, x3, m3, rfl, c3, x4, m4, rfl, c4, c5⟩ := hr
    have e1 := c1.1 _ ⟨2, sum_total hP hQ s a⟩
    have e3 := c3.1 _ ⟨1, sum_offset hP s a⟩
    have e2 : x2 = .mk (.int 9000) s a := c2
    have e4 : x4 = .mk (.int 8) "f" {} := c4
    have e5 : m4 = [] := c5
    subst e1 e2 e3 e4 e5
    rfl
  obtain ⟨out, N, h⟩ := h2 (fun x hx => by
    obtain rfl : x = (sumTop, "f") := by simpa using hx
    rw [hm]
    refine ⟨?_, ?_, ?_, fun r hr => ?_⟩
    · simp only [sumTop, Tidy, TidyM, dataCell, textCell, Plain, PlainV, and_true, true_and]
      refine ⟨by simp [MapOK, mkeys], ?_⟩
      repeat' constructor
      all_goals first | decide +kernel | (intro o h; cases h)
    · simp only [sumTop, FitsAll, FitsAllM, dataCell, textCell, List.mem_singleton, forall_eq, exists_eq_left, List.nil_append]
      repeat' constructor
      all_goals simp [Fits, nodeAt, mget, isScalar, Node.val]
    · exact ⟨⟨_, 2, sum_total hP hQ s a⟩, ⟨_, computes_data.2 rfl⟩, ⟨_, 1, sum_offset hP s a⟩, ⟨_, computes_data.2 rfl⟩, trivial⟩
    · rw [hfill r hr]
      obtain ⟨g1, g2, -⟩ := inertB_ok (.mk (.map [("total", .mk (.int 9080) "f" {}), ("port", .mk (.int 9000) s a), ("offset", .mk (.int 80) "f" {}), ("base", .mk (.int 8) "f" {})]) "f" {} : Node Ex)
        (by simp [inertB, everyN, everyV, everyM])
      exact ⟨g1, g2⟩)
  refine ⟨out, N, fun fuel hf passes hp => ?_⟩
  obtain ⟨g1, g2⟩ := h fuel hf passes hp
  refine ⟨g1, ?_⟩
  obtain ⟨again, g3, g4⟩ := g2 "again"
  cases g4 with
  | cons g5 g6 =>
    cases g6
    obtain ⟨r, hr, hc⟩ := g5
    rw [hm] at hr
    rw [hfill r hr] at hc
    refine ⟨_, g3, ?_⟩
    have := hc [.key "total"]
    cases hy : locate _ [.key "total"] with
    | none => rw [hy] at this; exact this.elim
    | some y =>
      rw [hy] at this
      have hk : SameKind (.int 9080) y.val := this
      refine ⟨y, rfl, ?_⟩
      cases hv : y.val <;> rw [hv] at hk <;> simp only [SameKind] at hk
      rw [← hk]

end

/-- The run with the parser of the example -/
theorem sum_texts : ∃ out N, ∀ fuel ≥ N, ∀ passes ≥ N,
    mergeMain (sumLib fuel passes) { fs := [("f", sumTemplate), ("g", sumStub)] } { template := "f", stubs := ["g"] } [] = ⟨out, [("f", sumTemplate), ("g", sumStub)], none⟩ ∧
    ∃ n, DocsOf (sumLib fuel passes) "again" out [n] ∧ ∃ x, locate n [.key "total"] = some x ∧ x.val = .int 9080 :=
  sum_run (P := sumBase.parse) (sum_parses " limits.low || base * 10 ".toList (by decide +kernel) (by decide +kernel)) (sum_parses " port + offset ".toList (by decide +kernel) (by decide +kernel))

/-- A circular document: the run fails without output. -/
example : ∃ N, ∀ fuel ≥ N, ∀ passes ≥ N, ∃ e, mergeMain (sumLib fuel passes) { fs := [], stdin := asciiBytes "ring:\n  next: (( ring.next + 1 ))\n" } { template := "-" } [] = ⟨[], [], some e⟩ := by
  obtain ⟨prep, h1, -, h2⟩ := sheet_texts writeExampleLib writeExampleF writeExampleF (X := orderLib) (R := orderRefs) (base := sumBase) (fns := sheetFns) sumCmd (fun _ => {})
    (by intro b; unfold writeExampleF; split <;> decide) (by intro l h; cases h) (fun k h => nomatch h) rfl rfl sheetFns_ok (fun _ => ⟨rfl, rfl⟩)
    { fs := [], stdin := asciiBytes "ring:\n  next: (( ring.next + 1 ))\n" } "-" [] (by decide) 80 20 _ (by simp [TextOf]; rfl)
    [([("ring", .block [("next", .cell (.formula "(( ring.next + 1 ))" "-" none))] "-")], "-")] [] (readsB_ok (by decide +kernel)) .nil (by simp)
  obtain rfl : prep = [] := List.map_eq_nil_iff.1 h1
  have hcyc : Circular sumLang sheetFns [[("next", .cell (.formula "(( ring.next + 1 ))" "-" none))], [("ring", .block [("next", .cell (.formula "(( ring.next + 1 ))" "-" none))] "-")]]
      (.formula "(( ring.next + 1 ))" "-" none) := by
    refine ⟨fun around c => around = [[("next", .cell (.formula "(( ring.next + 1 ))" "-" none))], [("ring", .block [("next", .cell (.formula "(( ring.next + 1 ))" "-" none))] "-")]] ∧
      c = .formula "(( ring.next + 1 ))" "-" none, ?_, rfl, rfl⟩
    rintro around c ⟨rfl, rfl⟩
    exact ⟨_, _, _, exLoop, rfl, sum_parses " ring.next + 1 ".toList (by decide +kernel) (by decide +kernel), .left (by decide) (.ref ⟨_, _, [], rfl, rfl, rfl⟩) (.lit _)⟩
  refine h2 ⟨([("ring", .block [("next", .cell (.formula "(( ring.next + 1 ))" "-" none))] "-")], "-"), by simp, ?_, ?_, ⟨⟨.inr hcyc, trivial⟩, trivial⟩, ["ring", "next"], _, _, rfl, hcyc⟩
  · simp only [Tidy, TidyM, and_true]
    refine ⟨by simp [MapOK, mkeys], ?_⟩
    repeat' constructor
    all_goals first | decide +kernel | (intro o h; cases h)
  · simp only [FitsAll, FitsAllM]
    simp

end Spiff
