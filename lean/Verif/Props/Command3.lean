import Verif.Props.Command2
import Verif.Props.Compare
/-
The commands of the command line tool (C67): failures, files, state, `process`, `convert` and `diff`.
-/
namespace Spiff
open Spiff.Spec
variable {E S : Type}

/-! ### failing runs -/

/-- **C67**: a run which fails prints nothing. -/
theorem merge_silent (L : CmdLib E S) (w : Surroundings) (j : Job) (stdin : Bool) (given : List (Node E))
    (h : (mergeCmd L w j stdin given).halt ≠ none) : (mergeCmd L w j stdin given).stdout = [] := by
  revert h
  unfold mergeCmd
  rcases readInputs L w j stdin given with x | i
  · simp
  · rcases hp : prepareAll L j.opts.isPartial (L.start i.ctx) i.stubs with ⟨s, _ | prepared⟩
    · simp [hp]
    · simp only [hp]
      rcases allDocs L w j i.features prepared (L.reset s) w.fs i.docs with ⟨fs1, x | bs⟩ <;> simp [conclude]

/-! ### files -/

theorem updateState_frame (fs : FileSys) (p : String) (d : Bytes) (r : Bool) (e : WriteEnd) (fs' : FileSys) (h : fs' ∈ updateState fs p d r e)
    (n : String) (h1 : n ≠ p) (h2 : n ≠ bak p) : mget fs' n = mget fs n := by
  have hren : ∀ (g : FileSys) (a b : String), n ≠ a → n ≠ b → mget (rename g a b) n = mget g n := by
    intro g a b ha hb
    unfold rename
    split
    · rfl
    · rw [mget_mset, if_neg hb, mget_mdel, if_neg ha]
  have hb : mget (backup fs p r) n = mget fs n := by
    unfold backup
    split
    · exact hren fs p (bak p) h1 h2
    · rfl
  have hw : ∀ k, fs' ∈ writing (backup fs p r) p d k → mget fs' n = mget fs n := by
    intro k hk
    obtain ⟨i, _, rfl⟩ := List.mem_map.1 hk
    rw [mget_mset, if_neg h1, hb]
  have hu : ∀ g : FileSys, mget g n = mget fs n → fs' ∈ undo fs g p → mget fs' n = mget fs n := by
    intro g hg hk
    have hd : mget (mdel g p) n = mget fs n := by rw [mget_mdel, if_neg h1, hg]
    simp only [undo, List.mem_cons, List.not_mem_nil, or_false] at hk
    rcases hk with rfl | rfl
    · exact hd
    · split
      · rw [hren _ _ _ h2 h1, hd]
      · exact hd
  simp only [updateState, List.mem_cons] at h
  rcases h with rfl | rfl | h
  · rfl
  · exact hb
  · cases e with
    | ok => exact hw _ h
    | openFails => exact hu _ hb h
    | failsAfter k =>
      rcases List.mem_append.1 h with h | h
      · exact hw _ h
      · refine hu _ ?_ h
        rw [mget_mset, if_neg h1, hb]

/-- the files after one document: unchanged, or the state file is updated -/
theorem oneDoc_fs (L : CmdLib E S) (w : Surroundings) (j : Job) (f : Features) (prepared : List (Node E)) (s : S) (fs : FileSys) (t : Node E) :
    (oneDoc L w j f prepared s fs t).2.1 = fs ∨
      (j.statePath ≠ "" ∧ ∃ n, (updateState fs j.statePath (stateText L j n) w.renameWorks w.write).getLast? = some (oneDoc L w j f prepared s fs t).2.1) := by
  unfold oneDoc
  split
  · exact .inl rfl
  · split
    · exact .inl rfl
    · exact .inl rfl
    · split
      · exact .inl rfl
      · next n hn =>
        have hws : (writeState L w j fs n).1 = fs ∨ (j.statePath ≠ "" ∧
            (updateState fs j.statePath (stateText L j n) w.renameWorks w.write).getLast? = some (writeState L w j fs n).1) := by
          unfold writeState
          split
          · exact .inl rfl
          · next hp =>
            obtain ⟨g, hg⟩ := updateState_last fs j.statePath (stateText L j n) w.renameWorks w.write
            exact .inr ⟨hp, by simp [hg]⟩
        rcases hw : writeState L w j fs n with ⟨fs1, x | u⟩
        · rw [hw] at hws
          rcases hws with h | ⟨hp, h⟩
          · exact .inl h
          · exact .inr ⟨hp, n, h⟩
        · rw [hw] at hws
          rcases hws with h | ⟨hp, h⟩
          · exact .inl h
          · exact .inr ⟨hp, n, h⟩

theorem allDocs_fs (L : CmdLib E S) (w : Surroundings) (j : Job) (f : Features) (prepared : List (Node E)) (ts : List (Node E)) :
    ∀ (s : S) (fs : FileSys) (n : String), (j.statePath ≠ "" → n ≠ j.statePath ∧ n ≠ bak j.statePath) →
      mget (allDocs L w j f prepared s fs ts).1 n = mget fs n := by
  induction ts with
  | nil => intro s fs n _; rfl
  | cons t ts ih =>
    intro s fs n hn
    have h1 : mget (oneDoc L w j f prepared s fs t).2.1 n = mget fs n := by
      rcases oneDoc_fs L w j f prepared s fs t with h | ⟨hp, x, h⟩
      · rw [h]
      · exact updateState_frame _ _ _ _ _ _ (List.mem_of_getLast? h) n (hn hp).1 (hn hp).2
    unfold allDocs
    rcases ho : oneDoc L w j f prepared s fs t with ⟨s1, fs1, x | a⟩
    · rw [ho] at h1; exact h1
    · rw [ho] at h1
      simp only
      have h2 := ih s1 fs1 n hn
      rcases ha : allDocs L w j f prepared s1 fs1 ts with ⟨fs2, x | b⟩
      · rw [ha] at h2; exact h2.trans h1
      · rw [ha] at h2; exact h2.trans h1

theorem mergeCmd_fs (L : CmdLib E S) (w : Surroundings) (j : Job) (stdin : Bool) (given : List (Node E)) :
    (mergeCmd L w j stdin given).fs = w.fs ∨ ∃ i s prepared, readInputs L w j stdin given = .ok i ∧
      (mergeCmd L w j stdin given).fs = (allDocs L w j i.features prepared s w.fs i.docs).1 ∧
      (mergeCmd L w j stdin given) = conclude j.json (mergeCmd L w j stdin given).fs (allDocs L w j i.features prepared s w.fs i.docs).2 := by
  unfold mergeCmd
  rcases readInputs L w j stdin given with x | i
  · exact .inl rfl
  · rcases hp : prepareAll L j.opts.isPartial (L.start i.ctx) i.stubs with ⟨s, _ | prepared⟩
    · simp [hp]
    · right
      refine ⟨i, L.reset s, prepared, rfl, ?_⟩
      simp only [hp]
      rcases allDocs L w j i.features prepared (L.reset s) w.fs i.docs with ⟨fs1, x | bs⟩ <;> simp [conclude]

/-- **C67**: a run changes no file but the state file and its backup. -/
theorem merge_files (L : CmdLib E S) (w : Surroundings) (j : Job) (stdin : Bool) (given : List (Node E)) (n : String)
    (hn : j.statePath ≠ "" → n ≠ j.statePath ∧ n ≠ bak j.statePath) : mget (mergeCmd L w j stdin given).fs n = mget w.fs n := by
  rcases mergeCmd_fs L w j stdin given with h | ⟨i, s, prepared, _, h, _⟩
  · rw [h]
  · rw [h]; exact allDocs_fs _ _ _ _ _ _ _ _ _ hn

/-- a run with a state file has at most one document -/
theorem state_single (L : CmdLib E S) (w : Surroundings) (j : Job) (stdin : Bool) (given : List (Node E)) (i : Inputs E)
    (h : readInputs L w j stdin given = .ok i) (hp : j.statePath ≠ "") : i.docs.length ≤ 1 := by
  unfold readInputs at h
  simp only [ebind_ok, emap_ok] at h
  obtain ⟨_, _, docs, _, st, hst, _, _, _, _, _, _, _, _, _, _, _, _, rfl⟩ := h
  unfold readState at hst
  rw [if_neg hp] at hst
  split at hst
  · cases hst
  · simp only; omega

/-- **C67**: after a normal end the state file holds the state of the result (unless the document is empty or temporary), and the old state is the backup. -/
theorem merge_state (L : CmdLib E S) (w : Surroundings) (j : Job) (given : List (Node E)) (out : Bytes) (fs : FileSys)
    (h : mergeCmd L w j false given = ⟨out, fs, none⟩) (hp : j.statePath ≠ "") (hr : w.renameWorks = true) :
    fs = w.fs ∨ ∃ i s prepared t s1 r r' err n b, InputsRead L w j given i ∧
      StubsPrepared L j.opts.isPartial (L.start i.ctx) i.stubs s prepared ∧ i.docs = [t] ∧
      Applied L (i.features.enabled "interpolation") j.opts prepared (L.reset s) t s1 r err ∧
      ((err = none ∧ r' = r) ∨ (err ≠ none ∧ j.opts.isPartial = true ∧ Reset L.text r r')) ∧
      (if j.subpath = "" then n = r' else AtPath (i.features.enabled "control") r' j.subpath n) ∧
      StateText L j n b ∧ mget fs j.statePath = some b ∧ ∀ o, mget w.fs j.statePath = some o → mget fs (bak j.statePath) = some o := by
  obtain ⟨i, s, prepared, outs, hi, hprep, hd, _⟩ := (merge_ok_iff _ _ _ _ _ _ _).1 h
  have hl := state_single L w j false given i hi hp
  rcases hdocs : i.docs with _ | ⟨t, _ | ⟨t', ts⟩⟩
  · rw [hdocs] at hd; cases hd; exact .inl rfl
  · rw [hdocs] at hd
    cases hd with
    | cons _ s1 _ fs1 _ _ _ a b h1 h2 =>
      cases h2
      cases h1 with
      | empty => exact .inl rfl
      | temporary => exact .inl rfl
      | shown s1 _ _ _ _ r r' err n v x parts _ hn ha hpart ht hpath hstate heval hsel hparts houts =>
        right
        rw [if_neg hp] at hstate
        obtain ⟨_, b, hb, hst⟩ := hstate
        refine ⟨i, s, prepared, t, s1, r, r', err, n, b, inputs_read _ _ _ _ _ hi, hprep, hdocs, ha, hpart, hpath, hb, ?_⟩
        obtain ⟨fs', h1, h2, h3⟩ := state_update_ok w.fs j.statePath b
        rw [hr, h1] at hst
        cases hst
        exact ⟨h2, h3⟩
  · rw [hdocs] at hl; simp at hl

/-- The YAML library reads what it writes for a document: the data read (with maps of another Go type) are converted to the same node. -/
def ReadsBack (L : CmdLib E S) (n : Node E) : Prop :=
  ∀ d, normalize n = some d → ∃ b d', L.yaml n = some b ∧ blankSource b = false ∧ L.decode b = some [d'] ∧
    ∀ src, (sanitize src d' : Option (Node E)) = sanitize src d

/-- **C67**: the state written by a run is read as last stub by the next one. -/
theorem state_reread (L : CmdLib E S) (w' : Surroundings) (j : Job) (n : Node E) (hL : ReadsBack L (determineState n)) (hp : j.statePath ≠ "")
    (hy : (∃ x, j.statePath = x ++ ".yaml") ∨ (∃ x, j.statePath = x ++ ".yml") ∨ ((¬ ∃ x, j.statePath = x ++ ".json") ∧ j.json = false))
    (b : Bytes) (hb : StateText L j n b) (hf : mget w'.fs j.statePath = some b)
    (h1 : OnlyData (determineState n)) (h2 : NoNaN (determineState n)) (h3 : GoMaps (determineState n)) :
    ∃ st, OptionalDoc L w' j.statePath (some st) ∧ SameContent (determineState n) st := by
  simp only [← hasSuffix_iff, Bool.not_eq_true] at hy
  rw [stateText_iff] at hb
  subst hb
  obtain ⟨d, n', hd, hs, hc, _⟩ := sanitize_normalize j.statePath (determineState n) h1 h2 h3
  obtain ⟨b, d', hb, hbl, hdec, hd'⟩ := hL _ hd
  rw [← hd'] at hs
  have ht : stateText L j n = b := by
    have : stateText L j n = (L.yaml (determineState n)).getD [] := by
      unfold stateText
      rcases hy with h | h | h
      · simp [h]
      · simp [h]
      · simp [h.1, h.2]
    rw [this, hb]; rfl
  refine ⟨n', ?_, hc⟩
  rw [← readYAML_ok]
  unfold readYAML
  rw [if_neg hp, hf, ht]
  have : parseOne L j.statePath b = .ok n' := by
    unfold parseOne parseMulti
    simp [hbl, hdec, sanitizeAll, hs, consOpt]
  simp [this, Except.map]

/-- **C67**: a run which fails leaves the state as it was - unless it fails after the state was written: in the evaluation of an expression, the
selection of fields or the conversion to text. -/
theorem failed_run_state (L : CmdLib E S) (w : Surroundings) (j : Job) (stdin : Bool) (given : List (Node E))
    (h : (mergeCmd L w j stdin given).halt ≠ none) (hr : w.renameWorks = true)
    (he : j.expr = "") (hs : j.selection = []) (ht : ∀ n, (L.yaml n).isSome ∧ (L.json n).isSome) (n : String) (hn : n ≠ bak j.statePath) :
    mget (mergeCmd L w j stdin given).fs n = mget w.fs n := by
  by_cases hp : j.statePath = ""
  · exact merge_files L w j stdin given n (fun h => absurd hp h)
  by_cases hnp : n = j.statePath
  swap
  · exact merge_files L w j stdin given n (fun _ => ⟨hnp, hn⟩)
  subst hnp
  rcases mergeCmd_fs L w j stdin given with h' | ⟨i, s, prepared, hi, hfs, hcon⟩
  · rw [h']
  · have hl := state_single L w j stdin given i hi hp
    rw [hfs]
    rcases hdocs : i.docs with _ | ⟨t, _ | ⟨t', ts⟩⟩
    · rfl
    · rw [hdocs] at hcon
      have hrall : ∀ l : List (Node E), ∃ bs, renderAll L j.json l = .ok bs := by
        intro l
        induction l with
        | nil => exact ⟨[], rfl⟩
        | cons x l ih =>
          obtain ⟨bs, hbs⟩ := ih
          have : ∃ b, renderText L j.json x = .ok b := by
            unfold renderText
            have := ht x
            cases j.json
            · obtain ⟨b, hb⟩ := Option.isSome_iff_exists.1 this.1; exact ⟨b, by simp [hb, orFatal]⟩
            · obtain ⟨b, hb⟩ := Option.isSome_iff_exists.1 this.2; exact ⟨b, by simp [hb, orFatal]⟩
          obtain ⟨b, hb⟩ := this
          exact ⟨_, by simp [renderAll, hb, hbs, Except.bind, Except.map]; rfl⟩
      have hfin : ∀ s n, ∃ s' outs, finishDoc L j i.features s n = (s', .ok outs) := by
        intro s n
        by_cases hc : j.split = true ∧ ∃ l, n.val = .list l
        · obtain ⟨hsp, l, hv⟩ := hc
          obtain ⟨bs, hbs⟩ := hrall l
          exact ⟨s, bs, (finishDoc_ok _ _ _ _ _ _ _).2 ⟨n, n, l, by simp [he], by simp [hs], .entries n l hsp hv, (renderAll_ok _ _ _ _).1 hbs⟩⟩
        · obtain ⟨bs, hbs⟩ := hrall [n]
          exact ⟨s, bs, (finishDoc_ok _ _ _ _ _ _ _).2 ⟨n, n, [n], by simp [he], by simp [hs], .whole n (fun h1 l h2 => hc ⟨h1, l, h2⟩),
            (renderAll_ok _ _ _ _).1 hbs⟩⟩
      have hone : (allDocs L w j i.features prepared s w.fs [t]).1 = (oneDoc L w j i.features prepared s w.fs t).2.1 ∧
          ((∃ x, (oneDoc L w j i.features prepared s w.fs t).2.2 = .error x) ∨ ∃ o, (allDocs L w j i.features prepared s w.fs [t]).2 = .ok o) := by
        unfold allDocs
        rcases oneDoc L w j i.features prepared s w.fs t with ⟨s1, fs1, x | a⟩
        · exact ⟨rfl, .inl ⟨x, rfl⟩⟩
        · exact ⟨rfl, .inr ⟨_, rfl⟩⟩
      rw [hone.1]
      rcases hone.2 with ⟨x, hx⟩ | ⟨o, ho⟩
      · unfold oneDoc at hx ⊢
        split at hx
        · cases hx
        · next hnil =>
          rw [if_neg hnil]
          rcases hfl : flowedDoc L (i.features.enabled "interpolation") j.opts prepared s t with ⟨s1, x1 | _ | r⟩
          · rfl
          · rfl
          · rw [hfl] at hx
            simp only at hx ⊢
            rcases htp : takePath i.features j.subpath r with x2 | m
            · rfl
            · rw [htp] at hx
              simp only at hx ⊢
              rcases hws : writeState L w j w.fs m with ⟨fs1, x3 | u⟩
              · simp only
                unfold writeState at hws
                rw [if_neg hp] at hws
                have hwne : w.write ≠ .ok := by
                  intro hok; rw [hok] at hws; simp at hws
                obtain ⟨fs', h1, h2⟩ := state_update_failed w.fs j.statePath (stateText L j m) w.write hwne
                rw [hr, h1] at hws
                simp only [Option.getD_some, Prod.mk.injEq] at hws
                rw [← hws.1]; exact h2
              · rw [hws] at hx
                simp only at hx
                obtain ⟨s', outs, hf⟩ := hfin s1 m
                rw [hf] at hx; cases hx
      · exfalso
        rw [ho] at hcon
        apply h
        rw [hcon]; rfl
    · rw [hdocs] at hl; simp at hl

/-- **C67** (defect): if the evaluation expression is invalid the run fails, but the state file is updated. -/
theorem failed_run_updates_state_defect (L : CmdLib E S) (w : Surroundings) (j : Job) (stdin : Bool) (given : List (Node E)) (i : Inputs E)
    (s s1 : S) (prepared : List (Node E)) (t r : Node E) (b : Bytes) (hi : readInputs L w j stdin given = .ok i)
    (hprep : StubsPrepared L j.opts.isPartial (L.start i.ctx) i.stubs s prepared) (ht : i.docs = [t]) (hn : t.val ≠ .nil)
    (ha : Applied L (i.features.enabled "interpolation") j.opts prepared (L.reset s) t s1 r none) (hb : StateText L j r b) (hr : r.ann.flags.temporary = false)
    (hsp : j.subpath = "") (hp : j.statePath ≠ "") (hren : w.renameWorks = true) (hw : w.write = .ok) (he : j.expr ≠ "") (hpa : L.parse j.expr = none) :
    (mergeCmd L w j stdin given).halt = some .fatal ∧ mget (mergeCmd L w j stdin given).fs j.statePath = some b := by
  rw [← prepared_iff] at hprep
  rw [← applied_iff] at ha
  rw [stateText_iff] at hb
  subst hb
  obtain ⟨fs', h1, h2, _⟩ := state_update_ok w.fs j.statePath (stateText L j r)
  have hone : oneDoc L w j i.features prepared (L.reset s) w.fs t = (s1, fs', .error .fatal) := by
    unfold oneDoc flowedDoc
    rw [if_neg (fun h => hn ((isNil_iff _).1 h)), ha]
    simp [hr, takePath, hsp, writeState, hp, hw, hren, h1, finishDoc, evaluateExpr, he, hpa]
  have : mergeCmd L w j stdin given = ⟨[], fs', some .fatal⟩ := by
    unfold mergeCmd
    rw [hi]
    simp only [hprep, ht, allDocs, hone, conclude]
  rw [this]
  exact ⟨rfl, h2⟩

theorem allDocs_bindingPath (L : CmdLib E S) (w : Surroundings) (j : Job) (p : String) (f : Features) (prepared : List (Node E))
    (ts : List (Node E)) : ∀ s fs, allDocs L w { j with bindingPath := p } f prepared s fs ts = allDocs L w j f prepared s fs ts := by
  induction ts with
  | nil => intro s fs; rfl
  | cons t ts ih =>
    intro s fs
    have h : oneDoc L w { j with bindingPath := p } f prepared s fs t = oneDoc L w j f prepared s fs t := rfl
    unfold allDocs
    rw [h]
    simp only [ih]

/-- **C67** (defect): a bindings file which does not exist is ignored. -/
theorem missing_bindings_ignored_defect (L : CmdLib E S) (w : Surroundings) (j : Job) (stdin : Bool) (given : List (Node E))
    (h : mget w.fs j.bindingPath = none) : mergeCmd L w j stdin given = mergeCmd L w { j with bindingPath := "" } stdin given := by
  have : readInputs L w j stdin given = readInputs L w { j with bindingPath := "" } stdin given := by
    have hb : readYAML L w j.bindingPath = readYAML L w "" := by
      unfold readYAML; rw [h]; simp
    unfold readInputs
    rw [hb]; rfl
  unfold mergeCmd
  rw [this]
  simp only [allDocs_bindingPath]

/-- **C67** (defect): if the environment enables the interpolation, the option `--features nointerpolation` does not disable it (the option
`--interpolation` not being given). -/
theorem feature_off_ignored_defect (w : Surroundings) (j : Job) (hj : j.interpolation = (envFlags w.envFeatures).enabled "interpolation")
    (hf : j.features = ["nointerpolation".toList]) (he : (envFlags w.envFeatures).enabled "interpolation" = true) :
    ∃ f, cmdFeatures w j = .ok f ∧ f.enabled "interpolation" = true := by
  have h : (∀ n ∈ j.features.flatMap (splitCh ','), String.ofList (trimSpace n) ∈ ["interpolation", "control", "nointerpolation", "nocontrol"]) := by
    rw [hf]; decide +kernel
  obtain ⟨f, hc⟩ : ∃ f, cmdFeatures w j = .ok f := by
    unfold cmdFeatures
    rw [(setFlags_ok _ _ _).2 ⟨h, rfl⟩]
    exact ⟨_, rfl⟩
  refine ⟨f, hc, ((cmdFeatures_ok hc).2 _).2 (.inl ⟨rfl, hj.trans he⟩)⟩

example : (envFlags "interpolation".toList).enabled "interpolation" = true := by decide +kernel

/-- **C67** (defect): selecting a path without components crashes. -/
theorem select_crash_defect (f : Features) (n : Node E) (p : String) (ps : List String) (h : optionPath p = []) :
    selectFields f (p :: ps) n = .error .panic := by
  have : lookPath f n p = .ok n := by unfold lookPath; rw [h]; rfl
  unfold selectFields
  simp [selectAll, this, h, Except.bind, Except.map]

example : optionPath "." = [] := by decide +kernel

/-- **C67** (defect): empty documents are not part of JSON output. -/
theorem json_empty_lost_defect (bs : List (Option Bytes)) : printAll true bs = printAll true (bs.filter Option.isSome) := by
  unfold printAll
  rw [print_json, print_json]
  congr 1
  induction bs with
  | nil => rfl
  | cons b r ih => cases b <;> simpa using ih

/-! ### process -/

/-- **C67**: `process` merges with two additional stubs in front: the first one makes the document a temporary field, the second one provides it. -/
theorem process_is_merge (L : CmdLib E S) (w : Surroundings) (document : String) (j : Job) (d : Node E) (b : Bytes) (hd : document ≠ "-")
    (hb : FileText w document b) (h : DocsOf L document b [d]) :
    processMain L w document j [] = mergeCmd L w { j with values := [] } false
      [Node.new (.map [("document", Node.new (.str "(( &temporary &inject (merge) ))") "<document>)")]) "<document>",
       Node.new (.map [("document", d)]) ("<" ++ document ++ ">")] := by
  have hp : parseOne L document b = .ok d := (parseOne_ok _ _ _ _).2 h
  unfold processMain
  simp only [hd, if_false, (readFile_iff _ _ _).2 hb, Option.getD_some, hp, createValues, createValues.go, decide_false, processStubs]

/-- **C67** (defect): a document which cannot be read is processed as empty document. -/
theorem process_missing_document_defect (L : CmdLib E S) (w : Surroundings) (document : String) (j : Job) (hd : document ≠ "-")
    (hm : ∀ b, ¬ FileText w document b) (he : L.decode (asciiBytes "---\n") = some [.nil]) :
    processMain L w document j [] =
      mergeCmd L w { j with values := [] } false (processStubs (Node.new .nil document) document) := by
  have hr : readFile w document = none := by
    rcases h : readFile w document with _ | b
    · rfl
    · exact absurd ((readFile_iff _ _ _).1 h) (hm b)
  have : DocsOf L document [] [(Node.new .nil document : Node E)] :=
    ⟨[.nil], by simpa using he, .cons (by simp [sanitize]) .nil⟩
  have hp := (parseOne_ok _ _ _ _).2 this
  unfold processMain
  simp only [hd, if_false, hr, Option.getD_none, hp, createValues, createValues.go, decide_false]

end Spiff
