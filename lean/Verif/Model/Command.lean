import Verif.Model.Files
import Verif.Model.Values
import Verif.Model.Cleanup
import Verif.Model.Sanitize
import Verif.Model.Compare
import Verif.Model.Context
import Verif.Model.Syntax
/-
Model of the commands of the command line tool: `merge` and `process` (cmd/merge.go, cmd/run.go), `convert` (cmd/convert.go) and
`diff` (cmd/diff.go).

The scanner and emitter of YAML and JSON, the processing of one document (`flow.NestedFlow`, modelled elsewhere) and the clock are
parameters (`CmdLib`). `log.Fatalln` ends the program with exit code 1; the message is not modelled.
-/
namespace Spiff
variable {E S : Type}

/-- how the program is terminated early: by `log.Fatalln` (exit code 1), or by a Go panic -/
inductive Halt where | fatal | panic
deriving DecidableEq, Repr

/-- a step which may end the program -/
abbrev Step? (α : Type) := Except Halt α

/-- `Option` with `none` ending the program by `log.Fatalln` -/
def orFatal {α : Type} : Option α → Step? α
  | some a => .ok a
  | none => .error .fatal

/-- what the program finds: files, answers of web servers, standard input, the environment variable `SPIFF_FEATURES`, and how file operations on
the state file end -/
structure Surroundings where
  fs : FileSys
  web : String → Option Bytes := fun _ => none
  stdin : Bytes := []
  envFeatures : List Char := []
  renameWorks : Bool := true
  write : WriteEnd := .ok

/-- what the program leaves: its output, the files, and how it ended -/
structure RunEnd where
  stdout : Bytes
  fs : FileSys
  /-- `none`: it ended normally (exit code 0) -/
  halt : Option Halt

/-- the binding created by cmd/merge.go:251-263 -/
structure CmdCtx (E : Type) where
  values : Option (List (String × Node E))
  features : Features
  tags : List (String × Node E)

/-- the parts which are not modelled here -/
structure CmdLib (E S : Type) where
  /-- legacy/candiedyaml: the documents of a YAML stream -/
  decode : Bytes → Option (List Data)
  /-- candiedyaml.Marshal -/
  yaml : Node E → Option Bytes
  /-- yaml.ToJSON -/
  json : Node E → Option Bytes
  /-- dynaml.Parse for the option `--evaluate` -/
  parse : String → Option E
  /-- `fmt.Sprintf("(( %s ))", e)`, dynaml/unresolved_check.go:250 -/
  text : E → String
  /-- unquoting of embedded expressions, see Model/Interp.lean -/
  quote : List Char → List Char
  /-- the state of the processing (flow/state.go) at the beginning -/
  start : Option (CmdCtx E) → S
  /-- flow.NestedFlow -/
  flow : S → Node E → List (Node E) → S × Node E × Option String
  /-- flow.ResetStream -/
  reset : S → S
  /-- flow.PushDocument -/
  push : S → Node E → S
  /-- flow.Cascade of an expression in the scope of the result, cmd/merge.go:334-340; `none`: an error -/
  evaluate : S → List (String × Node E) → E → S × Option (Node E)

/-- the arguments and options of the command `merge` (cmd/merge.go:23-34, 59-77) -/
structure Job where
  template : String
  stubs : List String := []
  opts : Options := {}
  json : Bool := false
  split : Bool := false
  subpath : String := ""
  selection : List String := []
  statePath : String := ""
  bindingPath : String := ""
  values : List (String × List Char) := []
  tagdefs : List String := []
  features : List (List Char) := []
  /-- the option `--interpolation`; by default the setting of the environment (cmd/merge.go:57-62) -/
  interpolation : Bool := false
  expr : String := ""

/-! ### reading -/

/-- cmd/root.go:43-59 `ReadFile` -/
def readFile (w : Surroundings) (file : String) : Option Bytes :=
  if hasPrefix file "http:" || hasPrefix file "https:" then w.web file else mget w.fs file

/-- `bytes.Trim(source, " \t\n\r")` is empty -/
def blankSource (b : Bytes) : Bool := b.all (fun c => c = 32 || c = 9 || c = 10 || c = 13)

/-- the text "---" and a line feed -/
def dashes : Bytes := [45, 45, 45, 10]

/-- the conversion of all documents, yaml/parser.go:51-62 -/
def sanitizeAll (src : String) : List Data → Option (List (Node E))
  | [] => some []
  | d :: r => consOpt (sanitize src d) (sanitizeAll src r)

/-- yaml/parser.go:42-64 `ParseMulti` -/
def parseMulti (L : CmdLib E S) (src : String) (b : Bytes) : Option (List (Node E)) :=
  (L.decode (if blankSource b then dashes else b)).bind (sanitizeAll src)

/-- yaml/parser.go:28-37 `Parse`: an index error for an empty list of documents, which is never returned: a stream without
documents is an error (C72 `read_some_document`, `read_no_document`) -/
def parseOne (L : CmdLib E S) (src : String) (b : Bytes) : Step? (Node E) :=
  match parseMulti L src b with
  | none => .error .fatal
  | some [] => .error .panic
  | some [d] => .ok d
  | some (_ :: _ :: _) => .error .fatal

/-- cmd/merge.go:106-121 `readYAML`: a file which does not exist is ignored -/
def readYAML (L : CmdLib E S) (w : Surroundings) (file : String) : Step? (Option (Node E)) :=
  if file = "" then .ok none
  else match mget w.fs file with
    | none => .ok none
    | some b => (parseOne L file b).map some

/-- cmd/merge.go:128-137: the text of the template, and whether the standard input is used now. A standard input which is already read is empty. -/
def readTemplate (w : Surroundings) (stdin : Bool) (file : String) : Step? (Bytes × Bool) :=
  if file = "-" then .ok (if stdin then [] else w.stdin, true) else (orFatal (readFile w file)).map (fun b => (b, stdin))

/-- cmd/merge.go:144-150: the state -/
def readState (L : CmdLib E S) (w : Surroundings) (j : Job) (docs : Nat) : Step? (Option (Node E)) :=
  if j.statePath = "" then .ok none
  else if docs > 1 then .error .fatal
  else readYAML L w j.statePath

/-- the fields of a node which must be a map -/
def mapFieldsOf (n : Node E) : Step? (List (String × Node E)) :=
  match n.val with
  | .map m => .ok m
  | _ => .error .fatal

/-- cmd/merge.go:153-173: the value definitions are added to the bindings -/
def defineValues (values : List (String × List Char)) (b : Option (Node E)) : Step? (Option (Node E)) :=
  if values = [] then .ok b
  else
    let n := b.getD (Node.new (.map []) "<values>")
    (mapFieldsOf n).bind (fun m => (orFatal (addValues values m)).map (fun m' => some (n.withVal (.map m'))))

/-- dynaml/tag.go:132-159 `CheckTagName`; the state is the number of characters of the present component (the last component may be empty) -/
def checkTagName (l : Nat) : List Char → Bool
  | [] => true
  | c :: r =>
    if c = ':' ∨ c = '.' then (if l = 0 then false else checkTagName 0 r)
    else if '0' ≤ c ∧ c ≤ '9' then (if l = 0 then false else checkTagName (l + 1) r)
    else if 'a' ≤ c ∧ c ≤ 'z' then checkTagName (l + 1) r
    else if 'A' ≤ c ∧ c ≤ 'Z' then checkTagName (l + 1) r
    else false

/-- cmd/merge.go:177-199: a tag definition `<tag>:<path>` -/
def readTag (L : CmdLib E S) (w : Surroundings) (d : String) : Step? (String × Node E) :=
  match splitColon d.toList with
  | none => .error .fatal
  | some (t, f) =>
    if t = [] then .error .fatal
    else if checkTagName 0 t then
      (orFatal (readFile w (String.ofList f))).bind (fun b =>
        (parseOne L (String.ofList f) b).map (fun n => (String.ofList t, n)))
    else .error .fatal

/-- the loop over the tag definitions -/
def readTags (L : CmdLib E S) (w : Surroundings) : List String → Step? (List (String × Node E))
  | [] => .ok []
  | d :: r => (readTag L w d).bind (fun t => (readTags L w r).map (fun ts => t :: ts))

/-- cmd/merge.go:206-228: the stub files -/
def readStubs (L : CmdLib E S) (w : Surroundings) (stdin : Bool) : List String → Step? (List (Node E))
  | [] => .ok []
  | f :: r =>
    if f = "-" then
      (if stdin then .error .fatal
       else (parseOne L f w.stdin).bind (fun n => (readStubs L w true r).map (fun ns => n :: ns)))
    else (orFatal (readFile w f)).bind (fun b => (parseOne L f b).bind (fun n => (readStubs L w stdin r).map (fun ns => n :: ns)))

/-- features/features.go:59-67 `Features`: the settings of the environment; errors are ignored -/
def envFlags (setting : List Char) : Features :=
  (splitCh ',' setting).foldl (fun f n => (f.set (String.ofList (trimSpace n)) true).1) []

/-- cmd/merge.go:241-247: the names of one option are set one after the other -/
def setFlags (f : Features) : List (List Char) → Step? Features
  | [] => .ok f
  | n :: r => match f.set (String.ofList (trimSpace n)) true with
    | (f', true) => setFlags f' r
    | (_, false) => .error .fatal

/-- cmd/merge.go:240-250: all feature settings -/
def cmdFeatures (w : Surroundings) (j : Job) : Step? Features :=
  (setFlags (envFlags w.envFeatures) (j.features.flatMap (splitCh ','))).map (fun f =>
    if j.interpolation then (f.set "interpolation" true).1 else f)

/-- cmd/merge.go:251-263: the binding; none if nothing is to be configured -/
def cmdContext (b : Option (Node E)) (f : Features) (tags : List (String × Node E)) (docs : Nat) : Step? (Option (CmdCtx E)) :=
  if b.isSome ∨ f.length > 0 ∨ tags.length > 0 ∨ docs > 1 then
    match b with
    | none => .ok (some ⟨none, f, tags⟩)
    | some n => (mapFieldsOf n).map (fun m => some ⟨some m, f, tags⟩)
  else .ok none

/-- what is read before the processing starts -/
structure Inputs (E : Type) where
  docs : List (Node E)
  stubs : List (Node E)
  ctx : Option (CmdCtx E)
  features : Features

/-- cmd/merge.go:123-263: everything read and prepared before the processing. `given` are the stubs handed over by the command `process`, and
`stdin` tells whether it has used the standard input. -/
def readInputs (L : CmdLib E S) (w : Surroundings) (j : Job) (stdin : Bool) (given : List (Node E)) : Step? (Inputs E) :=
  (readTemplate w stdin j.template).bind fun t =>
  (orFatal (parseMulti L j.template t.1)).bind fun docs =>
  (readState L w j docs.length).bind fun state =>
  (readYAML L w j.bindingPath).bind fun b =>
  (defineValues j.values b).bind fun b =>
  (readTags L w j.tagdefs).bind fun tags =>
  (readStubs L w t.2 j.stubs).bind fun stubs =>
  (cmdFeatures w j).bind fun f =>
  (cmdContext b f tags docs.length).map fun ctx =>
  ⟨docs, given ++ stubs ++ state.toList, ctx, f⟩

/-! ### processing -/

/-- flow/cascade.go:18-30 `PrepareStubs` with the state of the processing: from the last to the first stub -/
def prepareAll (L : CmdLib E S) (isPartial : Bool) (s : S) : List (Node E) → S × Option (List (Node E))
  | [] => (s, some [])
  | x :: rest =>
    match prepareAll L isPartial s rest with
    | (s, none) => (s, none)
    | (s, some done) =>
      match L.flow (L.reset s) x done with
      | (s, r, none) => (s, some (cleanup discardLocal () r :: done))
      | (s, r, some _) => if isPartial then (s, some (cleanup discardLocal () r :: done)) else (s, none)

/-- flow/cascade.go:32-44 `Apply` with the state of the processing -/
def applyDoc (L : CmdLib E S) (ip : Bool) (opts : Options) (prepared : List (Node E)) (s : S) (t : Node E) : S × Node E × Option String :=
  match L.flow s t prepared with
  | (s, r, some e) => (s, r, some e)
  | (s, r, none) =>
    let r := if opts.preserveTemporary then r else cleanup discardTemporary () r
    let r := if opts.preserveEscapes then r else unescapeDoc L.quote ip r
    (L.push s r, r, none)

mutual
/-- dynaml/unresolved_check.go:233-254 `ResetUnresolvedNodes` -/
def resetNodes (text : E → String) : Node E → Node E
  | .mk v s a => resetVal text s a v
termination_by structural n => n
def resetVal (text : E → String) (s : String) (a : Ann) : Val E → Node E
  | .map m => .mk (.map (resetMap text m)) s a
  | .list l => .mk (.list (resetList text l)) s a
  | .expr e => Node.new (.str (text e)) "dynaml"
  | .nil => .mk .nil s a
  | .bool b => .mk (.bool b) s a
  | .int i => .mk (.int i) s a
  | .float f => .mk (.float f) s a
  | .str x => .mk (.str x) s a
  | .templ n => .mk (.templ n) s a
  | .lambda x => .mk (.lambda x) s a
termination_by structural n => n
def resetList (text : E → String) : List (Node E) → List (Node E)
  | [] => []
  | n :: r => resetNodes text n :: resetList text r
termination_by structural n => n
def resetMap (text : E → String) : List (String × Node E) → List (String × Node E)
  | [] => []
  | (k, n) :: r => (k, resetNodes text n) :: resetMap text r
termination_by structural n => n
end

/-- the components of a path given as option -/
def optionPath (p : String) : List String := (pathComponents p.toList false).map String.ofList

/-- the result of `FindR` for an option: a missing node ends the program -/
def lookPath (f : Features) (n : Node E) (p : String) : Step? (Node E) :=
  match findR (f.enabled "control") true n (optionPath p) with
  | .found x => .ok x
  | .missing => .error .fatal
  | .panic => .error .panic

/-- cmd/merge.go:280-289: the processed document; none if it is temporary -/
def flowedDoc (L : CmdLib E S) (ip : Bool) (opts : Options) (prepared : List (Node E)) (s : S) (t : Node E) : S × Step? (Option (Node E)) :=
  match applyDoc L ip opts prepared s t with
  | (s, r, err) =>
    if !opts.isPartial && err.isSome then (s, .error .fatal)
    else
      let r := if err.isSome then resetNodes L.text r else r
      (s, .ok (if !opts.preserveTemporary && r.ann.flags.temporary then none else some r))

/-- cmd/merge.go:290-297: option `--path` -/
def takePath (f : Features) (subpath : String) (n : Node E) : Step? (Node E) :=
  if subpath = "" then .ok n else lookPath f n subpath

/-- ends of file names -/
def hasSuffix (s x : String) : Bool := x.toList.isSuffixOf s.toList

/-- cmd/merge.go:299-312: the text of the state; a failed conversion is ignored and gives no text -/
def stateText (L : CmdLib E S) (j : Job) (n : Node E) : Bytes :=
  let json := if hasSuffix j.statePath ".yaml" || hasSuffix j.statePath ".yml" then false
    else if hasSuffix j.statePath ".json" then true else j.json
  ((if json then L.json (determineState n) else L.yaml (determineState n))).getD []

/-- cmd/merge.go:298-327: the state file is written (see Model/Files.lean); it is the last of the file systems passed -/
def writeState (L : CmdLib E S) (w : Surroundings) (j : Job) (fs : FileSys) (n : Node E) : FileSys × Step? Unit :=
  if j.statePath = "" then (fs, .ok ())
  else
    (((updateState fs j.statePath (stateText L j n) w.renameWorks w.write).getLast?).getD fs,
      match w.write with | .ok => .ok () | _ => .error .fatal)

/-- cmd/merge.go:329-344: option `--evaluate` -/
def evaluateExpr (L : CmdLib E S) (expr : String) (s : S) (n : Node E) : S × Step? (Node E) :=
  if expr = "" then (s, .ok n)
  else match L.parse expr with
    | none => (s, .error .fatal)
    | some e => match mapFieldsOf n with
      | .error x => (s, .error x)
      | .ok m => match L.evaluate s m e with
        | (s, none) => (s, .error .fatal)
        | (s, some v) => (s, .ok v)

/-- cmd/merge.go:348-356: the loop of option `--select`; `comps[len(comps)-1]` fails for a path without components -/
def selectAll (f : Features) (n : Node E) (new : List (String × Node E)) : List String → Step? (List (String × Node E))
  | [] => .ok new
  | p :: r => (lookPath f n p).bind fun x =>
    match (optionPath p).getLast? with
    | none => .error .panic
    | some k => selectAll f n (mset new k x) r

/-- cmd/merge.go:346-358: option `--select` -/
def selectFields (f : Features) (selection : List String) (n : Node E) : Step? (Node E) :=
  if selection = [] then .ok n else (selectAll f n [] selection).map (fun m => Node.new (.map m) "")

/-- the text of a node -/
def renderText (L : CmdLib E S) (json : Bool) (n : Node E) : Step? Bytes := orFatal (if json then L.json n else L.yaml n)

/-- the texts of the entries of a list -/
def renderAll (L : CmdLib E S) (json : Bool) : List (Node E) → Step? (List (Option Bytes))
  | [] => .ok []
  | n :: r => (renderText L json n).bind (fun b => (renderAll L json r).map (fun bs => some b :: bs))

/-- cmd/merge.go:360-383: option `--split`, and the texts of the result -/
def renderDoc (L : CmdLib E S) (json split : Bool) (n : Node E) : Step? (List (Option Bytes)) :=
  match split, n.val with
  | true, .list l => renderAll L json l
  | _, _ => (renderText L json n).map (fun b => [some b])

/-- cmd/merge.go:329-383: from the (selected) document to the texts -/
def finishDoc (L : CmdLib E S) (j : Job) (f : Features) (s : S) (n : Node E) : S × Step? (List (Option Bytes)) :=
  match evaluateExpr L j.expr s n with
  | (s, .error x) => (s, .error x)
  | (s, .ok v) => (s, (selectFields f j.selection v).bind (renderDoc L j.json j.split))

/-- cmd/merge.go:273-385: one document of the template: the texts it adds to the output (`none` is a nil slice) -/
def oneDoc (L : CmdLib E S) (w : Surroundings) (j : Job) (f : Features) (prepared : List (Node E)) (s : S) (fs : FileSys) (t : Node E) :
    S × FileSys × Step? (List (Option Bytes)) :=
  if t.val.isNil then (s, fs, .ok [none])
  else match flowedDoc L (f.enabled "interpolation") j.opts prepared s t with
    | (s, .error x) => (s, fs, .error x)
    | (s, .ok none) => (s, fs, .ok [])
    | (s, .ok (some r)) =>
      match takePath f j.subpath r with
      | .error x => (s, fs, .error x)
      | .ok n =>
        match writeState L w j fs n with
        | (fs, .error x) => (s, fs, .error x)
        | (fs, .ok ()) =>
          match finishDoc L j f s n with
          | (s, r) => (s, fs, r)

/-- cmd/merge.go:272-386: the loop over the documents -/
def allDocs (L : CmdLib E S) (w : Surroundings) (j : Job) (f : Features) (prepared : List (Node E)) :
    S → FileSys → List (Node E) → FileSys × Step? (List (Option Bytes))
  | _, fs, [] => (fs, .ok [])
  | s, fs, t :: r =>
    match oneDoc L w j f prepared s fs t with
    | (_, fs, .error x) => (fs, .error x)
    | (s, fs, .ok a) =>
      match allDocs L w j f prepared s fs r with
      | (fs, .error x) => (fs, .error x)
      | (fs, .ok b) => (fs, .ok (a ++ b))

/-- cmd/merge.go:389-397: what is printed for one text, when `many` texts are printed -/
def printOne (json : Bool) (many : Bool) (b : Option Bytes) : Bytes :=
  (if !json && (many || (b.getD []).isEmpty) then dashes else []) ++
  match b with
  | none => []
  | some x => x ++ (if json then [10] else [])

/-- cmd/merge.go:388-398: the output -/
def printAll (json : Bool) (bs : List (Option Bytes)) : Bytes := bs.flatMap (printOne json (decide (bs.length > 1)))

/-- the end of a command -/
def conclude (json : Bool) (fs : FileSys) : Step? (List (Option Bytes)) → RunEnd
  | .error x => ⟨[], fs, some x⟩
  | .ok bs => ⟨printAll json bs, fs, none⟩

/-- cmd/merge.go:123-399 `merge` -/
def mergeCmd (L : CmdLib E S) (w : Surroundings) (j : Job) (stdin : Bool) (given : List (Node E)) : RunEnd :=
  match readInputs L w j stdin given with
  | .error x => ⟨[], w.fs, some x⟩
  | .ok i =>
    match prepareAll L j.opts.isPartial (L.start i.ctx) i.stubs with
    | (_, none) => ⟨[], w.fs, some .fatal⟩
    | (s, some prepared) =>
      match allDocs L w j i.features prepared (L.reset s) w.fs i.docs with
      | (fs, r) => conclude j.json fs r

/-- cmd/merge.go:47-53: the command `merge`; the values are given as texts -/
def mergeMain (L : CmdLib E S) (w : Surroundings) (j : Job) (defs : List (List Char)) : RunEnd :=
  match createValues defs with
  | none => ⟨[], w.fs, some .fatal⟩
  | some vs => mergeCmd L w { j with values := vs } false []

/-- cmd/run.go:67-68: the stubs given to the processing -/
def processStubs (doc : Node E) (file : String) : List (Node E) :=
  [Node.new (.map [("document", Node.new (.str "(( &temporary &inject (merge) ))") "<document>)")]) "<document>",
   Node.new (.map [("document", doc)]) ("<" ++ file ++ ">")]

/-- cmd/run.go:48-75: the command `process`. The error of reading the document is overwritten (line 61). -/
def processMain (L : CmdLib E S) (w : Surroundings) (document : String) (j : Job) (defs : List (List Char)) : RunEnd :=
  let b := if document = "-" then w.stdin else (readFile w document).getD []
  match parseOne L document b with
  | .error x => ⟨[], w.fs, some x⟩
  | .ok d => match createValues defs with
    | none => ⟨[], w.fs, some .fatal⟩
    | some vs => mergeCmd L w { j with values := vs } (decide (document = "-")) (processStubs d document)

/-- cmd/convert.go:66-120: one document -/
def convertDoc (L : CmdLib E S) (j : Job) (t : Node E) : Step? (List (Option Bytes)) :=
  if t.val.isNil then .ok [none]
  else (takePath [] j.subpath t).bind fun n => (selectFields [] j.selection n).bind (renderDoc L j.json j.split)

/-- the loop over the documents -/
def convertDocs (L : CmdLib E S) (j : Job) : List (Node E) → Step? (List (Option Bytes))
  | [] => .ok []
  | t :: r => (convertDoc L j t).bind fun a => (convertDocs L j r).map fun b => a ++ b

/-- cmd/convert.go:44-136 `convert` -/
def convertMain (L : CmdLib E S) (w : Surroundings) (j : Job) : RunEnd :=
  conclude j.json w.fs ((readTemplate w false j.template).bind fun t =>
    (orFatal (parseMulti L j.template t.1)).bind fun docs => convertDocs L j docs)

/-! ### diff -/

/-- what `diff` reports -/
inductive Report (E : Type) where
  | counts (a b : Nat)
  | same
  | diffs (l : List (List (Diff E)))
  | failed (x : Halt)

/-- cmd/diff.go:73-81: the comparison of the documents with the same index; `none` is a panic -/
def compareAll [DecidableEq E] : List (Node E) → List (Node E) → Option (List (List (Diff E)))
  | a :: as, b :: bs => consOpt (compareDocs a b) (compareAll as bs)
  | _, _ => some []

/-- cmd/diff.go:47-85 `diff`, up to the printing of the differences (lines 86-118) -/
def diffMain [DecidableEq E] (L : CmdLib E S) (w : Surroundings) (fa fb : String) : Report E :=
  match (readFile w fa).bind (parseMulti L fa) with
  | none => .failed .fatal
  | some as => match (readFile w fb).bind (parseMulti L fb) with
    | none => .failed .fatal
    | some bs =>
      if as.length ≠ bs.length then .counts as.length bs.length
      else match compareAll as bs with
        | none => .failed .panic
        | some ds => if ds.all List.isEmpty then .same else .diffs ds

end Spiff
