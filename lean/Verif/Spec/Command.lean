import Verif.Model.Command
import Mathlib.Data.List.Forall2
import Verif.Spec.Select
/-
Specification of what the commands of the command line tool read and print.
-/
namespace Spiff.Spec
open Spiff
variable {E S : Type}

/-- the bytes of an ASCII text -/
def asciiBytes (s : String) : Bytes := s.toList.map (fun c => UInt8.ofNat c.toNat)

/-- the name of a file is an address of a web server -/
def WebAddress (f : String) : Prop := (∃ r, f.toList = "http:".toList ++ r) ∨ (∃ r, f.toList = "https:".toList ++ r)

/-- the text of a file or the answer of a web server -/
inductive FileText (w : Surroundings) : String → Bytes → Prop
  | web (f : String) (b : Bytes) (h : WebAddress f) (hb : w.web f = some b) : FileText w f b
  | file (f : String) (b : Bytes) (h : ¬ WebAddress f) (hb : mget w.fs f = some b) : FileText w f b

/-- the text behind an argument: `-` is the standard input -/
def TextOf (w : Surroundings) (f : String) (b : Bytes) : Prop := if f = "-" then b = w.stdin else FileText w f b

/-- the documents of a text: an empty text is one empty document -/
def DocsOf (L : CmdLib E S) (file : String) (b : Bytes) (docs : List (Node E)) : Prop :=
  ∃ ds, L.decode (if ∀ c ∈ b, c = 32 ∨ c = 9 ∨ c = 10 ∨ c = 13 then asciiBytes "---\n" else b) = some ds ∧
    List.Forall₂ (fun d n => sanitize file d = some n) ds docs

/-- an argument denotes one document -/
def DocOf (L : CmdLib E S) (w : Surroundings) (file : String) (d : Node E) : Prop := ∃ b, TextOf w file b ∧ DocsOf L file b [d]

/-- a letter -/
def Letter (c : Char) : Prop := ('a' ≤ c ∧ c ≤ 'z') ∨ ('A' ≤ c ∧ c ≤ 'Z')

/-- a component of a tag name -/
def TagWord (c : List Char) : Prop := ∃ a r, c = a :: r ∧ Letter a ∧ ∀ x ∈ r, Letter x ∨ ('0' ≤ x ∧ x ≤ '9')

/-- a tag name: components which start with a letter, separated by `.` or `:`; the last component may be missing -/
inductive TagName : List Char → Prop
  | nil : TagName []
  | last (c) (h : TagWord c) : TagName c
  | more (c sep r) (h : TagWord c) (hs : sep = '.' ∨ sep = ':') (hr : TagName r) : TagName (c ++ sep :: r)

/-- a tag definition `<tag>:<file>` denotes a name and a document -/
def TagDef (L : CmdLib E S) (w : Surroundings) (d : String) (t : String × Node E) : Prop :=
  ∃ f b, d = t.1 ++ ":" ++ f ∧ t.1 ≠ "" ∧ ':' ∉ t.1.toList ∧ TagName t.1.toList ∧ FileText w f b ∧ DocsOf L f b [t.2]

/-- the optional document of a file which may be missing -/
def OptionalDoc (L : CmdLib E S) (w : Surroundings) (f : String) (o : Option (Node E)) : Prop :=
  if f = "" ∨ mget w.fs f = none then o = none else ∃ b n, mget w.fs f = some b ∧ DocsOf L f b [n] ∧ o = some n

/-- the bindings: the fields of the bindings file and the value definitions -/
def Bindings (L : CmdLib E S) (w : Surroundings) (j : Job) (o : Option (List (String × Node E))) : Prop :=
  ∃ b, OptionalDoc L w j.bindingPath b ∧
    match b with
    | none => (j.values = [] ∧ o = none) ∨ (j.values ≠ [] ∧ ∃ m, addValues j.values [] = some m ∧ o = some m)
    | some n => ∃ m m', n.val = .map m ∧ addValues j.values m = some m' ∧ o = some m'

/-- the features: the settings of the environment (where unknown names are ignored) and those of the options (where they are refused) -/
def FeaturesOf (w : Surroundings) (j : Job) (f : Features) : Prop :=
  (∀ n ∈ j.features.flatMap (splitCh ','), String.ofList (trimSpace n) ∈ ["interpolation", "control", "nointerpolation", "nocontrol"]) ∧
  ∀ x, f.enabled x = true ↔ (x = "interpolation" ∧ j.interpolation = true) ∨
    ((x = "interpolation" ∨ x = "control") ∧
      ∃ before after, (splitCh ',' w.envFeatures ++ j.features.flatMap (splitCh ',')).map (fun n => String.ofList (trimSpace n)) = before ++ x :: after ∧
        ("no" ++ x) ∉ after)

/-- what is read before the processing starts -/
structure InputsRead (L : CmdLib E S) (w : Surroundings) (j : Job) (given : List (Node E)) (i : Inputs E) : Prop where
  template : ∃ b, TextOf w j.template b ∧ DocsOf L j.template b i.docs
  once : (j.template :: j.stubs).count "-" ≤ 1
  stubs : ∃ ss st, List.Forall₂ (DocOf L w) j.stubs ss ∧ OptionalDoc L w j.statePath st ∧ i.stubs = given ++ ss ++ st.toList
  state : j.statePath ≠ "" → i.docs.length ≤ 1
  features : FeaturesOf w j i.features
  context : ∃ values tags, Bindings L w j values ∧ List.Forall₂ (TagDef L w) j.tagdefs tags ∧
    ((values = none ∧ (∀ x, i.features.enabled x = false) ∧ tags = [] ∧ i.docs.length ≤ 1 ∧ i.ctx = none) ∨
     (¬ (values = none ∧ (∀ x, i.features.enabled x = false) ∧ tags = [] ∧ i.docs.length ≤ 1) ∧ i.ctx = some ⟨values, i.features, tags⟩))

/-- the part of the output made of one result: nothing but the text for a single non-empty YAML document; several or empty YAML documents are
preceded by a separator, JSON documents are followed by a line feed -/
inductive Printed : (json : Bool) → List (Option Bytes) → Bytes → Prop
  | single (b : Bytes) (h : b ≠ []) : Printed false [some b] b
  | none : Printed false [] []
  | yaml (bs : List (Option Bytes)) (h : ∀ b, bs = [some b] → b = []) (h0 : bs ≠ []) :
      Printed false bs (bs.flatMap (fun b => asciiBytes "---\n" ++ b.getD []))
  | json (bs : List (Option Bytes)) : Printed true bs ((bs.filterMap id).flatMap (fun b => b ++ asciiBytes "\n"))

/-- the text of a node in the wanted format -/
def TextFor (L : CmdLib E S) (json : Bool) (n : Node E) (b : Option Bytes) : Prop :=
  ∃ x, b = some x ∧ (json = true → L.json n = some x) ∧ (json = false → L.yaml n = some x)

/-- the nodes printed for a result: the entries of a list if it is to be split, otherwise the result -/
inductive Parts (split : Bool) : Node E → List (Node E) → Prop
  | entries (n : Node E) (l : List (Node E)) (h : split = true) (hv : n.val = .list l) : Parts split n l
  | whole (n : Node E) (h : split = true → ∀ l, n.val ≠ .list l) : Parts split n [n]

/-- the components of a path given as option: separated by dots and before opening brackets; empty components are skipped -/
inductive Components : List Char → List String → Prop
  | done : Components [] []
  | dot (r : List Char) (cs : List String) (h : Components r cs) : Components ('.' :: r) cs
  | comp (c : List Char) (c0 : Char) (r : List Char) (cs : List String) (h0 : c0 ≠ '.') (h : ∀ x ∈ c, x ≠ '.' ∧ x ≠ '[')
      (hr : r = [] ∨ r.head? = some '.' ∨ r.head? = some '[') (h : Components r cs) :
      Components (c0 :: c ++ r) (String.ofList (c0 :: c) :: cs)

/-- the node an option path denotes -/
def AtPath (ctl : Bool) (n : Node E) (p : String) (x : Node E) : Prop := ∃ cs, Components p.toList cs ∧ Reaches ctl true n cs x

/-- the result of selecting paths: a map with the nodes found, under the last component of the path; if several paths have the same last component
the last one counts -/
def SelectedFields (ctl : Bool) (n : Node E) (ps : List String) (m : List (String × Node E)) : Prop :=
  (∀ p ∈ ps, ∃ x cs, AtPath ctl n p x ∧ Components p.toList cs ∧ cs ≠ []) ∧
  ∀ k x, mget m k = some x ↔
    ∃ before p after, ps = before ++ p :: after ∧ AtPath ctl n p x ∧ (∃ cs, Components p.toList (cs ++ [k])) ∧
      ∀ q ∈ after, ¬ ∃ cs, Components q.toList (cs ++ [k])

/-- the map of the selected nodes, stored one after the other (see `SelectedFields` for its content) -/
inductive Stored (ctl : Bool) (n : Node E) : List String → List (String × Node E) → Prop
  | nil : Stored ctl n [] []
  | snoc (ps p m cs k x) (h : Stored ctl n ps m) (hx : AtPath ctl n p x) (hk : Components p.toList (cs ++ [k])) :
      Stored ctl n (ps ++ [p]) (mset m k x)

/-- a stub which is processed with the stubs behind it: its local nodes are removed; errors are tolerated if partial results are wanted -/
inductive StubsPrepared (L : CmdLib E S) (isPartial : Bool) (s : S) : List (Node E) → S → List (Node E) → Prop
  | nil : StubsPrepared L isPartial s [] s []
  | cons (x rest s' s'' done r err) (h : StubsPrepared L isPartial s rest s' done) (hf : L.flow (L.reset s') x done = (s'', r, err))
      (he : isPartial = false → err = none) : StubsPrepared L isPartial s (x :: rest) s'' (cleanup discardLocal () r :: done)

/-- a document processed with the prepared stubs (see C10, C13 for the removal of temporary nodes and of escapes) -/
inductive Applied (L : CmdLib E S) (ip : Bool) (opts : Options) (prepared : List (Node E)) (s : S) (t : Node E) : S → Node E → Option String → Prop
  | failed (s' r e) (h : L.flow s t prepared = (s', r, some e)) : Applied L ip opts prepared s t s' r (some e)
  | finished (s' r x y) (h : L.flow s t prepared = (s', r, none))
      (ht : (opts.preserveTemporary = true ∧ x = r) ∨ (opts.preserveTemporary = false ∧ x = cleanup discardTemporary () r))
      (hu : (opts.preserveEscapes = true ∧ y = x) ∨ (opts.preserveEscapes = false ∧ y = unescapeDoc L.quote ip x)) :
      Applied L ip opts prepared s t (L.push s' y) y none

/-- the expressions left in a document are replaced by their texts -/
inductive Reset (text : E → String) : Node E → Node E → Prop
  | expr (e src ann) : Reset text (.mk (.expr e) src ann) (Node.new (.str (text e)) "dynaml")
  | list (l l' src ann) (h : List.Forall₂ (Reset text) l l') : Reset text (.mk (.list l) src ann) (.mk (.list l') src ann)
  | map (m m' src ann) (hk : m.map Prod.fst = m'.map Prod.fst) (h : List.Forall₂ (Reset text) (m.map Prod.snd) (m'.map Prod.snd)) :
      Reset text (.mk (.map m) src ann) (.mk (.map m') src ann)
  | same (v src ann) (h1 : ∀ e, v ≠ .expr e) (h2 : ∀ l, v ≠ .list l) (h3 : ∀ m, v ≠ .map m) : Reset text (.mk v src ann) (.mk v src ann)

/-- the text of the state: JSON or YAML depending on the name of the state file or, for other names, the output format; empty if there is none -/
def StateText (L : CmdLib E S) (j : Job) (n : Node E) (b : Bytes) : Prop :=
  ∃ json : Bool, (json = true ↔ (∃ x, j.statePath = x ++ ".json") ∨
      (j.json = true ∧ ¬ (∃ x, j.statePath = x ++ ".yaml") ∧ ¬ (∃ x, j.statePath = x ++ ".yml"))) ∧
    (TextFor L json (determineState n) (some b) ∨ ((∀ x, ¬ TextFor L json (determineState n) x) ∧ b = []))

/-- one document of the template becomes texts of the output; `fs` and `fs'` are the files before and after. The order of the steps is: processing,
option `--path`, state, option `--evaluate`, option `--select`, option `--split`. -/
inductive DocShown (L : CmdLib E S) (w : Surroundings) (j : Job) (f : Features) (prepared : List (Node E)) :
    S → FileSys → Node E → S → FileSys → List (Option Bytes) → Prop
  | empty (s fs t) (h : t.val = .nil) : DocShown L w j f prepared s fs t s fs [none]
  | temporary (s s' fs t r r' err) (h : t.val ≠ .nil) (ha : Applied L (f.enabled "interpolation") j.opts prepared s t s' r err)
      (hp : (err = none ∧ r' = r) ∨ (err ≠ none ∧ j.opts.isPartial = true ∧ Reset L.text r r')) (hk : j.opts.preserveTemporary = false)
      (ht : r'.ann.flags.temporary = true) : DocShown L w j f prepared s fs t s' fs []
  | shown (s s' s'' fs fs' t r r' err n v x parts outs) (h : t.val ≠ .nil)
      (ha : Applied L (f.enabled "interpolation") j.opts prepared s t s' r err)
      (hp : (err = none ∧ r' = r) ∨ (err ≠ none ∧ j.opts.isPartial = true ∧ Reset L.text r r'))
      (ht : j.opts.preserveTemporary = true ∨ r'.ann.flags.temporary = false)
      (hpath : if j.subpath = "" then n = r' else AtPath (f.enabled "control") r' j.subpath n)
      (hstate : if j.statePath = "" then fs' = fs
        else w.write = .ok ∧ ∃ b, StateText L j n b ∧ (updateState fs j.statePath b w.renameWorks .ok).getLast? = some fs')
      (heval : if j.expr = "" then s'' = s' ∧ v = n
        else ∃ e m, L.parse j.expr = some e ∧ n.val = .map m ∧ L.evaluate s' m e = (s'', some v))
      (hsel : if j.selection = [] then x = v
        else ∃ m, x = Node.new (.map m) "" ∧ Stored (f.enabled "control") v j.selection m)
      (hparts : Parts j.split x parts) (houts : List.Forall₂ (TextFor L j.json) parts outs) :
      DocShown L w j f prepared s fs t s'' fs' outs

/-- all documents of the template, in order -/
inductive DocsShown (L : CmdLib E S) (w : Surroundings) (j : Job) (f : Features) (prepared : List (Node E)) :
    S → FileSys → List (Node E) → FileSys → List (Option Bytes) → Prop
  | nil (s fs) : DocsShown L w j f prepared s fs [] fs []
  | cons (s s' fs fs' fs'' t ts a b) (h : DocShown L w j f prepared s fs t s' fs' a) (hr : DocsShown L w j f prepared s' fs' ts fs'' b) :
      DocsShown L w j f prepared s fs (t :: ts) fs'' (a ++ b)

/-- a document becomes texts of the output of `convert`: options `--path`, `--select` and `--split`, without processing -/
inductive DocConverted (L : CmdLib E S) (j : Job) : Node E → List (Option Bytes) → Prop
  | empty (t) (h : t.val = .nil) : DocConverted L j t [none]
  | shown (t n x parts outs) (h : t.val ≠ .nil) (hpath : if j.subpath = "" then n = t else AtPath false t j.subpath n)
      (hsel : if j.selection = [] then x = n else ∃ m, x = Node.new (.map m) "" ∧ Stored false n j.selection m)
      (hparts : Parts j.split x parts) (houts : List.Forall₂ (TextFor L j.json) parts outs) : DocConverted L j t outs

end Spiff.Spec
