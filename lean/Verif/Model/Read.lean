import Verif.Model.FileFns
import Verif.Model.Interp
/-
Model of dynaml/read.go and of `parse` (dynaml/json.go:41-62): reading documents in the different modes.
-/
namespace Spiff
variable {E : Type}

/-- The parts of libraries used and not modelled. -/
structure ReadLib (E : Type) where
  /-- `yaml.ParseMulti` for a file name and data; `none` for an error. Its meaning is Model/Yaml; it never yields an empty list
  (`read_some_document`). -/
  docs : String → List Nat → Option (List (Node E))
  /-- processing of a document (`binding.Flow`, in the current binding or in the one of `WithNewRoot`); `none` for an error -/
  flow : Bool → Node E → Option (Node E)
  /-- the conversion `string(data)` -/
  text : List Nat → String
  /-- JSON quoting used by the interpolation -/
  quote : List Char → List Char
  /-- the feature interpolation -/
  interpol : Bool

/-- A value read: a value (with the flag `Raw` of the evaluation info: not to be processed any more), or templates. A template consists of the
document used for its evaluation and of the one shown if the template is written, dynaml/template.go:51-74. -/
inductive ReadResult (E : Type) where
  | value (v : Val E) (raw : Bool)
  | template (prepared orig : Node E)
  | templates (l : List (Node E × Node E))

mutual
/-- dynaml/template.go:90-109 `node_copy` -/
def nodeCopy : Node E → Node E
  | .mk v s _ => .mk (valCopy v) s {}
termination_by structural n => n
/-- the value of a copy -/
def valCopy : Val E → Val E
  | .list l => .list (listCopy l)
  | .map m => .map (mapCopy m)
  | .nil => .nil
  | .bool b => .bool b
  | .int i => .int i
  | .float f => .float f
  | .str s => .str s
  | .expr e => .expr e
  | .templ n => .templ n
  | .lambda s => .lambda s
termination_by structural v => v
/-- dynaml/template.go:97-99 -/
def listCopy : List (Node E) → List (Node E)
  | [] => []
  | n :: r => nodeCopy n :: listCopy r
termination_by structural l => l
/-- dynaml/template.go:103-105 -/
def mapCopy : List (String × Node E) → List (String × Node E)
  | [] => []
  | e :: r => entryCopy e :: mapCopy r
termination_by structural m => m
/-- an entry -/
def entryCopy : String × Node E → String × Node E
  | (k, n) => (k, nodeCopy n)
termination_by structural e => e
end

/-- dynaml/read.go:11 `templ_pattern`: the expression is not anchored, everything but the blank and the marker may be empty. `\s` of Go's regexp:
tab, line feed, form feed, carriage return, space. -/
def templPattern : List Char → Bool
  | [] => false
  | c :: r => ((c == '\t' || c == '\n' || c == '\x0c' || c == '\r' || c == ' ') && "&template".toList.isPrefixOf r) || templPattern r

/-- `yaml.EmbeddedDynaml` of a node, if it is a string -/
def embeddedNode (L : ReadLib E) (n : Node E) : Option (List Char) :=
  match n.val with
  | .str s => embeddedDynaml L.quote L.interpol s.toList
  | _ => none

/-- dynaml/read.go:155-156: whether a node is a template marker -/
def isMarkerNode (L : ReadLib E) (x : Node E) : Bool :=
  match embeddedNode L x with | some s => templPattern s | none => false

/-- dynaml/read.go:148-160: whether an entry of a list is a template marker -/
def isMarkerEntry (L : ReadLib E) (e : Node E) : Bool :=
  match e.val with
  | .map m => match (match mget m MERGEKEY with | some x => some x | none => mget m "<<") with
    | some x => isMarkerNode L x
    | none => false
  | _ => false

/-- the marker -/
def templMarker (src : String) : Node E := Node.new (.str "(( &template ))") src

/-- dynaml/read.go:137-169: the document shown for a template -/
def markTemplate (L : ReadLib E) (n : Node E) : Node E :=
  match (nodeCopy n).val with
  | .map m =>
    if (mget m MERGEKEY).isNone then (nodeCopy n).withVal (.map (mset m MERGEKEY (templMarker n.src)))
    else if (mget m "<<").isNone then (nodeCopy n).withVal (.map (mset m "<<" (templMarker n.src)))
    else nodeCopy n
  | .list l =>
    if l.any (isMarkerEntry L) then nodeCopy n
    else Node.new (.list (Node.new (.map [(MERGEKEY, templMarker n.src)]) n.src :: l)) n.src
  | _ => nodeCopy n

/-- a document without value -/
def isNilDoc (n : Node E) : Bool := match n.val with | .nil => true | _ => false

/-- dynaml/read.go:91-93, 118-120: trailing empty documents are dropped while there is another one -/
def dropEmpties (l : List (Node E)) : List (Node E) :=
  match l with
  | [] => []
  | a :: r => a :: (r.reverse.dropWhile isNilDoc).reverse

/-- yaml/parser.go:27-36 `Parse` -/
def parseSingle (L : ReadLib E) (file : String) (data : List Nat) : Out (Node E) :=
  match L.docs file data with
  | none => .err
  | some [d] => .ok d
  | some [] => .panic
  | some _ => .err

/-- the modes, dynaml/read.go:57-132 -/
def parseMode (L : ReadLib E) (file src : String) (data : List Nat) (reroot : Bool) (mode : String) : Out (ReadResult E) :=
  if mode = "template" then
    (match parseSingle L file data with | .ok n => .ok (.template n (markTemplate L n)) | .err => .err | .undet => .undet | .panic => .panic)
  else if mode = "templates" then
    (match L.docs file data with | none => .err | some ns => .ok (.templates (ns.map (fun n => (n, markTemplate L n)))))
  else if mode = "yaml" then
    (match parseSingle L file data with
      | .ok n => (match L.flow reroot n with | some r => .ok (.value r.val false) | none => .err)
      | .err => .err | .undet => .undet | .panic => .panic)
  else if mode = "multiyaml" then
    (match L.docs file data with
      | none => .err
      | some ns => (match L.flow reroot (Node.new (.list (dropEmpties ns)) src) with | some r => .ok (.value r.val false) | none => .err))
  else if mode = "import" then
    (match parseSingle L file data with | .ok n => .ok (.value n.val true) | .err => .err | .undet => .undet | .panic => .panic)
  else if mode = "importmulti" then
    (match L.docs file data with | none => .err | some ns => .ok (.value (.list (dropEmpties ns)) true))
  else if mode = "text" then .ok (.value (.str (L.text data)) false)
  else if mode = "binary" then .ok (.value (.str (String.ofList (base64Encode data 60))) false)
  else .err

/-- dynaml/read.go:48-133 `ParseData`; a leading dot of the mode selects a new root. -/
def parseData (L : ReadLib E) (file : String) (data : List Nat) (mode : String) : Out (ReadResult E) :=
  match mode.toList with
  | '.' :: r => parseMode L file file data true (String.ofList r)
  | _ => parseMode L file file data false mode

/-- dynaml/read.go:29-32 the default of the mode -/
def defaultMode (file : String) : String :=
  if ".yml".toList.isSuffixOf file.toList || ".yaml".toList.isSuffixOf file.toList || ".json".toList.isSuffixOf file.toList then "yaml" else "text"

/-- dynaml/read.go:13-46; `content` is `GetFileContent`. `arguments[0]` without arguments is a crash. -/
def funcRead (L : ReadLib E) (allowed : Bool) (content : String → Option (List Nat)) (args : List (Val E)) : Out (ReadResult E) :=
  if args.length > 2 then .err
  else if !allowed then .err
  else match args with
    | [] => .panic
    | .str file :: r => match r with
      | [] => (match content file with | none => .err | some d => parseData L file d (defaultMode file))
      | .str mode :: _ => (match content file with | none => .err | some d => parseData L file d mode)
      | _ :: _ => .err
    | _ => .err

/-- dynaml/json.go:41-62; `path` is the path of the binding. -/
def funcParse (L : ReadLib E) (path : List String) (args : List (Val E)) : Out (ReadResult E) :=
  match args with
  | [.str s] => parseData L (String.intercalate "." path) (utf8Bytes s) "import"
  | [.str s, .str mode] => parseData L (String.intercalate "." path) (utf8Bytes s) mode
  | _ => .err

end Spiff
