import Verif.Model.Cleanup
import Verif.Model.Find
/-
Model of the tag and document history part of flow/state.go and of dynaml/tag.go.
-/
namespace Spiff
variable {E : Type}

/-- dynaml/tag.go:16-21 `Tag`. The scope bits are the fields `isLocal` (TAG_LOCAL) and `stream` (TAG_SCOPE_STREAM, otherwise global).
`path = none` is a nil slice, which `reflect.DeepEqual` distinguishes from an empty one. -/
structure Tag (E : Type) where
  name : String
  node : Node E
  path : Option (List String)
  isLocal : Bool
  stream : Bool

/-- flow/state.go:57-68 `State`, the fields `tags` and `docno`. The tag information (dynaml/tag.go:66-70) adds values computed
from the name only. -/
structure TagState (E : Type) where
  tags : List (String × Tag E) := []
  docno : Int := 1

/-- `strings.Replace(name, ":", ".", -1)` (flow/state.go:191) -/
def dotted (name : String) : String := String.ofList (name.toList.map (fun c => if c = ':' then '.' else c))

/-- `strconv.Atoi` -/
def atoi (s : List Char) : Option Int :=
  match s with
  | '-' :: ds => if isDigits ds && decide (digitsVal ds ≤ 2^63) then some (-(digitsVal ds : Int)) else none
  | '+' :: ds => if isDigits ds && decide (digitsVal ds < 2^63) then some (digitsVal ds : Int) else none
  | ds => if isDigits ds && decide (digitsVal ds < 2^63) then some (digitsVal ds : Int) else none

/-- `fmt.Sprintf("doc.%d", i)` -/
def docName (i : Int) : String := "doc." ++ toString i

/-- the test for an existing tag, flow/state.go:194-201 -/
def tagAllowed (old : Option (Tag E)) (path : Option (List String)) : Bool :=
  match old with
  | none => true
  | some t => t.isLocal && decide (path = t.path)

/-- flow/state.go:190-204 `SetTag`; the result tells whether the tag was set (otherwise an error is returned) -/
def setTag (s : TagState E) (name : String) (node : Node E) (path : Option (List String)) (isLocal stream : Bool) : TagState E × Bool :=
  if tagAllowed (mget s.tags (dotted name)) path then
    ({ s with tags := mset s.tags (dotted name) ⟨dotted name, cleanup discardTags () node, path, isLocal, stream⟩ }, true)
  else (s, false)

/-- flow/state.go:207-219 and 230-242: the tag name a reference denotes, none if there is no such tag -/
def tagKey (s : TagState E) (name : String) : Option String :=
  if hasPrefix (dotted name) "doc." then
    match atoi ((dotted name).toList.drop 4) with
    | none => none
    | some i => if i ≤ 0 then (if i + s.docno ≤ 0 then none else some (docName (i + s.docno))) else some (dotted name)
  else some (dotted name)

/-- flow/state.go:206-226 `GetTag` -/
def getTag (s : TagState E) (name : String) : Option (Tag E) :=
  match tagKey s name with
  | none => none
  | some k => mget s.tags k

/-- dynaml/tag.go:112-123: the number of name separators -/
def tagLevel (name : String) : Nat := (name.toList.filter (fun c => c = ':' || c = '.')).length

/-- flow/state.go:256-261: the order of the tags found -/
def tagLess (a b : Tag E) : Bool :=
  if tagLevel a.name ≠ tagLevel b.name then decide (tagLevel a.name < tagLevel b.name) else decide (a.name < b.name)

/-- insertion into a sorted list -/
def insertTag (a : Tag E) : List (Tag E) → List (Tag E)
  | [] => [a]
  | b :: r => if tagLess b a then b :: insertTag a r else a :: b :: r

/-- flow/state.go:228-263 `GetTags`. (Sorting is modelled by insertion sort; names are unique.) -/
def getTags (s : TagState E) (name : String) : List (Tag E) :=
  if hasPrefix (dotted name) "doc." then
    match getTag s name with
    | none => []
    | some t => [t]
  else
    (s.tags.filterMap (fun e => if e.2.name = dotted name || hasPrefix e.2.name (dotted name ++ ".") then some e.2 else none)).foldr insertTag []

/-- flow/state.go:265-268 `ResetTags` -/
def resetTags (_ : TagState E) : TagState E := { tags := [], docno := 1 }

/-- flow/state.go:270-279 `ResetStream` -/
def resetStream (s : TagState E) : TagState E :=
  { tags := (s.tags.filter (fun e => !e.2.stream)).foldl (fun acc e => mset acc e.2.name e.2) [], docno := 1 }

/-- dynaml/tag.go:60-64 `ResetLocal` -/
def Tag.resetLocal (t : Tag E) : Tag E := { t with isLocal := false }

/-- flow/state.go:282-284: recording the document (an error is ignored) -/
def recordDoc (s : TagState E) : Option (Node E) → TagState E
  | none => s
  | some n => (setTag s (docName s.docno) n none false false).1

/-- flow/state.go:281-289 `PushDocument` -/
def pushDoc (s : TagState E) (n : Option (Node E)) : TagState E :=
  { tags := (recordDoc s n).tags.map (fun e => (e.1, e.2.resetLocal)), docno := s.docno + 1 }

/-- flow/state.go:109-115 `SetTags`: the names are taken as they are -/
def setTags (ts : List (Tag E)) : TagState E := { tags := ts.foldl (fun acc t => mset acc t.name t) [], docno := 1 }

/-- An operation on the tags of a state. -/
inductive TagOp (E : Type) where
  | set (name : String) (node : Node E) (path : Option (List String)) (stream : Bool)
  | push (n : Option (Node E))
  | resetStream
  | resetTags

/-- One operation. Tags set during processing are always local (flow/flow.go:43-49, dynaml/tagdef.go:51-52). -/
def TagOp.run (s : TagState E) : TagOp E → TagState E
  | .set name node path stream => (setTag s name node path true stream).1
  | .push n => pushDoc s n
  | .resetStream => Spiff.resetStream s
  | .resetTags => Spiff.resetTags s

/-- a history of operations -/
def runTags (s : TagState E) (ops : List (TagOp E)) : TagState E := ops.foldl TagOp.run s

/-- The result of a tagged reference. -/
inductive TagRes (E α : Type) where
  | notFound
  | ambiguous (a b : String)
  | found (t : Tag E) (v : α)

/-- dynaml/reference.go:59-82: the loop over the tags; `find` selects the path in the node of the tag (dynaml/reference.go:107-141) -/
def tagLoop {α : Type} (ref : String) (find : Tag E → Option α) : Option (Tag E × α) → List (Tag E) → TagRes E α
  | none, [] => .notFound
  | some (t, v), [] => .found t v
  | none, t :: r =>
    match find t with
    | none => tagLoop ref find none r
    | some v => if t.name = ref then .found t v else tagLoop ref find (some (t, v)) r
  | some (f, w), t :: r =>
    if tagLevel f.name < tagLevel t.name then .found f w
    else
      match find t with
      | none => tagLoop ref find (some (f, w)) r
      | some v =>
        if t.name = ref then .found t v
        else if tagLevel f.name = tagLevel t.name then .ambiguous f.name t.name
        else tagLoop ref find (some (t, v)) r

/-- dynaml/reference.go:44-83: a reference `ref::path` with a non-empty path (for a tag other than `doc.0`) -/
def tagPathRef {α : Type} (s : TagState E) (ref : String) (find : Tag E → Option α) : TagRes E α :=
  tagLoop ref find none (getTags s ref)

/-- dynaml/reference.go:46-55: a reference `ref::.` to the node of the tag -/
def tagRootRef (s : TagState E) (ref : String) : TagRes E (Node E) :=
  match getTags s ref with
  | [] => .notFound
  | [t] => .found t t.node
  | t :: t' :: _ => if t.name = ref then .found t t.node else .ambiguous t.name t'.name

end Spiff
