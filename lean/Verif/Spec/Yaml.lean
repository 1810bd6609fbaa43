import Verif.Model.Yaml
/-
Specification of reading YAML: the nodes of a document with their anchors and aliases, the events describing them, and the data they
stand for.
-/
namespace Spiff.Spec

/-- a node of a YAML document; an empty text means that there is no anchor -/
inductive YTree where
  | scalar (anchor : String) (s : YScalar)
  | seq (anchor : String) (l : List YTree)
  | map (anchor : String) (m : List (YTree × YTree))
  | alias (name : String)

mutual
/-- the events describing a node: nodes and the ends of collections, in document order -/
def YTree.events : YTree → List YEvent
  | .scalar a s => [.scalar a s]
  | .seq a l => .seqStart a :: (eventsL l ++ [.seqEnd])
  | .map a m => .mapStart a :: (eventsM m ++ [.mapEnd])
  | .alias n => [.alias n]
termination_by structural t => t
def eventsL : List YTree → List YEvent
  | [] => []
  | t :: r => t.events ++ eventsL r
termination_by structural l => l
def eventsM : List (YTree × YTree) → List YEvent
  | [] => []
  | (k, v) :: r => k.events ++ v.events ++ eventsM r
termination_by structural l => l
end

/-- the data known by their anchors -/
abbrev YEnv := String → Option Data

/-- the anchor of a node denotes its data from now on -/
def YEnv.define (env : YEnv) (a : String) (v : Data) : YEnv := fun n => if n = a ∧ a ≠ "" then some v else env n

mutual
/-- the data a node stands for, given the anchors before it, and the anchors known after it. An alias stands for the data of the last node
before it with this anchor; if there is none, the document is wrong (`error`). Collections cannot be keys (`panic`). Of several entries with
the same key the last one counts. -/
def YTree.data (X : YLib) : YTree → YEnv → YRes (Data × YEnv)
  | .scalar a s, env => .ok ((resolveInterface X s).2, env.define a (resolveInterface X s).2)
  | .seq a l, env => (dataL X l env).bind fun r => .ok (.seq r.1, r.2.define a (.seq r.1))
  | .map a m, env => (dataM X m [] env).bind fun r => .ok (.dict r.1, r.2.define a (.dict r.1))
  | .alias n, env => match env n with
    | some v => .ok (v, env)
    | none => .error
termination_by structural t => t
def dataL (X : YLib) : List YTree → YEnv → YRes (List Data × YEnv)
  | [], env => .ok ([], env)
  | t :: r, env => (t.data X env).bind fun d => (dataL X r d.2).bind fun ds => .ok (d.1 :: ds.1, ds.2)
termination_by structural l => l
def dataM (X : YLib) : List (YTree × YTree) → List (Key × Data) → YEnv → YRes (List (Key × Data) × YEnv)
  | [], m, env => .ok (m, env)
  | (k, v) :: r, m, env => (k.data X env).bind fun dk => (v.data X dk.2).bind fun dv =>
      (assignKey m dk.1 dv.1).bind fun m => dataM X r m dv.2
termination_by structural l => l
end

/-- the documents of a stream, one after the other. Anchors of earlier documents remain known. -/
def dataDocs (X : YLib) : List YTree → YEnv → YRes (List Data)
  | [], _ => .ok []
  | t :: r, env => (t.data X env).bind fun d => (dataDocs X r d.2).bind fun ds => .ok (d.1 :: ds)

/-- the events of a stream -/
def docEvents : List YTree → List YEvent
  | [] => [.streamEnd]
  | t :: r => .docStart :: (t.events ++ .docEnd :: docEvents r)

/-- a quoted text which, without quotes, would mean null -/
def QuotedNull (s : YScalar) : Prop := s.tag = "" ∧ s.implicit = false ∧ s.value ∈ nullWords.map String.toList

def YTree.isAlias : YTree → Prop
  | .alias _ => True
  | _ => False

def YTree.anchor : YTree → String
  | .scalar a _ => a
  | .seq a _ => a
  | .map a _ => a
  | .alias _ => ""

mutual
/-- no anchors (aliases are permitted) -/
def YTree.noAnchors : YTree → Prop
  | .scalar a _ => a = ""
  | .seq a l => a = "" ∧ noAnchorsL l
  | .map a m => a = "" ∧ noAnchorsM m
  | .alias _ => True
termination_by structural t => t
def noAnchorsL : List YTree → Prop
  | [] => True
  | t :: r => t.noAnchors ∧ noAnchorsL r
termination_by structural l => l
def noAnchorsM : List (YTree × YTree) → Prop
  | [] => True
  | (k, v) :: r => k.noAnchors ∧ v.noAnchors ∧ noAnchorsM r
termination_by structural l => l
end

/-- a node with an anchor is not directly followed by an alias -/
def Apart (t next : YTree) : Prop := t.anchor = "" ∨ ¬ next.isAlias

mutual
/-- anchors are used in a way the reader supports: nodes with anchors contain no other anchors, they are not directly followed by an alias,
and they are no quoted words for null -/
def YTree.tame : YTree → Prop
  | .scalar a s => a = "" ∨ ¬ QuotedNull s
  | .seq a l => if a = "" then tameL l else noAnchorsL l
  | .map a m => if a = "" then tameM m else noAnchorsM m
  | .alias _ => True
termination_by structural t => t
def tameL : List YTree → Prop
  | [] => True
  | t :: r => t.tame ∧ (∀ u ∈ r.head?, Apart t u) ∧ tameL r
termination_by structural l => l
def tameM : List (YTree × YTree) → Prop
  | [] => True
  | (k, v) :: r => k.tame ∧ v.tame ∧ Apart k v ∧ (∀ e ∈ r.head?, Apart v e.1) ∧ tameM r
termination_by structural l => l
end

/-- documents using anchors in a supported way; the document itself is no quoted word for null -/
def TameDoc (t : YTree) : Prop := t.tame ∧ ∀ a s, t = .scalar a s → ¬ QuotedNull s

end Spiff.Spec
