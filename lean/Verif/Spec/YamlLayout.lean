import Verif.Spec.YamlText
import Verif.Spec.YamlOut
import Verif.Props.Equiv
import Verif.Model.YamlLayout
/-
Specification of the events of documents: nested lists and maps of scalars, the keys of maps being scalars.
-/
namespace Spiff.Spec

mutual
/-- the events of a node: a scalar in its selected style, or a collection -/
inductive NodeEvents : List WEvent → Prop
  | scalar (s : List Char) (style : YStyle) : Asked s style → NodeEvents [.scalar s (selectStyle false s style)]
  | seq {es : List WEvent} : ItemEvents es → NodeEvents (.seqStart :: (es ++ [.seqEnd]))
  | map {es : List WEvent} : EntryEvents es → NodeEvents (.mapStart :: (es ++ [.mapEnd]))
/-- the events of the elements of a list -/
inductive ItemEvents : List WEvent → Prop
  | nil : ItemEvents []
  | cons {a b : List WEvent} : NodeEvents a → ItemEvents b → ItemEvents (a ++ b)
/-- the events of the entries of a map: a key, simple or not, and a value -/
inductive EntryEvents : List WEvent → Prop
  | nil : EntryEvents []
  | cons (k : List Char) (style : YStyle) {a b : List WEvent} : Asked k style → NodeEvents a → EntryEvents b →
      EntryEvents (.scalar k (selectStyle (checkSimpleKey k) k style) :: (a ++ b))
end

/-- the events of the content of a document; a document without content is an empty plain scalar -/
def contentEvents : Option (List WEvent) → List YEvent
  | none => [.scalar "" { value := [] }]
  | some es => es.map WEvent.read

/-- the events read for documents -/
def documentEvents (docs : List (Option (List WEvent))) : List YEvent :=
  .streamStart :: (docs.flatMap (fun d => .docStart :: (contentEvents d ++ [.docEnd])) ++ [.streamEnd])

variable {E : Type}

/-- the values which can be written: data with admissible numbers; a document is not a word for null -/
structure Writable (X : YLib) (F : Nat → List Char) (n : Node E) : Prop where
  data : OnlyData n
  numbers : NoNaN n
  maps : GoMaps n
  written : NumbersOk X F n
  root : ∀ s : String, n.val = .str s → s ∉ ["~", "null", "Null", "NULL"]

/-- the text of a document; a document without content has none -/
def PrintedAs (X : YLib) (F : Nat → List Char) (n : Node E) (t : Option (List Char)) : Prop :=
  (t = none ∧ n.val = .nil) ∨ ∃ x, t = some x ∧ marshal X F n = some x

end Spiff.Spec
