import Verif.Model.Read
import Verif.Spec.Agree
import Mathlib.Data.List.Forall2
/-
What the modes of `read` and `parse` mean.
-/
namespace Spiff.Spec
open Spiff
variable {E : Type}

/-- the same document up to source names and annotations -/
def SameData : Node E → Node E → Prop :=
  AgreeBy (fun x y => (∃ l l', x.val = .list l ∧ y.val = .list l') ∨ (∃ m m', x.val = .map m ∧ y.val = .map m') ∨ x.val = y.val)

/-- a single document -/
def OneDoc (L : ReadLib E) (file : String) (data : List Nat) (n : Node E) : Prop := L.docs file data = some [n]

/-- the documents without trailing empty ones, the first document is always kept -/
def Trimmed (ns ks : List (Node E)) : Prop :=
  (∃ es, ns = ks ++ es ∧ ∀ n ∈ es, n.val = .nil) ∧ (ns ≠ [] → ks ≠ []) ∧ (2 ≤ ks.length → ∀ n, ks.getLast? = some n → n.val ≠ .nil)

/-- a text with the marker for templates after a blank -/
def MarkerText (s : List Char) : Prop :=
  ∃ a b c, s = a ++ c :: ("&template".toList ++ b) ∧ c ∈ ['\t', '\n', '\x0c', '\r', ' ']

/-- an entry of a list which marks the list as template: a map whose `<<<` (or `<<`, if there is none) is an expression with the marker -/
def MarkerEntry (L : ReadLib E) (e : Node E) : Prop :=
  ∃ m x t b, e.val = .map m ∧ (mget m "<<<" = some x ∨ mget m "<<<" = none ∧ mget m "<<" = some x) ∧ x.val = .str t ∧
    embeddedDynaml L.quote L.interpol t.toList = some b ∧ MarkerText b

/-- a node with the marker as text -/
def IsMarker (n : Node E) : Prop := n.val = .str "(( &template ))"

/-- The document `o` shown for the template `n`: the same content with a marker. -/
inductive Marked (L : ReadLib E) (n : Node E) : Node E → Prop
  | map (m m' : List (String × Node E)) (o x : Node E) (k : String) (hn : n.val = .map m) (ho : o.val = .map m')
      (hk : mget m "<<<" = none ∧ k = "<<<" ∨ mget m "<<<" ≠ none ∧ mget m "<<" = none ∧ k = "<<")
      (hx : mget m' k = some x ∧ IsMarker x)
      (hs : ∀ j, j ≠ k → (mget m j = none ∧ mget m' j = none) ∨ ∃ a b, mget m j = some a ∧ mget m' j = some b ∧ SameData a b) : Marked L n o
  | list (l l' : List (Node E)) (o e x : Node E) (hn : n.val = .list l) (ho : o.val = .list (e :: l'))
      (hm : ∀ y ∈ l, ¬ MarkerEntry L y) (he : e.val = .map [("<<<", x)]) (hx : IsMarker x)
      (hs : List.Forall₂ SameData l l') : Marked L n o
  | asis (o : Node E) (h1 : ∀ m, n.val = .map m → mget m "<<<" ≠ none ∧ mget m "<<" ≠ none)
      (h2 : ∀ l, n.val = .list l → ∃ y ∈ l, MarkerEntry L y) (hs : SameData n o) : Marked L n o

/-- the meaning of the modes; `reroot`: processing with a new root -/
inductive ModeResult (L : ReadLib E) (file : String) (data : List Nat) (reroot : Bool) : String → ReadResult E → Prop
  | template (n o : Node E) (h : OneDoc L file data n) (hm : Marked L n o) : ModeResult L file data reroot "template" (.template n o)
  | templates (ns : List (Node E)) (ts : List (Node E × Node E)) (h : L.docs file data = some ns)
      (hm : List.Forall₂ (fun n t => t.1 = n ∧ Marked L n t.2) ns ts) : ModeResult L file data reroot "templates" (.templates ts)
  | yaml (n r : Node E) (h : OneDoc L file data n) (hf : L.flow reroot n = some r) : ModeResult L file data reroot "yaml" (.value r.val false)
  | multiyaml (ns ks : List (Node E)) (d r : Node E) (h : L.docs file data = some ns) (hk : Trimmed ns ks) (hd : d = Node.new (.list ks) file)
      (hf : L.flow reroot d = some r) : ModeResult L file data reroot "multiyaml" (.value r.val false)
  | «import» (n : Node E) (h : OneDoc L file data n) : ModeResult L file data reroot "import" (.value n.val true)
  | importmulti (ns ks : List (Node E)) (h : L.docs file data = some ns) (hk : Trimmed ns ks) :
      ModeResult L file data reroot "importmulti" (.value (.list ks) true)
  | text : ModeResult L file data reroot "text" (.value (.str (L.text data)) false)
  | binary : ModeResult L file data reroot "binary" (.value (.str (String.ofList (base64Encode data 60))) false)

/-- the meaning of a mode with an optional leading dot -/
def ModeMeans (L : ReadLib E) (file : String) (data : List Nat) (mode : String) (r : ReadResult E) : Prop :=
  ModeResult L file data false mode r ∨ ∃ m, mode = "." ++ m ∧ ModeResult L file data true m r

/-- the mode for a file if none is given -/
def DefaultMode (file mode : String) : Prop :=
  ((∃ b, file = b ++ ".yml" ∨ file = b ++ ".yaml" ∨ file = b ++ ".json") ∧ mode = "yaml") ∨
  ((¬ ∃ b, file = b ++ ".yml" ∨ file = b ++ ".yaml" ∨ file = b ++ ".json") ∧ mode = "text")

end Spiff.Spec
