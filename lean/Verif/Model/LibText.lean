import Verif.Model.Library
/-
Model of spiffing/utils.go: processing of texts through the library.
-/
namespace Spiff

/-- spiffing/source.go, spiffing/spiff.go:237-239: a named text; `none`: it cannot be read -/
structure TextSource where
  name : String
  data : Option Bytes

section
variable {φ σ E S : Type}

/-- spiffing/spiff.go:285-291 `UnmarshalSource`, yaml/parser.go:23-36. An error is returned (here `fatal`). -/
def unmarshalSource (L : CmdLib E S) (src : TextSource) : Step? (Node E) :=
  match src.data with
  | none => .error .fatal
  | some b => parseOne L src.name b

/-- spiffing/utils.go:50-63: the loops over the stubs and the states -/
def unmarshalSources (L : CmdLib E S) : List TextSource → Step? (List (Node E))
  | [] => .ok []
  | s :: r => (unmarshalSource L s).bind (fun n => (unmarshalSources L r).map (n :: ·))

variable [Inhabited (Node E)]

/-- a call of `Cascade` (spiffing/spiff.go:250-255) with a new slice of stubs and without states -/
def cascadeNodes (G : Engine φ σ S (Node E)) (grow : Nat → Nat → Nat) (w : LibWorld φ σ S (Node E)) (i : Nat) (t : Node E) (stubs : List (Node E)) :
    LibWorld φ σ S (Node E) × Step? (Node E) :=
  match w.step G grow (.alloc stubs []) with
  | (w, .slice s) => match w.step G grow (.cascade i t s []) with
    | (w, .node r) => (w, .ok r)
    | (w, .panic) => (w, .error .panic)
    | (w, _) => (w, .error .fatal)
  | (w, _) => (w, .error .fatal)

/-- spiffing/utils.go:12-22 `Process` -/
def processText (L : CmdLib E S) (G : Engine φ σ S (Node E)) (grow : Nat → Nat → Nat) (w : LibWorld φ σ S (Node E)) (i : Nat) (src : TextSource) :
    LibWorld φ σ S (Node E) × Step? Bytes :=
  match unmarshalSource L src with
  | .error x => (w, .error x)
  | .ok t => match cascadeNodes G grow w i t [] with
    | (w, .error x) => (w, .error x)
    | (w, .ok r) => (w, orFatal (L.yaml r))

/-- `strings.Split(_, "\n")` -/
def splitLines : Bytes → List Bytes
  | [] => [[]]
  | c :: r => if c = 10 then [] :: splitLines r else match splitLines r with
    | p :: ps => (c :: p) :: ps
    | [] => [[c]]

/-- spiffing/utils.go:39-43: the line break is removed from a text of one line -/
def oneLine (b : Bytes) : Bytes :=
  match splitLines b with
  | [l, []] => l
  | _ => b

/-- spiffing/utils.go:34-44 `EvaluateDynamlExpression` -/
def evaluateText (L : CmdLib E S) (G : Engine φ σ S (Node E)) (grow : Nat → Nat → Nat) (w : LibWorld φ σ S (Node E)) (i : Nat) (expr : Bytes) :
    LibWorld φ σ S (Node E) × Step? Bytes :=
  match processText L G grow w i ⟨"dynaml", some ([40, 40, 32] ++ expr ++ [32, 41, 41])⟩ with
  | (w, .error x) => (w, .error x)
  | (w, .ok b) => (w, .ok (oneLine b))

/-- spiffing/utils.go:48-86 `Cascade`: the text of the result and that of the new state (which is never nil) -/
def cascadeTexts (L : CmdLib E S) (G : Engine φ σ S (Node E)) (grow : Nat → Nat → Nat) (w : LibWorld φ σ S (Node E)) (i : Nat) (template : TextSource)
    (stubs states : List TextSource) : LibWorld φ σ S (Node E) × Step? (Bytes × Bytes) :=
  match unmarshalSources L (stubs ++ states) with
  | .error x => (w, .error x)
  | .ok ns => match unmarshalSource L template with
    | .error x => (w, .error x)
    | .ok t => match cascadeNodes G grow w i t ns with
      | (w, .error x) => (w, .error x)
      | (w, .ok r) => (w, (orFatal (L.yaml r)).bind (fun b => (orFatal (L.yaml (determineState r))).map (fun s => (b, s))))

end

end Spiff
