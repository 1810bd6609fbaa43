import Verif.Model.Command
import Verif.Model.YamlBytes
import Verif.Model.YamlOut
import Verif.Model.Json
import Verif.Model.Merge
/-
Model of complete runs of the commands: the parts which are parameters of Model/Command.lean (`CmdLib`) are instantiated with the models of the
YAML reader and writer, the JSON writer, and the processing of documents.

What remains a parameter are the texts of floating point numbers (`X`, `F`, `J`), the expression language (`Lang`), the parser of the option
`--evaluate`, and the state kept between documents (`C` and `envOf`), which is seen by expressions only.
-/
namespace Spiff
variable {E S : Type}

/-- legacy/candiedyaml/decode.go:105-135 `NewDecoder` and `Decode` for all documents of the bytes of a file (yaml/parser.go:48-62): bytes to
characters (reader.go), characters to events (scanner.go, parser.go), events to data (decode.go). Errors and panics are not distinguished. -/
def decodeBytes (X : YLib) (fuel : Nat) (b : Bytes) : Option (List Data) :=
  (readText [b]).bind fun t => (readEvents t).bind fun es => match yDecode X fuel es with
    | .ok ds => some ds
    | _ => none

/-- legacy/candiedyaml/writer.go:32-75: the bytes of a written text: the emitter writes UTF-8 -/
def utf8Out (t : YText) : Bytes := (t.flatMap (fun c => bufferBytes c.toNat)).map UInt8.ofNat

/-- flow/flow.go:21-25 `NestedFlow` with the error of flow/environment.go:346-354 if something is left unresolved -/
def flowBytes [DecidableEq E] (L : Lang E) (fuel passes : Nat) (envOf : S → Env E) (s : S) (n : Node E) (stubs : List (Node E)) : S × Node E × Option String :=
  match flowDoc L fuel passes { envOf s with stubs := stubs, stubPath := [], nomerge := false, sourceName := n.src, currentSourceName := n.src } n true with
  | .ok (r, []) => (s, r, none)
  | .ok (r, _ :: _) => (s, r, some "unresolved nodes")
  | .error _ => (s, n, some "no result")

/-- cmd/merge.go, cmd/run.go, cmd/convert.go: the commands use `yaml.ParseMulti` and `yaml.Parse` (yaml/parser.go:28-66), `candiedyaml.Marshal`
(legacy/candiedyaml/encode.go:62-67), `yaml.ToJSON` (yaml/marshal.go:16-20) and `flow.NestedFlow` -/
def textLib [DecidableEq E] (X : YLib) (F J : Nat → YText) (L : Lang E) (fuel passes : Nat) (C : CmdLib E S) (envOf : S → Env E) : CmdLib E S :=
  { C with
    decode := decodeBytes X fuel
    yaml := fun n => (marshal X F n).map utf8Out
    json := fun n => (toJson J n).map utf8Out
    quote := L.quote
    flow := flowBytes L fuel passes envOf }

end Spiff
