import Verif.Model.Read
import Verif.Model.Pipeline
/-
Model of the functions converting values to texts and back: dynaml/json.go, with the models of the YAML reader and writer and the JSON writer.
-/
namespace Spiff
variable {E : Type}

/-- dynaml/json.go:10-22 `as_json`; `J` is the text of floating point numbers -/
def funcAsJson (J : Nat → YText) (args : List (Val E)) : Out (Val E) :=
  match args with
  | [v] => match toJson J (Node.new v "") with
    | some t => .ok (.str (String.ofList t))
    | none => .err
  | _ => .err

/-- dynaml/json.go:24-36 `as_yaml`; values the encoder cannot write (it may crash) are taken for errors -/
def funcAsYaml (X : YLib) (F : Nat → YText) (args : List (Val E)) : Out (Val E) :=
  match args with
  | [v] => match marshal X F (Node.new v "") with
    | some t => .ok (.str (String.ofList t))
    | none => .err
  | _ => .err

/-- yaml/parser.go:42-66 `ParseMulti` for bytes: the YAML reader (legacy/candiedyaml) and the conversion to nodes -/
def readDocs (X : YLib) (fuel : Nat) (file : String) (data : List Nat) : Option (List (Node E)) :=
  (decodeBytes X fuel (if blankSource (data.map UInt8.ofNat) then dashes else data.map UInt8.ofNat)).bind (sanitizeAll file)

/-- dynaml/read.go:48-133, dynaml/json.go:38-60: the functions `read` and `parse` with this reader -/
def textRead (X : YLib) (fuel : Nat) (R : ReadLib E) : ReadLib E := { R with docs := readDocs X fuel }

end Spiff
