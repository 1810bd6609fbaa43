import Verif.Model.Ops
/-
Model of the functions `format` (dynaml/format.go) and `error` (dynaml/error.go). `fmt.Sprintf` and the YAML encoder are parameters.
-/
namespace Spiff

/-- The functions used: `fmt.Sprintf`, the encoder for values and templates (without a result the program ends), and the text of a lambda -/
structure FmtLib (E : Type) where
  sprintf : String → List (Val E) → String
  yaml : Val E → Option String
  templ : Node E → Option String
  lambda : String → String

section
variable {E : Type}

/-- dynaml/format.go:25-48: an argument for Sprintf; without a text `log.Fatalln` ends the program (here `none`) -/
def fmtArg (L : FmtLib E) : Val E → Option (Val E)
  | .list l => (L.yaml (.list l)).map .str
  | .map m => (L.yaml (.map m)).map .str
  | .templ n => (L.templ n).map .str
  | .lambda s => some (.str (L.lambda s))
  | v => some v

/-- dynaml/format.go:24-49: the loop over the arguments -/
def fmtArgs (L : FmtLib E) : List (Val E) → Option (List (Val E))
  | [] => some []
  | a :: r => match fmtArg L a, fmtArgs L r with
    | some x, some xs => some (x :: xs)
    | _, _ => none

/-- dynaml/format.go:16-56 `format`: the text; the end of the program is `panic` -/
def formatText (L : FmtLib E) (args : List (Val E)) : Out String := match args with
  | [] => .err
  | a :: r => match fmtArgs L (a :: r) with
    | some (.str f :: xs) => .ok (L.sprintf f xs)
    | some _ => .err
    | none => .panic

/-- dynaml/format.go:12-14 `func_format` -/
def funcFormat (L : FmtLib E) (args : List (Val E)) : Out (Val E) := match formatText L args with
  | .ok s => .ok (.str s)
  | .err => .err
  | .panic => .panic
  | .undet => .undet

/-- the outcome of `error`: no value, but an error with a message, the error of a wrong call, or the end of the program -/
inductive Raised where
  | message (s : String)
  | wrongCall
  | exit

/-- dynaml/error.go:3-9 `func_error` -/
def funcError (L : FmtLib E) (args : List (Val E)) : Raised := match formatText L args with
  | .ok s => .message s
  | .panic => .exit
  | _ => .wrongCall

end
end Spiff
