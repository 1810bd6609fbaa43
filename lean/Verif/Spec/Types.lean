import Verif.Model.Node
/-
The names of the types of values.
-/
namespace Spiff
variable {E : Type}

/-- Specification: the type names -/
inductive HasType : Val E → String → Prop
  | str (s : String) : HasType (.str s) "string"
  | int (i : Int) : HasType (.int i) "int"
  | float (f) : HasType (.float f) "float"
  | bool (b : Bool) : HasType (.bool b) "bool"
  | list (l : List (Node E)) : HasType (.list l) "list"
  | map (m : List (String × Node E)) : HasType (.map m) "map"
  | templ (t) : HasType (.templ t) "template"
  | lambda (l) : HasType (.lambda l) "lambda"
  | nil : HasType .nil "nil"

end Spiff
