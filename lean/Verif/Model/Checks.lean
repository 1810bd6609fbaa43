import Verif.Model.Validate
import Verif.Model.PubKeys
import Verif.Model.Match
/-
Model of the remaining validators: `match`, `ip` and `cidr` (dynaml/validate.go) and the registered ones for keys and certificates
(dynaml/x509/validators.go). Go's packages regexp, net, pem and x509 are parameters.
-/
namespace Spiff

/-- the functions used: `regexp.Compile`, `MatchString`, whether `net.ParseIP` and `net.ParseCIDR` succeed, and the flag of a certificate authority -/
structure CheckLib (Re Cert : Type) where
  compile : String → Option Re
  matches_ : Re → String → Bool
  isIP : String → Bool
  isCIDR : String → Bool
  isCA : Cert → Bool

section
variable {Re RP CP R C Cert E : Type}

/-- dynaml/validate.go:542-562 -/
def vMatch (T : CheckLib Re Cert) (args : List (Val E)) (value : Val E) : VRes := match args with
  | [.str s] => match T.compile s with
    | none => .err
    | some re => match value with
      | .str v => .ok (T.matches_ re v)
      | _ => .err
  | _ => .err

/-- a condition on texts; validate.go:615-628, 642-648 and x509/validators.go -/
def vText (p : String → Bool) : Val E → VRes
  | .str s => .ok (p s)
  | _ => .err

/-- dynaml/x509/validators.go:31-45 `ValCA` -/
def isCAText (L : PemLib RP CP R C Cert) (T : CheckLib Re Cert) (s : String) : Bool := match pemCert L s with
  | none => false
  | some c => T.isCA c

/-- dynaml/x509/validators.go:7-53: the registered validators; the arguments are ignored. Other names are unknown (validate.go:637). -/
def vRegistered (L : PemLib RP CP R C Cert) (T : CheckLib Re Cert) (op : String) (value : Val E) : VRes :=
  if op = "publickey" then vText (fun s => (pemPublic L s).isSome) value
  else if op = "privatekey" then vText (fun s => (pemPrivate L s).isSome) value
  else if op = "certificate" then vText (fun s => (pemCert L s).isSome) value
  else if op = "ca" then vText (isCAText L T) value
  else .err

/-- dynaml/validate.go:541-562, 615-639 -/
def vRest (L : PemLib RP CP R C Cert) (T : CheckLib Re Cert) (op : String) (value : Val E) (args : List (Val E)) : VRes :=
  if op = "match" ∨ op = "~=" then vMatch T args value
  else if op = "ip" then vText T.isIP value
  else if op = "cidr" then vText T.isCIDR value
  else vRegistered L T op value

/-- the names of the order comparisons -/
def orderNames : List String := ["gt", ">", "lt", "<", "ge", ">=", "le", "<="]

/-- All validators; still parameters are lambdas and the comparisons with floats (see `VLib`). -/
def checkLib (L : PemLib RP CP R C Cert) (T : CheckLib Re Cert) (lambda floats : String → Val E → List (Val E) → VRes) : VLib E :=
  { lambda := lambda, other := fun op value args => if op ∈ orderNames then floats op value args else vRest L T op value args }

end
end Spiff
