import Verif.Model.Url
import Verif.Spec.Match
/-
Specification of the functions `parseurl` (C105) and `bcrypt` (C106).
-/
namespace Spiff.Spec
variable {E : Type}

/-- the values of the query by their names -/
def QueryValues (q : List (String × List String)) (m : List (String × Node E)) : Prop :=
  ∀ k, (∀ n, mget m k = some n → ∃ l, (k, l) ∈ q ∧ TextList l n.val) ∧ ((∃ l, (k, l) ∈ q) → ∃ n, mget m k = some n)

/-- the user with an optional password -/
inductive UserField (name : String) (pass : Option String) : String → Val E → Prop
  | username : UserField name pass "username" (.str name)
  | password (w : String) (h : pass = some w) : UserField name pass "password" (.str w)

/-- a map has exactly these fields -/
def HasFields (F : String → Val E → Prop) (m : List (String × Node E)) : Prop :=
  (∀ k n, mget m k = some n → F k n.val) ∧ (∀ k v, F k v → ∃ n, mget m k = some n)

/-- the fields of a URL -/
inductive UrlField (u : UrlParts) : String → Val E → Prop
  | scheme : UrlField u "scheme" (.str u.scheme)
  | host : UrlField u "host" (.str u.host)
  | path : UrlField u "path" (.str u.path)
  | fragment : UrlField u "fragment" (.str u.fragment)
  | port (p : Int) (h : parseInt u.port = some p) : UrlField u "port" (.int p)
  | query : UrlField u "query" (.str u.rawQuery)
  | values (m : List (String × Node E)) (h : QueryValues u.query m) : UrlField u "values" (.map m)
  | userinfo (name : String) (pass : Option String) (m : List (String × Node E)) (hu : u.user = some (name, pass)) (h : HasFields (UserField name pass) m) :
      UrlField u "userinfo" (.map m)

/-- the cost asked for: 10 by default -/
inductive BcryptCost : List (Val E) → Int → Prop
  | default : BcryptCost [] 10
  | given (c : Int) : BcryptCost [.int c] c

end Spiff.Spec
