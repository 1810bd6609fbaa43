import Verif.Model.Match
/-
Model of the functions `parseurl` (dynaml/parseurl.go), `bcrypt` and `bcrypt_check` (dynaml/bcrypt.go). Go's packages net/url and
bcrypt are parameters.
-/
namespace Spiff

/-- the parts of a URL used (net/url `URL` with `Hostname()`, `Port()`, `Query()` and `User`); the order of the query is the one of the Go map -/
structure UrlParts where
  scheme : String
  host : String
  path : String
  fragment : String
  port : String
  rawQuery : String
  query : List (String × List String)
  user : Option (String × Option String)

section
variable {E : Type}

/-- dynaml/parseurl.go:34-39; `src` is the source name of the binding -/
def urlBase (src : String) (u : UrlParts) : List (String × Node E) :=
  mset (mset (mset (mset [] "scheme" (Node.new (.str u.scheme) src)) "host" (Node.new (.str u.host) src)) "path" (Node.new (.str u.path) src))
    "fragment" (Node.new (.str u.fragment) src)

/-- dynaml/parseurl.go:41-46: the port -/
def urlPort (src : String) (u : UrlParts) (m : List (String × Node E)) : List (String × Node E) :=
  if u.port ≠ "" then match parseInt u.port with
    | some p => mset m "port" (Node.new (.int p) src)
    | none => m
  else m

/-- dynaml/parseurl.go:49-56: the values of the query -/
def urlQuery (src : String) : List (String × List String) → List (String × Node E) → List (String × Node E)
  | [], m => m
  | (k, l) :: r, m => urlQuery src r (mset m k (Node.new (.list (l.map (fun a => Node.new (.str a) src))) src))

/-- dynaml/parseurl.go:59-66: the user -/
def urlUser (src : String) (u : UrlParts) (m : List (String × Node E)) : List (String × Node E) :=
  match u.user with
  | none => m
  | some (name, pass) =>
    let p := mset [] "username" (Node.new (.str name) src)
    let p := match pass with
      | some w => mset p "password" (Node.new (.str w) src)
      | none => p
    mset m "userinfo" (Node.new (.map p) src)

/-- dynaml/parseurl.go:34-68: the result -/
def urlMap (src : String) (u : UrlParts) : List (String × Node E) :=
  urlUser src u (mset (mset (urlPort src u (urlBase src u)) "query" (Node.new (.str u.rawQuery) src))
    "values" (Node.new (.map (urlQuery src u.query [])) src))

/-- dynaml/parseurl.go:16-69 `func_parseurl` -/
def funcParseUrl (parse : String → Option UrlParts) (src : String) : List (Val E) → Out (Val E)
  | [.str s] => match parse s with
    | some u => .ok (.map (urlMap src u))
    | none => .err
  | _ => .err

/-- dynaml/bcrypt.go:8-33 `func_bcrypt`; `generate` is `bcrypt.GenerateFromPassword` -/
def funcBcrypt (generate : String → Int → Option String) : List (Val E) → Out (Val E)
  | [.str s] => match generate s 10 with
    | some h => .ok (.str h)
    | none => .err
  | [.str s, .int c] => match generate s c with
    | some h => .ok (.str h)
    | none => .err
  | _ => .err

/-- dynaml/bcrypt.go:35-55 `func_bcrypt_check`; `compare` tells whether `bcrypt.CompareHashAndPassword` succeeds -/
def funcBcryptCheck (compare : String → String → Bool) : List (Val E) → Out (Val E)
  | [.str passwd, .str hash] => .ok (.bool (compare hash passwd))
  | _ => .err

end
end Spiff
