import Verif.Model.Flow
/-
Model of the lookup functions of flow/environment.go: scopes and references.

Not modelled: `WithNewRoot` (flow/environment.go:276-282, used for nested documents read by
`read`), the update of the scopes of lambda values (updateBinding), GetRootBinding of a list document.
-/
namespace Spiff
variable {E : Type}

/-- Parameters: the control feature; flow/environment.go:509-540 `createContext` (the node of `__ctx`); the static
binding of the node `_` (its resolver, set for calls of lambdas and templates): how it resolves a path -/
structure RefLib (E : Type) where
  ctl : Bool
  ctx : Env E → Node E
  resolver : Node E → List String → Look (Node E)

/-- yaml/node.go:11-13 -/
def SELF : String := "_"
def DOCNODE : String := "__"
def ROOT : String := "___"

/-- `scope.local[name]`; reading from a nil map finds nothing -/
def Scope.get (s : Scope E) (name : String) : Option (Node E) := s.locals.bind (mget · name)

/-- flow/environment.go:465-475 the loop of `resolveSymbol`: the value of the innermost scope with
such a field -/
def lookupScopes (name : String) : List (Scope E) → Option (Node E)
  | [] => none
  | s :: r => match s.get name with
    | some n => some n
    | none => lookupScopes name r

/-- flow/environment.go:466-469: the innermost scope of a document node (`nodescope`) and the
scopes around it -/
def nodeScope : List (Scope E) → Option (List (Scope E))
  | [] => none
  | s :: r => if s.path.isSome ∧ s.locals.isSome then some (s :: r) else nodeScope r

/-- flow/environment.go:194-210 `FindInScopes` for a non empty path: stops at a scope
without fields -/
def findInScopes (ctl : Bool) (first : String) (rest : List String) : List (Scope E) → Look (Node E)
  | [] => .missing
  | s :: r => match s.locals with
    | none => .missing
    | some m => match mget m first with
      | some n => findR ctl true n rest
      | none => findInScopes ctl first rest r

/-- flow/environment.go:148-153 `GetRootBinding` of an environment with the given scopes, as a node
(`node(..)`, flow/environment.go:542-544): a missing binding is an empty map without fields -/
def rootMap (scopes : List (Scope E)) : List (String × Node E) :=
  match scopes.getLast? with
  | some s => s.locals.getD []
  | none => []

/-- `___`: flow/environment.go:215-221: the root of the outermost environment -/
def outermost (scopes : List (Scope E)) : List (List (Scope E)) → List (Scope E)
  | [] => scopes
  | o :: r => outermost o r

/-- flow/environment.go:212-239 `FindReference` for the chain of scopes of an environment and
those of its outer environments. `ctx` is the node of `__ctx`. An empty path is an index out of range. -/
def findRefIn (X : RefLib E) (ctx : Node E) (scopes : List (Scope E)) :
    List (List (Scope E)) → List String → Look (Node E)
  | _, [] => .panic
  | outer, name :: rest =>
    match (if name = "__ctx" then some ctx else lookupScopes name scopes) with
    | some n =>
      if rest ≠ [] ∧ name = SELF then X.resolver n rest
      else findR X.ctl true n rest
    | none =>
      if name = ROOT then
        findR X.ctl true (Node.new (.map (rootMap (outermost scopes outer))) "") rest
      else
        match (if name = DOCNODE then nodeScope scopes else none) with
        | some ns => match rest with
          | [] => findR X.ctl true (Node.new (.map ((ns.head?.bind (·.locals)).getD [])) "") []
          | f :: rest => findInScopes X.ctl f rest ns
        | none => match outer with
          | o :: os => findRefIn X ctx o os (name :: rest)
          | [] => .missing
termination_by structural outer => outer

/-- flow/environment.go:212-239 `FindReference`. The context node of an outer environment is not
consulted, because `__ctx` is found in the inner one. -/
def findReference (X : RefLib E) (env : Env E) (path : List String) : Look (Node E) :=
  findRefIn X (X.ctx env) env.scopes env.outer path

/-- flow/environment.go:177-184: the fields of the outermost scope with fields -/
def topMap : List (Scope E) → List (String × Node E)
  | [] => []
  | s :: r => if r.any (·.locals.isSome) then topMap r else s.locals.getD []

/-- flow/environment.go:163-192 `FindFromRoot` -/
def findFromRoot (X : RefLib E) (env : Env E) (path : List String) : Look (Node E) :=
  match env.scopes.getLast? with
  | none => .missing
  | some r => match r.list with
    | some l => match path with
      | [] => .found (Node.new (.list l) "root")
      | p :: rest =>
        if p = "__map" then findR X.ctl true (Node.new (.map (topMap env.scopes)) "scope") rest
        else findR X.ctl true (Node.new (.list l) "scope") (p :: rest)
    | none => findR X.ctl true (Node.new (.map (r.locals.getD [])) "scope") path

/-- flow/environment.go:284-296 `WithLocalScope`: a scope without a path (the static binding for lambda values
is not modelled) -/
def Env.withLocalScope (e : Env E) (m : List (String × Node E)) : Env E :=
  { e with scopes := { locals := some m } :: e.scopes }

end Spiff
