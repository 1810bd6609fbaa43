import Verif.Model.Closures
import Mathlib.Data.List.Forall2
/-
Specification for functions as values: names an expression mentions, closed functions, values that behave the same.
-/
namespace Spiff.Spec
open Spiff

/-- The expression mentions the name `x` (a relative reference that starts with it), not bound by a lambda expression or scope in it. -/
inductive Mentions (x : String) : LEx → Prop
  | ref (p : List String) : Mentions x (.ref x p)
  | binL {op a b} : Mentions x a → Mentions x (.bin op a b)
  | binR {op a b} : Mentions x b → Mentions x (.bin op a b)
  | condC {c t f} : Mentions x c → Mentions x (.cond c t f)
  | condT {c t f} : Mentions x t → Mentions x (.cond c t f)
  | condF {c t f} : Mentions x f → Mentions x (.cond c t f)
  | orL {a b} : Mentions x a → Mentions x (.or a b)
  | orR {a b} : Mentions x b → Mentions x (.or a b)
  | list {l e} : e ∈ l → Mentions x e → Mentions x (.list l)
  | fn {n l e} : e ∈ l → Mentions x e → Mentions x (.fn n l)
  | lam {ps va ds b} : Mentions x b → x ∉ ps → Mentions x (.lam ps va ds b)
  | callF {c f ns l} : Mentions x f → Mentions x (.call c f ns l)
  | callA {c f ns l e} : e ∈ l → Mentions x e → Mentions x (.call c f ns l)
  | scopeV {fs b f} : f ∈ fs → Mentions x f.2 → Mentions x (.scope fs b)
  | scopeE {fs b} : Mentions x b → x ∉ fs.map (·.1) → Mentions x (.scope fs b)
  | mapC {c f} : Mentions x c → Mentions x (.mapping c f)
  | mapF {c f} : Mentions x f → Mentions x (.mapping c f)

/-- The value contains only closed functions: every name mentioned in the body, besides parameters and `_`, has a (closed) value in the local scopes
of the definition. -/
inductive Closed : CVal → Prop
  | data (d : Lit) : Closed (.data d)
  | list {l : List CVal} : (∀ v ∈ l, Closed v) → Closed (.list l)
  | map {m : List (String × CVal)} : (∀ e ∈ m, Closed e.2) → Closed (.map m)
  | clo {ps : List String} {va : Bool} {ds : List (String × Lit)} {st : Locals} {h : Loc} {body : LEx} :
      (∀ x, Mentions x body → x ∉ ps → x ≠ SELF → (mget st x).isSome) →
      (∀ x, Mentions x body → x ∉ ps → ∀ v, mget st x = some v → Closed v) →
      Closed (.clo ps va ds st h body)

/-- the place of the function called `_` -/
def selfHome (st : Locals) : Option (Option Loc) :=
  match mget st SELF with
  | none => none
  | some (.clo _ _ _ _ h _) => some (some h)
  | some _ => some none

/-- The values are the same up to local values that functions have captured but do not mention. In particular data is the same only as itself. -/
inductive SameVal : CVal → CVal → Prop
  | data (d : Lit) : SameVal (.data d) (.data d)
  | list {l l' : List CVal} : l.length = l'.length → (∀ (i : Nat) v w, l[i]? = some v → l'[i]? = some w → SameVal v w) → SameVal (.list l) (.list l')
  | map {m m' : List (String × CVal)} : m.map (·.1) = m'.map (·.1) →
      (∀ (i : Nat) v w, m[i]? = some v → m'[i]? = some w → SameVal v.2 w.2) → SameVal (.map m) (.map m')
  | clo {ps : List String} {va : Bool} {ds : List (String × Lit)} {st st' : Locals} {h : Loc} {body : LEx} :
      (∀ x, Mentions x body → x ∉ ps → x ≠ SELF → (mget st x).isSome ∧ (mget st' x).isSome) →
      (∀ x, Mentions x body → x ∉ ps → ∀ v w, mget st x = some v → mget st' x = some w → SameVal v w) →
      selfHome st = selfHome st' →
      SameVal (.clo ps va ds st h body) (.clo ps va ds st' h body)

/-- the same outcome -/
inductive SameRes {α : Type} (R : α → α → Prop) : CRes α → CRes α → Prop
  | ok {v w} : R v w → SameRes R (.ok v) (.ok w)
  | later : SameRes R .later .later
  | fail : SameRes R .fail .fail
  | crash : SameRes R .crash .crash
  | fuel : SameRes R .fuel .fuel

/-- lists of values that are the same, one by one -/
def SameVals (l l' : List CVal) : Prop := List.Forall₂ SameVal l l'

/-- The primitive operations do not distinguish values that are the same. -/
structure PrimsOk (P : Prims) : Prop where
  bin : ∀ op a a' b b', SameVal a a' → SameVal b b' → SameRes SameVal (P.bin op a b) (P.bin op a' b')
  fn : ∀ n l l', SameVals l l' → SameRes SameVal (P.fn n l) (P.fn n l')
  truth : ∀ a a', SameVal a a' → P.truth a = P.truth a'
  path : ∀ a a' p, SameVal a a' → SameRes SameVal (P.path a p) (P.path a' p)

/-- The functions in the documents are closed. -/
structure DocsClosed (D : Docs) : Prop where
  look : ∀ h x p v, D.look h x p = .ok v → Closed v
  root : ∀ h p v, D.root h p = .ok v → Closed v

end Spiff.Spec
