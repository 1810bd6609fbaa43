import Verif.Model.Template
import Verif.Lemmas.Plain
/-
Specification of the definition of templates.
-/
namespace Spiff.Spec
variable {E : Type}

/-- The body of a template given by a map with a field `<<`: all other fields as they are, and for `<<` what remains of its expression without `&template`
(nothing for `(( &template ))`). For templates with default fields the fields are flagged as implied. -/
def templateBody (insert : Option (Node E)) (implied : Bool) (m : List (String × Node E)) : List (String × Node E) :=
  m.filterMap (fun e => (if e.1 = "<<" then insert else some e.2).map (fun n => (e.1, if implied then n.addFlags { implied := true } else n)))

/-- Fields of a document: data, the definition of a template (text of the marker, fields), the use of a template (text of the expression, name). -/
inductive TField (E : Type) where
  | data (n : Node E)
  | template (marker : String) (body : List (String × Node E)) (src : String)
  | use (text : String) (src : String) (name : String)

/-- the node of a field as read from the document -/
def TField.source : TField E → Node E
  | .data n => n
  | .template marker body src => .mk (.map (("<<", .mk (.str marker) src {}) :: body)) src {}
  | .use text src _ => .mk (.str text) src {}

/-- the body of the template with a name -/
def bodyOf (fields : List (String × TField E)) (name : String) : Option (List (String × Node E) × String) :=
  match mget fields name with
  | some (.template _ body src) => some (body, src)
  | _ => none

/-- the node of a field in the result: data unchanged, templates with their body, and for uses a copy of the body -/
def TField.result (fields : List (String × TField E)) : TField E → Node E
  | .data n => n
  | .template _ body src => .mk (.templ (.mk (.map body) src {})) src {}
  | .use text src name => match bodyOf fields name with
    | some (body, s) => .mk (.map (copyMap body)) (if s ≠ "" then s else src) {}
    | none => .mk (.str text) src {}

/-- the text is the marker `&template` -/
def IsTemplateMarker (L : Lang E) (text : String) : Prop :=
  ∃ sub e, embeddedDynaml L.quote L.interpol text.toList = some sub ∧ (∀ p q, L.parse (String.ofList sub) p q = some e) ∧ L.marker e = some { template := true }

/-- the text is an expression which is evaluated as the use of the template `name` (at least for templates without expressions) -/
def IsTemplateUse [DecidableEq E] (L : Lang E) (X : RefLib E) (text name : String) : Prop :=
  ∃ sub e, embeddedDynaml L.quote L.interpol text.toList = some sub ∧ (∀ p q, L.parse (String.ofList sub) p q = some e) ∧ L.marker e = none ∧
    ∀ env n body, env.stubs = [] → env.nomerge = false → findReference X env [name] = .found n → n.val = .templ body → Plain L (instanceCopy body) →
      ∃ fuel passes, 0 < passes ∧ depth (instanceCopy body) < fuel ∧ substitute L fuel passes env e (n.val, {}, true) = .ok (L.eval e env)

/-- data without expressions; templates with data; uses of templates which exist -/
def TField.Valid [DecidableEq E] (L : Lang E) (X : RefLib E) (fields : List (String × TField E)) : TField E → Prop
  | .data n => Plain L n
  | .template marker body _ => MapOK body ∧ PlainM L body ∧ IsTemplateMarker L marker
  | .use text _ name => (bodyOf fields name).isSome = true ∧ name ≠ "__ctx" ∧ IsTemplateUse L X text name

end Spiff.Spec
