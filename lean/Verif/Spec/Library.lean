import Verif.Model.Library
/-
Specification of processing through the library.
-/
namespace Spiff.Spec
variable {φ σ B N : Type}

/-- The stubs are processed from the last to the first, each in a new stream with the already processed stubs behind it. -/
inductive Prepares (E : Engine φ σ B N) (f : φ) (b : B) : List N → B → List N → Prop
  | nil : Prepares E f b [] b []
  | cons {x rest b' done b'' r} (h : Prepares E f b rest b' done) (hr : E.flow f (E.reset b') x done = (b'', r, true)) :
    Prepares E f b (x :: rest) b'' (E.discardLocal r :: done)

/-- the result of processing a template in a new stream with processed stubs -/
def Applies (E : Engine φ σ B N) (f : φ) (b : B) (t : N) (prepared : List N) (r : N) : Prop :=
  ∃ b' x, E.flow f (E.reset b) t prepared = (b', x, true) ∧ r = E.finish f x

/-- the result of a cascade, beginning with a state for given settings and tags -/
def CascadeResult (E : Engine φ σ B N) (f : φ) (settings : σ) (tags : List (String × N)) (t : N) (stubs : List N) (r : N) : Prop :=
  ∃ b prepared, Prepares E f (E.fresh settings tags) stubs b prepared ∧ Applies E f b t prepared r

/-- calls which change the tags of contexts, or what contexts share -/
def Affecting : LibCall φ σ N → Prop
  | .setTag _ _ _ => True
  | .cleanupTags _ => True
  | .withSettings _ _ g => ∃ x, g x ≠ x
  | _ => False

/-- The documents of a stream are processed by the command one after the other (`applyDoc` of Model/Command.lean) with the given results. -/
inductive Streams {E S : Type} (L : CmdLib E S) (ip : Bool) (opts : Options) (prepared : List (Node E)) : S → List (Node E) → List (Node E) → Prop
  | nil {s} : Streams L ip opts prepared s [] []
  | cons {s s' t r ts rs} (h : applyDoc L ip opts prepared s t = (s', r, none)) (hr : Streams L ip opts prepared s' ts rs) :
    Streams L ip opts prepared s (t :: ts) (r :: rs)

end Spiff.Spec
