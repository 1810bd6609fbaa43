import Verif.Model.Unresolved
import Verif.Model.Cleanup
/-
Model of a whole merge of a template with stubs: `flow.Cascade` (flow/cascade.go:18-53) with the processing of the documents by
`flow.NestedFlow` (flow/flow.go:21-25), as used by the command `merge` (cmd/merge.go) and by the library.
Not modelled: streams of documents and tag definitions (see Model/Tags.lean), states (Model/Files.lean).
-/
namespace Spiff
variable {E : Type}

/-- flow/environment.go:404-410 `NewNestedEnvironment` without outer binding -/
def nestedEnv (stubs : List (Node E)) (source : String) : Env E :=
  { stubs := stubs, sourceName := source, currentSourceName := source }

/-- The processing of one document: the result and whether nothing is left unresolved. -/
abbrev DocFlow (E : Type) := Node E → List (Node E) → Run (Node E × Bool)

/-- flow/flow.go:21-25 `NestedFlow` without outer binding: flow/environment.go:321-354 -/
def nestedFlow [DecidableEq E] (L : Lang E) (fuel passes : Nat) : DocFlow E := fun source stubs =>
  (flowLoop L fuel (nestedEnv stubs source.src) source true passes source).map (fun r => (r, (findUnresolved L [] r).isEmpty))

/-- flow/cascade.go:18-30 `PrepareStubs`, `none`: an error -/
def prepareRun (fl : DocFlow E) (isPartial : Bool) : List (Node E) → Run (Option (List (Node E)))
  | [] => .ok (some [])
  | s :: rest => (prepareRun fl isPartial rest).bind (fun d => match d with
    | none => .ok none
    | some done => (fl s done).map (fun r =>
      if r.2 || isPartial then some (cleanup discardLocal () r.1 :: done) else none))

/-- flow/cascade.go:32-53 `Apply` and `Cascade` for a document without errors, `none`: an error. `unesc` is the
last step (flow/cascade.go:69-76). -/
def mergeRun (fl : DocFlow E) (unesc : Node E → Run (Node E)) (opts : Options) (template : Node E) (stubs : List (Node E)) : Run (Option (Node E)) :=
  (prepareRun fl opts.isPartial stubs).bind (fun d => match d with
    | none => .ok none
    | some done => (fl template done).bind (fun r =>
      if r.2 then
        (if opts.preserveEscapes then .ok (if opts.preserveTemporary then r.1 else cleanup discardTemporary () r.1)
          else unesc (if opts.preserveTemporary then r.1 else cleanup discardTemporary () r.1)).map some
      else .ok none))

/-- flow/cascade.go:46-53 `Cascade` -/
def mergeDocs [DecidableEq E] (L : Lang E) (fuel passes : Nat) (ip : Bool) (opts : Options) (template : Node E) (stubs : List (Node E)) : Run (Option (Node E)) :=
  mergeRun (nestedFlow L fuel passes) (fun n => .ok (unescapeDoc L.quote ip n)) opts template stubs

end Spiff
