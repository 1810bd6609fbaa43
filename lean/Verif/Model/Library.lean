import Verif.Model.Slice
import Verif.Model.Command
/-
Model of processing through the library interface: spiffing/spiff.go and flow/cascade.go, with the slices of stubs owned by the caller.

The settings of a context (key, mode, file system, values, registry; see Model/Context.lean) are opaque (`σ`), as is everything shared between contexts
(the feature maps, `φ`). `B` are bindings with their processing state (flow/state.go).
-/
namespace Spiff

/-- what the library uses of package flow -/
structure Engine (φ σ B N : Type) where
  /-- spiffing/spiff.go:120-139 `assureBinding`: a new state and environment for settings and preset tags -/
  fresh : σ → List (String × N) → B
  /-- flow/environment.go:390-395 `ResetStream` -/
  reset : B → B
  /-- flow/flow.go:21-25 `NestedFlow`: the new state, the result, and whether it succeeded -/
  flow : φ → B → N → List N → B × N × Bool
  /-- flow/cascade.go:26 `Cleanup(flowed, discardLocal)` -/
  discardLocal : N → N
  /-- flow/cascade.go:35-40: the clean-up of a result; the options are those of the zero value (spiffing/spiff.go:66 is never set) -/
  finish : φ → N → N
  /-- flow/environment.go:397-402 `PushDocument` -/
  push : B → N → B

section
variable {φ σ B N : Type}

/-- flow/cascade.go:18-27: the loop of `PrepareStubs` on the elements of the slice, from the last to the first; the elements are replaced as far as it
comes. The last component tells whether it succeeded. -/
def prepareLoop (E : Engine φ σ B N) (f : φ) (b : B) : List N → B × List N × Bool
  | [] => (b, [], true)
  | x :: rest =>
    match prepareLoop E f b rest with
    | (b, done, false) => (b, x :: done, false)
    | (b, done, true) =>
      match E.flow f (E.reset b) x done with
      | (b, r, true) => (b, E.discardLocal r :: done, true)
      | (b, _, false) => (b, x :: done, false)

/-- flow/cascade.go:18-30 `PrepareStubs`: in place; at the end the stream is reset if it succeeded -/
def prepareStubsAt (E : Engine φ σ B N) (f : φ) (b : B) (h : Arrays N) (s : Slice) : B × Arrays N × Bool :=
  match prepareLoop E f b (s.read h) with
  | (b, l, ok) => (if ok then E.reset b else b, h.modify s.arr (fun a => overwrite a 0 l), ok)

/-- flow/cascade.go:32-44 `Apply` -/
def applyStubs (E : Engine φ σ B N) (f : φ) (b : B) (t : N) (prepared : List N) : B × Option N :=
  match E.flow f b t prepared with
  | (b, r, true) => (E.push b (E.finish f r), some (E.finish f r))
  | (b, _, false) => (b, none)

/-- spiffing/spiff.go:62-74 `spiff`: settings, the address of the map of tags (`none`: nil) and the binding -/
structure LibCtx (σ B : Type) where
  settings : σ
  tags : Option Nat := none
  binding : Option B := none

/-- contexts, tag maps, arrays behind slices, and what all contexts share -/
structure LibWorld (φ σ B N : Type) where
  ctxs : List (LibCtx σ B) := []
  tagMaps : List (List (String × N)) := []
  arrays : Arrays N := []
  shared : φ

/-- what a call returns -/
inductive LibOut (N : Type) where
  | ctx (c : Nat)
  | node (n : N)
  | slice (s : Slice)
  | failed
  | panic

/-- spiffing/spiff.go:124-130: the tags of a context -/
def LibWorld.tagsOf (w : LibWorld φ σ B N) (c : LibCtx σ B) : List (String × N) := (c.tags.map (fun a => w.tagMaps.getD a [])).getD []

/-- spiffing/spiff.go:120-139 `assureBinding` -/
def LibWorld.assure (E : Engine φ σ B N) (w : LibWorld φ σ B N) (c : LibCtx σ B) : B := c.binding.getD (E.fresh c.settings (w.tagsOf c))

/-- a context is changed in place (methods with pointer receiver) -/
def LibWorld.setBinding (w : LibWorld φ σ B N) (i : Nat) (b : Option B) : LibWorld φ σ B N :=
  { w with ctxs := w.ctxs.modify i (fun c => { c with binding := b }) }

/-- The calls, on the context number `i`; contexts are numbered in the order of their creation. Slices are given by the caller. -/
inductive LibCall (φ σ N : Type) where
  /-- `New`, `Plain` -/
  | new (s : σ)
  /-- any of the methods `With…`: changed settings in a new context; the shared features may change -/
  | withSettings (i : Nat) (s : σ → σ) (g : φ → φ)
  | setTag (i : Nat) (tag : String) (n : N)
  | cleanupTags (i : Nat)
  | reset (i : Nat)
  | resetStream (i : Nat)
  | cascade (i : Nat) (template : N) (stubs : Slice) (states : List N)
  | prepare (i : Nat) (stubs : Slice)
  | apply (i : Nat) (template : N) (prepared : Slice) (stream : Bool)
  /-- the caller creates a slice -/
  | alloc (elems : List N) (spare : List N)

/-- the context a call is applied to -/
def LibCall.receiver : LibCall φ σ N → Option Nat
  | .new _ => none
  | .alloc _ _ => none
  | .withSettings i _ _ => some i
  | .setTag i _ _ => some i
  | .cleanupTags i => some i
  | .reset i => some i
  | .resetStream i => some i
  | .cascade i _ _ _ => some i
  | .prepare i _ => some i
  | .apply i _ _ _ => some i

variable [Inhabited N]

/-- spiffing/spiff.go:250-255 `Cascade`. The state is dropped before and afterwards; the states are appended to the slice of the stubs. -/
def cascadeCall (E : Engine φ σ B N) (grow : Nat → Nat → Nat) (w : LibWorld φ σ B N) (i : Nat) (c : LibCtx σ B) (t : N) (stubs : Slice) (states : List N) :
    LibWorld φ σ B N × LibOut N :=
  let a := stubs.append grow w.arrays states
  match prepareStubsAt E w.shared (w.assure E { c with binding := none }) a.1 a.2 with
  | (_, h, false) => ({ w.setBinding i none with arrays := h }, .failed)
  | (b, h, true) =>
    match applyStubs E w.shared b t (a.2.read h) with
    | (_, some r) => ({ w.setBinding i none with arrays := h }, .node r)
    | (_, none) => ({ w.setBinding i none with arrays := h }, .failed)

/-- spiffing/spiff.go:261-265 `PrepareStubs` -/
def prepareCall (E : Engine φ σ B N) (w : LibWorld φ σ B N) (i : Nat) (c : LibCtx σ B) (stubs : Slice) : LibWorld φ σ B N × LibOut N :=
  match prepareStubsAt E w.shared (w.assure E { c with binding := none }) w.arrays stubs with
  | (b, h, ok) => ({ w.setBinding i (some b) with arrays := h }, if ok then .slice stubs else .failed)

/-- spiffing/spiff.go:269-275 `ApplyStubs` -/
def applyCall (E : Engine φ σ B N) (w : LibWorld φ σ B N) (i : Nat) (c : LibCtx σ B) (t : N) (prepared : Slice) (stream : Bool) : LibWorld φ σ B N × LibOut N :=
  let b := if stream then w.assure E c else E.reset (w.assure E c)
  match applyStubs E w.shared b t (prepared.read w.arrays) with
  | (b, some r) => (w.setBinding i (some b), .node r)
  | (b, none) => (w.setBinding i (some b), .failed)

/-- spiffing/spiff.go:226-229 `SetTag`: the map of the receiver is changed in place (a nil map: panic), and a new context returned -/
def setTagCall (w : LibWorld φ σ B N) (c : LibCtx σ B) (tag : String) (n : N) : LibWorld φ σ B N × LibOut N :=
  match c.tags with
  | none => (w, .panic)
  | some a => ({ w with tagMaps := w.tagMaps.modify a (fun m => mset m tag n), ctxs := w.ctxs ++ [{ c with binding := none }] }, .ctx w.ctxs.length)

/-- a call on a context -/
def ctxCall (E : Engine φ σ B N) (grow : Nat → Nat → Nat) (w : LibWorld φ σ B N) (i : Nat) (c : LibCtx σ B) : LibCall φ σ N → LibWorld φ σ B N × LibOut N
  | .withSettings _ s g => ({ w with ctxs := w.ctxs ++ [{ c with settings := s c.settings, binding := none }], shared := g w.shared }, .ctx w.ctxs.length)
  | .setTag _ tag n => setTagCall w c tag n
  /- spiffing/spiff.go:242-246 `CleanupTags` -/
  | .cleanupTags _ =>
    ({ w with ctxs := w.ctxs.modify i (fun c => { c with binding := none, tags := some w.tagMaps.length }), tagMaps := w.tagMaps ++ [[]] }, .ctx i)
  /- spiffing/spiff.go:110-113 `Reset` -/
  | .reset _ => (w.setBinding i none, .ctx i)
  /- spiffing/spiff.go:115-118 `ResetStream` -/
  | .resetStream _ => (w.setBinding i (c.binding.map E.reset), .ctx i)
  | .cascade _ t stubs states => cascadeCall E grow w i c t stubs states
  | .prepare _ stubs => prepareCall E w i c stubs
  | .apply _ t prepared stream => applyCall E w i c t prepared stream
  | .new _ => (w, .failed)
  | .alloc _ _ => (w, .failed)

/-- spiffing/spiff.go:90-108 `New`, `Plain`, and the other calls; an unknown context is a nil pointer -/
def LibWorld.step (E : Engine φ σ B N) (grow : Nat → Nat → Nat) (w : LibWorld φ σ B N) (call : LibCall φ σ N) : LibWorld φ σ B N × LibOut N :=
  match call with
  | .new s => ({ w with ctxs := w.ctxs ++ [{ settings := s }] }, .ctx w.ctxs.length)
  | .alloc elems spare => ({ w with arrays := w.arrays ++ [elems ++ spare] }, .slice ⟨w.arrays.length, elems.length, elems.length + spare.length⟩)
  | call => match call.receiver with
    | none => (w, .failed)
    | some i => match w.ctxs[i]? with
      | some c => ctxCall E grow w i c call
      | none => (w, .panic)

/-- what a sequence of calls returns -/
def LibWorld.outs (E : Engine φ σ B N) (grow : Nat → Nat → Nat) (w : LibWorld φ σ B N) : List (LibCall φ σ N) → List (LibOut N)
  | [] => []
  | c :: r => (w.step E grow c).2 :: LibWorld.outs E grow (w.step E grow c).1 r

/-- a sequence of calls -/
def LibWorld.run (E : Engine φ σ B N) (grow : Nat → Nat → Nat) (w : LibWorld φ σ B N) : List (LibCall φ σ N) → LibWorld φ σ B N
  | [] => w
  | c :: r => LibWorld.run E grow (w.step E grow c).1 r

end

/-- spiffing/spiff.go:120-139, flow/cascade.go:18-44: the library uses the same functions of package flow as the command (Model/Command.lean), with the
default options; whether interpolation is enabled is a feature (flow/cascade.go:73-81) -/
def libEngine {φ σ E S : Type} (L : CmdLib E S) (start : σ → List (String × Node E) → S) (ip : φ → Bool) : Engine φ σ S (Node E) :=
  { fresh := start, reset := L.reset, flow := fun _ s n l => ((L.flow s n l).1, (L.flow s n l).2.1, (L.flow s n l).2.2.isNone),
    discardLocal := cleanup discardLocal (), finish := fun f n => unescapeDoc L.quote (ip f) (cleanup discardTemporary () n), push := L.push }

end Spiff
