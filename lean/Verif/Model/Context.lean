import Verif.Model.Find
/-
Model of the configuration of a processing context: spiffing/spiff.go, features/features.go, dynaml/registry.go, and the function and control
registries of dynaml/call.go and dynaml/control.go.
-/
namespace Spiff

/-! ### features -/

/-- features/features.go:12 `FeatureFlags`: a Go map used as set. (It is never nil here.) -/
abbrev Features := List (String × Unit)

/-- features/features.go:14-20 `Enabled` -/
def Features.enabled (f : Features) (name : String) : Bool := (mget f name).isSome

/-- the name without the prefix "no" and whether it was there, features/features.go:23-26 -/
def splitNo (name : String) : String × Bool :=
  if hasPrefix name "no" then (String.ofList (name.toList.drop 2), true) else (name, false)

/-- features/features.go:22-39 `Set`; the second component tells whether it succeeded -/
def Features.set (f : Features) (name : String) (active : Bool) : Features × Bool :=
  if (splitNo name).1 = "interpolation" ∨ (splitNo name).1 = "control" then
    ((if active ≠ (splitNo name).2 then mset f (splitNo name).1 () else mdel f (splitNo name).1), true)
  else (f, false)

/-! ### registries -/

/-- dynaml/call.go:19-42 `functionRegistry`; registries are pointers: the functions are found in a heap, with the default registry at
address 0. `F` are functions. -/
abbrev FuncHeap (F : Type) := List (List (String × F))

/-- dynaml/call.go:27-29 `RegisterFunction` on the registry at address `r` -/
def registerFunction {F : Type} (h : FuncHeap F) (r : Nat) (name : String) (f : F) : FuncHeap F :=
  h.modify r (fun m => mset m name f)

/-- dynaml/call.go:31-37 `LookupFunction` of the registry at address `r` -/
def lookupFunction {F : Type} (h : FuncHeap F) (r : Nat) (name : String) : Option F :=
  match mget (h.getD r []) name with
  | some f => some f
  | none => if r = 0 then none else mget (h.getD 0 []) name

/-- dynaml/registry.go:13-16 `registry`; `none` is a nil interface (or the nil registry as a whole) -/
structure Registry where
  functions : Option Nat := none
  controls : Option Nat := none

/-- dynaml/registry.go:18-26 `WithFunctions` -/
def Registry.withFunctions (r : Registry) (f : Option Nat) : Registry := { r with functions := f }

/-- dynaml/registry.go:28-36 `WithControls` -/
def Registry.withControls (r : Registry) (c : Option Nat) : Registry := { r with controls := c }

/-- dynaml/registry.go:38-43 `LookupFunction` -/
def Registry.lookupFunction {F : Type} (r : Registry) (h : FuncHeap F) (name : String) : Option F :=
  Spiff.lookupFunction h (r.functions.getD 0) name

/-- dynaml/control.go:46-50 `Control`, and its identity `fn` -/
structure Control (F : Type) where
  name : String
  options : List (String × Bool)
  fn : F

/-- dynaml/control.go:84-87 `controlRegistry`: a nil entry marks an option -/
structure Controls (F : Type) where
  controls : List (String × Option (Control F)) := []
  templ : List (String × Unit) := []

/-- the name of an option and whether it is a template option, dynaml/control.go:108-112 -/
def optName (o : String) : String × Bool :=
  if hasPrefix o "*" then (String.ofList (o.toList.drop 1), true) else (o, false)

/-- dynaml/control.go:106-120: the first loop; `none` in the result is an error. The template options are changed even then. -/
def regOpts (templ : List (String × Unit)) (m : List (String × Bool)) : List String → List (String × Unit) × Option (List (String × Bool))
  | [] => (templ, some m)
  | o :: r =>
    if (mget templ (optName o).1).isSome && !(optName o).2 then (templ, none)
    else regOpts (if (optName o).2 then mset templ (optName o).1 () else templ) (mset m (optName o).1 (optName o).2) r

/-- dynaml/control.go:130-142: the second loop -/
def regNames {F : Type} (cs : List (String × Option (Control F))) : List String → List (String × Option (Control F)) × Bool
  | [] => (cs, true)
  | o :: r =>
    match mget cs (optName o).1 with
    | some (some _) => (cs, false)
    | _ => regNames (mset cs (optName o).1 none) r

/-- dynaml/control.go:121-142: the control is entered -/
def regControl {F : Type} (cs : Controls F) (templ : List (String × Unit)) (name : String) (f : F) (m : List (String × Bool)) (opts : List String) :
    Controls F × Bool :=
  if (mget cs.controls name).isSome then ({ cs with templ := templ }, false)
  else ({ controls := (regNames (mset cs.controls name (some ⟨name, m, f⟩)) opts).1, templ := templ },
    (regNames (mset cs.controls name (some ⟨name, m, f⟩)) opts).2)

/-- dynaml/control.go:105-143 `RegisterControl`: the new registry, and whether it succeeded -/
def registerControl {F : Type} (cs : Controls F) (name : String) (f : F) (opts : List String) : Controls F × Bool :=
  match regOpts cs.templ [] opts with
  | (templ, none) => ({ cs with templ := templ }, false)
  | (templ, some m) => regControl cs templ name f m opts

/-- dynaml/control.go:145-148 `LookupControl`: nothing, an option, or a control -/
def Controls.lookup {F : Type} (cs : Controls F) (name : String) : Option (Option (Control F)) := mget cs.controls name

/-- dynaml/control.go:150-153 `IsTemplateControlOption` -/
def Controls.isTemplate {F : Type} (cs : Controls F) (name : String) : Bool := (mget cs.templ name).isSome

/-! ### contexts -/

/-- spiffing/interface.go:11-21, flow/state.go:26-27: the processing mode -/
structure Mode where
  os : Bool
  file : Bool

/-- A file system handed over: nil, the one of the operating system, or another one. -/
inductive FSKind where
  | nil
  | os
  | other
deriving DecidableEq

/-- spiffing/spiff.go:171-174, 186-188, flow/state.go:77-81: no OS access for other file systems -/
def maskMode (fs : FSKind) (m : Mode) : Mode :=
  if fs = .other then { m with os := false } else m

/-- spiffing/spiff.go:62-74 `spiff`: the fields mode, fs, registry and features (the address of the map); the other fields are of no
interest here. -/
structure Ctx where
  mode : Mode
  fs : FSKind
  registry : Registry
  features : Nat

/-- All contexts created so far and the heap of feature maps. -/
structure World where
  ctxs : List Ctx := []
  feats : List Features := []

/-- A configuration call, on the context number `i`. Each creates a new context. -/
inductive CtxOp where
  /-- `New`, `Plain` with the given initial features -/
  | new (f : Features)
  | withMode (i : Nat) (m : Mode)
  | withFileSystem (i : Nat) (fs : FSKind)
  | withFunctions (i : Nat) (f : Option Nat)
  | withControls (i : Nat) (c : Option Nat)
  /-- `WithInterpolation`, `WithControl`, and `WithFeatures` (one by one) -/
  | withFeature (i : Nat) (name : String) (active : Bool)

/-- spiffing/spiff.go:169-176 `WithMode` -/
def Ctx.withMode (c : Ctx) (m : Mode) : Ctx := { c with mode := maskMode c.fs m }

/-- spiffing/spiff.go:182-189 `WithFileSystem` -/
def Ctx.withFileSystem (c : Ctx) (fs : FSKind) : Ctx := { c with fs := fs, mode := maskMode fs c.mode }

/-- the new context derived from a context (value receivers: the structure is copied, the features map is shared) -/
def CtxOp.derive (c : Ctx) : CtxOp → Ctx
  | .new _ => c
  | .withMode _ m => c.withMode m
  | .withFileSystem _ fs => c.withFileSystem fs
  | .withFunctions _ f => { c with registry := c.registry.withFunctions f }
  | .withControls _ cs => { c with registry := c.registry.withControls cs }
  | .withFeature _ _ _ => c

/-- the context an operation is applied to -/
def CtxOp.base : CtxOp → Option Nat
  | .new _ => none
  | .withMode i _ => some i
  | .withFileSystem i _ => some i
  | .withFunctions i _ => some i
  | .withControls i _ => some i
  | .withFeature i _ _ => some i

/-- spiffing/spiff.go:142-160: the features are changed in place -/
def CtxOp.setFeature (feats : List Features) (c : Ctx) : CtxOp → List Features
  | .withFeature _ name active => feats.modify c.features (fun f => (f.set name active).1)
  | _ => feats

/-- spiffing/spiff.go:90-108 `New`, `Plain` -/
def newCtx (w : World) : Ctx := { mode := ⟨true, true⟩, fs := .nil, registry := {}, features := w.feats.length }

/-- the effect of a call (an unknown context number has no effect) -/
def World.step (w : World) (op : CtxOp) : World :=
  match op, op.base with
  | .new f, _ => { ctxs := w.ctxs ++ [newCtx w], feats := w.feats ++ [f] }
  | op, some i =>
    match w.ctxs[i]? with
    | some c => { ctxs := w.ctxs ++ [op.derive c], feats := op.setFeature w.feats c }
    | none => w
  | _, none => w

/-- a sequence of calls -/
def World.run (w : World) (ops : List CtxOp) : World := ops.foldl World.step w

/-- flow/state.go:71-97 `NewState` and 142-144 `OSAccessAllowed`, for the state a context creates (spiffing/spiff.go:120-139) -/
def Ctx.osAllowed (c : Ctx) : Bool := (maskMode c.fs c.mode).os

/-- flow/state.go:146-148 `FileAccessAllowed` -/
def Ctx.fileAllowed (c : Ctx) : Bool := (maskMode c.fs c.mode).file

/-- the features used by a context -/
def World.enabled (w : World) (c : Ctx) (name : String) : Bool := (w.feats.getD c.features []).enabled name

end Spiff
