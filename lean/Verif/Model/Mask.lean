import Verif.Model.Flow
/-
The bit mask form of yaml/node.go `NodeFlags` (a Go int, 64 bits), method by
method, and the combination of evaluation infos (dynaml/expression.go).
`Props/Flags.lean` relates the masks to the record `Flags` used by the other models.
-/
namespace Spiff

/-- yaml/node.go:84 `type NodeFlags int` -/
abbrev Mask := BitVec 64

namespace Mask
/- yaml/node.go:70-82 -/
/-- FLAG_TEMPORARY -/ def TEMPORARY : Mask := 0x001
/-- FLAG_LOCAL -/ def LOCAL : Mask := 0x002
/-- FLAG_INJECT -/ def INJECT : Mask := 0x004
/-- FLAG_STATE -/ def STATE : Mask := 0x008
/-- FLAG_DEFAULT -/ def DEFAULT : Mask := 0x010
/-- FLAG_DYNAMIC -/ def DYNAMIC : Mask := 0x020
/-- FLAG_INJECTED -/ def INJECTED : Mask := 0x040
/-- FLAG_IMPLIED -/ def IMPLIED : Mask := 0x080
/-- FLAG_NOMERGE -/ def NOMERGE : Mask := 0x100

/-- yaml/node.go:86-89 `AddFlags` -/
def addFlags (f flags : Mask) : Mask := f ||| flags
/-- yaml/node.go:91-93 -/
def temporary (f : Mask) : Bool := (f &&& TEMPORARY) != 0
/-- yaml/node.go:99-101 -/
def isLocal (f : Mask) : Bool := (f &&& LOCAL) != 0
/-- yaml/node.go:107-109 -/
def inject (f : Mask) : Bool := (f &&& (INJECT ||| DEFAULT)) != 0
/-- yaml/node.go:115-117 -/
def default (f : Mask) : Bool := (f &&& (DEFAULT ||| INJECT)) == DEFAULT
/-- yaml/node.go:123-125 -/
def implied (f : Mask) : Bool := (f &&& (IMPLIED ||| DEFAULT)) == IMPLIED
/-- yaml/node.go:130-132 -/
def propagateImplied (f : Mask) : Bool := (f &&& (IMPLIED ||| DEFAULT)) != 0
/-- yaml/node.go:134-139; `a &^ b` is `a &&& ~~~b` -/
def overridden (f : Mask) : Mask := if f.default then (f ||| INJECT) &&& ~~~DEFAULT else f
/-- yaml/node.go:141-143 -/
def state (f : Mask) : Bool := (f &&& STATE) != 0
/-- yaml/node.go:149-151 -/
def dynamic (f : Mask) : Bool := (f &&& DYNAMIC) != 0
/-- yaml/node.go:157-159 -/
def injected (f : Mask) : Bool := (f &&& INJECTED) != 0
/-- yaml/node.go:165-167 -/
def isNoMerge (f : Mask) : Bool := (f &&& NOMERGE) != 0

/-- The record of the bits of a mask (the representation used by the other models). -/
def toFlags (f : Mask) : Flags where
  temporary := f.getLsbD 0
  loc       := f.getLsbD 1
  inject    := f.getLsbD 2
  state     := f.getLsbD 3
  default   := f.getLsbD 4
  dynamic   := f.getLsbD 5
  injected  := f.getLsbD 6
  implied   := f.getLsbD 7
  nomerge   := f.getLsbD 8
end Mask

/-- dynaml/expression.go:80-94 `EvaluationInfo` including the clean-up handlers
(`C`: type of handlers, dynaml/expression.go:76-78). -/
structure EvalInfo (C : Type) where
  info : Info := {}
  cleanups : List C := []

/-- dynaml/expression.go:226-253 `EvaluationInfo.Join`, without the handlers.
`Source` and `Raw` of the argument are dropped. -/
def Info.join (i o : Info) : Info :=
  { i with
    redirectPath := if o.redirectPath.isSome then o.redirectPath else i.redirectPath
    replace := o.replace
    preferred := i.preferred || o.preferred
    merged := i.merged || o.merged
    keyName := if o.keyName ≠ "" then o.keyName else i.keyName
    issue := if o.issue ≠ "" then o.issue else i.issue
    localError := i.localError || o.localError
    failed := i.failed || o.failed
    undefined := i.undefined || o.undefined
    flags := i.flags.add o.flags }

/-- dynaml/expression.go:226-253 `EvaluationInfo.Join` -/
def EvalInfo.join {C : Type} (i o : EvalInfo C) : EvalInfo C :=
  { info := i.info.join o.info, cleanups := i.cleanups ++ o.cleanups }

/-- dynaml/expression.go:214-220 `CleanError` -/
def Info.cleanError (i : Info) : Info :=
  { i with issue := "", localError := false, failed := false, undefined := false }

/-- dynaml/expression.go:168-173: one iteration of `Cleanup` -/
def lastError {C Err : Type} (call : C → Option Err) (err : Option Err) (c : C) : Option Err :=
  match call c with | some e => some e | none => err

/-- dynaml/expression.go:166-176 `Cleanup`: the handlers are called in order; the
last error is reported. `call` is the outcome of a handler (`none`: success). -/
def EvalInfo.cleanup {C Err : Type} (call : C → Option Err) (i : EvalInfo C) :
    List C × Option Err × EvalInfo C :=
  (i.cleanups,
   i.cleanups.foldl (lastError call) none,
   { i with cleanups := [] })

end Spiff
