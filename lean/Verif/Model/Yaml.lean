import Verif.Model.Sanitize
import Verif.Model.Ops
/-
Model of the reading half of legacy/candiedyaml: meaning of scalars (resolver.go) and construction of values from the events of the
parser, with anchors and aliases (decode.go), for the target type `interface{}` used by yaml/parser.go `ParseMulti`.

The scanner and parser producing the events are in Model/YamlText and Model/YamlLayout: the input is the list of events here; when it is
exhausted the parser reports an error. `strconv.ParseFloat`, the regular expressions of timestamps and base64 are parameters. `useNumber`
is never set by spiff. `[]byte` values are represented as `Data.other`.
-/
namespace Spiff

/-- Go's string, as characters -/
abbrev YText := List Char

/-- a scalar event: text, tag, and whether it is plain without a tag (or with the tag `!`), parser.go:533-552 -/
structure YScalar where
  value : YText
  tag : String := ""
  implicit : Bool := true
deriving DecidableEq, Repr

/-- parameters of the reader -/
structure YLib where
  /-- `strconv.ParseFloat(s, 64)`: bit pattern; `none`: error -/
  parseFloat : YText → Option Nat
  /-- resolver.go:315-363 `resolve_time`; `none`: error -/
  time : YText → Option Time
  /-- base64.StdEncoding.Decode succeeds -/
  base64 : YText → Bool

/-! ### scalars -/

/-- `unicode.ToLower`, for comparison with ASCII words: two characters outside of ASCII have lower case letters in ASCII. Other characters
outside of ASCII are left unchanged here (their lower case forms are not in ASCII). -/
def goLower (c : Char) : Char :=
  if c = 'İ' then 'i' else if c = '\u212A' then 'k' else c.toLower

/-- the value of a digit in `strconv.ParseUint`: `0`-`9`, letters (case insensitive) -/
def goDigit (c : Char) : Option Nat :=
  if '0' ≤ c ∧ c ≤ '9' then some (c.toNat - 48)
  else if 'a' ≤ c ∧ c ≤ 'z' then some (c.toNat - 97 + 10)
  else if 'A' ≤ c ∧ c ≤ 'Z' then some (c.toNat - 65 + 10)
  else none

/-- the digits of a number in the given base, most significant first -/
def goDigits (base : Nat) : Nat → YText → Option Nat
  | n, [] => some n
  | n, c :: r => match goDigit c with
    | none => none
    | some d => if d < base then goDigits base (n * base + d) r else none

/-- the check of the range at the end of `strconv.ParseUint(…, 64)` -/
def in64 : Option Nat → Option Nat
  | some n => if n < 2^64 then some n else none
  | none => none

/-- `strconv.ParseUint(s, 0, 64)` for texts without underscores: prefixes `0b`, `0o`, `0x` (at least three characters), otherwise a leading
zero means octal -/
def parseUint0 (s : YText) : Option Nat :=
  match s with
  | [] => none
  | '0' :: c :: d :: r =>
    if c = 'b' ∨ c = 'B' then in64 (goDigits 2 0 (d :: r))
    else if c = 'o' ∨ c = 'O' then in64 (goDigits 8 0 (d :: r))
    else if c = 'x' ∨ c = 'X' then in64 (goDigits 16 0 (d :: r))
    else in64 (goDigits 8 0 (c :: d :: r))
  | '0' :: r => in64 (goDigits 8 0 r)
  | s => in64 (goDigits 10 0 s)

/-- `strconv.ParseUint(s, 8, 64)` -/
def parseUint8 (s : YText) : Option Nat := if s = [] then none else in64 (goDigits 8 0 s)

/-- resolver.go:176-193: the magnitude, after removal of the sign -/
def intMagnitude (s : YText) : Option Nat :=
  match s with
  | ['0'] => some 0
  | '0' :: 'o' :: r => parseUint8 r
  | s => parseUint0 s

/-- resolver.go:199-208: the sign and the range of int64 -/
def signedInt (neg : Bool) : Option Nat → Option Int
  | none => none
  | some n => if n < 2^63 then some (if neg then -(n : Int) else n)
      else if neg ∧ n = 2^63 then some (-(2^63)) else none

/-- removal of all underscores -/
def noUnderscores (s : YText) : YText := s.filter (· ≠ '_')

/-- resolver.go:160-218 `resolve_int` (the text is not empty, and its first character is no underscore) -/
def resolveIntText (s : YText) : Option Int :=
  match noUnderscores s with
  | '-' :: r => signedInt true (intMagnitude r)
  | '+' :: r => signedInt false (intMagnitude r)
  | r => signedInt false (intMagnitude r)

/-- bit patterns of positive infinity, and of `math.NaN()` -/
def infBits : Nat := 0x7FF0000000000000
def nanBits : Nat := 0x7FF8000000000001

/-- multiplication of a float64 with -1. (The sign of a NaN is not specified.) -/
def floatNeg (b : Nat) : Nat := if b < 2^63 then b + 2^63 else b - 2^63

/-- resolver.go:286-301 -/
def floatMagnitude (X : YLib) (neg : Bool) (s : YText) : Option Nat :=
  if s.map goLower = ".inf".toList then some (if neg then floatNeg infBits else infBits)
  else if s.map goLower = ".nan".toList then some nanBits
  else (X.parseFloat s).map (fun b => if neg then floatNeg b else b)

/-- resolver.go:269-313 `resolve_float` -/
def resolveFloat (X : YLib) (s : YText) : Option Nat :=
  match noUnderscores s with
  | '-' :: r => floatMagnitude X true r
  | '+' :: r => floatMagnitude X false r
  | r => floatMagnitude X false r

/-- resolver.go:43-51: words for booleans -/
def boolWords : List (String × Bool) :=
  [("y", true), ("yes", true), ("n", false), ("no", false), ("true", true), ("false", false), ("on", true), ("off", false)]

/-- resolver.go:53-57: words for null -/
def nullWords : List String := ["~", "null", "Null", "NULL"]

/-- `null_values[val]` -/
def isNullWord (s : YText) : Bool := nullWords.contains (String.ofList s)

/-- resolver.go:150-158 `resolve_bool` -/
def resolveBool (s : YText) : Option Bool := boolWords.lookup (String.ofList (s.map goLower))

/-- the kinds of the tags returned by `resolveInterface` -/
inductive RTag where | none | null | int | float | bool | binary | str
deriving DecidableEq, Repr

/-- resolver.go:118-125 `hasBinaryTag` -/
def hasBinaryTag (tag : String) : Bool := tag = "!binary" || tag = "tag:yaml.org,2002:binary"

/-- resolver.go:441-448: the end of `resolveInterface` -/
def resolveText (X : YLib) (e : YScalar) : RTag × Data :=
  if hasBinaryTag e.tag && X.base64 e.value then (.binary, .other "[]byte") else (.str, .str (String.ofList e.value))

/-- resolver.go:380-411: texts beginning with a sign or a digit -/
def resolveNumber (X : YLib) (sign : Bool) (e : YScalar) : RTag × Data :=
  match resolveIntText e.value with
  | some i => (.int, .num .int64 i)
  | none => match resolveFloat X e.value with
    | some b => (.float, .float b)
    | none =>
      if sign then resolveText X e
      else match X.time e.value with
        | some t => (.none, .time t)
        | none => resolveText X e

/-- resolver.go:416-419 and 434-438: a boolean or any other text -/
def resolveWord (X : YLib) (e : YScalar) : RTag × Data :=
  match resolveBool e.value with
  | some b => (.bool, .bool b)
  | none => resolveText X e

/-- resolver.go:365-449 `resolveInterface` -/
def resolveInterface (X : YLib) (e : YScalar) : RTag × Data :=
  if e.tag = "" ∧ e.implicit = false then (.none, .str (String.ofList e.value))
  else match e.value with
    | [] => (.null, .nil)
    | c :: _ =>
      if c = '-' ∨ c = '+' then resolveNumber X true e
      else if '0' ≤ c ∧ c ≤ '9' then resolveNumber X false e
      else if c = '~' ∨ c = 'n' ∨ c = 'N' then
        if isNullWord e.value then (.null, .nil) else resolveWord X e
      else if c = '.' then
        match resolveFloat X e.value with
        | some b => (.float, .float b)
        | none => resolveText X e
      else if c ∈ ['t', 'T', 'f', 'F', 'y', 'Y', 'o', 'O'] then resolveWord X e
      else resolveText X e

/-- resolver.go:63-116 `resolve` for a target of type `interface{}`: the words for null are tested before anything else -/
def resolveValue (X : YLib) (e : YScalar) : Data := if isNullWord e.value then .nil else (resolveInterface X e).2

/-! ### events -/

/-- events of the parser; anchors are empty if there is none -/
inductive YEvent where
  | streamStart | streamEnd | docStart | docEnd
  | scalar (anchor : String) (s : YScalar)
  | seqStart (anchor : String) | seqEnd
  | mapStart (anchor : String) | mapEnd
  | alias (anchor : String)
deriving DecidableEq, Repr

/-- `event.anchor` -/
def YEvent.anchor : YEvent → String
  | .scalar a _ => a
  | .seqStart a => a
  | .mapStart a => a
  | .alias a => a
  | _ => ""

/-- `events[0].anchor = nil` -/
def YEvent.bare : YEvent → YEvent
  | .scalar _ s => .scalar "" s
  | .seqStart _ => .seqStart ""
  | .mapStart _ => .mapStart ""
  | .alias _ => .alias ""
  | e => e

/-- decode.go:48-56: the state of the decoder. `trackers`: the last entry of `tracking_anchors` first. -/
structure YState where
  cur : YEvent
  input : List YEvent
  /-- `none`: nil -/
  replay : Option (List YEvent)
  anchors : List (String × List YEvent)
  trackers : List (List YEvent)

/-- end of a decoding step: a value, an error, a Go runtime panic (not turned into an error, decode.go:80-84), or still running -/
inductive YRes (α : Type) where
  | ok (a : α)
  | error
  | panic
  | running

def YRes.bind {α β : Type} : YRes α → (α → YRes β) → YRes β
  | .ok a, f => f a
  | .error, _ => .error
  | .panic, _ => .panic
  | .running, _ => .running

/-- decode.go:169-173: recording of the current event, aliases are not recorded -/
def track (e : YEvent) : List (List YEvent) → List (List YEvent)
  | [] => []
  | t :: r => match e with
    | .alias _ => t :: r
    | _ => (t ++ [e]) :: r

/-- decode.go:143-174 `nextEvent`: an index error for an empty list of replayed events -/
def nextEvent (s : YState) : YRes YState :=
  if s.cur = .streamEnd then .error
  else match s.replay with
    | some [] => .panic
    | some (e :: r) => .ok { s with cur := e, replay := if r.isEmpty then none else some r, trackers := track e s.trackers }
    | none => match s.input with
      | e :: r => .ok { s with cur := e, input := r, trackers := track e s.trackers }
      | [] => .error

/-- decode.go:228-233 `begin_anchor` -/
def beginAnchor (a : String) (s : YState) : YState :=
  if a = "" then s else { s with trackers := [s.cur] :: s.trackers }

/-- the first recorded event without its anchor -/
def bareFirst : List YEvent → List YEvent
  | [] => []
  | e :: r => e.bare :: r

/-- decode.go:235-249 `end_anchor`: the recorded events, without the last one, are appended to all other lists -/
def endAnchor (a : String) (s : YState) : YState :=
  if a = "" then s
  else match s.trackers with
    | [] => s
    | t :: r =>
      let events := (bareFirst t).dropLast
      { s with trackers := r.map (· ++ events), anchors := mset s.anchors a events }

/-- keys of `map[interface{}]interface{}`: slices and maps cannot be used (runtime panic). Keys which are no strings are identified by a
description; a NaN is different from itself in Go, which is not modelled. -/
def yKey : Data → Option Key
  | .str s => some (.str s)
  | .nil => some (.other "nil")
  | .bool b => some (.other (if b then "true" else "false"))
  | .num _ i => some (.other (toString i))
  | .float b => some (.other ("float " ++ toString b))
  | .time t => some (.other ("time " ++ timeText t ++ " " ++ toString t.rest))
  | _ => none

/-- assignment to a map, `m[k] = v`: an entry with the same key is replaced -/
def kset : List (Key × Data) → Key → Data → List (Key × Data)
  | [], k, v => [(k, v)]
  | (k', v') :: r, k, v => if k' = k then (k, v) :: r else (k', v') :: kset r k v

/-- `m[key] = value` -/
def assignKey (m : List (Key × Data)) (k v : Data) : YRes (List (Key × Data)) :=
  match yKey k with
  | none => .panic
  | some k => .ok (kset m k v)

/-- decode.go:595-597 and 621-623: after the end of a sequence or mapping -/
def closeCollection (s : YState) : YRes YState := if s.cur = .docEnd then .ok s else nextEvent s

mutual
/-- decode.go:541-570 `valueInterface`; `n` bounds the nesting and the number of steps -/
def yValue (X : YLib) : Nat → YState → YRes (Data × YState)
  | 0, _ => .running
  | n + 1, s => match s.cur with
    | .seqStart a => (nextEvent (beginAnchor a s)).bind fun s => (ySeq X n [] s).bind fun r => .ok (r.1, endAnchor a r.2)
    | .mapStart a => (nextEvent (beginAnchor a s)).bind fun s => (yMap X n [] s).bind fun r => .ok (r.1, endAnchor a r.2)
    | .scalar a e => (nextEvent (beginAnchor a s)).bind fun s => .ok ((resolveInterface X e).2, endAnchor a s)
    | .alias a => yAlias X n a s
    | .docEnd => .error
    | _ => .ok (.nil, s)
/-- decode.go:580-600 `sequenceInterface`: the loop over the elements -/
def ySeq (X : YLib) : Nat → List Data → YState → YRes (Data × YState)
  | 0, _, _ => .running
  | n + 1, acc, s => match s.cur with
    | .seqEnd => (closeCollection s).bind fun s => .ok (.seq acc, s)
    | .docEnd => (closeCollection s).bind fun s => .ok (.seq acc, s)
    | _ => (yValue X n s).bind fun r => ySeq X n (acc ++ [r.1]) r.2
/-- decode.go:603-626 `mappingInterface`: the loop over the entries -/
def yMap (X : YLib) : Nat → List (Key × Data) → YState → YRes (Data × YState)
  | 0, _, _ => .running
  | n + 1, acc, s => match s.cur with
    | .mapEnd => (closeCollection s).bind fun s => .ok (.dict acc, s)
    | .docEnd => (closeCollection s).bind fun s => .ok (.dict acc, s)
    | _ => (yValue X n s).bind fun k => (yValue X n k.2).bind fun v =>
      (assignKey acc k.1 v.1).bind fun m => yMap X n m v.2
/-- decode.go:530-539 `alias` -/
def yAlias (X : YLib) : Nat → String → YState → YRes (Data × YState)
  | 0, _, _ => .running
  | n + 1, a, s => match mget s.anchors a with
    | none => .error
    | some es => (nextEvent { s with replay := some es }).bind fun s => yParse X n s
/-- decode.go:195-226 `parse` with a pointer to an `interface{}` -/
def yParse (X : YLib) : Nat → YState → YRes (Data × YState)
  | 0, _ => .running
  | n + 1, s => match s.cur with
    | .seqStart a => (nextEvent (beginAnchor a s)).bind fun s => (ySeq X n [] s).bind fun r => .ok (r.1, endAnchor a r.2)
    | .mapStart a => (nextEvent (beginAnchor a s)).bind fun s => (yMap X n [] s).bind fun r => .ok (r.1, endAnchor a r.2)
    | .scalar a e => (nextEvent (beginAnchor a s)).bind fun s => .ok (resolveValue X e, endAnchor a s)
    | .alias a => yAlias X n a s
    | .docEnd => .ok (.nil, s)
    | _ => .error
end

/-- decode.go:180-193 `document` -/
def yDocument (X : YLib) (n : Nat) (s : YState) : YRes (Data × YState) :=
  if s.cur = .docStart then
    (nextEvent s).bind fun s => (yParse X n s).bind fun r =>
      if r.2.cur = .docEnd then (nextEvent r.2).bind fun s => .ok (r.1, s) else .error
  else .error

/-- yaml/parser.go:51-62: the loop over the documents (without `Sanitize`); the document is decoded first, `HasNext` is tested afterwards:
before the first document it is always true. -/
def yDocuments (X : YLib) : Nat → YState → YRes (List Data)
  | 0, _ => .running
  | n + 1, s => (yDocument X n s).bind fun r =>
      if r.2.cur = .streamEnd then .ok [r.1] else (yDocuments X n r.2).bind fun ds => .ok (r.1 :: ds)

/-- decode.go:105-135 `NewDecoder`, `Decode`: the first event must be the start of the stream. -/
def yDecode (X : YLib) (n : Nat) (events : List YEvent) : YRes (List Data) :=
  match events with
  | .streamStart :: e :: r => yDocuments X n ⟨e, r, none, [], [[.streamStart, e]]⟩
  | _ => .error

end Spiff
