import Verif.Model.Yaml
import Verif.Model.Dns
/-
Model of the writing half of legacy/candiedyaml up to the choice of the style of scalars: encode.go (`Encoder`), and from emitter.go the
analysis of scalars and the selection of their style.

The layout of collections (emitter.go:527-770) is in Model/YamlLayout. No flow collection with entries is ever written (encode.go:209-230, 232-255:
`flow` is only set for Go structs), so flow contexts are left out. `canonical` and `unicode` are never set. Struct values (expressions), `[]byte`
and numbers other than int64 and float64 do not occur in spiff documents; expressions are rejected here.
-/
namespace Spiff
variable {E : Type}

/-- styles of scalars -/
inductive YStyle where | plain | single | double | literal
deriving DecidableEq, Repr

/-- written events: scalars with their final style -/
inductive WEvent where
  | seqStart | seqEnd | mapStart | mapEnd
  | scalar (value : YText) (style : YStyle)
deriving DecidableEq, Repr

/-! ### characters, yaml_privateh.go:143-230 -/

/-- `is_break_at` -/
def isBreakC (c : Char) : Bool := c = '\r' || c = '\n' || c = '\u0085' || c = '\u2028' || c = '\u2029'

/-- `is_blank` -/
def isBlankC (c : Char) : Bool := c = ' ' || c = '\t'

/-- `is_z` -/
def isZeroC (c : Char) : Bool := c = '\u0000'

/-- `is_blankz_at` -/
def isBlankzC (c : Char) : Bool := isBlankC c || isBreakC c || isZeroC c

/-- `is_printable_at(…) && is_ascii(…)` -/
def isPlainC (c : Char) : Bool := c = '\n' || (32 ≤ c.toNat && c.toNat ≤ 126)

/-! ### analysis of a scalar -/

/-- emitter.go:1239-1256: what is found in a text -/
structure Findings where
  blockIndicators : Bool := false
  lineBreaks : Bool := false
  special : Bool := false
  leadingSpace : Bool := false
  leadingBreak : Bool := false
  trailingSpace : Bool := false
  trailingBreak : Bool := false
  breakSpace : Bool := false
  spaceBreak : Bool := false
deriving DecidableEq, Repr

/-- emitter.go:1283: characters which cannot begin a plain scalar -/
def indicatorChars : List Char := ['#', ',', '[', ']', '{', '}', '&', '*', '!', '|', '>', '\'', '"', '%', '@', '`']

/-- emitter.go:1281-1312: indicators in block context; `followed`: the next character is blank or there is none -/
def indicates (first preceded followed : Bool) (c : Char) : Bool :=
  if first then indicatorChars.contains c || ((c = '?' || c = ':' || c = '-') && followed)
  else (c = ':' && followed) || (c = '#' && preceded)

/-- emitter.go:1279: the next character is blank, or there is none -/
def followedBy : YText → Bool
  | [] => true
  | d :: _ => isBlankzC d

/-- emitter.go:1277-1352: the loop -/
def analyzeLoop : (first preceded prevSpace prevBreak : Bool) → YText → Findings → Findings
  | _, _, _, _, [], f => f
  | first, preceded, prevSpace, prevBreak, c :: r, f =>
    let followed := followedBy r
    let f := { f with
      blockIndicators := f.blockIndicators || indicates first preceded followed c
      special := f.special || !isPlainC c
      lineBreaks := f.lineBreaks || isBreakC c }
    let f := if c = ' ' then { f with
        leadingSpace := f.leadingSpace || first, trailingSpace := f.trailingSpace || r.isEmpty, breakSpace := f.breakSpace || prevBreak }
      else if isBreakC c then { f with
        leadingBreak := f.leadingBreak || first, trailingBreak := f.trailingBreak || r.isEmpty, spaceBreak := f.spaceBreak || prevSpace }
      else f
    analyzeLoop false (isBlankzC c) (c = ' ') (c ≠ ' ' && isBreakC c) r f

/-- emitter.go:1269-1273: texts beginning like document markers -/
def markerLike : YText → Bool
  | '-' :: '-' :: '-' :: _ => true
  | '.' :: '.' :: '.' :: _ => true
  | _ => false

/-- emitter.go:1354-1394: the permitted styles -/
structure ScalarData where
  multiline : Bool
  plain : Bool
  single : Bool
  block : Bool
deriving DecidableEq, Repr

/-- emitter.go:1239-1397 `yaml_emitter_analyze_scalar` -/
def analyzeScalar (s : YText) : ScalarData :=
  if s = [] then ⟨false, true, true, false⟩
  else
    let f := analyzeLoop true true false false s { blockIndicators := markerLike s }
    { multiline := f.lineBreaks
      plain := !(f.leadingSpace || f.leadingBreak || f.trailingSpace || f.trailingBreak || f.breakSpace || f.spaceBreak || f.special ||
        f.lineBreaks || f.blockIndicators)
      single := !(f.breakSpace || f.spaceBreak || f.special)
      block := !(f.trailingSpace || f.spaceBreak || f.special) }

/-- emitter.go:975-1032 `yaml_emitter_select_scalar_style`, for scalars without tags -/
def selectStyle (simpleKey : Bool) (s : YText) (style : YStyle) : YStyle :=
  let a := analyzeScalar s
  let style := if simpleKey && a.multiline then .double else style
  let style := if style = .plain ∧ (a.plain = false ∨ (s = [] ∧ simpleKey)) then .single else style
  let style := if style = .single ∧ a.single = false then .double else style
  if style = .literal ∧ (a.block = false ∨ simpleKey) then .double else style

/-- emitter.go:926-969 `yaml_emitter_check_simple_key`, for scalars -/
def checkSimpleKey (s : YText) : Bool := !(analyzeScalar s).multiline && byteLen s ≤ 128

/-! ### encode.go -/

/-- encode.go:32 `multiline` -/
def multilineText (s : YText) : Bool := s.any (fun c => c = '\n' || c = '\u0085' || c = '\u2028' || c = '\u2029')

/-- encode.go:277-311 `emitString`: the requested style -/
def stringStyle (X : YLib) (s : YText) : YStyle :=
  if (resolveInterface X { value := s }).1 ≠ .str then .double
  else if multilineText s then .literal
  else .plain

/-- encode.go:328-344 `emitFloat`: the text of a float; `F` is `strconv.FormatFloat(f, 'g', -1, 64)` -/
def floatText (F : Nat → YText) (b : Nat) : YText :=
  if isNaN b then ".nan".toList
  else if b = infBits then "+.inf".toList
  else if b = floatNeg infBits then "-.inf".toList
  else F b

/-- a value, an element of a list or a whole document, emitter.go:817-840 -/
def writeScalar (s : YText) (style : YStyle) : WEvent := .scalar s (selectStyle false s style)

/-- a key of a map, emitter.go:729-740 -/
def writeKey (X : YLib) (k : String) : WEvent := .scalar k.toList (selectStyle (checkSimpleKey k.toList) k.toList (stringStyle X k.toList))

/-- the entries of a map in the order of their keys, encode.go:163-172 `emitMap` -/
def sortedEntries (X : YLib) (m : List (String × List WEvent)) : List WEvent :=
  (sortedKeys m).flatMap (fun k => writeKey X k :: (mget m k).getD [])

mutual
/-- encode.go:120-161 `marshal`, encode.go:354-375 `emitMarshaler`, yaml/node.go:453-462 `MarshalYAML`, dynaml/template.go:72-74,
dynaml/lambda.go:230-232. `none` for expressions, see above. -/
def encode (X : YLib) (F : Nat → YText) : Node E → Option (List WEvent)
  | .mk v _ _ => encodeV X F v
termination_by structural n => n
def encodeV (X : YLib) (F : Nat → YText) : Val E → Option (List WEvent)
  | .nil => some [writeScalar "null".toList .plain]
  | .bool b => some [writeScalar (if b then "true".toList else "false".toList) .plain]
  | .int i => some [writeScalar (toString i).toList .plain]
  | .float b => some [writeScalar (floatText F b) .plain]
  | .str s => some [writeScalar s.toList (stringStyle X s.toList)]
  | .list l => (encodeL X F l).map (fun es => .seqStart :: (es ++ [.seqEnd]))
  | .map m => (encodeM X F m).map (fun es => .mapStart :: (sortedEntries X es ++ [.mapEnd]))
  | .expr _ => none
  | .templ n => encode X F n
  | .lambda s => some [writeScalar ("(( " ++ s ++ " ))").toList (stringStyle X ("(( " ++ s ++ " ))").toList)]
termination_by structural v => v
def encodeL (X : YLib) (F : Nat → YText) : List (Node E) → Option (List WEvent)
  | [] => some []
  | n :: r => match encode X F n, encodeL X F r with
    | some a, some b => some (a ++ b)
    | _, _ => none
termination_by structural l => l
def encodeM (X : YLib) (F : Nat → YText) : List (String × Node E) → Option (List (String × List WEvent))
  | [] => some []
  | (k, n) :: r => match encode X F n, encodeM X F r with
    | some a, some b => some ((k, a) :: b)
    | _, _ => none
termination_by structural l => l
end

/-- what the reader gets for written events: the text of a scalar, and whether it was plain (parser.go:533-552; the texts written for the
styles are the subject of C85) -/
def WEvent.read : WEvent → YEvent
  | .seqStart => .seqStart ""
  | .seqEnd => .seqEnd
  | .mapStart => .mapStart ""
  | .mapEnd => .mapEnd
  | .scalar s st => .scalar "" { value := s, implicit := st = .plain }

end Spiff
