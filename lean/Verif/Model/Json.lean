import Verif.Model.Sanitize
import Verif.Model.YamlLayout
/-
Model of the JSON output: yaml/marshal.go:16-29 `ToJSON` and `ValueToJSON`, cmd/merge.go:388-398, dynaml/json.go:10-22.

The encoder of Go's standard library (encoding/json, `Marshal`, Go 1.24) is part of the model: it is stated here what it does for the values
`normalizeValue` delivers. The text of a finite floating point number is a parameter.
-/
namespace Spiff

/-- encoding/json: a hexadecimal digit -/
def hexLower (d : Nat) : Char := if d > 9 then Char.ofNat (d + 'a'.toNat - 10) else Char.ofNat (d + '0'.toNat)

/-- encoding/json `appendString` (used by yaml/marshal.go:28): a character of a string. Quotes, backslashes and control characters are escaped, and
also `<`, `>`, `&`, U+2028 and U+2029, because `Marshal` escapes HTML. All others, also U+007F and U+0085, are written as they are. -/
def jsonChar (c : Char) : YText :=
  if c = '"' then ['\\', '"']
  else if c = '\\' then ['\\', '\\']
  else if c = '\u0008' then ['\\', 'b']
  else if c = '\u000c' then ['\\', 'f']
  else if c = '\n' then ['\\', 'n']
  else if c = '\r' then ['\\', 'r']
  else if c = '\t' then ['\\', 't']
  else if c.toNat < 0x20 || c = '<' || c = '>' || c = '&' then ['\\', 'u', '0', '0', hexLower (c.toNat / 16), hexLower (c.toNat % 16)]
  else if c = '\u2028' || c = '\u2029' then ['\\', 'u', '2', '0', '2', hexLower (c.toNat % 16)]
  else [c]

/-- encoding/json: a string -/
def jsonQuote (s : YText) : YText := '"' :: (s.flatMap jsonChar ++ ['"'])

/-- encoding/json `floatEncoder`: infinities and NaN are rejected; `J` is the text of the other numbers -/
def jsonFloat (J : Nat → YText) (b : Nat) : Option YText := if isNaN b || b = infBits || b = floatNeg infBits then none else some (J b)

/-- texts, separated by commas -/
def commaJoin : List YText → YText
  | [] => []
  | [t] => t
  | t :: r => t ++ ',' :: commaJoin r

/-- encoding/json `mapEncoder`: the fields of an object, in ascending order of their names -/
def jsonFields (m : List (String × YText)) : List YText := (sortedKeys m).map (fun k => jsonQuote k.toList ++ ':' :: (mget m k).getD [])

mutual
/-- encoding/json `Marshal`, called in yaml/marshal.go:28, for the result of `normalizeValue` -/
def jsonText (J : Nat → YText) : Data → Option YText
  | .nil => some "null".toList
  | .bool b => some (if b then "true".toList else "false".toList)
  | .num _ i => some (toString i).toList
  | .float b => jsonFloat J b
  | .str s => some (jsonQuote s.toList)
  | .seq l => (jsonItems J l).map (fun ts => '[' :: (commaJoin ts ++ [']']))
  | .smap m => (jsonMembers J m).map (fun em => '{' :: (commaJoin (jsonFields em) ++ ['}']))
  | _ => none
termination_by structural d => d
/-- the elements of an array -/
def jsonItems (J : Nat → YText) : List Data → Option (List YText)
  | [] => some []
  | d :: r => match jsonText J d, jsonItems J r with
    | some t, some ts => some (t :: ts)
    | _, _ => none
termination_by structural d => d
/-- the values of an object -/
def jsonMembers (J : Nat → YText) : List (String × Data) → Option (List (String × YText))
  | [] => some []
  | (k, d) :: r => match jsonText J d, jsonMembers J r with
    | some t, some ts => some ((k, t) :: ts)
    | _, _ => none
termination_by structural d => d
end

variable {E : Type}

/-- yaml/marshal.go:16-29 `ToJSON`, also `as_json`, dynaml/json.go:10-22 -/
def toJson (J : Nat → YText) (n : Node E) : Option YText := (normalize n).bind (jsonText J)

/-- cmd/merge.go:388-398 with option `--json`: the output for documents; documents without content are skipped, there is no separator -/
def printJson (ts : List (Option YText)) : YText := ts.flatMap (fun t => match t with
  | some t => t ++ ['\n']
  | none => [])

end Spiff
