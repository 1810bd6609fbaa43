import Verif.Model.ListFns
/-
Model of the dynaml string functions. Strings are character sequences. Go's functions on strings work on UTF-8
bytes: searching, splitting and replacing valid UTF-8 text finds the same places on bytes and on characters. `substr` and
the line wrapping address bytes; these are modelled on sequences of any type of symbols.
-/
namespace Spiff
variable {E : Type}

/-! ### split -/

/-- the loop of Go's `strings.genSplit` for a non-empty separator: at most `cuts` cuts -/
def splitCuts (sep : List Char) : Nat → List Char → List (List Char)
  | 0, s => [s]
  | n + 1, s => match findSub sep s with
    | none => [s]
    | some m => s.take m :: splitCuts sep n (s.drop (m + sep.length))

/-- Go's `strings.explode`: single characters, the rest as last of at most `n` parts (`n < 0`: no limit) -/
def explode (n : Int) (s : List Char) : List (List Char) :=
  let k := if n < 0 ∨ n > s.length then s.length else n.toNat
  (s.take (k - 1)).map (fun c => [c]) ++ (if k > 0 then [s.drop (k - 1)] else [])

/-- Go's `strings.SplitN(s, sep, n)` -/
def splitN (s sep : List Char) (n : Int) : List (List Char) :=
  if n = 0 then []
  else if sep = [] then explode n s
  else splitCuts sep (if n < 0 then s.length else (n - 1).toNat) s

/-- dynaml/split.go:47-62: splitting by a maximal length; `cur` of length `l` is collected, `n` parts are left -/
def splitLen (max : Int) (n : Int) (cur : List Char) (l : Int) (acc : List (List Char)) : List Char → List (List Char)
  | [] => if l > 0 then acc ++ [cur] else acc
  | c :: s =>
    if l ≥ max ∧ (n < 0 ∨ n > 1) then splitLen max (n - 1) [c] 1 (acc ++ [cur]) s
    else splitLen max n (cur ++ [c]) (l + 1) acc s

def strNodes (src : String) (l : List (List Char)) : List (Node E) := l.map (fun s => Node.new (.str (String.ofList s)) src)

/-- dynaml/split.go:10-66 on the limit -/
def splitVals (src : String) (sep : Val E) (s : String) (n : Int) : Out (Val E) :=
  match sep with
  | .str sep => .ok (.list (strNodes src (splitN s.toList sep.toList n)))
  | .int max => if max ≤ 0 then .err else .ok (.list (strNodes src (splitLen max n [] 0 [] s.toList)))
  | _ => .err
/-- dynaml/split.go:10-66 -/
def funcSplit (src : String) : List (Val E) → Out (Val E)
  | [sep, .str s] => splitVals src sep s (-1)
  | [sep, .str s, .int n] => splitVals src sep s n
  | _ => .err

/-! ### join -/

/-- dynaml/join.go:31-42: the elements of a list argument -/
def joinElems : List (Node E) → Option (List String)
  | [] => some []
  | e :: r => match keyString e.val with
    | some s => (joinElems r).map (s :: ·)
    | none => none

/-- dynaml/join.go:18-47: collecting the arguments; `first` is `i == 0` -/
def joinArgs : Bool → List (Val E) → Option (List String)
  | _, [] => some []
  | first, .list l :: r => if first then none
    else match joinElems l with
      | some ss => (joinArgs false r).map (ss ++ ·)
      | none => none
  | _, .nil :: r => joinArgs false r
  | _, v :: r => match keyString v with
    | some s => (joinArgs false r).map (s :: ·)
    | none => none

/-- Go's `strings.Join` -/
def joinStrings (sep : String) : List String → String
  | [] => ""
  | [s] => s
  | s :: r => s ++ sep ++ joinStrings sep r

/-- dynaml/join.go:10-50; `args[0]` of an empty list panics -/
def funcJoin (args : List (Val E)) : Out (Val E) :=
  if args.isEmpty then .undet
  else match joinArgs true args with
    | none => .err
    | some [] => .panic
    | some (sep :: r) => .ok (.str (joinStrings sep r))

/-! ### substr -/

/-- dynaml/substr.go:22-48 on a sequence of symbols (bytes); additions of int64 values do not overflow, because
the indices are added to a length only if negative. `none`: error. The slice expression `str[start:end]` never panics, see
Props/Strings.lean. -/
def substrRange (len : Nat) (start : Int) (stop : Option Int) : Option (Int × Int) :=
  let s : Int := if start < 0 then len + start else start
  let e : Int := stop.elim (len : Int) (fun e => if e < 0 then len + e else e)
  if len < e then none else if s < 0 then none else if s > e then none else some (s, e)

/-- Go's slice expression on a string; panics out of range -/
def goSlice {α : Type} (l : List α) (s e : Int) : Out (List α) :=
  if 0 ≤ s ∧ s ≤ e ∧ e ≤ l.length then .ok ((l.drop s.toNat).take (e.toNat - s.toNat)) else .panic

def substr {α : Type} (l : List α) (start : Int) (stop : Option Int) : Out (List α) :=
  match substrRange l.length start stop with
  | none => .err
  | some (s, e) => goSlice l s e

/-! ### trim -/

/-- Go's `strings.Trim` -/
def trimChars (cut : List Char) (s : List Char) : List Char :=
  ((s.dropWhile (fun c => cut.contains c)).reverse.dropWhile (fun c => cut.contains c)).reverse

/-- dynaml/trim.go:29-38 -/
def trimNodes (src : String) (cut : List Char) : List (Node E) → Option (List (Node E))
  | [] => some []
  | e :: r => match e.val with
    | .str s => (trimNodes src cut r).map (Node.new (.str (String.ofList (trimChars cut s.toList))) src :: ·)
    | _ => none

def trimVal (src : String) (cut : List Char) : Val E → Out (Val E)
  | .str s => .ok (.str (String.ofList (trimChars cut s.toList)))
  | .list l => match trimNodes src cut l with
    | some r => .ok (.list r)
    | none => .err
  | _ => .err
/-- dynaml/trim.go:9-44; `arguments[0]` of no arguments panics -/
def funcTrim (src : String) : List (Val E) → Out (Val E)
  | [] => .panic
  | [v] => trimVal src [' ', '\t'] v
  | [v, .str cut] => trimVal src cut.toList v
  | _ => .err

/-! ### replace -/

/-- the loop of Go's `strings.Replace` for a non-empty `old` and `n` replacements -/
def replLoop (old new : List Char) : Nat → List Char → List Char
  | 0, s => s
  | n + 1, s => match findSub old s with
    | none => s
    | some m => s.take m ++ new ++ replLoop old new n (s.drop (m + old.length))

/-- ... for an empty `old` -/
def replEmpty (new : List Char) : Nat → List Char → List Char
  | 0, s => s
  | _ + 1, [] => new
  | n + 1, c :: s => new ++ c :: replEmpty new n s

/-- Go's `strings.Replace(s, old, new, n)`; there are at most `len(s)+1` occurrences -/
def goReplace (s old new : List Char) (n : Int) : List Char :=
  let k := if n < 0 then s.length + 1 else n.toNat
  if old = [] then replEmpty new k s else replLoop old new k s

/-- dynaml/replace.go:113-148 `processReplace`. `find` delivers the position and the end of the next match, `expand` the
replacement for a text and a match (an error is `none`). The variable `n` (text already done) is the part before the recursive
call. `fuel` bounds the loop. -/
def processReplace (find : List Char → Option (Nat × Nat)) (expand : List Char → Nat × Nat → Option (List Char)) :
    Nat → Bool → Int → List Char → Option (List Char)
  | 0, _, _, b => some b
  | fuel + 1, emptyMatch, cnt, b =>
    if cnt = 0 then some b
    else match find b with
      | none => some b
      | some loc =>
        match (if emptyMatch || decide (loc.2 > 0) then expand b loc else some []) with
        | none => none
        | some x =>
          let cnt' := if cnt > 0 then cnt - 1 else cnt
          if loc.2 = loc.1 then
            match b.drop loc.2 with
            | [] => some (b.take loc.1 ++ x)
            | c :: b' => (processReplace find expand fuel true cnt' b').map (fun r => b.take loc.1 ++ x ++ c :: r)
          else (processReplace find expand fuel false cnt' (b.drop loc.2)).map (fun r => b.take loc.1 ++ x ++ r)

/-- dynaml/replace.go:70-80 `StringFinder` -/
def stringFinder (pat : List Char) (b : List Char) : Option (Nat × Nat) := (findSub pat b).map (fun i => (i, i + pat.length))

/-- dynaml/replace.go:150-192, 15-28: `replace` with a string as substitution -/
def funcReplace : List (Val E) → Out (Val E)
  | [.str s, .str old, .str new] => .ok (.str (String.ofList (goReplace s.toList old.toList new.toList (-1))))
  | [.str s, .str old, .str new, .int n] => .ok (.str (String.ofList (goReplace s.toList old.toList new.toList n)))
  | _ => .err

/-! ### base64 -/

/-- dynaml/base64.go:70-81: `while len(str) > max`; `max > 0` -/
def wrapLines {α : Type} (nl : α) (max : Nat) : Nat → List α → List α
  | 0, s => s
  | fuel + 1, s => if s.length > max then s.take max ++ nl :: wrapLines nl max fuel (s.drop max) else s

/-- dynaml/base64.go:82-84: a final newline is removed -/
def stripNl {α : Type} [DecidableEq α] (nl : α) (s : List α) : List α := if s.getLast? = some nl then s.dropLast else s

/-- the standard base64 alphabet (RFC 4648; Go's `base64.StdEncoding`) -/
def b64Char (n : Nat) : Char :=
  if n < 26 then Char.ofNat (65 + n) else if n < 52 then Char.ofNat (97 + (n - 26)) else if n < 62 then Char.ofNat (48 + (n - 52))
  else if n = 62 then '+' else '/'

/-- the value of a base64 character -/
def b64Val (c : Char) : Option Nat :=
  if 'A' ≤ c ∧ c ≤ 'Z' then some (c.toNat - 65) else if 'a' ≤ c ∧ c ≤ 'z' then some (c.toNat - 97 + 26)
  else if '0' ≤ c ∧ c ≤ '9' then some (c.toNat - 48 + 52) else if c = '+' then some 62 else if c = '/' then some 63 else none

/-- Go's `base64.StdEncoding.EncodeToString` on bytes (numbers below 256) -/
def b64Encode : List Nat → List Char
  | [] => []
  | [a] => [b64Char (a / 4), b64Char (a % 4 * 16), '=', '=']
  | [a, b] => [b64Char (a / 4), b64Char (a % 4 * 16 + b / 16), b64Char (b % 16 * 4), '=']
  | a :: b :: c :: r => b64Char (a / 4) :: b64Char (a % 4 * 16 + b / 16) :: b64Char (b % 16 * 4 + c / 64) :: b64Char (c % 64) ::
      b64Encode r

/-- decoding of four characters; padding is only allowed at the end (RFC 4648) -/
def b64Quad (a b c d : Char) (last : Bool) : Option (List Nat) :=
  match b64Val a, b64Val b with
  | some a, some b =>
    if c = '=' then if d = '=' ∧ last then some [a * 4 + b / 16] else none
    else match b64Val c with
      | none => none
      | some c => if d = '=' then if last then some [a * 4 + b / 16, b % 16 * 16 + c / 4] else none
        else match b64Val d with
          | none => none
          | some d => some [a * 4 + b / 16, b % 16 * 16 + c / 4, c % 4 * 64 + d]
  | _, _ => none

def b64Quads : List Char → Option (List Nat)
  | [] => some []
  | a :: b :: c :: d :: r => match b64Quad a b c d r.isEmpty with
    | none => none
    | some x => (b64Quads r).map (x ++ ·)
  | _ => none

/-- Go's `base64.StdEncoding.DecodeString`: line breaks are ignored -/
def b64Decode (s : List Char) : Option (List Nat) := b64Quads (s.filter (fun c => c ≠ '\n' ∧ c ≠ '\r'))

/-- dynaml/base64.go:66-88 `Base64Encode` -/
def base64Encode (data : List Nat) (max : Int) : List Char :=
  let str := b64Encode data
  if max > 0 then stripNl '\n' (wrapLines '\n' max.toNat str.length str) else str

end Spiff
