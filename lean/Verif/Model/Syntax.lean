import Verif.Model.Grammar
import Verif.Model.Ops
/-
From the tokens of the parser to the expression tree (dynaml/parser.go) and back to text (the String methods of the expressions).
Texts are lists of characters. Sources are ASCII texts: parser.go:152 cuts the contents of a token out of the UTF-8 text using
positions counted in characters, which is the matched text for ASCII sources only (`Tok.text`).
-/
namespace Spiff

abbrev Txt := List Char

/-- The operator of an expression with its data; the operands are the arguments of the tree node. -/
inductive SynOp where
  /-- nil.go, undefined.go, boolean.go, integer.go; float.go keeps the value, here the literal; string.go -/
  | nil | undef | bool (b : Bool) | int (i : Int) | float (t : Txt) | str (s : Txt)
  /-- reference.go:9-12 -/
  | ref (tag : Txt) (path : List Txt)
  /-- grouped.go, prefer.go, not.go, template.go:9 SubstitutionExpr -/
  | group | prefer | not | subst
  | or | validOr | cond | concat | logOr | logAnd | cmp (op : Txt) | add | sub | mul | div | mod
  /-- list.go, listexpansion.go -/
  | list | expand
  /-- map.go: keys and values alternate in the arguments -/
  | map
  /-- scope.go: keys and values alternate, the expression is the last argument -/
  | scope
  /-- merge.go:11-18, auto.go -/
  | merge (path : List Txt) (redirect replace required none : Bool) (key : Txt) | auto (path : List Txt)
  /-- range.go: which bounds are present -/
  | range (l r : Bool) | slice
  /-- dynamic_expression.go, qualified_expression.go -/
  | dyn | qual (path : List Txt)
  /-- call.go: the function is the first argument -/
  | call (curry : Bool) | named (n : Txt)
  /-- lambda.go:44-48 LambdaExpr: names of the parameters (with a default?); the arguments are the defaults and the body -/
  | lambda (params : List (Txt × Bool)) (varargs : Bool) | lambdaRef (path stubPath : List Txt)
  /-- mapping.go: keyword and brackets -/
  | mapping (kind : Txt) (curly : Bool) | sum | sync | catch
  | projection | projValue | default
  /-- marker.go: the markers; optional argument -/
  | marker (l : List Txt) | markerExpr (contents : Txt)
deriving DecidableEq

/-- Expression trees. -/
inductive Syn where
  | node (op : SynOp) (args : List Syn)

/-- The elements of the stack of parser.go:141: expressions and the helpers of parser.go:562 ff. A helper at the place of an expression
would not crash in Go immediately; here it does (`Built.crash`) -/
inductive StackItem where
  | expr (e : Syn)
  | ext (e : Syn)
  | exprs (l : List Syn)
  | names (l : List (Txt × Option Syn)) (varargs : Bool)
  | name (n : Txt)
  | op (s : Txt)

/-- parser.go:141-149: the stack and the flags for merge expressions -/
structure PState where
  stack : List StackItem := []
  replace : Bool := false
  required : Bool := false
  key : Txt := []

/-- result of building the tree: a parse error (invalid string literal) or a crash are possible -/
inductive Built (α : Type) where
  | ok (a : α) | err | crash

def Built.bind {α β : Type} (x : Built α) (f : α → Built β) : Built β :=
  match x with
  | .ok a => f a
  | .err => .err
  | .crash => .crash

/-- Functions of Go's libraries: can a float literal be represented, printing a float, quoting a character outside ASCII -/
structure PLib where
  floatOk : Txt → Bool
  floatText : Txt → Txt
  quoteRune : Char → Txt

/-- Parse parameters: path and stubPath of the node (parser.go:76-90) -/
structure PCtx where
  path : List Txt := []
  stubPath : List Txt := []

/-! ### strings -/

/-- value of a hexadecimal digit -/
def hexVal (c : Char) : Option Nat :=
  if '0' ≤ c ∧ c ≤ '9' then some (c.toNat - 48)
  else if 'a' ≤ c ∧ c ≤ 'f' then some (c.toNat - 87)
  else if 'A' ≤ c ∧ c ≤ 'F' then some (c.toNat - 55)
  else none

/-- the four digits behind `\u` -/
def hex4 : Txt → Option (Nat × Txt)
  | a :: b :: c :: d :: r => match hexVal a, hexVal b, hexVal c, hexVal d with
    | some w, some x, some y, some z => some (((w * 16 + x) * 16 + y) * 16 + z, r)
    | _, _, _, _ => none
  | _ => none

/-- A second surrogate: encoding/json combines it with the first one. -/
def lowSurrogate (r : Txt) : Option (Nat × Txt) :=
  match r with
  | '\\' :: 'u' :: r => match hex4 r with
    | some (v, r) => if 0xDC00 ≤ v ∧ v < 0xE000 then some (v, r) else none
    | none => none
  | _ => none

/-- the character of `\uXXXX` (encoding/json: a lonely surrogate is replaced by U+FFFD) and the remaining text -/
def uniChar (v : Nat) (r : Txt) : Char × Txt :=
  if 0xD800 ≤ v ∧ v < 0xDC00 then
    match lowSurrogate r with
    | some (w, r') => (Char.ofNat (0x10000 + (v - 0xD800) * 0x400 + (w - 0xDC00)), r')
    | none => (Char.ofNat 0xFFFD, r)
  else if 0xDC00 ≤ v ∧ v < 0xE000 then (Char.ofNat 0xFFFD, r)
  else (Char.ofNat v, r)

/-- the character for a simple escape -/
def jsonEscape (c : Char) : Option Char :=
  if c = '"' then some '"' else if c = '\\' then some '\\' else if c = '/' then some '/'
  else if c = 'b' then some (Char.ofNat 8) else if c = 'f' then some (Char.ofNat 12)
  else if c = 'n' then some '\n' else if c = 'r' then some '\r' else if c = 't' then some '\t' else none

/-- encoding/json: the text behind the opening quote of a string; nothing may follow the closing quote.
The first argument bounds the number of steps (the length of the text suffices). -/
def jsonBody : Nat → Txt → Option Txt
  | 0, _ => none
  | n + 1, s => match s with
    | [] => none
    | '"' :: r => if r.isEmpty then some [] else none
    | '\\' :: 'u' :: r => match hex4 r with
      | some (v, r) => (jsonBody n (uniChar v r).2).map (fun t => (uniChar v r).1 :: t)
      | none => none
    | '\\' :: c :: r => match jsonEscape c with
      | some d => (jsonBody n r).map (fun t => d :: t)
      | none => none
    | c :: r => if c.toNat < 32 then none else (jsonBody n r).map (fun t => c :: t)

/-- parser.go:132-139 `parseString`: json.Unmarshal of the literal -/
def jsonString (s : Txt) : Option Txt :=
  match s with
  | '"' :: r => jsonBody (r.length + 1) r
  | _ => none

/-- hexadecimal digit -/
def hexDigit (n : Nat) : Char := if n < 10 then Char.ofNat (48 + n) else Char.ofNat (87 + n)

/-- strconv.Quote for one character; characters outside ASCII by the library -/
def quoteChar (lib : PLib) (c : Char) : Txt :=
  if c = '"' then ['\\', '"'] else if c = '\\' then ['\\', '\\']
  else if c.toNat = 7 then ['\\', 'a'] else if c.toNat = 8 then ['\\', 'b'] else if c.toNat = 12 then ['\\', 'f']
  else if c = '\n' then ['\\', 'n'] else if c = '\r' then ['\\', 'r'] else if c = '\t' then ['\\', 't']
  else if c.toNat = 11 then ['\\', 'v']
  else if c.toNat < 32 ∨ c.toNat = 127 then ['\\', 'x', hexDigit (c.toNat / 16), hexDigit (c.toNat % 16)]
  else if c.toNat < 127 then [c]
  else lib.quoteRune c

/-- string.go:15 `%q` -/
def goQuote (lib : PLib) (s : Txt) : Txt := '"' :: (s.flatMap (quoteChar lib) ++ ['"'])

/-! ### references -/

/-- parser.go:92-113: one character of the loop of `PathComponents`; state: finished components, current component -/
def pathStep (leading : Bool) (st : List Txt × Txt) (c : Char) : List Txt × Txt :=
  if c = '.' then (if st.2 ≠ [] ∨ leading then (st.1 ++ [st.2], []) else (st.1, []))
  else if c = '[' then (if st.2 ≠ [] then (st.1 ++ [st.2], [c]) else (st.1, [c]))
  else (st.1, st.2 ++ [c])

/-- parser.go:92-118 `PathComponents` -/
def pathComponents (ref : Txt) (leading : Bool) : List Txt :=
  let r := ref.foldl (pathStep leading) ([], [])
  if r.2 ≠ [] then r.1 ++ [r.2] else r.1

/-- strings.LastIndex(contents, "::"): the texts before and behind the last occurrence -/
def splitLastColons : Txt → Option (Txt × Txt)
  | [] => none
  | c :: r => match splitLastColons r with
    | some (a, b) => some (c :: a, b)
    | none => match r with
      | d :: r' => if c = ':' ∧ d = ':' then some ([], r') else none
      | [] => none

/-- parser.go:205-207: a leading dot behind a tag is dropped -/
def dropDot (s : Txt) : Txt :=
  match s with
  | '.' :: r => if r.isEmpty then s else r
  | _ => s

/-- parser.go:199-209 -/
def buildRef (contents : Txt) : Syn :=
  match splitLastColons contents with
  | some (tag, rest) =>
    if tag.isEmpty then .node (.ref [] (pathComponents contents true)) []
    else .node (.ref tag (pathComponents (dropDot rest) true)) []
  | none => .node (.ref [] (pathComponents contents true)) []

/-! ### the stack machine -/

def isNamed : Syn → Bool
  | .node (.named _) _ => true
  | _ => false
def isLambda : Syn → Bool
  | .node (.lambda _ _) _ => true
  | _ => false

/-- parser.go:240-254: named arguments first -/
def callArgs (args : List Syn) : List Syn := args.filter isNamed ++ args.filter (fun a => !isNamed a)

/-- LambdaExpr{Parameters: params, VarArgs: varargs, E: e} -/
def mkLambda (params : List (Txt × Option Syn)) (varargs : Bool) (e : Syn) : Syn :=
  .node (.lambda (params.map (fun p => (p.1, p.2.isSome))) varargs) (params.filterMap (·.2) ++ [e])

/-- parser.go:443-445 `LambdaExpr{E: h.expression, Parameters: cond.(LambdaExpr).Parameters}`: no variable arguments -/
def lambdaLike (cond e : Syn) : Option Syn :=
  match cond with
  | .node (.lambda ps _) args => some (.node (.lambda ps false) (args.dropLast ++ [e]))
  | _ => none

/-- parser.go:272-287 -/
def buildNumber (lib : PLib) (contents : Txt) : Option Syn :=
  let t := contents.filter (fun c => c ≠ '_')
  if t.any (fun c => c == '.' || c == 'e' || c == 'E') then
    if lib.floatOk t then some (.node (.float t) []) else none
  else match parseInt (String.ofList t) with
    | some i => some (.node (.int i) [])
    | none => none

/-- parser.go:168-172 -/
def simpleMerge (cx : PCtx) (s : PState) : Syn :=
  let redirect := decide (cx.path ≠ cx.stubPath)
  .node (.merge cx.stubPath redirect s.replace (s.replace || s.required || redirect) false s.key) []

/-- parser.go:173-183 -/
def refMerge (s : PState) (path : List Txt) : Syn :=
  if path = ["none".toList] then .node (.merge [] true s.replace false true s.key) []
  else .node (.merge path true s.replace (decide (path.length > 0)) false s.key) []

/-- push an expression -/
def PState.push (s : PState) (st : List StackItem) (e : Syn) : Built PState := .ok { s with stack := .expr e :: st }

/-- pop one expression, push one -/
def unaryStep (s : PState) (f : Syn → Syn) : Built PState :=
  match s.stack with
  | .expr a :: st => s.push st (f a)
  | _ => .crash

/-- pop two expressions, push one -/
def binaryStep (s : PState) (f : Syn → Syn → Syn) : Built PState :=
  match s.stack with
  | .expr b :: .expr a :: st => s.push st (f a b)
  | _ => .crash

/-- pop two expressions with an operator between them -/
def opStep (s : PState) (f : Txt → Syn → Syn → Syn) : Built PState :=
  match s.stack with
  | .expr b :: .op o :: .expr a :: st => s.push st (f o a b)
  | _ => .crash

/-- pop a list of expressions -/
def listStep (s : PState) : Built PState :=
  match s.stack with
  | .exprs l :: st => s.push st (.node .list l)
  | _ => .crash

def setLastDefault (l : List (Txt × Option Syn)) (d : Syn) : List (Txt × Option Syn) :=
  match l.getLast? with
  | some p => l.dropLast ++ [(p.1, some d)]
  | none => []

/-- parser.go:500-514 -/
def rangeStep (s : PState) : Built PState :=
  match s.stack with
  | .op _ :: .op _ :: st => s.push st (.node (.range false false) [])
  | .op _ :: .expr l :: .op _ :: st => s.push st (.node (.range true false) [l])
  | .expr r :: .op _ :: .op _ :: st => s.push st (.node (.range false true) [r])
  | .expr r :: .op _ :: .expr l :: .op _ :: st => s.push st (.node (.range true true) [l, r])
  | _ => .crash

/-- parser.go:434-446 -/
def syncStep' (s : PState) : Built PState :=
  match s.stack with
  | .expr timeout :: .expr value :: .expr cond :: .expr e :: st => s.push st (.node .sync [e, cond, value, timeout])
  | .expr timeout :: .ext value :: .expr cond :: .expr e :: st => match lambdaLike cond value with
    | some l => s.push st (.node .sync [e, cond, l, timeout])
    | none => .crash
  | _ => .crash

/-- parser.go:151-556: one token -/
def buildStep (lib : PLib) (cx : PCtx) (s : PState) (t : Tok Rule) : Built PState :=
  match t.rule with
  | .Marker => s.push s.stack (.node (.marker [t.text]) [])
  | .SubsequentMarker => match s.stack with
    | _ :: .expr (.node (.marker l) as) :: st => s.push st (.node (.marker (l ++ [t.text])) as)
    | _ => .crash
  | .MarkerExpression => unaryStep s (fun e => .node (.markerExpr t.text) [e])
  | .MarkedExpression => match s.stack with
    | .expr (.node (.marker _) _) :: _ => .ok s
    | .expr e :: .expr (.node (.marker l) _) :: st => s.push st (.node (.marker l) [e])
    | _ => .crash
  | .Prefer => unaryStep s (fun e => .node .prefer [e])
  | .Grouped => unaryStep s (fun e => .node .group [e])
  | .Auto => s.push s.stack (.node (.auto cx.path) [])
  | .Merge => .ok { s with replace := false, required := false, key := [] }
  | .SimpleMerge => s.push s.stack (simpleMerge cx s)
  | .RefMerge => match s.stack with
    | .expr (.node (.ref _ path) _) :: st => s.push st (refMerge s path)
    | _ => .crash
  | .Replace => .ok { s with replace := true }
  | .Required => .ok { s with required := true }
  | .On => match s.stack with
    | .name n :: st => .ok { s with stack := st, key := n }
    | _ => .crash
  | .Reference => s.push s.stack (buildRef t.text)
  | .ChainedRef => unaryStep s (fun e => .node (.qual (pathComponents t.text false)) [e])
  | .ChainedDynRef => binaryStep s (fun a b => .node .dyn [a, b])
  | .TopIndex => unaryStep s (fun e => .node .dyn [.node (.ref [] [[]]) [], e])
  | .Slice => match s.stack with
    | .expr (.node (.range l r) as) :: .expr a :: st => s.push st (.node .slice [a, .node (.range l r) as])
    | _ => .crash
  | .Currying => match s.stack with
    | .expr (.node (.call _) as) :: st => s.push st (.node (.call true) as)
    | _ => .crash
  | .ChainedCall => match s.stack with
    | .exprs args :: .expr f :: st => s.push st (.node (.call false) (f :: callArgs args))
    | _ => .crash
  | .ProjectionValue => .ok { s with stack := .expr (.node .projValue []) :: .expr (.node .projValue []) :: s.stack }
  | .Projection => match s.stack with
    | .expr q :: .expr (.node .projValue _) :: .expr a :: st => s.push st (.node .projection [a, q])
    | _ => .crash
  | .Number => match buildNumber lib t.text with
    | some e => s.push s.stack e
    | none => .crash
  | .Nil => s.push s.stack (.node .nil [])
  | .Undefined => s.push s.stack (.node .undef [])
  | .Scoped => match s.stack with
    | .expr e :: .expr (.node .map as) :: st => s.push st (.node .scope (as ++ [e]))
    | _ => .crash
  | .CreateMap => s.push s.stack (.node .map [])
  | .CreateScope => s.push s.stack (.node .map [])
  | .Assignment => match s.stack with
    | .expr r :: .expr l :: .expr (.node .map as) :: st => s.push st (.node .map (as ++ [l, r]))
    | _ => .crash
  | .Boolean => s.push s.stack (.node (.bool (t.text == "true".toList)) [])
  | .String => match jsonString t.text with
    | some v => s.push s.stack (.node (.str v) [])
    | none => .err
  | .IP => s.push s.stack (.node (.str t.text) [])
  | .Substitution => unaryStep s (fun e => .node .subst [e])
  | .Conditional => match s.stack with
    | .expr f :: .expr t :: .expr c :: st => s.push st (.node .cond [c, t, f])
    | _ => .crash
  | .LogOr => binaryStep s (fun a b => .node .logOr [a, b])
  | .LogAnd => binaryStep s (fun a b => .node .logAnd [a, b])
  | .Or => opStep s (fun o a b => if o = ['|', '|'] then .node .or [a, b] else .node .validOr [a, b])
  | .OrOp => .ok { s with stack := .op t.text :: s.stack }
  | .Not => unaryStep s (fun e => .node .not [e])
  | .CompareOp => .ok { s with stack := .op t.text :: s.stack }
  | .Comparison => opStep s (fun o a b => .node (.cmp o) [a, b])
  | .Concatenation => binaryStep s (fun a b => .node .concat [a, b])
  | .Addition => binaryStep s (fun a b => .node .add [a, b])
  | .Subtraction => binaryStep s (fun a b => .node .sub [a, b])
  | .Multiplication => binaryStep s (fun a b => .node .mul [a, b])
  | .Division => binaryStep s (fun a b => .node .div [a, b])
  | .Modulo => binaryStep s (fun a b => .node .mod [a, b])
  | .Symbol => match s.stack with
    | .name n :: st => s.push st (.node (.str n) [])
    | _ => .crash
  | .StartParams => .ok { s with stack := .names [] false :: s.stack }
  | .Name => .ok { s with stack := .name t.text :: s.stack }
  | .NextName => match s.stack with
    | .name n :: .names l v :: st => .ok { s with stack := .names (l ++ [(n, none)]) v :: st }
    | _ => .crash
  | .DefaultValue => match s.stack with
    | .expr d :: .names (p :: l) v :: st => .ok { s with stack := .names (setLastDefault (p :: l) d) v :: st }
    | _ => .crash
  | .VarParams => match s.stack with
    | .names l _ :: st => .ok { s with stack := .names l true :: st }
    | _ => .crash
  | .Default => s.push s.stack (.node .default [])
  | .LambdaExt => match s.stack with
    | .expr e :: st => .ok { s with stack := .ext e :: st }
    | _ => .crash
  | .Sync => syncStep' s
  | .Catch => binaryStep s (fun a l => .node .catch [a, l])
  | .Mapping => binaryStep s (fun a l => .node (.mapping "map".toList false) [a, l])
  | .FilterList => binaryStep s (fun a l => .node (.mapping "filter".toList false) [a, l])
  | .FilterMap => binaryStep s (fun a l => .node (.mapping "filter".toList true) [a, l])
  | .Selection => binaryStep s (fun a l => .node (.mapping "select".toList false) [a, l])
  | .MapMapping => binaryStep s (fun a l => .node (.mapping "map".toList true) [a, l])
  | .MapSelection => binaryStep s (fun a l => .node (.mapping "select".toList true) [a, l])
  | .Sum => match s.stack with
    | .expr l :: .expr i :: .expr a :: st => s.push st (.node .sum [a, i, l])
    | _ => .crash
  | .LambdaExpr => match s.stack with
    | .expr e :: .names l v :: st => s.push st (mkLambda l v e)
    | _ => .crash
  | .LambdaRef => unaryStep s (fun e => if isLambda e then e else .node (.lambdaRef cx.path cx.stubPath) [e])
  | .StartRange => .ok { s with stack := .op [] :: s.stack }
  | .RangeOp => .ok { s with stack := .op t.text :: s.stack }
  | .Range => rangeStep s
  | .List => listStep s
  | .Indices => listStep s
  | .NextNameArgument => match s.stack with
    | .expr e :: .name n :: .exprs l :: st => .ok { s with stack := .exprs (l ++ [.node (.named n) [e]]) :: st }
    | _ => .crash
  | .NextExpression => match s.stack with
    | .expr e :: .exprs l :: st => .ok { s with stack := .exprs (l ++ [e]) :: st }
    | _ => .crash
  | .ListExpansion => unaryStep s (fun e => .node .expand [e])
  | .StartList => .ok { s with stack := .exprs [] :: s.stack }
  | .StartArguments => .ok { s with stack := .exprs [] :: s.stack }
  | _ => .ok s

/-- parser.go:141-558: all tokens -/
def buildTokens (lib : PLib) (cx : PCtx) (s : PState) : List (Tok Rule) → Built PState
  | [] => .ok s
  | t :: r => (buildStep lib cx s t).bind (fun s => buildTokens lib cx s r)

/-- parser.go:155-156: the result is the top of the stack; Go returns a nil expression for an empty stack -/
def buildResult (s : PState) : Built Syn :=
  match s.stack with
  | .expr e :: _ => .ok e
  | _ => .crash

def buildExpression (lib : PLib) (cx : PCtx) (toks : List (Tok Rule)) : Built Syn :=
  (buildTokens lib cx {} toks).bind buildResult

/-- result of parsing: an expression, an error, or a crash -/
inductive ParseRes where
  | ok (e : Syn) | err | crash

def Built.toRes : Built Syn → ParseRes
  | .ok e => .ok e
  | .err => .err
  | .crash => .crash

/-- parser.go:76-90 `Parse`: the grammar has to match; then the tree is built. The parser is the relation `Parses`; it is a total
function (`parse_total`, `parses_unique`). -/
def ParseTo (lib : PLib) (cx : PCtx) (src : Txt) (r : ParseRes) : Prop :=
  (Parses dynamlRules (.nt .Dynaml) src none ∧ r = .err) ∨
  ∃ toks c rest, Parses dynamlRules (.nt .Dynaml) src (some (toks, c, rest)) ∧ r = (buildExpression lib cx toks).toRes

/-! ### printing -/

/-- strings.Join -/
def joinTxt (sep : Txt) : List Txt → Txt
  | [] => []
  | [s] => s
  | s :: r => s ++ sep ++ joinTxt sep r

/-- reference.go:91-100 -/
def refText (tag : Txt) (path : List Txt) : Txt :=
  let t := if tag.isEmpty then [] else tag ++ [':', ':']
  if path = [[]] then t ++ ['.'] else t ++ joinTxt ['.'] path

/-- strconv.FormatInt -/
def intText (i : Int) : Txt := (toString i).toList

/-- lambda.go:24-29, 82-93: the parameters -/
def paramTexts : List (Txt × Bool) → List Txt → List Txt
  | [], _ => []
  | (n, true) :: ps, d :: ds => (n ++ '=' :: d) :: paramTexts ps ds
  | (n, _) :: ps, ds => n :: paramTexts ps ds

/-- lambda.go:82-93 without the keyword -/
def lambdaText (params : List (Txt × Bool)) (varargs : Bool) (args : List Txt) : Txt :=
  ['|'] ++ joinTxt [','] (paramTexts params args) ++ (if varargs then ['.', '.', '.'] else []) ++ ['|', '-', '>'] ++ args.getLastD []

/-- map.go:37-56 -/
def assignTexts : List Txt → List Txt
  | k :: v :: r => (k ++ " = ".toList ++ v) :: assignTexts r
  | _ => []

/-- merge.go:46-65 -/
def mergeText (path : List Txt) (redirect replace required : Bool) (key : Txt) : Txt :=
  let rep := (if replace then " replace".toList else []) ++ (if key.isEmpty then [] else " on ".toList ++ key)
  let rep := if required && !redirect && !rep.isEmpty then " required".toList else rep
  if redirect then "merge".toList ++ rep ++ " ".toList ++ joinTxt ['.'] path else "merge".toList ++ rep

/-- the text of a nil expression: fmt prints a nil interface this way -/
def nilText : Txt := "%!s(<nil>)".toList

/-- a lambda argument of a mapping: mapping.go:57-66, sum.go:67-74, catch.go:123-134 -/
def lambdaArg (isLam : Bool) (t : Txt) : Txt := if isLam then t.drop 6 else '|' :: t

/-- The String methods: the text of an expression from the texts of its arguments; `lam` tells whether the last argument is a lambda
expression. -/
def opText (lib : PLib) (op : SynOp) (lam : Bool) (a : List Txt) : Txt :=
  match op with
  | .nil => "nil".toList
  | .undef => "~~".toList
  | .bool b => if b then "true".toList else "false".toList
  | .int i => intText i
  | .float t => lib.floatText t
  | .str s => goQuote lib s
  | .ref tag path => refText tag path
  | .group => "( ".toList ++ a.getD 0 [] ++ " )".toList
  | .prefer => "prefer ".toList ++ a.getD 0 []
  | .not => "!(".toList ++ a.getD 0 [] ++ ")".toList
  | .subst => "*(".toList ++ a.getD 0 [] ++ ")".toList
  | .or => a.getD 0 [] ++ " || ".toList ++ a.getD 1 []
  | .validOr => a.getD 0 [] ++ " // ".toList ++ a.getD 1 []
  | .cond => a.getD 0 [] ++ " ? ".toList ++ a.getD 1 [] ++ " : ".toList ++ a.getD 2 []
  | .concat => a.getD 0 [] ++ " ".toList ++ a.getD 1 []
  | .logOr => a.getD 0 [] ++ " -or ".toList ++ a.getD 1 []
  | .logAnd => a.getD 0 [] ++ " -and ".toList ++ a.getD 1 []
  | .cmp o => a.getD 0 [] ++ " ".toList ++ o ++ " ".toList ++ a.getD 1 []
  | .add => a.getD 0 [] ++ " + ".toList ++ a.getD 1 []
  | .sub => a.getD 0 [] ++ " - ".toList ++ a.getD 1 []
  | .mul => a.getD 0 [] ++ " * ".toList ++ a.getD 1 []
  | .div => a.getD 0 [] ++ " / ".toList ++ a.getD 1 []
  | .mod => a.getD 0 [] ++ " % ".toList ++ a.getD 1 []
  | .list => "[".toList ++ joinTxt ", ".toList a ++ "]".toList
  | .expand => a.getD 0 [] ++ "...".toList
  | .map => "{".toList ++ (if a.isEmpty then [] else " ".toList ++ joinTxt ", ".toList (assignTexts a)) ++ " }".toList
  | .scope => "(".toList ++ joinTxt ", ".toList (assignTexts a.dropLast) ++ " ) ".toList ++ a.getLastD []
  | .merge path redirect replace required _ key => mergeText path redirect replace required key
  | .auto _ => "auto".toList
  | .range l r => "[".toList ++ (if l then a.getD 0 [] else nilText) ++ "..".toList ++ (if r then a.getLastD [] else nilText) ++ "]".toList
  | .slice => a.getD 0 [] ++ ".[".toList ++ a.getD 1 [] ++ "]".toList
  | .dyn => a.getD 0 [] ++ ".".toList ++ a.getD 1 []
  | .qual path => "(".toList ++ a.getD 0 [] ++ ").".toList ++ refText [] path
  | .call curry => a.getD 0 [] ++ (if curry then "*".toList else []) ++ "(".toList ++ joinTxt ", ".toList (a.drop 1) ++ ")".toList
  | .named n => n ++ "=".toList ++ a.getD 0 []
  | .lambda ps v => "lambda".toList ++ lambdaText ps v a
  | .lambdaRef _ _ => "lambda ".toList ++ a.getD 0 []
  | .mapping kind curly => kind ++ (if curly then "{".toList else "[".toList) ++ a.getD 0 [] ++ lambdaArg lam (a.getD 1 []) ++
      (if curly then "}".toList else "]".toList)
  | .sum => "sum[".toList ++ a.getD 0 [] ++ "|".toList ++ a.getD 1 [] ++ lambdaArg lam (a.getD 2 []) ++ "]".toList
  | .sync => "sync(".toList ++ a.getD 0 [] ++ ")".toList
  | .catch => "catch[".toList ++ a.getD 0 [] ++ lambdaArg lam (a.getD 1 []) ++ "]".toList
  | .projection => a.getD 0 [] ++ ".[*] ".toList ++ a.getD 1 []
  | .projValue => []
  | .default => []
  | .marker l => joinTxt " ".toList l ++ (if a.isEmpty then [] else " (".toList ++ a.getD 0 [] ++ ")".toList)
  | .markerExpr contents => contents

/-- is the last argument a lambda expression? -/
def lastLambda : List Syn → Bool
  | [] => false
  | [e] => isLambda e
  | _ :: r => lastLambda r

mutual
/-- the String methods of the expressions -/
def synText (lib : PLib) : Syn → Txt
  | .node op args => opText lib op (lastLambda args) (synTexts lib args)
termination_by structural x => x
def synTexts (lib : PLib) : List Syn → List Txt
  | [] => []
  | e :: r => synText lib e :: synTexts lib r
termination_by structural x => x
end

end Spiff
