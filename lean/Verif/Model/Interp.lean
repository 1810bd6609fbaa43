import Verif.Model.Find
/-
Model of yaml/interpolation.go (string interpolation) and of
yaml/node.go:522-582 (`EmbeddedDynaml`, `UnescapeDynaml`).
Strings are handled as lists of characters.
-/
namespace Spiff

/-- Local variables of `convertToExpression` (yaml/interpolation.go:17-25). -/
structure CState where
  mask  : Bool := false
  quote : Bool := false
  start : Bool := false
  ob    : Nat := 0
  lvl   : Nat := 0
  expr  : List Char := []
  str   : List Char := []
  result : List Char := []
  found : Bool := false
deriving DecidableEq, Repr

/-- `strings.TrimSpace` (ASCII white space). -/
def isSpaceC (c : Char) : Bool :=
  c = ' ' || c = '\t' || c = '\n' || c = '\r' || c.toNat = 11 || c.toNat = 12
def trimSpace (l : List Char) : List Char :=
  ((l.dropWhile isSpaceC).reverse.dropWhile isSpaceC).reverse

/-- yaml/interpolation.go:102-131 `addExpr`. `quote` is `json.Marshal` of a
string (a parameter of the model). The Bool is the function result. -/
def addExpr (quote : List Char → List Char) (final unescape : Bool) (s : CState) : CState × Bool :=
  -- line 103-106
  let s := if unescape && ['!'].isPrefixOf s.expr then
      { s with str := s.str ++ "((".toList ++ s.expr.tail ++ [')'], expr := [] } else s
  -- line 107-110
  let s := if ['!'].isPrefixOf s.expr then
      { s with str := s.str ++ "((".toList ++ s.expr ++ [')'], expr := [] } else s
  -- line 111-113
  if s.expr = [] && (s.result = [] || !final) then (s, false)
  else
    -- line 114-120
    let r := if s.str ≠ [] then
        (if s.result ≠ [] then s.result ++ [' '] else s.result) ++ quote s.str else s.result
    -- line 121-123
    let e := if s.expr ≠ [] then "( ".toList ++ trimSpace s.expr.dropLast ++ " )".toList else []
    -- line 124-127
    let r := if r ≠ [] && e ≠ [] then r ++ [' '] else r
    ({ s with result := r ++ e, expr := [], str := [] }, true)

/-- loop body of `convertToExpression` (yaml/interpolation.go:27-89). -/
def convStep (quote : List Char → List Char) (unescape : Bool) (s : CState) (c : Char) : CState :=
  if s.start then
    if s.quote then
      -- line 29-42
      let s := if c = '"' then
          { s with quote := if s.mask then s.quote else false, mask := false }
        else if c = '\\' then { s with mask := !s.mask }
        else { s with mask := false }
      { s with expr := s.expr ++ [c] }
    else
      -- line 43-68
      let s := if c = '(' then { s with lvl := s.lvl + 1 }
        else if c = ')' then
          if s.lvl > 0 then { s with lvl := s.lvl - 1 }
          else if s.ob + 1 = 2 then
            let (s', f) := addExpr quote false unescape { s with start := false, ob := 0 }
            { s' with found := f || s'.found }
          else { s with ob := s.ob + 1 }
        else if c = '"' then { s with quote := true }
        else s
      let s := if s.start then { s with expr := s.expr ++ [c] } else s
      if c ≠ ')' then { s with ob := 0 } else s
  else
    -- line 69-88
    let s := if c = '(' then { s with ob := s.ob + 1 }
      else if s.ob ≥ 2 then
        { s with start := true, str := s.str.take (s.str.length - 2), expr := [c], ob := 0 }
      else s
    if !s.start then
      let s := { s with str := s.str ++ [c] }
      if c ≠ '(' then { s with ob := 0 } else s
    else s

/-- yaml/interpolation.go:16-100 `convertToExpression`: `.inl str` is
`(&str, nil)`, `.inr expr` is `(nil, &result)`. -/
def convertToExpression (quote : List Char → List Char) (s : List Char) (unescape : Bool) :
    List Char ⊕ List Char :=
  let st := s.foldl (convStep quote unescape) {}
  -- line 91-94
  let st := if st.start then { st with str := st.str ++ "((".toList ++ st.expr, expr := [] } else st
  -- line 95-99
  let (st', f) := addExpr quote true unescape st
  if f || st'.found then .inr st'.result else .inl st'.str

/-- `strings.HasSuffix` on character lists -/
def isSuffix (p s : List Char) : Bool := p.reverse.isPrefixOf s.reverse

/-- the test `HasPrefix(s,"((") && HasSuffix(s,"))")` and `s[2:len(s)-2]`
(yaml/node.go:527-529, 548-550). -/
def dynamlBody (s : List Char) : Option (List Char) :=
  if "((".toList.isPrefixOf s && isSuffix "))".toList s then
    some ((s.drop 2).take (s.length - 4))
  else none

/-- yaml/node.go:522-540 `EmbeddedDynaml` on a string value. -/
def embeddedDynaml (quote : List Char → List Char) (interpol : Bool) (s : List Char) : Option (List Char) :=
  match dynamlBody s with
  | some sub => if ['!'].isPrefixOf sub then none else some sub
  | none =>
    if !interpol then none
    else match convertToExpression quote s false with
      | .inl _ => none
      | .inr e => some e

/-- string case of yaml/node.go:542-561 `UnescapeDynaml`. -/
def unescapeStr (quote : List Char → List Char) (interpol : Bool) (s : List Char) : List Char :=
  match dynamlBody s with
  | some sub => if ['!'].isPrefixOf sub then "((".toList ++ sub.tail ++ "))".toList else s
  | none =>
    if interpol then
      match convertToExpression quote s true with
      | .inl str => str
      | .inr _ => s
    else s

/-- one key of the map case of yaml/node.go:562-580. The Go code tests the
prefix `<<!` first; a key `<<<!x` does not have this prefix. -/
def unescapeKey (k : String) : String :=
  if hasPrefix k "<<!" then String.ofList ("<<".toList ++ k.toList.drop 3)
  else if hasPrefix k (MERGEKEY ++ "!") then String.ofList (MERGEKEY.toList ++ k.toList.drop 4)
  else k

end Spiff
