import Verif.Lemmas.PegHole
/-
The tables of facts for the texts of expressions.
-/
namespace Spiff
open Peg

def pCQE : Peg Rule := .nt .ChainedQualifiedExpression
def pB1 : Peg Rule := seqs [.nt .req_ws, alts [.nt .Multiplication, .nt .Division, .nt .Modulo]]
def pB2 : Peg Rule := seqs [.nt .req_ws, alts [.nt .Addition, .nt .Subtraction]]
def pB3 : Peg Rule := seqs [.nt .req_ws, .nt .Comparison]
def pB4 : Peg Rule := seqs [.nt .req_ws, alts [.nt .LogOr, .nt .LogAnd]]
def pB5 : Peg Rule := .nt .Concatenation
def pCond : Peg Rule := seqs [.nt .ws, .chr '?', .nt .Expression, .chr ':', .nt .Expression]
def pB7 : Peg Rule := seqs [.nt .req_ws, .nt .Or]
def pIndexTail : Peg Rule := seqs [opt (.chr '-'), plus (.rng '0' '9'), .chr ']']
def pNaTail : Peg Rule := seqs [.nt .ws, .chr '=', .nt .ws, .nt .Expression, .nt .ws]
def pNaBody : Peg Rule := .seq (.nt .Name) pNaTail
def pPrefer : Peg Rule := seqs [lit ['p', 'r', 'e', 'f', 'e', 'r'], .nt .req_ws, .nt .Expression]
def pDotWord : Peg Rule := .seq (.chr '.') (alts [.rng 'a' 'z', .rng 'A' 'Z', .rng '0' '9', .chr '_'])
def pScopeRest : Peg Rule := seqs [.nt .ws, opt (.nt .Assignments), .chr ')']
def pEqTail : Peg Rule := seqs [.nt .ws, .chr '=', .nt .Expression]
def pScoped : Peg Rule := seqs [.nt .Scope, .nt .ws, .nt .Expression]
def pLevel7 : Peg Rule := seqs [.nt .Level6, .star pB7]

/-- what must not follow a word -/
def need0 : List (Peg Rule) :=
  [.rng 'a' 'z', .rng 'A' 'Z', .rng '0' '9', .chr '_', .chr '-', .chr ':', .chr '[', .chr '{', .nt .PathComponent, pDotWord]
def need1 : List (Peg Rule) := need0 ++ [pCQE]
def need2 := need1 ++ [pB1]
def need3 := need2 ++ [pB2]
def need4 := need3 ++ [pB3]
def need5 := need4 ++ [pB4]
/-- what must not follow a merge -/
def needMerge : List (Peg Rule) :=
  [.chr '(', seqs [.nt .req_ws, .nt .Required], seqs [.nt .req_ws, alts [.nt .Replace, .nt .On]], seqs [.nt .req_ws, .nt .Reference],
   seqs [.nt .req_ws, alts [.nt .Replace, .nt .Required, .nt .On]]]
def need6 := need5 ++ [pB5, pCond] ++ needMerge
/-- what must not follow an expression -/
def needAll := need6 ++ [pB7]

/-- what must not follow the name of a reference at the place of a named argument -/
def needName := need0 ++ [pNaTail]

/-- what must not follow a number -/
def needIndex := need0 ++ [.chr ']']

/-- characters no expression starts with -/
def nonStart : List Char := [' ', '\t', '\n', '\r', '|', '/', '%', '+', '<', '>', '=', ')', ']', '}', ',', '?', ':', '&']

/-- no expression starts with these -/
def startTable : Table :=
  nonStart.map (fun c => (.chr c, .fail [])) ++
  [.Multiplication, .Division, .Modulo, .Addition, .Subtraction, .Comparison, .LogOr, .LogAnd, .Or].map (fun r => (.nt r, .fail [])) ++
  [(pIndexTail, .fail needIndex), (pNaBody, .fail needName), (pPrefer, .fail need0)]

def operandTable (p : Peg Rule) (f : HFact) : Table := (p, f) :: (.nt .Scope, .fail []) :: startTable

/-- expressions that end with a complete operand, by their level -/
def closedTable : Nat → Table
  | 0 => operandTable (.nt .Level0) (.cont need0 (.star pCQE))
  | 1 => operandTable (.nt .Level0) (.cont need1 .eps)
  | 2 => operandTable (.nt .Level1) (.cont need1 (.star pB1))
  | 3 => operandTable (.nt .Level2) (.cont need2 (.star pB2))
  | 4 => operandTable (.nt .Level3) (.cont need3 (.star pB3))
  | 5 => operandTable (.nt .Level4) (.cont need4 (.star pB4))
  | 6 => operandTable (.nt .Level5) (.cont need5 (.star pB5))
  | 7 => operandTable (.nt .Level6) (.cont need6 .eps)
  | _ => operandTable pLevel7 (.cont need6 (.star pB7))

/-- expressions ending with an expression, as lambda expressions and conditionals -/
def openTable : Nat → Table
  | 0 => []
  | 1 => operandTable (.nt .Level0) (.cont needAll wsPeg)
  | 2 => operandTable (.nt .Level1) (.cont needAll wsPeg)
  | 3 => operandTable (.nt .Level2) (.cont needAll wsPeg)
  | 4 => operandTable (.nt .Level3) (.cont needAll wsPeg)
  | 5 => operandTable (.nt .Level4) (.cont needAll wsPeg)
  | 6 => operandTable (.nt .Level5) (.cont needAll wsPeg)
  | 7 => operandTable (.nt .Level6) (.cont needAll wsPeg)
  | _ => operandTable pLevel7 (.cont needAll wsPeg)

/-- expressions in local scopes -/
def scopeTable : Table := (pScoped, .cont needAll wsPeg) :: startTable

/-- all expressions -/
def exprTable : Table := (.nt .Expression, .cont needAll wsPeg) :: startTable

/-- all expressions with a blank in front -/
def blankTable : Table :=
  [(.nt .Expression, .cont needAll wsPeg), (pScopeRest, .fail (needAll ++ [pEqTail])), (.nt .NextNameArgument, .fail needName), (.chr '=', .fail [])]

/-! ### parts of lists, maps, calls and lambda expressions -/

def needBlank := needAll ++ blanks
def needElem := needBlank ++ [.nt .ListExpansion]
def pMore : Peg Rule := seqs [.chr ',', .nt .NextExpression]
def pNaMore : Peg Rule := seqs [.chr ',', .nt .NextNameArgument]
def pAssignMore : Peg Rule := seqs [.chr ',', .nt .Assignment]
def pNameMore : Peg Rule := seqs [.chr ',', .nt .NextName]
def pDefaultMore : Peg Rule := seqs [.chr ',', .nt .NextName, .nt .DefaultValue]

/-- the behaviour at the following text -/
def throughTable (l : List (Peg Rule)) : Table := l.map (fun n => (n, .fail [n]))
def neverTable (l : List (Peg Rule)) : Table := l.map (fun n => (n, .fail []))

/-- an element of a list -/
def elemTable : Table := (.nt .NextExpression, .cont needElem .eps) :: startTable
/-- the same with a blank -/
def elemBlankTable : Table := [(.nt .NextExpression, .cont needElem .eps), (.nt .NextNameArgument, .fail needName)]
/-- the further elements -/
def tailTable : Table :=
  [(.star pMore, .cont (needElem ++ [.chr ',']) .eps), (pNaMore, .fail (.chr ',' :: needName)), (pNaTail, .fail [pNaTail]), (.chr ']', .fail [.chr ']'])] ++ throughTable needElem

def wordNeeds : List (Peg Rule) := [.rng 'a' 'z', .rng 'A' 'Z', .rng '0' '9', .chr '_']
/-- a name -/
def nameTable : Table := (.nt .Name, .cont wordNeeds .eps) :: nonStart.map (fun c => (.chr c, .fail []))
/-- a named argument -/
def namedTable : Table := (.nt .NextNameArgument, .cont needBlank .eps) :: nonStart.map (fun c => (.chr c, .fail []))
def namedBlankTable : Table := [(.nt .NextNameArgument, .cont needBlank .eps)]
/-- further named arguments -/
def namedTailTable : Table := (.star pNaMore, .cont (needBlank ++ [pNaMore]) .eps) :: throughTable needBlank

/-- an assignment -/
def assignTable : Table := (.nt .Assignment, .cont needAll wsPeg) :: nonStart.map (fun c => (.chr c, .fail []))
def assignBlankTable : Table := [(.nt .Assignment, .cont needAll wsPeg)]
/-- further assignments, at least one -/
def assignTailTable : Table := (.star pAssignMore, .cont (needAll ++ [.seq (.nt .ws) pAssignMore]) wsPeg) :: neverTable (needAll ++ blanks)
/-- assignments, at least one -/
def assignsTable : Table := (.nt .Assignments, .cont (needAll ++ [.seq (.nt .ws) pAssignMore]) wsPeg) :: nonStart.map (fun c => (.chr c, .fail []))

/-- further parameters without defaults -/
def nameTailTable : Table := (.star pNameMore, .cont (wordNeeds ++ blanks ++ [.chr ',']) .eps) :: throughTable (wordNeeds ++ blanks)
/-- further parameters with defaults -/
def defaultTailTable : Table := (.star pDefaultMore, .cont (needBlank ++ [.chr ',']) .eps) :: throughTable needBlank
/-- the parameters of a lambda expression -/
def needParams := needBlank ++ [.chr ',', .chr '=', .chr '.']
def paramsTable : Table := (opt (.nt .Names), .cont needParams .eps) :: throughTable blanks

/-- tables for holes -/
def tablesOf (l : List Table) (i : Nat) : Table := (l[i]?).getD []

theorem closed_up : (List.range 8).all (fun k => checkTable (tablesOf [closedTable k]) [.hole 0] [.hole 0] (closedTable (k + 1))) = true := by
  decide +kernel
theorem open_up : (List.range 7).all (fun k => checkTable (tablesOf [openTable (k + 1)]) [.hole 0] [.hole 0] (openTable (k + 2))) = true := by
  decide +kernel
theorem closed_expr : checkTable (tablesOf [closedTable 8]) [.hole 0] [.hole 0] exprTable = true := by decide +kernel
theorem open_expr : checkTable (tablesOf [openTable 8]) [.hole 0] [.hole 0] exprTable = true := by decide +kernel
theorem scope_expr : checkTable (tablesOf [scopeTable]) [.hole 0] [.hole 0, .tok .Scoped []] exprTable = true := by decide +kernel
theorem closed_blank : checkTable (tablesOf [closedTable 8]) [.ch ' ', .hole 0] [.hole 0] blankTable = true := by decide +kernel
theorem open_blank : checkTable (tablesOf [openTable 8]) [.ch ' ', .hole 0] [.hole 0] blankTable = true := by decide +kernel
theorem scope_blank : checkTable (tablesOf [scopeTable]) [.ch ' ', .hole 0] [.hole 0, .tok .Scoped []] blankTable = true := by decide +kernel

end Spiff
