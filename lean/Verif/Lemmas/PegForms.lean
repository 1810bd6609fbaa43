import Verif.Lemmas.PegKinds
/-
The forms of expressions: the facts of the composed text follow from those of the parts.
-/
namespace Spiff
open Peg

/-- the text is no index -/
def nonIndex (t : Table) : Table := (pIndexTail, .fail []) :: t

def symChars (t : Txt) : List Sym := t.map .ch

/-- the operators of a level with the tokens before and behind the second operand -/
def infixForms : List (Nat × Txt × List SItem × List SItem) :=
  [(2, " * ".toList, [], [.tok .Multiplication []]), (2, " / ".toList, [], [.tok .Division []]), (2, " % ".toList, [], [.tok .Modulo []]),
   (3, " + ".toList, [], [.tok .Addition []]), (3, " - ".toList, [], [.tok .Subtraction []]),
   (5, " -or ".toList, [], [.tok .LogOr []]), (5, " -and ".toList, [], [.tok .LogAnd []]),
   (6, " ".toList, [], [.tok .Concatenation []]),
   (8, " || ".toList, [.tok .OrOp (symChars "||".toList)], [.tok .Or []]), (8, " // ".toList, [.tok .OrOp (symChars "//".toList)], [.tok .Or []]),
   (4, " == ".toList, [.tok .CompareOp (symChars "==".toList)], [.tok .Comparison []]),
   (4, " != ".toList, [.tok .CompareOp (symChars "!=".toList)], [.tok .Comparison []]),
   (4, " <= ".toList, [.tok .CompareOp (symChars "<=".toList)], [.tok .Comparison []]),
   (4, " >= ".toList, [.tok .CompareOp (symChars ">=".toList)], [.tok .Comparison []]),
   (4, " < ".toList, [.tok .CompareOp (symChars "<".toList)], [.tok .Comparison []]),
   (4, " > ".toList, [.tok .CompareOp (symChars ">".toList)], [.tok .Comparison []])]

theorem infix_closed : infixForms.all (fun x => checkTable (tablesOf [closedTable x.1, closedTable (x.1 - 1)])
    ([.hole 0] ++ symChars x.2.1 ++ [.hole 1]) ([.hole 0] ++ x.2.2.1 ++ [.hole 1] ++ x.2.2.2) (nonIndex (closedTable x.1))) = true := by decide +kernel
theorem infix_open : infixForms.all (fun x => checkTable (tablesOf [closedTable x.1, openTable (x.1 - 1)])
    ([.hole 0] ++ symChars x.2.1 ++ [.hole 1]) ([.hole 0] ++ x.2.2.1 ++ [.hole 1] ++ x.2.2.2) (nonIndex (openTable x.1))) = true := by decide +kernel

theorem group_form : checkTable (tablesOf [blankTable]) [.ch '(', .hole 0, .ch ' ', .ch ')'] [.hole 0, .tok .Grouped []] (nonIndex (closedTable 0)) = true := by
  decide +kernel
theorem not_form : checkTable (tablesOf [exprTable]) [.ch '!', .ch '(', .hole 0, .ch ')'] [.hole 0, .tok .Grouped [], .tok .Not []] (nonIndex (closedTable 1)) = true := by
  decide +kernel
theorem subst_form : checkTable (tablesOf [exprTable]) [.ch '*', .ch '(', .hole 0, .ch ')'] [.hole 0, .tok .Grouped [], .tok .Substitution []] (nonIndex (closedTable 1)) = true := by
  decide +kernel
theorem cond_form : checkTable (tablesOf [closedTable 6, blankTable, blankTable]) [.hole 0, .ch ' ', .ch '?', .hole 1, .ch ' ', .ch ':', .hole 2]
    [.hole 0, .hole 1, .hole 2, .tok .Conditional []] (nonIndex (openTable 7)) = true := by decide +kernel
theorem lambdaRef_form : checkTable (tablesOf [exprTable]) (symChars "lambda ".toList ++ [.hole 0]) [.hole 0, .tok .LambdaRef []] (nonIndex (openTable 1)) = true := by
  decide +kernel
theorem range_form : checkTable (tablesOf [exprTable, (.chr '.', .fail []) :: exprTable]) [.ch '[', .hole 0, .ch '.', .ch '.', .hole 1, .ch ']']
    [.tok .StartRange [], .hole 0, .tok .RangeOp [.ch '.', .ch '.'], .hole 1, .tok .Range []] (nonIndex (closedTable 0)) = true := by decide +kernel

/-! ### lists -/

theorem elem_plain : checkTable (tablesOf [exprTable]) [.hole 0] [.hole 0, .tok .NextExpression []] elemTable = true := by decide +kernel
theorem elem_expand : checkTable (tablesOf [exprTable]) [.hole 0, .ch '.', .ch '.', .ch '.']
    [.hole 0, .tok .ListExpansion [], .tok .NextExpression []] elemTable = true := by decide +kernel
theorem elem_expand_idx : checkTable (tablesOf [exprTable]) [.hole 0, .ch '.', .ch '.', .ch '.']
    [.hole 0, .tok .ListExpansion [], .tok .NextExpression []] (nonIndex []) = true := by decide +kernel
theorem elemBlank_plain : checkTable (tablesOf [blankTable]) [.hole 0] [.hole 0, .tok .NextExpression []] elemBlankTable = true := by decide +kernel
theorem elemBlank_expand : checkTable (tablesOf [blankTable]) [.hole 0, .ch '.', .ch '.', .ch '.']
    [.hole 0, .tok .ListExpansion [], .tok .NextExpression []] elemBlankTable = true := by decide +kernel
theorem tail_nil : checkTable (tablesOf []) [] [] tailTable = true := by decide +kernel
theorem tail_cons : checkTable (tablesOf [elemBlankTable, tailTable]) [.ch ',', .hole 0, .hole 1] [.hole 0, .hole 1] tailTable = true := by decide +kernel
theorem list_nil : checkTable (tablesOf []) [.ch '[', .ch ']'] [.tok .StartList [], .tok .List []] (nonIndex (closedTable 0)) = true := by decide +kernel
theorem list_cons : checkTable (tablesOf [elemTable, tailTable]) [.ch '[', .hole 0, .hole 1, .ch ']']
    [.tok .StartList [], .hole 0, .hole 1, .tok .List []] (nonIndex (closedTable 0)) = true := by decide +kernel
theorem dyn_form : checkTable (tablesOf [closedTable 0, (pIndexTail, .fail []) :: elemTable, tailTable]) [.hole 0, .ch '.', .ch '[', .hole 1, .hole 2, .ch ']']
    [.hole 0, .tok .StartList [], .hole 1, .hole 2, .tok .Indices [], .tok .ChainedDynRef []] (nonIndex (closedTable 0)) = true := by decide +kernel
theorem dyn_more : checkTable (tablesOf [closedTable 0, elemTable, elemBlankTable, tailTable]) [.hole 0, .ch '.', .ch '[', .hole 1, .ch ',', .hole 2, .hole 3, .ch ']']
    [.hole 0, .tok .StartList [], .hole 1, .hole 2, .hole 3, .tok .Indices [], .tok .ChainedDynRef []] (nonIndex (closedTable 0)) = true := by decide +kernel

/-! ### calls -/

theorem named_form : checkTable (tablesOf [nameTable, exprTable]) [.hole 0, .ch '=', .hole 1] [.hole 0, .hole 1, .tok .NextNameArgument []] namedTable = true := by
  decide +kernel
theorem namedBlank_form : checkTable (tablesOf [nameTable, exprTable]) [.ch ' ', .hole 0, .ch '=', .hole 1] [.hole 0, .hole 1, .tok .NextNameArgument []] namedBlankTable = true := by
  decide +kernel
theorem namedTail_nil : checkTable (tablesOf []) [] [] namedTailTable = true := by decide +kernel
theorem namedTail_cons : checkTable (tablesOf [namedBlankTable, namedTailTable]) [.ch ',', .hole 0, .hole 1] [.hole 0, .hole 1] namedTailTable = true := by decide +kernel
theorem call_nil_form : checkTable (tablesOf [closedTable 0]) [.hole 0, .ch '(', .ch ')']
    [.hole 0, .tok .StartArguments [], .tok .ChainedCall []] (nonIndex (closedTable 0)) = true := by decide +kernel
theorem call_pos_form : checkTable (tablesOf [closedTable 0, elemTable, tailTable]) [.hole 0, .ch '(', .hole 1, .hole 2, .ch ')']
    [.hole 0, .tok .StartArguments [], .hole 1, .hole 2, .tok .ChainedCall []] (nonIndex (closedTable 0)) = true := by decide +kernel
theorem call_named_form : checkTable (tablesOf [closedTable 0, namedTable, namedTailTable, tailTable]) [.hole 0, .ch '(', .hole 1, .hole 2, .hole 3, .ch ')']
    [.hole 0, .tok .StartArguments [], .hole 1, .hole 2, .hole 3, .tok .ChainedCall []] (nonIndex (closedTable 0)) = true := by decide +kernel
theorem curry_nil_form : checkTable (tablesOf [closedTable 0]) [.hole 0, .ch '*', .ch '(', .ch ')']
    [.hole 0, .tok .StartArguments [], .tok .ChainedCall [], .tok .Currying []] (nonIndex (closedTable 0)) = true := by decide +kernel
theorem curry_pos_form : checkTable (tablesOf [closedTable 0, elemTable, tailTable]) [.hole 0, .ch '*', .ch '(', .hole 1, .hole 2, .ch ')']
    [.hole 0, .tok .StartArguments [], .hole 1, .hole 2, .tok .ChainedCall [], .tok .Currying []] (nonIndex (closedTable 0)) = true := by decide +kernel
theorem curry_named_form : checkTable (tablesOf [closedTable 0, namedTable, namedTailTable, tailTable]) [.hole 0, .ch '*', .ch '(', .hole 1, .hole 2, .hole 3, .ch ')']
    [.hole 0, .tok .StartArguments [], .hole 1, .hole 2, .hole 3, .tok .ChainedCall [], .tok .Currying []] (nonIndex (closedTable 0)) = true := by decide +kernel

/-! ### maps and scopes -/

theorem assign_form : checkTable (tablesOf [exprTable, blankTable]) [.hole 0, .ch ' ', .ch '=', .hole 1] [.hole 0, .hole 1, .tok .Assignment []] assignTable = true := by
  decide +kernel
theorem assignBlank_form : checkTable (tablesOf [blankTable, blankTable]) [.hole 0, .ch ' ', .ch '=', .hole 1] [.hole 0, .hole 1, .tok .Assignment []] assignBlankTable = true := by
  decide +kernel
theorem assignTail_one : checkTable (tablesOf [assignBlankTable]) [.ch ',', .hole 0] [.hole 0] assignTailTable = true := by decide +kernel
theorem assignTail_more : checkTable (tablesOf [assignBlankTable, assignTailTable]) [.ch ',', .hole 0, .hole 1] [.hole 0, .hole 1] assignTailTable = true := by
  decide +kernel
theorem assigns_one : checkTable (tablesOf [assignTable]) [.hole 0] [.hole 0] assignsTable = true := by decide +kernel
theorem assigns_more : checkTable (tablesOf [assignTable, assignTailTable]) [.hole 0, .hole 1] [.hole 0, .hole 1] assignsTable = true := by decide +kernel
theorem map_nil : checkTable (tablesOf []) [.ch '{', .ch ' ', .ch '}'] [.tok .CreateMap []] (nonIndex (closedTable 0)) = true := by decide +kernel
theorem map_cons : checkTable (tablesOf [assignsTable]) [.ch '{', .ch ' ', .hole 0, .ch ' ', .ch '}'] [.tok .CreateMap [], .hole 0] (nonIndex (closedTable 0)) = true := by
  decide +kernel
theorem scope_nil : checkTable (tablesOf [exprTable]) [.ch '(', .ch ' ', .ch ')', .ch ' ', .hole 0] [.tok .CreateScope [], .hole 0] (nonIndex scopeTable) = true := by decide +kernel
theorem scope_cons : checkTable (tablesOf [assignsTable, exprTable]) [.ch '(', .hole 0, .ch ' ', .ch ')', .ch ' ', .hole 1]
    [.tok .CreateScope [], .hole 0, .hole 1] (nonIndex scopeTable) = true := by decide +kernel

/-! ### lambda expressions -/

theorem nameTail_nil : checkTable (tablesOf []) [] [] nameTailTable = true := by decide +kernel
theorem nameTail_cons : checkTable (tablesOf [nameTable, nameTailTable]) [.ch ',', .hole 0, .hole 1] [.hole 0, .tok .NextName [], .hole 1] nameTailTable = true := by
  decide +kernel
theorem defaultTail_nil : checkTable (tablesOf []) [] [] defaultTailTable = true := by decide +kernel
theorem defaultTail_cons : checkTable (tablesOf [nameTable, exprTable, defaultTailTable]) [.ch ',', .hole 0, .ch '=', .hole 1, .hole 2]
    [.hole 0, .tok .NextName [], .hole 1, .tok .DefaultValue [], .hole 2] defaultTailTable = true := by decide +kernel
theorem params_nil : checkTable (tablesOf []) [] [] paramsTable = true := by decide +kernel
theorem params_names : checkTable (tablesOf [nameTable, nameTailTable]) [.hole 0, .hole 1] [.hole 0, .tok .NextName [], .hole 1] paramsTable = true := by
  decide +kernel
theorem params_names_var : checkTable (tablesOf [nameTable, nameTailTable]) [.hole 0, .hole 1, .ch '.', .ch '.', .ch '.']
    [.hole 0, .tok .NextName [], .hole 1, .tok .VarParams []] paramsTable = true := by decide +kernel
theorem params_defaults : checkTable (tablesOf [nameTable, nameTailTable, exprTable, defaultTailTable]) [.hole 0, .hole 1, .ch '=', .hole 2, .hole 3]
    [.hole 0, .tok .NextName [], .hole 1, .hole 2, .tok .DefaultValue [], .hole 3] paramsTable = true := by decide +kernel
theorem params_defaults_var : checkTable (tablesOf [nameTable, nameTailTable, exprTable, defaultTailTable])
    [.hole 0, .hole 1, .ch '=', .hole 2, .hole 3, .ch '.', .ch '.', .ch '.']
    [.hole 0, .tok .NextName [], .hole 1, .hole 2, .tok .DefaultValue [], .hole 3, .tok .VarParams []] paramsTable = true := by decide +kernel
theorem lambda_form : checkTable (tablesOf [paramsTable, exprTable]) (symChars "lambda|".toList ++ [.hole 0, .ch '|', .ch '-', .ch '>', .hole 1])
    [.tok .StartParams [], .hole 0, .hole 1, .tok .LambdaExpr []] (nonIndex (openTable 1)) = true := by decide +kernel

/-- mappings: the text in front and the closing bracket -/
def mappingForms : List (Txt × Char × Rule) :=
  [("map[".toList, ']', .Mapping), ("map{".toList, '}', .MapMapping), ("select[".toList, ']', .Selection), ("select{".toList, '}', .MapSelection),
   ("filter[".toList, ']', .FilterList), ("filter{".toList, '}', .FilterMap), ("catch[".toList, ']', .Catch)]

theorem mapping_form : [closedTable 8, openTable 8].all (fun t => mappingForms.all (fun x => checkTable (tablesOf [t, paramsTable, exprTable])
    (symChars x.1 ++ [.hole 0, .ch '|', .hole 1, .ch '|', .ch '-', .ch '>', .hole 2, .ch x.2.1])
    [.hole 0, .tok .StartParams [], .hole 1, .hole 2, .tok .LambdaExpr [], .tok x.2.2 []] (nonIndex (closedTable 0)))) = true := by decide +kernel
theorem sum_form : [closedTable 8, openTable 8].all (fun t => [closedTable 8, openTable 8].all (fun t' => checkTable (tablesOf [t, t', paramsTable, exprTable])
    (symChars "sum[".toList ++ [.hole 0, .ch '|', .hole 1, .ch '|', .hole 2, .ch '|', .ch '-', .ch '>', .hole 3, .ch ']'])
    [.hole 0, .hole 1, .tok .StartParams [], .hole 2, .hole 3, .tok .LambdaExpr [], .tok .Sum []] (nonIndex (closedTable 0)))) = true := by decide +kernel

end Spiff
