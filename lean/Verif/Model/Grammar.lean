import Verif.Model.Peg
/-
The grammar of dynaml expressions: dynaml/dynaml.peg, rule by rule (the same rules, with the numbers 0-106, are implemented by
dynaml/dynaml.peg.go:700-5281). The empty actions of `ProjectionValue`, `Default` and `StartParams` are `eps`; their tokens
(ruleAction0-2) are ignored by dynaml/parser.go:273-275.
-/
namespace Spiff
open Peg

/-- dynaml.peg.go:16-127 the rules -/
inductive Rule where
  | Dynaml | Prefer | MarkedExpression | SubsequentMarker | Marker | TagMarker | MarkerExpression | Expression | Scoped
  | Scope | CreateScope | Level7 | Or | OrOp | Level6 | Conditional | Level5 | Concatenation | Level4 | LogOr | LogAnd
  | Level3 | Comparison | CompareOp | Level2 | Addition | Subtraction | Level1 | Multiplication | Division | Modulo
  | Level0 | Chained | ChainedQualifiedExpression | ChainedRef | ChainedDynRef | TopIndex | Indices | Slice | Currying
  | ChainedCall | StartArguments | NameArgumentList | NextNameArgument | ExpressionList | NextExpression | ListExpansion
  | Projection | ProjectionValue | Substitution | Not | Grouped | Range | StartRange | RangeOp | Number | String | Boolean
  | Nil | Undefined | Symbol | List | StartList | Map | CreateMap | Assignments | Assignment | Merge | RefMerge
  | SimpleMerge | Replace | Required | On | Auto | Default | Sync | LambdaExt | LambdaOrExpr | Catch | FilterList
  | FilterMap | MapMapping | Mapping | MapSelection | Selection | Sum | Lambda | LambdaRef | LambdaExpr | Params
  | StartParams | Names | NextName | Name | DefaultValue | VarParams | Reference | TagPrefix | Tag | TagComponent
  | FollowUpRef | PathComponent | Key | Index | IP | ws | req_ws
deriving DecidableEq

/-- dynaml/dynaml.peg:5-139 -/
def dynamlRules : Rule → Peg Rule
  | .Dynaml => seqs [alts [.nt .Prefer, .nt .MarkedExpression, .nt .Expression], .neg (.any)]
  | .Prefer => seqs [.nt .ws, lit ['p', 'r', 'e', 'f', 'e', 'r'], .nt .req_ws, .nt .Expression]
  | .MarkedExpression => seqs [.nt .ws, .nt .Marker, .star (seqs [.nt .req_ws, .nt .SubsequentMarker]), .nt .ws, opt (.nt .MarkerExpression), .nt .ws]
  | .SubsequentMarker => .nt .Marker
  | .Marker => seqs [.chr '&', alts [lit ['t', 'e', 'm', 'p', 'l', 'a', 't', 'e'], lit ['t', 'e', 'm', 'p', 'o', 'r', 'a', 'r', 'y'], lit ['l', 'o', 'c', 'a', 'l'], lit ['i', 'n', 'j', 'e', 'c', 't'], lit ['s', 't', 'a', 't', 'e'], lit ['d', 'e', 'f', 'a', 'u', 'l', 't'], lit ['d', 'y', 'n', 'a', 'm', 'i', 'c'], .nt .TagMarker]]
  | .TagMarker => seqs [lit ['t', 'a', 'g', ':'], opt (.chr '*'), .nt .Tag]
  | .MarkerExpression => .nt .Grouped
  | .Expression => seqs [alts [.nt .Scoped, .nt .LambdaExpr, .nt .Level7], .nt .ws]
  | .Scoped => seqs [.nt .ws, .nt .Scope, .nt .ws, .nt .Expression]
  | .Scope => seqs [.nt .CreateScope, .nt .ws, opt (.nt .Assignments), .chr ')']
  | .CreateScope => .chr '('
  | .Level7 => seqs [.nt .ws, .nt .Level6, .star (seqs [.nt .req_ws, .nt .Or])]
  | .Or => seqs [.nt .OrOp, .nt .req_ws, .nt .Level6]
  | .OrOp => alts [lit ['|', '|'], lit ['/', '/']]
  | .Level6 => alts [.nt .Conditional, .nt .Level5]
  | .Conditional => seqs [.nt .Level5, .nt .ws, .chr '?', .nt .Expression, .chr ':', .nt .Expression]
  | .Level5 => seqs [.nt .Level4, .star (.nt .Concatenation)]
  | .Concatenation => seqs [.nt .req_ws, .nt .Level4]
  | .Level4 => seqs [.nt .Level3, .star (seqs [.nt .req_ws, alts [.nt .LogOr, .nt .LogAnd]])]
  | .LogOr => seqs [lit ['-', 'o', 'r'], .nt .req_ws, .nt .Level3]
  | .LogAnd => seqs [lit ['-', 'a', 'n', 'd'], .nt .req_ws, .nt .Level3]
  | .Level3 => seqs [.nt .Level2, .star (seqs [.nt .req_ws, .nt .Comparison])]
  | .Comparison => seqs [.nt .CompareOp, .nt .req_ws, .nt .Level2]
  | .CompareOp => alts [lit ['=', '='], lit ['!', '='], lit ['<', '='], lit ['>', '='], .chr '>', .chr '<', .chr '>']
  | .Level2 => seqs [.nt .Level1, .star (seqs [.nt .req_ws, alts [.nt .Addition, .nt .Subtraction]])]
  | .Addition => seqs [.chr '+', .nt .req_ws, .nt .Level1]
  | .Subtraction => seqs [.chr '-', .nt .req_ws, .nt .Level1]
  | .Level1 => seqs [.nt .Level0, .star (seqs [.nt .req_ws, alts [.nt .Multiplication, .nt .Division, .nt .Modulo]])]
  | .Multiplication => seqs [.chr '*', .nt .req_ws, .nt .Level0]
  | .Division => seqs [.chr '/', .nt .req_ws, .nt .Level0]
  | .Modulo => seqs [.chr '%', .nt .req_ws, .nt .Level0]
  | .Level0 => alts [.nt .IP, .nt .String, .nt .Number, .nt .Boolean, .nt .Undefined, .nt .Nil, .nt .Symbol, .nt .Not, .nt .Substitution, .nt .Merge, .nt .Auto, .nt .Lambda, .nt .Chained]
  | .Chained => seqs [alts [.nt .MapMapping, .nt .Sync, .nt .Catch, .nt .Mapping, .nt .FilterList, .nt .FilterMap, .nt .MapSelection, .nt .Selection, .nt .Sum, .nt .List, .nt .Map, .nt .Range, .nt .Grouped, .nt .Reference, .nt .TopIndex], .star (.nt .ChainedQualifiedExpression)]
  | .ChainedQualifiedExpression => alts [.nt .ChainedCall, .nt .Currying, .nt .ChainedRef, .nt .ChainedDynRef, .nt .Projection]
  | .ChainedRef => seqs [.nt .PathComponent, .nt .FollowUpRef]
  | .ChainedDynRef => seqs [opt (.chr '.'), .nt .Indices]
  | .TopIndex => seqs [.chr '.', .nt .Indices]
  | .Indices => seqs [.nt .StartList, .nt .ExpressionList, .chr ']']
  | .Slice => .nt .Range
  | .Currying => seqs [.chr '*', .nt .ChainedCall]
  | .ChainedCall => seqs [.nt .StartArguments, opt (.nt .NameArgumentList), .chr ')']
  | .StartArguments => seqs [.chr '(', .nt .ws]
  | .NameArgumentList => seqs [alts [seqs [.nt .NextNameArgument, .star (seqs [.chr ',', .nt .NextNameArgument])], .nt .NextExpression], .star (seqs [.chr ',', .nt .NextExpression])]
  | .NextNameArgument => seqs [.nt .ws, .nt .Name, .nt .ws, .chr '=', .nt .ws, .nt .Expression, .nt .ws]
  | .ExpressionList => seqs [.nt .NextExpression, .star (seqs [.chr ',', .nt .NextExpression])]
  | .NextExpression => seqs [.nt .Expression, opt (.nt .ListExpansion)]
  | .ListExpansion => seqs [lit ['.', '.', '.'], .nt .ws]
  | .Projection => seqs [opt (.chr '.'), alts [lit ['[', '*', ']'], .nt .Slice], .nt .ProjectionValue, .star (.nt .ChainedQualifiedExpression)]
  | .ProjectionValue => .eps
  | .Substitution => seqs [.chr '*', .nt .Level0]
  | .Not => seqs [.chr '!', .nt .ws, .nt .Level0]
  | .Grouped => seqs [.chr '(', .nt .Expression, .chr ')']
  | .Range => seqs [.nt .StartRange, opt (.nt .Expression), .nt .RangeOp, opt (.nt .Expression), .chr ']']
  | .StartRange => .chr '['
  | .RangeOp => lit ['.', '.']
  | .Number => seqs [opt (.chr '-'), .rng '0' '9', .star (alts [.rng '0' '9', .chr '_']), opt (seqs [.chr '.', .rng '0' '9', .star (.rng '0' '9')]), opt (seqs [alts [.chr 'e', .chr 'E'], opt (.chr '-'), .rng '0' '9', .star (.rng '0' '9')]), .neg (lit [':', ':'])]
  | .String => seqs [.chr '"', .star (alts [lit ['\\', '"'], seqs [.neg (.chr '"'), .any]]), .chr '"']
  | .Boolean => alts [lit ['t', 'r', 'u', 'e'], lit ['f', 'a', 'l', 's', 'e']]
  | .Nil => alts [lit ['n', 'i', 'l'], .chr '~']
  | .Undefined => lit ['~', '~']
  | .Symbol => seqs [.chr '$', .nt .Name]
  | .List => seqs [.nt .StartList, opt (.nt .ExpressionList), .chr ']']
  | .StartList => seqs [.chr '[', .nt .ws]
  | .Map => seqs [.nt .CreateMap, .nt .ws, opt (.nt .Assignments), .chr '}']
  | .CreateMap => .chr '{'
  | .Assignments => seqs [.nt .Assignment, .star (seqs [.chr ',', .nt .Assignment])]
  | .Assignment => seqs [.nt .Expression, .chr '=', .nt .Expression]
  | .Merge => alts [.nt .RefMerge, .nt .SimpleMerge]
  | .RefMerge => seqs [lit ['m', 'e', 'r', 'g', 'e'], .neg (seqs [.nt .req_ws, .nt .Required]), opt (seqs [.nt .req_ws, alts [.nt .Replace, .nt .On]]), .nt .req_ws, .nt .Reference]
  | .SimpleMerge => seqs [lit ['m', 'e', 'r', 'g', 'e'], .neg (.chr '('), opt (seqs [.nt .req_ws, alts [.nt .Replace, .nt .Required, .nt .On]])]
  | .Replace => lit ['r', 'e', 'p', 'l', 'a', 'c', 'e']
  | .Required => lit ['r', 'e', 'q', 'u', 'i', 'r', 'e', 'd']
  | .On => seqs [lit ['o', 'n'], .nt .req_ws, .nt .Name]
  | .Auto => lit ['a', 'u', 't', 'o']
  | .Default => .eps
  | .Sync => seqs [lit ['s', 'y', 'n', 'c', '['], .nt .Level7, alts [seqs [alts [seqs [.nt .LambdaExpr, .nt .LambdaExt], seqs [.nt .LambdaOrExpr, .nt .LambdaOrExpr]], alts [seqs [.chr '|', .nt .Expression], .nt .Default]], seqs [.nt .LambdaOrExpr, .nt .Default, .nt .Default]], .chr ']']
  | .LambdaExt => seqs [.chr ',', .nt .Expression]
  | .LambdaOrExpr => alts [.nt .LambdaExpr, seqs [.chr '|', .nt .Expression]]
  | .Catch => seqs [lit ['c', 'a', 't', 'c', 'h', '['], .nt .Level7, .nt .LambdaOrExpr, .chr ']']
  | .FilterList => seqs [lit ['f', 'i', 'l', 't', 'e', 'r', '['], .nt .Level7, .nt .LambdaOrExpr, .chr ']']
  | .FilterMap => seqs [lit ['f', 'i', 'l', 't', 'e', 'r', '{'], .nt .Level7, .nt .LambdaOrExpr, .chr '}']
  | .MapMapping => seqs [lit ['m', 'a', 'p', '{'], .nt .Level7, .nt .LambdaOrExpr, .chr '}']
  | .Mapping => seqs [lit ['m', 'a', 'p', '['], .nt .Level7, .nt .LambdaOrExpr, .chr ']']
  | .MapSelection => seqs [lit ['s', 'e', 'l', 'e', 'c', 't', '{'], .nt .Level7, .nt .LambdaOrExpr, .chr '}']
  | .Selection => seqs [lit ['s', 'e', 'l', 'e', 'c', 't', '['], .nt .Level7, .nt .LambdaOrExpr, .chr ']']
  | .Sum => seqs [lit ['s', 'u', 'm', '['], .nt .Level7, .chr '|', .nt .Level7, .nt .LambdaOrExpr, .chr ']']
  | .Lambda => seqs [lit ['l', 'a', 'm', 'b', 'd', 'a'], alts [.nt .LambdaRef, .nt .LambdaExpr]]
  | .LambdaRef => seqs [.nt .req_ws, .nt .Expression]
  | .LambdaExpr => seqs [.nt .ws, .nt .Params, .nt .ws, lit ['-', '>'], .nt .Expression]
  | .Params => seqs [.chr '|', .nt .StartParams, .nt .ws, opt (.nt .Names), .chr '|']
  | .StartParams => .eps
  | .Names => seqs [.nt .NextName, .star (seqs [.chr ',', .nt .NextName]), opt (.nt .DefaultValue), .star (seqs [.chr ',', .nt .NextName, .nt .DefaultValue]), opt (.nt .VarParams)]
  | .NextName => seqs [.nt .ws, .nt .Name, .nt .ws]
  | .Name => plus (alts [.rng 'a' 'z', .rng 'A' 'Z', .rng '0' '9', .chr '_'])
  | .DefaultValue => seqs [.chr '=', .nt .Expression]
  | .VarParams => seqs [lit ['.', '.', '.'], .nt .ws]
  | .Reference => seqs [alts [seqs [.nt .TagPrefix, alts [.chr '.', .nt .Key]], seqs [opt (.chr '.'), .nt .Key]], .nt .FollowUpRef]
  | .TagPrefix => seqs [alts [seqs [lit ['d', 'o', 'c'], alts [.chr '.', .chr ':'], opt (.chr '-'), plus (.rng '0' '9')], .nt .Tag], lit [':', ':']]
  | .Tag => seqs [.nt .TagComponent, .star (seqs [alts [.chr '.', .chr ':'], .nt .TagComponent])]
  | .TagComponent => seqs [alts [.rng 'a' 'z', .rng 'A' 'Z', .chr '_'], .star (alts [.rng 'a' 'z', .rng 'A' 'Z', .rng '0' '9', .chr '_'])]
  | .FollowUpRef => .star (.nt .PathComponent)
  | .PathComponent => alts [seqs [.chr '.', .nt .Key], seqs [opt (.chr '.'), .nt .Index]]
  | .Key => seqs [alts [.rng 'a' 'z', .rng 'A' 'Z', .rng '0' '9', .chr '_'], .star (alts [.rng 'a' 'z', .rng 'A' 'Z', .rng '0' '9', .chr '_', .chr '-']), opt (seqs [.chr ':', alts [.rng 'a' 'z', .rng 'A' 'Z', .rng '0' '9', .chr '_'], .star (alts [.rng 'a' 'z', .rng 'A' 'Z', .rng '0' '9', .chr '_', .chr '-'])])]
  | .Index => seqs [.chr '[', opt (.chr '-'), plus (.rng '0' '9'), .chr ']']
  | .IP => seqs [plus (.rng '0' '9'), .chr '.', plus (.rng '0' '9'), .chr '.', plus (.rng '0' '9'), .chr '.', plus (.rng '0' '9')]
  | .ws => .star (alts [.chr ' ', .chr '\t', .chr '\n', .chr '\r'])
  | .req_ws => plus (alts [.chr ' ', .chr '\t', .chr '\n', .chr '\r'])

end Spiff
