import Verif.Lemmas.Agree
import Verif.Lemmas.Index
import Verif.Lemmas.Maps
import Verif.Lemmas.Merge
import Verif.Lemmas.Mono
import Verif.Lemmas.NodeSimp
import Verif.Lemmas.ParseTypes
import Verif.Lemmas.Peg
import Verif.Lemmas.PegForms
import Verif.Lemmas.PegHole
import Verif.Lemmas.PegKinds
import Verif.Lemmas.PegLits
import Verif.Lemmas.PegMerge
import Verif.Lemmas.PegRefs
import Verif.Lemmas.PegStrings
import Verif.Lemmas.PegSym
import Verif.Lemmas.PegWords
import Verif.Lemmas.Plain
import Verif.Lemmas.PrintBuild
import Verif.Lemmas.Reorder
import Verif.Lemmas.Reorder2
import Verif.Lemmas.Reorder3
import Verif.Lemmas.Reorder4
import Verif.Lemmas.Reorder5
import Verif.Lemmas.Reorder6
import Verif.Lemmas.Reorder7
import Verif.Lemmas.Reorder8
import Verif.Lemmas.Reorder9
import Verif.Lemmas.ReorderFns
import Verif.Lemmas.Stable
import Verif.Lemmas.Total
import Verif.Model.Certs
import Verif.Model.Checks
import Verif.Model.Cleanup
import Verif.Model.Closures
import Verif.Model.Command
import Verif.Model.Compare
import Verif.Model.Context
import Verif.Model.Control
import Verif.Model.Convert
import Verif.Model.Crypt
import Verif.Model.Dns
import Verif.Model.Equals
import Verif.Model.Equiv
import Verif.Model.Eval
import Verif.Model.FileFns
import Verif.Model.Files
import Verif.Model.Find
import Verif.Model.Flow
import Verif.Model.For
import Verif.Model.Format
import Verif.Model.Grammar
import Verif.Model.IP
import Verif.Model.Int64
import Verif.Model.Interp
import Verif.Model.Json
import Verif.Model.Lambda
import Verif.Model.LibText
import Verif.Model.Library
import Verif.Model.ListFns
import Verif.Model.Mapping
import Verif.Model.Mask
import Verif.Model.Match
import Verif.Model.Merge
import Verif.Model.Node
import Verif.Model.Ops
import Verif.Model.Passwd
import Verif.Model.Peg
import Verif.Model.Pipeline
import Verif.Model.PubKeys
import Verif.Model.Read
import Verif.Model.Sanitize
import Verif.Model.Scope
import Verif.Model.SemVer
import Verif.Model.Slice
import Verif.Model.StrFns
import Verif.Model.Sync
import Verif.Model.Syntax
import Verif.Model.Tags
import Verif.Model.Template
import Verif.Model.TextFns
import Verif.Model.Unresolved
import Verif.Model.Url
import Verif.Model.Validate
import Verif.Model.Values
import Verif.Model.WgKeys
import Verif.Model.Yaml
import Verif.Model.YamlBytes
import Verif.Model.YamlLayout
import Verif.Model.YamlOut
import Verif.Model.YamlText
import Verif.Props.Alternatives
import Verif.Props.Arith
import Verif.Props.Base64
import Verif.Props.Cascade
import Verif.Props.Certs
import Verif.Props.Checks
import Verif.Props.Cidr
import Verif.Props.Cleanup
import Verif.Props.Closures
import Verif.Props.Closures2
import Verif.Props.Closures3
import Verif.Props.ClosuresCall
import Verif.Props.Command
import Verif.Props.Command2
import Verif.Props.Command3
import Verif.Props.Command4
import Verif.Props.Compare
import Verif.Props.Comparison
import Verif.Props.Context
import Verif.Props.Control
import Verif.Props.Convert
import Verif.Props.Crypt
import Verif.Props.Delay
import Verif.Props.Delay2
import Verif.Props.Delay3
import Verif.Props.Delay4
import Verif.Props.Delay5
import Verif.Props.Delay6
import Verif.Props.Dns
import Verif.Props.Element
import Verif.Props.Equals
import Verif.Props.Equiv
import Verif.Props.Escape
import Verif.Props.EscapeKeys
import Verif.Props.FileFns
import Verif.Props.FileFns2
import Verif.Props.FileFns3
import Verif.Props.FileFns4
import Verif.Props.Files
import Verif.Props.Find
import Verif.Props.Fixpoint
import Verif.Props.Flags
import Verif.Props.Flow
import Verif.Props.For
import Verif.Props.For2
import Verif.Props.Format
import Verif.Props.Fresh
import Verif.Props.IP
import Verif.Props.Interp
import Verif.Props.Intrinsics
import Verif.Props.Ipset
import Verif.Props.Json
import Verif.Props.JsonMore
import Verif.Props.JsonParse
import Verif.Props.JsonScan
import Verif.Props.JsonTokens
import Verif.Props.Lambda
import Verif.Props.Lambda2
import Verif.Props.Lambda3
import Verif.Props.Lambda4
import Verif.Props.LibText
import Verif.Props.Library
import Verif.Props.ListMerge
import Verif.Props.Lists
import Verif.Props.Logic
import Verif.Props.MapFns
import Verif.Props.Mapping
import Verif.Props.Mapping2
import Verif.Props.Match
import Verif.Props.Meaning
import Verif.Props.Meaning2
import Verif.Props.Meaning3
import Verif.Props.Merge
import Verif.Props.MergeExpr
import Verif.Props.MergeText
import Verif.Props.Output
import Verif.Props.Parse
import Verif.Props.ParseNumber
import Verif.Props.Passwd
import Verif.Props.Pipeline
import Verif.Props.Precedence
import Verif.Props.Print
import Verif.Props.PrintLoss
import Verif.Props.Projection
import Verif.Props.PubKeys
import Verif.Props.Read
import Verif.Props.Refs
import Verif.Props.Refs2
import Verif.Props.Reorder
import Verif.Props.ReorderEval
import Verif.Props.ReorderMerge
import Verif.Props.Sanitize
import Verif.Props.Scope
import Verif.Props.SemVer
import Verif.Props.Sheet
import Verif.Props.SheetEnd
import Verif.Props.SheetExample
import Verif.Props.SheetFlow
import Verif.Props.SheetGrammar
import Verif.Props.SheetLoop
import Verif.Props.SheetPass
import Verif.Props.SheetRefs
import Verif.Props.SheetText
import Verif.Props.Slice
import Verif.Props.Sort
import Verif.Props.Strings
import Verif.Props.Sync
import Verif.Props.Tags
import Verif.Props.Template
import Verif.Props.TextFns
import Verif.Props.Unresolved
import Verif.Props.Url
import Verif.Props.Validate
import Verif.Props.Validate2
import Verif.Props.Values
import Verif.Props.Values2
import Verif.Props.WgKeys
import Verif.Props.YamlBytes
import Verif.Props.YamlDecode
import Verif.Props.YamlKeys
import Verif.Props.YamlLayout
import Verif.Props.YamlMarshal
import Verif.Props.YamlOut
import Verif.Props.YamlParse
import Verif.Props.YamlRead
import Verif.Props.YamlReadable
import Verif.Props.YamlScalar
import Verif.Props.YamlScan
import Verif.Props.YamlText
import Verif.Props.YamlWrite
import Verif.Spec.Agree
import Verif.Spec.Certs
import Verif.Spec.Checks
import Verif.Spec.Closures
import Verif.Spec.Command
import Verif.Spec.Compare
import Verif.Spec.Control
import Verif.Spec.Convert
import Verif.Spec.Crypt
import Verif.Spec.Data
import Verif.Spec.Delay
import Verif.Spec.Dns
import Verif.Spec.Equals
import Verif.Spec.Eval
import Verif.Spec.FileFns
import Verif.Spec.For
import Verif.Spec.Format
import Verif.Spec.IP
import Verif.Spec.Interpol
import Verif.Spec.Intrinsics
import Verif.Spec.Json
import Verif.Spec.Lambda
import Verif.Spec.LibText
import Verif.Spec.Library
import Verif.Spec.ListMerge
import Verif.Spec.Lists
import Verif.Spec.Loose
import Verif.Spec.MapFns
import Verif.Spec.Mapping
import Verif.Spec.Match
import Verif.Spec.Meaning
import Verif.Spec.Override
import Verif.Spec.Passwd
import Verif.Spec.Pipeline
import Verif.Spec.Positions
import Verif.Spec.Print
import Verif.Spec.Projection
import Verif.Spec.PubKeys
import Verif.Spec.Read
import Verif.Spec.Refs
import Verif.Spec.Reorder
import Verif.Spec.ReorderEval
import Verif.Spec.Select
import Verif.Spec.SemVer
import Verif.Spec.Sheet
import Verif.Spec.Slice
import Verif.Spec.Syntax
import Verif.Spec.Template
import Verif.Spec.Tree
import Verif.Spec.Types
import Verif.Spec.Url
import Verif.Spec.WgKeys
import Verif.Spec.Yaml
import Verif.Spec.YamlBytes
import Verif.Spec.YamlLayout
import Verif.Spec.YamlOut
import Verif.Spec.YamlScalar
import Verif.Spec.YamlText
