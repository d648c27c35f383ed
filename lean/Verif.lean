import Verif.Model.Annot
import Verif.Model.Api
import Verif.Model.Basic
import Verif.Model.Build
import Verif.Model.Ctor
import Verif.Model.Enc
import Verif.Model.ParseBasic
import Verif.Model.ParseMore
import Verif.Model.Pdag
import Verif.Model.Report
import Verif.Model.Samp
import Verif.Model.Tool
import Verif.Model.ToolMain
import Verif.Model.V1
import Verif.Model.V1Parse
import Verif.Model.V1Samp
import Verif.Proofs.Alt
import Verif.Proofs.AltB
import Verif.Proofs.AltC
import Verif.Proofs.AltD
import Verif.Proofs.Cur
import Verif.Proofs.Dates
import Verif.Proofs.Doc
import Verif.Proofs.DocB
import Verif.Proofs.DocC
import Verif.Proofs.DocD
import Verif.Proofs.DocFar
import Verif.Proofs.DocT
import Verif.Proofs.DocTB
import Verif.Proofs.DocTC
import Verif.Proofs.DocTD
import Verif.Proofs.DocTFar
import Verif.Proofs.Dot
import Verif.Proofs.Enc
import Verif.Proofs.Engine
import Verif.Proofs.FieldConf
import Verif.Proofs.FieldKind
import Verif.Proofs.Fields
import Verif.Proofs.Finish
import Verif.Proofs.Heap
import Verif.Proofs.HeapAdd
import Verif.Proofs.HeapDel
import Verif.Proofs.HeapOpt
import Verif.Proofs.Include
import Verif.Proofs.Match
import Verif.Proofs.Mono
import Verif.Proofs.Narrow
import Verif.Proofs.Nested
import Verif.Proofs.NestedComplete
import Verif.Proofs.NestedFar
import Verif.Proofs.NoFail
import Verif.Proofs.NoShare
import Verif.Proofs.OptHolds
import Verif.Proofs.OptReach
import Verif.Proofs.OptReachH
import Verif.Proofs.OptSem
import Verif.Proofs.OptSort
import Verif.Proofs.OptTotal
import Verif.Proofs.RLemmas
import Verif.Proofs.RepTree
import Verif.Proofs.RepTreeBuild
import Verif.Proofs.RepTreeFin
import Verif.Proofs.RepTreeOpt
import Verif.Proofs.Repeat
import Verif.Proofs.RepeatBuild
import Verif.Proofs.RepeatFin
import Verif.Proofs.RepeatOpt
import Verif.Proofs.RepeatTotal
import Verif.Proofs.Report
import Verif.Proofs.Safety
import Verif.Proofs.SafetyA
import Verif.Proofs.SafetyB
import Verif.Proofs.SafetyC
import Verif.Proofs.SafetyD
import Verif.Proofs.SafetyE
import Verif.Proofs.Samp
import Verif.Proofs.SampDoc
import Verif.Proofs.SampErrs
import Verif.Proofs.SampTerm
import Verif.Proofs.SampVer
import Verif.Proofs.Sep
import Verif.Proofs.SepHist
import Verif.Proofs.StructA
import Verif.Proofs.StructB
import Verif.Proofs.StructC
import Verif.Proofs.ToolMain
import Verif.Proofs.Trie
import Verif.Proofs.Types
import Verif.Proofs.V1
import Verif.Proofs.V1Cef
import Verif.Proofs.V1Doc
import Verif.Proofs.V1Fields
import Verif.Proofs.V1Gen
import Verif.Proofs.V1Nested
import Verif.Proofs.V1Norm
import Verif.Proofs.V1Within
import Verif.Proofs.V6
import Verif.Proofs.V6Exact
import Verif.Proofs.Walk
import Verif.Props.Annot
import Verif.Props.Api
import Verif.Props.ApiHist
import Verif.Props.ApiV1
import Verif.Props.Build
import Verif.Props.Chars
import Verif.Props.Dates
import Verif.Props.Doc
import Verif.Props.DocA
import Verif.Props.DocR
import Verif.Props.DocRs
import Verif.Props.DocT
import Verif.Props.Enc
import Verif.Props.Engine
import Verif.Props.Examples
import Verif.Props.FieldConf
import Verif.Props.FieldsA
import Verif.Props.FieldsB
import Verif.Props.FieldsC
import Verif.Props.FieldsD
import Verif.Props.FieldsE
import Verif.Props.FieldsF
import Verif.Props.FieldsG
import Verif.Props.FieldsH
import Verif.Props.FieldsI
import Verif.Props.FieldsJ
import Verif.Props.Include
import Verif.Props.LoadMem
import Verif.Props.LongNames
import Verif.Props.Malformed
import Verif.Props.Match
import Verif.Props.Nested
import Verif.Props.Optimize
import Verif.Props.RepeatConf
import Verif.Props.Report
import Verif.Props.Rules
import Verif.Props.Safety
import Verif.Props.Samp
import Verif.Props.Tool
import Verif.Props.ToolDoc
import Verif.Props.ToolMain
import Verif.Props.Types
import Verif.Props.V1
import Verif.Props.V1Doc
import Verif.Props.V1Fields
import Verif.Props.V1Ipt
import Verif.Props.V1Nested
import Verif.Spec.Addr
import Verif.Spec.Api
import Verif.Spec.Dates
import Verif.Spec.Doc
import Verif.Spec.DocA
import Verif.Spec.DocR
import Verif.Spec.DocRs
import Verif.Spec.DocT
import Verif.Spec.Enc
import Verif.Spec.FieldConf
import Verif.Spec.Fields
import Verif.Spec.Include
import Verif.Spec.LoadTerm
import Verif.Spec.Match
import Verif.Spec.Nested
import Verif.Spec.Ops
import Verif.Spec.Prio
import Verif.Spec.Repeat
import Verif.Spec.RepeatConf
import Verif.Spec.Report
import Verif.Spec.Rulebase
import Verif.Spec.Rules
import Verif.Spec.Safety
import Verif.Spec.Struct
import Verif.Spec.Tool
import Verif.Spec.ToolMain
import Verif.Spec.Types
import Verif.Spec.V1
import Verif.Spec.V1Doc
import Verif.Spec.V1Fields
import Verif.Spec.V1Ipt
import Verif.Spec.V1Nested
