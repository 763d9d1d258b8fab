import Verif.Base
import Verif.Model.StringUtil
import Verif.Model.Values
import Verif.Model.Dom
import Verif.Model.NodeUtil
import Verif.Model.Match
import Verif.Model.Rule
import Verif.Model.Matching
import Verif.Spec.Strings
import Verif.Spec.Doc
import Verif.Spec.Safe
import Verif.Spec.Extract
import Verif.Proofs.StringUtil
import Verif.Proofs.Values
import Verif.Proofs.Dom
import Verif.Proofs.Eval
import Verif.Proofs.Pure
import Verif.Proofs.Refine
import Verif.Proofs.Group
import Verif.Proofs.Sound
import Verif.Proofs.Result
import Verif.Proofs.MkDoc
import Verif.Proofs.Complete
import Verif.Proofs.Run
import Verif.Proofs.Unique
import Verif.Proofs.Once
import Verif.Spec.Example
import Verif.Props.Strings
import Verif.Props.Extract
import Verif.Spec.Text
import Verif.Spec.Conditions
import Verif.Proofs.Conditions
import Verif.Props.Conditions
import Verif.Props.Captures
import Verif.Model.ParserTables
import Verif.Model.Parser
import Verif.Spec.Grammar
import Verif.Proofs.ParserDefs
import Verif.Proofs.ParserData
import Verif.Proofs.ParserCheck
import Verif.Proofs.ParserSearch
import Verif.Proofs.ParserAuto
import Verif.Proofs.ParserLang
import Verif.Spec.Syntax
import Verif.Proofs.ParserWords
import Verif.Proofs.ParserExec
import Verif.Proofs.ParserHead
import Verif.Proofs.ParserNest
import Verif.Proofs.ParserMain
import Verif.Spec.Message
import Verif.Spec.Print
import Verif.Proofs.ParserSafe
import Verif.Proofs.ParserMessage
import Verif.Proofs.ParserPlace
import Verif.Proofs.Print
import Verif.Proofs.PrintAll
import Verif.Proofs.ParserFill
import Verif.Spec.Own
import Verif.Proofs.ParserOwn
import Verif.Props.Parser
import Verif.Proofs.ParserRules
import Verif.Props.Whole
import Verif.Model.RuleMemory
import Verif.Model.RuleRead
import Verif.Spec.Memory
import Verif.Spec.History
import Verif.Proofs.Memory
import Verif.Proofs.MemoryRule
import Verif.Proofs.MemoryOps
import Verif.Proofs.MemoryAppend
import Verif.Proofs.MemoryMove
import Verif.Proofs.MemoryParts
import Verif.Proofs.History
import Verif.Proofs.RuleRead
import Verif.Props.Memory
import Verif.Spec.Json
import Verif.Model.Json
import Verif.Model.Bindings
import Verif.Model.Cli
import Verif.Spec.Cli
import Verif.Spec.NoNul
import Verif.Proofs.Json
import Verif.Proofs.Present
import Verif.Proofs.PhpKey
import Verif.Proofs.Bindings
import Verif.Proofs.Cli
import Verif.Proofs.NoNul
import Verif.Props.Bindings
import Verif.Props.Cli
import Verif.Model.Html
import Verif.Spec.Html
import Verif.Props.Html
import Verif.Model.Calls
import Verif.Props.Calls
import Verif.Spec.Similar
import Verif.Proofs.Param
import Verif.Proofs.Similar
import Verif.Props.Similar
import Verif.Props.SimilarHext
import Verif.Spec.Links
import Verif.Props.EndToEnd
import Verif.Spec.Meaning
import Verif.Proofs.Meaning
import Verif.Props.Meaning
import Verif.Spec.Size
import Verif.Proofs.Bound
import Verif.Props.Bound
import Verif.Spec.CliMeaning
import Verif.Props.CliMeaning
import Verif.Model.Stack
import Verif.Proofs.Stack
import Verif.Props.Stack
import Verif.Model.Throwing
import Verif.Spec.Throwing
import Verif.Proofs.Throwing
import Verif.Props.Throwing
import Verif.Model.ThrowingCli
import Verif.Proofs.ThrowingCli
import Verif.Model.RuleStack
import Verif.Model.TextStack
import Verif.Spec.RuleSize
import Verif.Spec.TextStack
import Verif.Proofs.RuleStack
import Verif.Proofs.HextSize
import Verif.Proofs.MemoryBuild
import Verif.Proofs.TextStack
import Verif.Props.RuleStack
import Verif.Props.TextStack
import Verif.Model.Options
import Verif.Spec.Options
import Verif.Proofs.Options
import Verif.Proofs.OptionsRun
import Verif.Proofs.OptionsStore
import Verif.Props.Options
import Verif.Model.Assign
import Verif.Spec.Assign
import Verif.Proofs.Assign
import Verif.Proofs.AssignPipe
import Verif.Props.Assign
import Verif.Model.Failing
import Verif.Spec.Failing
import Verif.Proofs.Failing
import Verif.Proofs.FailingOps
import Verif.Proofs.FailingHistory
import Verif.Props.Failing
import Verif.Model.Sink
import Verif.Props.Sink
import Verif.Model.Scripts
import Verif.Spec.Scripts
import Verif.Proofs.Utf8Order
import Verif.Props.Scripts
import Verif.Props.ScriptExit
import Verif.Model.Work
import Verif.Spec.Work
import Verif.Proofs.WorkRefine
import Verif.Proofs.WorkCost
import Verif.Proofs.WorkBound
import Verif.Props.Work
import Verif.Proofs.ParserSigned
import Verif.Props.ParserSigned
import Verif.Spec.Trim
import Verif.Proofs.Trim
import Verif.Props.Trim
import Verif.Proofs.AssignMove
import Verif.Proofs.ScriptText
import Verif.Spec.Amount
import Verif.Proofs.Amount
import Verif.Props.Amount
import Verif.Proofs.Part
import Verif.Props.Part
import Verif.Spec.Rename
import Verif.Props.Rename
import Verif.Props.Filter
import Verif.Model.Stateful
import Verif.Spec.Stateful
import Verif.Props.Stateful
import Verif.Model.ExtractHref
import Verif.Spec.ExtractHref
import Verif.Props.ExtractHref
import Verif.Model.NodeObjects
import Verif.Spec.NodeObjects
import Verif.Props.NodeObjects
import Verif.Model.PyObjects
import Verif.Spec.PyObjects
import Verif.Props.PyObjects
import Verif.Spec.Compose
import Verif.Props.Compose
import Verif.Spec.Concat
import Verif.Props.Concat
import Verif.Proofs.ParserSplit
import Verif.Proofs.ParserNumber
import Verif.Proofs.ParserRange
import Verif.Proofs.ParserClose
import Verif.Proofs.ParserRangeIff
import Verif.Spec.Number
import Verif.Props.Number
import Verif.Props.CallsIff
import Verif.Model.Threads
import Verif.Spec.Threads
import Verif.Proofs.Threads
import Verif.Props.Threads
import Verif.Props.CliIff
import Verif.Spec.CliFailure
import Verif.Props.CliFailure
import Verif.Props.NodeOrder
import Verif.Model.ParserMemory
import Verif.Spec.ParserMemory
import Verif.Proofs.Owned
import Verif.Proofs.OwnedOps
import Verif.Proofs.ParserSim
import Verif.Proofs.ParserActs
import Verif.Proofs.ParserMemory
import Verif.Props.ParserMemory
import Verif.Spec.Complaint
import Verif.Proofs.ParserVerdict
import Verif.Props.Complaint
import Verif.Spec.Pretty
import Verif.Proofs.Pretty
import Verif.Props.Pretty
import Verif.Spec.Spelled
import Verif.Proofs.Spelled
import Verif.Props.Spelled
import Verif.Model.Scarce
import Verif.Spec.Scarce
import Verif.Proofs.NoMax
import Verif.Proofs.Scarce
import Verif.Proofs.ScarcePaid
import Verif.Props.Scarce
import Verif.Spec.EveryMap
import Verif.Proofs.EveryMap
import Verif.Props.EveryMap
import Verif.Spec.Programs
import Verif.Props.Programs
import Verif.Model.Examples
import Verif.Spec.Examples
import Verif.Props.Examples
import Verif.Spec.Order
import Verif.Props.Order
import Verif.Spec.Utf8
import Verif.Proofs.Utf8
import Verif.Proofs.Utf8Pipes
import Verif.Props.Utf8
import Verif.Spec.Utf8Scripts
import Verif.Props.Utf8Scripts
import Verif.Spec.Reorder
import Verif.Proofs.Reorder
import Verif.Proofs.ReorderHext
import Verif.Props.Reorder
import Verif.Model.SwigObjects
import Verif.Spec.SwigObjects
import Verif.Props.SwigObjects
import Verif.Props.PyEvery
import Verif.Spec.Synonyms
import Verif.Proofs.Synonyms
import Verif.Props.Synonyms
import Verif.Spec.Case
import Verif.Proofs.Case
import Verif.Props.Case
import Verif.Spec.ResultGroups
import Verif.Props.ResultGroups
import Verif.Spec.HextCaptures
import Verif.Props.HextCaptures
import Verif.Spec.Paths
import Verif.Props.Paths
import Verif.Spec.Records
import Verif.Props.Records
import Verif.Props.Applied
import Verif.Props.AppliedMore
import Verif.Props.AppliedPrograms
import Verif.Spec.Reformat
import Verif.Proofs.Reformat
import Verif.Props.Reformat
import Verif.Props.AppliedRest
import Verif.Spec.Asked
import Verif.Props.Asked
import Verif.Model.FileRead
import Verif.Spec.FileRead
import Verif.Props.FileRead
import Verif.Props.OneText
import Verif.Spec.Batch
import Verif.Props.Batch
import Verif.Spec.Wrap
import Verif.Props.Wrap
import Verif.Spec.Unnamed
import Verif.Proofs.Unnamed
import Verif.Props.Unnamed
import Verif.Spec.Retag
import Verif.Props.Retag
