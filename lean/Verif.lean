import Verif.Basic
import Verif.Spec.Utf8
import Verif.Spec.Json
import Verif.Spec.JsonParse
import Verif.Spec.JsonSound
import Verif.Slog
import Verif.Spec.LogTree
import Verif.Spec.Numeral
import Verif.Spec.Replaced
import Verif.Spec.Resolve
import Verif.Spec.Quotable
import Verif.Flash.Escape
import Verif.Flash.EscapeLemmas
import Verif.Flash.Composer
import Verif.Flash.Handler
import Verif.Flash.Render
import Verif.Flash.Denote
import Verif.Flash.Chain
import Verif.Flash.Content
import Verif.Flash.Ideal
import Verif.Flash.Sample
import Verif.Flash.Shift
import Verif.Flash.Renders
import Verif.Flash.Derive
import Verif.Flash.Errors
import Verif.Flash.Options
import Verif.Flash.Replace
import Verif.Heap.Slice
import Verif.Flash.Heap
import Verif.Flash.Threads
import Verif.Flash.ThreadsInv
import Verif.Flash.ThreadsHist
import Verif.Sloggy.Quote
import Verif.Sloggy.QuoteLemmas
import Verif.Sloggy.Composer
import Verif.Sloggy.Handler
import Verif.Spec.SloggyTree
import Verif.Spec.Solid
import Verif.Sloggy.Render
import Verif.Sloggy.Content
import Verif.Sloggy.Writes
import Verif.Sloggy.Clean
import Verif.Sloggy.Flat
import Verif.Props.Escape
import Verif.Props.FlashLine
import Verif.Props.FlashDerive
import Verif.Props.FlashHeap
import Verif.Props.FlashThreads
import Verif.Props.FlashErrors
import Verif.Props.FlashOptions
import Verif.Props.FlashReplace
import Verif.Props.SloggyLine
import Verif.Props.SloggyReplace
import Verif.Props.SloggyDerive
import Verif.Sloggy.Threads
import Verif.Props.SloggyThreads
import Verif.Sloggy.Heap
import Verif.Props.SloggyHeap
import Verif.Replace.Change
import Verif.Spec.Letters
import Verif.Props.Replace
import Verif.Replace.Replattr
import Verif.Props.Replattr
import Verif.GoLib
import Verif.Warning.Registry
import Verif.Props.WarnRegistry
import Verif.Spec.Lines
import Verif.Spec.LowerCase
import Verif.Warning.Level
import Verif.Props.WarnText
import Verif.Warning.Manager
import Verif.Props.WarnManager
import Verif.Count.Model
import Verif.Count.Total
import Verif.Count.Grammar
import Verif.Count.Runs
import Verif.Count.Lenient
import Verif.Props.FieldCount
import Verif.Props.FieldLenient
import Verif.Warning.Show
import Verif.Data.Regex
import Verif.Data.WarnParser
import Verif.Data.WarnLines
import Verif.Data.WarnView
import Verif.Data.WarnSteps
import Verif.Data.WarnReport
import Verif.Data.WarnBefore
import Verif.Data.SummLines
import Verif.Tools.Summary
import Verif.Data.HandlerData
import Verif.Props.WarnReport
import Verif.Props.WarnMore
import Verif.Data.BenchParser
import Verif.Data.BenchLine
import Verif.Data.BenchFields
import Verif.Props.BenchData
import Verif.Props.BenchLines
import Verif.Score.Float
import Verif.Score.Range
import Verif.Props.ScoreRange
import Verif.Props.ScoreAverage
import Verif.Score.BenchAxis
import Verif.Score.BenchLemmas
import Verif.Score.BenchHandler
import Verif.Score.BenchScores
import Verif.Score.BenchSetup
import Verif.Score.BenchOriginal
import Verif.Props.BenchScore
import Verif.Data.WarnCount
import Verif.Data.WarnLog
import Verif.Score.WarnAxis
import Verif.Score.WarnScores
import Verif.Props.WarnScore
import Verif.Score.Filter
import Verif.Props.Filter
import Verif.Score.Keeper
import Verif.Props.Keeper
import Verif.Tools.Enum
import Verif.Props.Enum
import Verif.Tools.CountWriter
import Verif.Props.CountWriter
import Verif.Tools.Convert
import Verif.Props.Convert
import Verif.Tools.Creator
import Verif.Props.Creator
import Verif.Tools.Trace
import Verif.Props.Trace
import Verif.Server.Chart
import Verif.Props.Chart
import Verif.Gin.Parser
import Verif.Gin.ParseLemmas
import Verif.Gin.Writer
import Verif.Gin.WriteLemmas
import Verif.Props.GinParse
import Verif.Props.GinWriter
import Verif.Data.Setup
import Verif.Props.Setup
import Verif.Server.Cache
import Verif.Props.Cache
import Verif.Server.Bar
import Verif.Props.Bar
import Verif.Data.NameLine
import Verif.Tools.FunctionName
import Verif.Props.Names
import Verif.Props.WarnViews
import Verif.Props.Summary
import Verif.Spec.GoAny
import Verif.Bench.Checks
import Verif.Bench.Equal
import Verif.Bench.Finder
import Verif.Bench.Lines
import Verif.Bench.Group
import Verif.Bench.Data
import Verif.Bench.Decode
import Verif.Bench.Builder
import Verif.Bench.Sample
import Verif.Props.BenchChecks
import Verif.Bench.FlashRun
import Verif.Bench.Logging
import Verif.Props.BenchFlash
import Verif.Props.BenchMore
import Verif.Spec.TestProgram
import Verif.Verify.Warnings
import Verif.Verify.Complex
import Verif.Verify.ComplexRun
import Verif.Verify.ComplexMap
import Verif.Props.VerifyComplex
import Verif.Verify.Suite
import Verif.Verify.SlogTests
import Verif.Verify.OtherTests
import Verif.Verify.ReplTests
import Verif.Spec.Recorded
import Verif.Verify.Keeps
import Verif.Verify.Marks
import Verif.Verify.SampleSuite
import Verif.Props.VerifyRecorded
import Verif.Spec.Contract
import Verif.Verify.Line
import Verif.Verify.Pass
import Verif.Verify.SlogPass
import Verif.Verify.OtherPass
import Verif.Verify.ReplPass
import Verif.Verify.DuplPass
import Verif.Verify.ComplexPass
import Verif.Props.VerifyFlash
import Verif.Spec.JsonJam
import Verif.Spec.Hollow
import Verif.Flash.Hollow
import Verif.Props.FlashHollow
import Verif.Server.TagNames
import Verif.Props.TagNames
import Verif.Server.LazyList
import Verif.Props.LazyList
import Verif.Server.Pages
import Verif.Props.Links
import Verif.Props.Texts
import Verif.Data.Tabular
import Verif.Props.Tabular
import Verif.Bench.Run
import Verif.Bench.Added
import Verif.Props.BenchFiled
import Verif.Props.BenchRun
import Verif.Server.ScoreChart
import Verif.Props.ScoreChart
import Verif.Props.BenchDepends
import Verif.Props.BenchFormula
import Verif.Props.AxisAsk
import Verif.Data.Takes
import Verif.Server.WarnHTML
import Verif.Props.WarnHTML
import Verif.Server.WarnButtons
import Verif.Props.WarnButtons
import Verif.Data.WarnKept
import Verif.Server.WarnPage
import Verif.Props.WarnPage
import Verif.Score.WarnCheck
import Verif.Props.WarnCheck
import Verif.Score.BenchCheck
import Verif.Props.BenchCheck
import Verif.Server.ChartColor
import Verif.Props.ChartColor
import Verif.Bench.SloggyRun
import Verif.Props.BenchSloggy
import Verif.Data.TestMenu
import Verif.Props.TestMenu
import Verif.Count.Status
import Verif.Props.CountStatus
import Verif.Score.Exhibit
import Verif.Props.Exhibit
import Verif.Server.Dict
import Verif.Props.Dict
