import Verif.Model.Range
import Verif.Spec.Range
import Verif.Lemma.MixedRadix
import Verif.Lemma.Range
import Verif.Props.Range
import Verif.Lemma.Storage
import Verif.Props.Storage
import Verif.Props.Check
import Verif.Props.Allocation
import Verif.Props.Kokkos
import Verif.Props.Field
import Verif.Props.Boundary
import Verif.Props.Exchange
import Verif.Props.Factor
import Verif.Props.Mpi
import Verif.Props.Buffer
import Verif.Props.Expression
import Verif.Props.Dependencies
import Verif.Props.Variables
import Verif.Props.Deck
import Verif.Props.Blocks
import Verif.Props.Diagnostic
import Verif.Props.Hdf
import Verif.Props.SubGrid
import Verif.Props.FieldTools
import Verif.Props.Array
import Verif.Props.Misc
import Verif.Props.MpiAccumulate
import Verif.Props.Subdivision
import Verif.Props.Scanner
import Verif.Model.Lemon
import Verif.Spec.DeckGrammar
import Verif.Lemma.LemonCert
import Verif.Lemma.LemonTable
import Verif.Lemma.LemonComplete
import Verif.Lemma.LemonForest
import Verif.Lemma.LemonViable
import Verif.Lemma.LemonShort
import Verif.Lemma.LemonSound
import Verif.Lemma.LemonHeight
import Verif.Lemma.LemonOverflow
import Verif.Lemma.LemonUnique
import Verif.Lemma.LemonExamples
import Verif.Props.Parser
import Verif.Model.ParserToken
import Verif.Spec.DeckText
import Verif.Lemma.DeckText
import Verif.Lemma.DeckTextRev
import Verif.Lemma.LexerLayout
import Verif.Props.DeckText
import Verif.Model.Literature
import Verif.Spec.Literature
import Verif.Lemma.Literature
import Verif.Props.Literature
import Verif.Model.RangeOps
import Verif.Lemma.RangeOps
import Verif.Props.RangeOps
import Verif.Props.FieldBoundary
import Verif.Model.MpiSchedule
import Verif.Spec.MpiSchedule
import Verif.Lemma.MpiSchedule
import Verif.Lemma.MpiScheduleExchange
import Verif.Props.MpiSchedule
import Verif.Model.Iteration
import Verif.Spec.Iteration
import Verif.Lemma.Iteration
import Verif.Props.Iteration
import Verif.Model.BlockContainer
import Verif.Props.BlockContainer
import Verif.Lemma.ParamDefault
import Verif.Props.EndToEnd
import Verif.Model.ParallelProgram
import Verif.Spec.ParallelProgram
import Verif.Lemma.ParallelProgram
import Verif.Props.ParallelProgram
import Verif.Model.Registry
import Verif.Spec.Registry
import Verif.Lemma.Registry
import Verif.Props.Registry
import Verif.Model.FileDiagnostic
import Verif.Spec.FileDiagnostic
import Verif.Lemma.FileDiagnostic
import Verif.Props.FileDiagnostic
import Verif.Model.Machine
import Verif.Lemma.Machine
import Verif.Props.Machine
import Verif.Model.ControlFlow
import Verif.Spec.ControlFlow
import Verif.Lemma.ControlFlow
import Verif.Props.ControlFlow
import Verif.Model.Binary64
import Verif.Lemma.Binary64
import Verif.Model.FieldDouble
import Verif.Lemma.FieldDouble
import Verif.Props.FieldDouble
import Verif.Model.DiagnosticDouble
import Verif.Spec.DiagnosticDouble
import Verif.Lemma.DiagnosticDouble
import Verif.Props.DiagnosticDouble
import Verif.Model.FactorDouble
import Verif.Lemma.FactorDouble
import Verif.Props.FactorDouble
import Verif.Spec.SumOf
import Verif.Model.DoubleValue
import Verif.Model.ReduceDouble
import Verif.Lemma.AccumulateOrder
import Verif.Props.AccumulateOrder
import Verif.Props.ReduceDouble
import Verif.Model.ExtentDouble
import Verif.Lemma.ExtentDouble
import Verif.Props.ExtentDouble
import Verif.Props.Restart
import Verif.Props.AllocationFailure
import Verif.Props.Crash
import Verif.Props.HdfAttributes
import Verif.Props.Files
import Verif.Model.ParametersGroup
import Verif.Spec.ParametersGroup
import Verif.Lemma.ParametersGroup
import Verif.Props.ParametersGroup
import Verif.Model.SubGridShared
import Verif.Lemma.SubGridShared
import Verif.Props.SubGridShared
import Verif.Model.SubdivisionLifetime
import Verif.Props.SubdivisionLifetime
import Verif.Model.BlockLifetime
import Verif.Lemma.BlockLifetime
import Verif.Props.BlockLifetime
import Verif.Model.HdfActive
import Verif.Spec.HdfActive
import Verif.Lemma.HdfActive
import Verif.Props.HdfActive
import Verif.Props.ArrayObjects
import Verif.Props.Failure
import Verif.Props.ParserError
import Verif.Props.Fault
import Verif.Spec.Session
import Verif.Lemma.SessionDeck
import Verif.Lemma.Session
import Verif.Props.Session
import Verif.Lemma.Readback
import Verif.Props.UnitTests
import Verif.Props.SessionField
import Verif.Props.FillExample
import Verif.Model.Singleton
import Verif.Props.Singleton
import Verif.Model.NumberText
import Verif.Spec.NumberText
import Verif.Lemma.NumberText
import Verif.Props.NumberText
import Verif.Model.LazyStatistics
import Verif.Lemma.LazyStatistics
import Verif.Props.LazyStatistics
import Verif.Model.Calls
import Verif.Spec.Calls
import Verif.Lemma.Calls
import Verif.Lemma.CallsText
import Verif.Props.Calls
import Verif.Model.TypeList
import Verif.Props.TypeList
import Verif.Model.DiagnosticDeck
import Verif.Spec.DiagnosticDeck
import Verif.Lemma.DiagnosticDeck
import Verif.Props.DiagnosticDeck
import Verif.Props.Overflow
import Verif.Model.HdfField
import Verif.Spec.HdfField
import Verif.Lemma.HdfField
import Verif.Props.HdfField
import Verif.Spec.StackLimit
import Verif.Lemma.StackLimit
import Verif.Props.StackLimit
import Verif.Model.SubGridHistory
import Verif.Props.SubGridHistory
import Verif.Model.VarLifetime
import Verif.Spec.VarLifetime
import Verif.Lemma.VarLifetime
import Verif.Props.VarLifetime
import Verif.Model.RangeChange
import Verif.Props.RangeChange
import Verif.Model.GridText
import Verif.Spec.GridText
import Verif.Lemma.GridText
import Verif.Props.GridText
import Verif.Spec.SettingsText
import Verif.Lemma.SettingsText
import Verif.Lemma.SettingsParams
import Verif.Props.SettingsText
import Verif.Lemma.AcceptedStatements
import Verif.Props.AcceptedStatements
import Verif.Spec.BlockNesting
import Verif.Lemma.BlockNesting
import Verif.Props.BlockNesting
import Verif.Spec.MixedSettings
import Verif.Spec.AssignedSettings
import Verif.Spec.TypedSettings
import Verif.Spec.BlockFile
import Verif.Lemma.MixedSettings
import Verif.Lemma.AssignedSettings
import Verif.Lemma.FloatSettings
import Verif.Lemma.TypedSettings
import Verif.Lemma.BlockFile
import Verif.Props.MixedSettings
import Verif.Props.AssignedSettings
import Verif.Props.TypedSettings
import Verif.Props.BlockFile
