import Verif.Core
import Verif.MemLemmas
import Verif.Vector
import Verif.VectorLemmas
import Verif.VectorLemmas2
import Verif.Spec.Lists
import Verif.VectorHistory
import Verif.NoThrow
import Verif.Props.Vector
import Verif.ArrVec
import Verif.Spec.ArrVec
import Verif.ArrVecLemmas
import Verif.ArrVecWorld
import Verif.Array
import Verif.Spec.Array
import Verif.ArrayLemmas
import Verif.Props.ArrVec
import Verif.Props.Array
import Verif.Sort
import Verif.Spec.Sort
import Verif.SortLemmas
import Verif.SortQuick
import Verif.SortMerge
import Verif.SortHeap
import Verif.SortTim
import Verif.Props.Sort
import Verif.SortCost
import Verif.Spec.SortCost
import Verif.SortCostLemmas
import Verif.SortCostQuick
import Verif.Props.SortCost
import Verif.Ieee
import Verif.Spec.Ieee
import Verif.IeeeLemmas
import Verif.IeeeOps
import Verif.IeeeSqrt
import Verif.SciFloat
import Verif.SciFloatLemmas
import Verif.SciFloatMean
import Verif.Props.SciFloat
import Verif.Spec.Prelude
import Verif.Prelude
import Verif.PreludeLemmas
import Verif.PreludeRuns
import Verif.PreludeManaged
import Verif.View
import Verif.ViewLemmas
import Verif.Props.Prelude
import Verif.Props.View
import Verif.Spec.Cyclic
import Verif.Cyclic
import Verif.CyclicLemmas
import Verif.Props.Cyclic
import Verif.Spec.String
import Verif.String
import Verif.StringLemmas
import Verif.StringLemmas2
import Verif.Props.String
import Verif.Spec.Concurrency
import Verif.Spec.ConcurrencyCopies
import Verif.Concurrency
import Verif.ConcurrencyLemmas
import Verif.ConcurrencyCopies
import Verif.ConcurrencyCopiesLemmas
import Verif.DoubleBuffer
import Verif.DoubleBufferLemmas
import Verif.Props.Concurrency
import Verif.ConcurrencyThrow
import Verif.ConcurrencyThrowLemmas
import Verif.Props.ConcurrencyThrow
import Verif.Props.ConcurrencyCopies
import Verif.Spec.HappensBefore
import Verif.HappensBefore
import Verif.HappensBeforeLemmas
import Verif.Props.HappensBefore
import Verif.Spec.Stays
import Verif.Stays
import Verif.Props.Stays
import Verif.Enum
import Verif.Spec.Enum
import Verif.EnumLemmas
import Verif.Props.Enum
import Verif.Meta
import Verif.Callable
import Verif.Spec.Meta
import Verif.MetaLemmas
import Verif.Props.Meta
import Verif.Numeric
import Verif.Spec.Numeric
import Verif.NumericLemmas
import Verif.Props.Numeric
import Verif.NumericApprox
import Verif.Props.NumericApprox
import Verif.Scientific
import Verif.Spec.Scientific
import Verif.ScientificLemmas
import Verif.ScientificAlgebra
import Verif.Props.Scientific
import Verif.Format
import Verif.Spec.Format
import Verif.FormatLemmas
import Verif.Props.Format
import Verif.IO
import Verif.Spec.IO
import Verif.IOLemmas
import Verif.Props.IO
import Verif.VecWorld
import Verif.Spec.VecWorld
import Verif.VecWorldLemmas
import Verif.Props.VecWorld
import Verif.Throw
import Verif.ThrowLemmas
import Verif.ThrowLemmas2
import Verif.Props.Throw
import Verif.Fmt.Parse
import Verif.Fmt.Unicode
import Verif.Fmt.Escape
import Verif.Fmt.Write
import Verif.Fmt.Format
import Verif.Spec.Fmt
import Verif.Spec.FmtGrammar
import Verif.Fmt.Digits
import Verif.Fmt.WriteLemmas
import Verif.Fmt.Utf8
import Verif.Fmt.TextLemmas
import Verif.Fmt.ArgLemmas
import Verif.Fmt.ParseLemmas
import Verif.Fmt.NumLemmas
import Verif.Fmt.SpecLemmas
import Verif.Fmt.NoUb
import Verif.Fmt.GrammarLemmas
import Verif.Fmt.Corollaries
import Verif.Props.Fmt
import Verif.Fmt.Reverse
import Verif.Props.FmtDebug
import Verif.Props.FmtPrecision
import Verif.Fmt.Buffer
import Verif.Fmt.BufferLemmas
import Verif.Fmt.BufferKinds
import Verif.Fmt.Ops
import Verif.Fmt.OpsLemmas
import Verif.Props.FmtBuffer
import Verif.Fmt.MemWorld
import Verif.Spec.MemBuf
import Verif.Fmt.MemLemmas
import Verif.Props.MemBuf
import Verif.Fmt.Dragonbox
import Verif.Fmt.Lattice
import Verif.Fmt.DragonboxCert
import Verif.Fmt.DragonboxRow
import Verif.Fmt.DragonboxAux
import Verif.Fmt.DragonboxCore
import Verif.Spec.Float
import Verif.Fmt.FloatValue
import Verif.Fmt.FloatBest
import Verif.Fmt.DragonboxShort
import Verif.Fmt.FloatShortest
import Verif.Fmt.Float
import Verif.Fmt.FloatText
import Verif.Fmt.FloatDenote
import Verif.Fmt.FloatDefault
import Verif.Props.FmtFloat
import Verif.Fmt.Bigint
import Verif.Fmt.BigintLemmas
import Verif.Fmt.BigintDiv
import Verif.Fmt.BigintPow
import Verif.Fmt.FloatPrec
import Verif.Fmt.FloatPrecDigits
import Verif.Spec.FloatPrec
import Verif.Fmt.FloatPrecValue
import Verif.Fmt.FloatPrecRound
import Verif.Fmt.FloatPrecFormat
import Verif.Fmt.FloatPrecText
import Verif.Fmt.FloatPrecWrite
import Verif.Fmt.FloatHex
import Verif.Fmt.FloatSpecs
import Verif.Fmt.FloatPrecDenote
import Verif.Props.FmtFloatPrec
import Verif.Fmt.Check
import Verif.Spec.FmtCheck
import Verif.Fmt.CheckSpec
import Verif.Fmt.CheckLemmas
import Verif.Props.FmtCheck
import Verif.Fmt.Views
import Verif.Spec.FmtViews
import Verif.Fmt.ViewParse
import Verif.Fmt.GroupingLemmas
import Verif.Fmt.ViewLemmas
import Verif.Fmt.ItemLemmas
import Verif.Fmt.ItemFormat
import Verif.Fmt.ItemBare
import Verif.Props.FmtViews
import Verif.Spec.SortAny
import Verif.SortAny
import Verif.Props.SortAny
import Verif.PreludeUnwind
import Verif.Spec.Unwind
import Verif.PreludeUnwindLemmas
import Verif.Props.Unwind
import Verif.Fmt.Utf16
import Verif.Spec.Utf16
import Verif.Fmt.Utf16Lemmas
import Verif.Props.Utf16
import Verif.Fmt.FormatInt
import Verif.Props.FmtInt
import Verif.Fmt.ErrorReport
import Verif.Spec.ErrorReport
import Verif.Fmt.ErrorLemmas
import Verif.Props.ErrorReport
import Verif.Fmt.ArgMap
import Verif.Spec.ArgMap
import Verif.Props.ArgMap
import Verif.VectorLimits
import Verif.Spec.VectorLimits
import Verif.VectorLimitsLemmas
import Verif.Props.VectorLimits
import Verif.Props.Equality
import Verif.StringOwn
import Verif.Spec.StringOwn
import Verif.StringOwnLemmas
import Verif.Props.StringOwn
import Verif.Props.StringLimits
import Verif.Props.SortFault
import Verif.StrWorld
import Verif.Spec.StrWorld
import Verif.StrWorldLemmas
import Verif.StrWorldSim
import Verif.Props.StrWorld
import Verif.SciFloatMore
import Verif.SciFloatMoreLemmas
import Verif.Props.SciFloatMore
import Verif.SciFloatAuto
import Verif.Props.SciFloatAuto
import Verif.Spec.Fair
import Verif.FairLemmas
import Verif.FairBlocking
import Verif.FairNonBlocking
import Verif.FairDoubleBuffer
import Verif.FairStarve
import Verif.Props.Fair
import Verif.Spec.Growth
import Verif.Growth
import Verif.Props.Growth
import Verif.StringShared
import Verif.Spec.StringShared
import Verif.StringSharedLemmas
import Verif.Props.StringShared
import Verif.QueueLife
import Verif.Props.QueueLife
import Verif.Pipeline
import Verif.Spec.Pipeline
import Verif.PipelineLemmas
import Verif.Props.Pipeline
import Verif.Nested
import Verif.Spec.Nested
import Verif.NestedLemmas
import Verif.Props.Nested
import Verif.SortMap
import Verif.SortFloat
import Verif.Spec.SortFloat
import Verif.SortFloatLemmas
import Verif.Props.SortFloat
import Verif.SciFloatTrend
import Verif.Spec.SciFloatTrend
import Verif.SciFloatTrendLemmas
import Verif.Props.SciFloatTrend
import Verif.CyclicView
import Verif.CyclicViewLemmas
import Verif.Props.CyclicView
import Verif.ForEachMutLemmas
import Verif.Props.ForEachMut
import Verif.NumericSqrt
import Verif.NumericSqrtLemmas
import Verif.Props.NumericSqrt
import Verif.Freestanding
import Verif.Props.Freestanding
import Verif.EnumMaybe
import Verif.Props.EnumMaybe
import Verif.Fmt.Nested
import Verif.Fmt.NestedLemmas
import Verif.Props.FmtNested
import Verif.StdSequence
import Verif.Props.StdSequence
import Verif.EnumResult
import Verif.Props.EnumResult
import Verif.TypeTraits
import Verif.Props.TypeTraits
import Verif.Layout
import Verif.LayoutLemmas
import Verif.Spec.Layout
import Verif.Props.Layout
import Verif.CopyCount
import Verif.Spec.CopyCount
import Verif.Props.CopyCount
import Verif.NumericTrig
import Verif.Props.NumericTrig
import Verif.Spec.SortTim
import Verif.SortTimExact
import Verif.Props.SortTim
import Verif.Props.Nrmse
import Verif.CyclicAssign
import Verif.Props.CyclicAssign
import Verif.Props.ConcurrencyAccess
import Verif.Chain
import Verif.ChainLemmas
import Verif.Props.Chain
import Verif.SciFloatNorm
import Verif.Props.SciFloatNorm
import Verif.SciFloatAccuracy
import Verif.Props.SciFloatAccuracy
import Verif.Props.SciFloatVariance
import Verif.SciFloatClose
import Verif.Props.SciFloatCovariance
import Verif.Props.SciFloatLag
import Verif.Props.SciFloatSlope
import Verif.Props.SciFloatCorrelation
import Verif.Props.SciFloatAutocorrelation
import Verif.Props.SciFloatIndexSlope
import Verif.Props.SciFloatDetrend
import Verif.Props.SciFloatBounded
