import Verif.Check.Ein
import Verif.Check.Shape
import Verif.Check.Views
import Verif.Lemmas.Algorithms
import Verif.Lemmas.ArrayAssign
import Verif.Lemmas.ArrayBalance
import Verif.Lemmas.ArrayCalls
import Verif.Lemmas.ArrayCallsExec
import Verif.Lemmas.ArrayElems
import Verif.Lemmas.ArrayInv
import Verif.Lemmas.ArrayMake
import Verif.Lemmas.ArrayMemory
import Verif.Lemmas.ArrayMemoryExec
import Verif.Lemmas.ArrayMoves
import Verif.Lemmas.ArrayOps
import Verif.Lemmas.ArrayReshape
import Verif.Lemmas.ArrayRun
import Verif.Lemmas.ArraySettled
import Verif.Lemmas.ArrayShape
import Verif.Lemmas.ArrayThrow
import Verif.Lemmas.ArrayViews
import Verif.Lemmas.AutoAlloc
import Verif.Lemmas.Basic
import Verif.Lemmas.Benchmark
import Verif.Lemmas.BlockSums
import Verif.Lemmas.BoxFactors
import Verif.Lemmas.BoxFloat
import Verif.Lemmas.Callables
import Verif.Lemmas.Checked
import Verif.Lemmas.CheckedLoops
import Verif.Lemmas.CheckedSplit
import Verif.Lemmas.CheckedZOrder
import Verif.Lemmas.Compact
import Verif.Lemmas.Convolution
import Verif.Lemmas.ConvolutionProgram
import Verif.Lemmas.Counting
import Verif.Lemmas.Ein
import Verif.Lemmas.EinAlgebra
import Verif.Lemmas.EinArray
import Verif.Lemmas.EinAsserts
import Verif.Lemmas.EinInPlace
import Verif.Lemmas.EinLevels
import Verif.Lemmas.EinPrograms
import Verif.Lemmas.EinTiles
import Verif.Lemmas.EinTiling
import Verif.Lemmas.Exceptions
import Verif.Lemmas.ExceptionsConstruct
import Verif.Lemmas.Flat
import Verif.Lemmas.Fusing
import Verif.Lemmas.Ieee
import Verif.Lemmas.Image
import Verif.Lemmas.InOrder
import Verif.Lemmas.KernelSums
import Verif.Lemmas.KernelsFloat
import Verif.Lemmas.KernelsFloatSums
import Verif.Lemmas.LanczosSums
import Verif.Lemmas.LinearAlgebra
import Verif.Lemmas.Loops
import Verif.Lemmas.MatrixEin
import Verif.Lemmas.MatrixProgram
import Verif.Lemmas.MatrixTiles
import Verif.Lemmas.MatrixZOrder
import Verif.Lemmas.MemLoops
import Verif.Lemmas.Mixed
import Verif.Lemmas.Nested
import Verif.Lemmas.Order
import Verif.Lemmas.Overlap
import Verif.Lemmas.Pointers
import Verif.Lemmas.Rational
import Verif.Lemmas.Reinterpret
import Verif.Lemmas.Relate
import Verif.Lemmas.RelativeError
import Verif.Lemmas.Resample
import Verif.Lemmas.ResampleBenchmark
import Verif.Lemmas.ResampleImage
import Verif.Lemmas.ResampleProgram
import Verif.Lemmas.ResampleStrip
import Verif.Lemmas.ResampleSymmetry
import Verif.Lemmas.Resolve
import Verif.Lemmas.Rounding
import Verif.Lemmas.RoundingBinary
import Verif.Lemmas.RoundingResample
import Verif.Lemmas.Split
import Verif.Lemmas.Static
import Verif.Lemmas.Threads
import Verif.Lemmas.TileLevels
import Verif.Lemmas.Tiling
import Verif.Lemmas.Unshuffle
import Verif.Lemmas.Validity
import Verif.Lemmas.ValidityExec
import Verif.Lemmas.Values
import Verif.Lemmas.ViewChains
import Verif.Lemmas.Views
import Verif.Lemmas.ZOrder
import Verif.Model.Algorithms
import Verif.Model.Array
import Verif.Model.ArrayCompare
import Verif.Model.ArrayThrow
import Verif.Model.AutoAlloc
import Verif.Model.Bytes
import Verif.Model.Callables
import Verif.Model.Checked
import Verif.Model.CheckedLoops
import Verif.Model.Compiles
import Verif.Model.Convolution
import Verif.Model.CopyChains
import Verif.Model.Core
import Verif.Model.Ein
import Verif.Model.EinArray
import Verif.Model.EinLevels
import Verif.Model.EinPrograms
import Verif.Model.EinTiling
import Verif.Model.ElemRef
import Verif.Model.ExamplePrograms
import Verif.Model.Exceptions
import Verif.Model.Image
import Verif.Model.Interval
import Verif.Model.Kernels
import Verif.Model.KernelsFloat
import Verif.Model.Layouts
import Verif.Model.LinearAlgebra
import Verif.Model.Loops
import Verif.Model.Mixed
import Verif.Model.NullViews
import Verif.Model.Pointers
import Verif.Model.Rational
import Verif.Model.Ref
import Verif.Model.Reinterpret
import Verif.Model.Resample
import Verif.Model.ResampleBenchmark
import Verif.Model.ResampleImage
import Verif.Model.ResampleProgram
import Verif.Model.Restrict
import Verif.Model.Split
import Verif.Model.Static
import Verif.Model.Strings
import Verif.Model.TestCopies
import Verif.Model.TestMain
import Verif.Model.TestPattern
import Verif.Model.ThreadPrograms
import Verif.Model.Threads
import Verif.Model.TileLevels
import Verif.Model.Tiling
import Verif.Model.Uninitialized
import Verif.Model.ViewChains
import Verif.Model.ZOrder
import Verif.Props.Algorithms
import Verif.Props.Array
import Verif.Props.ArrayCalls
import Verif.Props.ArrayCompare
import Verif.Props.ArrayMemory
import Verif.Props.ArrayViews
import Verif.Props.AutoAlloc
import Verif.Props.BoxFactors
import Verif.Props.BoxFloat
import Verif.Props.Bytes
import Verif.Props.Callables
import Verif.Props.Checked
import Verif.Props.CheckedLoops
import Verif.Props.Compiles
import Verif.Props.Convolution
import Verif.Props.DataIndependence
import Verif.Props.Ein
import Verif.Props.EinAlgebra
import Verif.Props.EinArray
import Verif.Props.EinArrayExamples
import Verif.Props.EinArrayMatrix
import Verif.Props.EinAsserts
import Verif.Props.EinDoc
import Verif.Props.EinExamples
import Verif.Props.EinInPlace
import Verif.Props.EinLevels
import Verif.Props.EinPrograms
import Verif.Props.EinProgramsExamples
import Verif.Props.EinSum
import Verif.Props.EinTiles
import Verif.Props.EinTiling
import Verif.Props.ElemRef
import Verif.Props.Euclid
import Verif.Props.ExamplePrograms
import Verif.Props.ExceptionConstructors
import Verif.Props.ExceptionSafety
import Verif.Props.Exceptions
import Verif.Props.Fusing
import Verif.Props.Image
import Verif.Props.InOrder
import Verif.Props.IndexLoops
import Verif.Props.Interval
import Verif.Props.Kernels
import Verif.Props.KernelsBuild
import Verif.Props.KernelsFloat
import Verif.Props.KernelsReal
import Verif.Props.Lanczos
import Verif.Props.Layouts
import Verif.Props.LinearAlgebra
import Verif.Props.MakeCopy
import Verif.Props.MatrixZOrder
import Verif.Props.Mixed
import Verif.Props.NullViews
import Verif.Props.Offsets
import Verif.Props.Order
import Verif.Props.Overlap
import Verif.Props.Pointers
import Verif.Props.Rational
import Verif.Props.RefData
import Verif.Props.Reinterpret
import Verif.Props.Relabel
import Verif.Props.Resample
import Verif.Props.ResampleBenchmark
import Verif.Props.ResampleImage
import Verif.Props.ResampleProgram
import Verif.Props.ResampleSymmetry
import Verif.Props.Restrict
import Verif.Props.Rounding
import Verif.Props.RoundingResample
import Verif.Props.SmallArray
import Verif.Props.Split
import Verif.Props.Static
import Verif.Props.Strides
import Verif.Props.Strings
import Verif.Props.TestCopies
import Verif.Props.TestMain
import Verif.Props.TestPattern
import Verif.Props.ThreadPrograms
import Verif.Props.Threads
import Verif.Props.TileLevels
import Verif.Props.Tiling
import Verif.Props.Uninitialized
import Verif.Props.Validity
import Verif.Props.ViewAlgebra
import Verif.Props.ViewChains
import Verif.Props.Views
import Verif.Props.ZOrder
import Verif.Spec.Array
import Verif.Spec.ArrayCalls
import Verif.Spec.ArrayMemory
import Verif.Spec.ArrayThrow
import Verif.Spec.AutoAlloc
import Verif.Spec.Box
import Verif.Spec.BoxFactors
import Verif.Spec.BoxFloat
import Verif.Spec.Bytes
import Verif.Spec.Callables
import Verif.Spec.Checked
import Verif.Spec.CheckedLoops
import Verif.Spec.Compiles
import Verif.Spec.Convolution
import Verif.Spec.Ein
import Verif.Spec.EinAlgebra
import Verif.Spec.EinArray
import Verif.Spec.EinAsserts
import Verif.Spec.EinInPlace
import Verif.Spec.EinPrograms
import Verif.Spec.EinTiles
import Verif.Spec.EinTiling
import Verif.Spec.ExamplePrograms
import Verif.Spec.Exceptions
import Verif.Spec.Fusing
import Verif.Spec.Image
import Verif.Spec.Kernels
import Verif.Spec.KernelsFloat
import Verif.Spec.LinearAlgebra
import Verif.Spec.Mixed
import Verif.Spec.NullViews
import Verif.Spec.Order
import Verif.Spec.Overlap
import Verif.Spec.Pointers
import Verif.Spec.Rational
import Verif.Spec.Relabel
import Verif.Spec.Relate
import Verif.Spec.Resample
import Verif.Spec.ResampleBenchmark
import Verif.Spec.ResampleImage
import Verif.Spec.ResampleProgram
import Verif.Spec.ResampleSymmetry
import Verif.Spec.Restrict
import Verif.Spec.Rounding
import Verif.Spec.RoundingBinary
import Verif.Spec.RoundingResample
import Verif.Spec.Split
import Verif.Spec.Static
import Verif.Spec.Strides
import Verif.Spec.TestMain
import Verif.Spec.TestPattern
import Verif.Spec.ThreadPrograms
import Verif.Spec.Threads
import Verif.Spec.TileLevels
import Verif.Spec.Tiling
import Verif.Spec.Validity
import Verif.Spec.ViewAlgebra
import Verif.Spec.ViewChains
import Verif.Spec.Views
import Verif.Spec.ZOrder
