import Verif.Basic
import Verif.Lemmas.Alias
import Verif.Lemmas.BitSet
import Verif.Lemmas.BitSetHeap
import Verif.Lemmas.Blas1
import Verif.Lemmas.Blas1Mat
import Verif.Lemmas.Blas2
import Verif.Lemmas.Blas2BandOrder
import Verif.Lemmas.Blas2Order
import Verif.Lemmas.Blas2Pack
import Verif.Lemmas.Blas2Rank
import Verif.Lemmas.Blas2Rows
import Verif.Lemmas.Blas2RowsRun
import Verif.Lemmas.Blas2RowsSym
import Verif.Lemmas.Blas2RowsTri
import Verif.Lemmas.Blas2Solve
import Verif.Lemmas.Blas2Tri
import Verif.Lemmas.Blas3
import Verif.Lemmas.BlasMem
import Verif.Lemmas.BlasNormFp
import Verif.Lemmas.BlasSolveFl
import Verif.Lemmas.BlasSparse
import Verif.Lemmas.BlasSparseFl
import Verif.Lemmas.BlasTriFl
import Verif.Lemmas.ClMat
import Verif.Lemmas.ClTypes
import Verif.Lemmas.ComplexInf
import Verif.Lemmas.ComplexInv
import Verif.Lemmas.ComplexSqrt
import Verif.Lemmas.Conc
import Verif.Lemmas.Constants
import Verif.Lemmas.ConstantsMore
import Verif.Lemmas.ConstantsPrimes
import Verif.Lemmas.ConstantsSeries
import Verif.Lemmas.ConstantsZeta
import Verif.Lemmas.Container
import Verif.Lemmas.CudaTypes
import Verif.Lemmas.Dual
import Verif.Lemmas.ErrFree
import Verif.Lemmas.Expr
import Verif.Lemmas.FillRandom
import Verif.Lemmas.FloatComplex
import Verif.Lemmas.FloatSolve
import Verif.Lemmas.FloatSum
import Verif.Lemmas.FromData
import Verif.Lemmas.Gpu
import Verif.Lemmas.GpuAssign
import Verif.Lemmas.GpuFill
import Verif.Lemmas.GpuGemm
import Verif.Lemmas.GpuKernels
import Verif.Lemmas.GpuMore
import Verif.Lemmas.GpuRandom
import Verif.Lemmas.GpuStorage
import Verif.Lemmas.Grid
import Verif.Lemmas.Half
import Verif.Lemmas.HalfAdd
import Verif.Lemmas.HalfConv
import Verif.Lemmas.HalfDiv
import Verif.Lemmas.HalfFloat
import Verif.Lemmas.HalfLead
import Verif.Lemmas.HalfMul
import Verif.Lemmas.HalfMulNear
import Verif.Lemmas.HalfNearest
import Verif.Lemmas.HalfOrder
import Verif.Lemmas.HalfSum
import Verif.Lemmas.HalfSumNear
import Verif.Lemmas.HalfSumTop
import Verif.Lemmas.Ieee
import Verif.Lemmas.IeeeRel
import Verif.Lemmas.IntSqrt
import Verif.Lemmas.IntSqrtNear
import Verif.Lemmas.Map
import Verif.Lemmas.Matmul
import Verif.Lemmas.MpConv
import Verif.Lemmas.Num
import Verif.Lemmas.Print
import Verif.Lemmas.Pseudo
import Verif.Lemmas.Python
import Verif.Lemmas.PythonStep
import Verif.Lemmas.Random
import Verif.Lemmas.RandomDist
import Verif.Lemmas.RandomFill
import Verif.Lemmas.RandomOnSphere
import Verif.Lemmas.RandomSphere
import Verif.Lemmas.Rfft
import Verif.Lemmas.Scalar
import Verif.Lemmas.Scatter
import Verif.Lemmas.Set
import Verif.Lemmas.Storage
import Verif.Lemmas.StorageOom
import Verif.Lemmas.StorageOps
import Verif.Lemmas.Transpose
import Verif.Lemmas.TransposeSimd
import Verif.Lemmas.VecFp
import Verif.Lemmas.Vendor
import Verif.Lemmas.View
import Verif.Model.Alias
import Verif.Model.BitSet
import Verif.Model.BitSetHeap
import Verif.Model.Blas1
import Verif.Model.Blas1Mat
import Verif.Model.Blas2
import Verif.Model.Blas2Band
import Verif.Model.Blas3
import Verif.Model.BlasMem
import Verif.Model.BlasNormFp
import Verif.Model.BlasReal
import Verif.Model.BlasRotFp
import Verif.Model.BlasSparse
import Verif.Model.BlasTiny
import Verif.Model.ClConfig
import Verif.Model.ClMat
import Verif.Model.ClTypes
import Verif.Model.Complex
import Verif.Model.ComplexFn
import Verif.Model.ComplexInf
import Verif.Model.ComplexInv
import Verif.Model.Conc
import Verif.Model.Constants
import Verif.Model.Container
import Verif.Model.CudaFill
import Verif.Model.CudaTranspose
import Verif.Model.CudaTypes
import Verif.Model.Dual
import Verif.Model.ErrFree
import Verif.Model.Expr
import Verif.Model.FillRandom
import Verif.Model.Fl
import Verif.Model.FlBlas
import Verif.Model.FromData
import Verif.Model.Geam
import Verif.Model.Gpu
import Verif.Model.GpuAssign
import Verif.Model.GpuKernels
import Verif.Model.GpuRandom
import Verif.Model.GpuSetup
import Verif.Model.GpuSigmoid
import Verif.Model.GpuStorage
import Verif.Model.Half
import Verif.Model.Held
import Verif.Model.Ieee
import Verif.Model.IntSqrt
import Verif.Model.Iterate
import Verif.Model.LerpFp
import Verif.Model.Log
import Verif.Model.Map
import Verif.Model.Matmul
import Verif.Model.MixedUtil
import Verif.Model.MpConv
import Verif.Model.MpFormat
import Verif.Model.MpFormatReal
import Verif.Model.MpLog
import Verif.Model.MpPrec
import Verif.Model.MpRound
import Verif.Model.MpScan
import Verif.Model.Mt19937
import Verif.Model.Multiprec
import Verif.Model.Named
import Verif.Model.Num
import Verif.Model.Print
import Verif.Model.Pseudo
import Verif.Model.PseudoFl
import Verif.Model.PyArray
import Verif.Model.PyShape
import Verif.Model.Python
import Verif.Model.Random
import Verif.Model.RandomDist
import Verif.Model.RandomSphere
import Verif.Model.Rfft
import Verif.Model.Scalar
import Verif.Model.SeedFill
import Verif.Model.Serialize
import Verif.Model.Set
import Verif.Model.Shape
import Verif.Model.Sigmoid
import Verif.Model.Storage
import Verif.Model.StorageOom
import Verif.Model.Threads
import Verif.Model.Time
import Verif.Model.Timer
import Verif.Model.Transpose
import Verif.Model.TransposeSimd
import Verif.Model.TypeName
import Verif.Model.VecFp
import Verif.Model.Vector
import Verif.Model.VectorMixed
import Verif.Model.Vendor
import Verif.Model.View
import Verif.Props.Alias
import Verif.Props.BitSet
import Verif.Props.BitSetHeap
import Verif.Props.Blas1
import Verif.Props.Blas1Band
import Verif.Props.Blas1Cotr
import Verif.Props.Blas1Fl
import Verif.Props.Blas1Mat
import Verif.Props.Blas1Pack
import Verif.Props.Blas1Tri
import Verif.Props.Blas2
import Verif.Props.Blas2Band
import Verif.Props.Blas3
import Verif.Props.Blas3Tri
import Verif.Props.BlasBandFl
import Verif.Props.BlasFl
import Verif.Props.BlasMulFl
import Verif.Props.BlasNormFp
import Verif.Props.BlasRankFl
import Verif.Props.BlasReal
import Verif.Props.BlasRotFp
import Verif.Props.BlasSpFl
import Verif.Props.BlasSparse
import Verif.Props.BlasSparseFl
import Verif.Props.BlasSymFl
import Verif.Props.BlasTbFl
import Verif.Props.BlasTbTFl
import Verif.Props.BlasTiny
import Verif.Props.BlasTpFl
import Verif.Props.BlasTrmFl
import Verif.Props.BlasTrsmFl
import Verif.Props.ClConfig
import Verif.Props.ClMat
import Verif.Props.ClTypes
import Verif.Props.Complex
import Verif.Props.ComplexFn
import Verif.Props.ComplexInf
import Verif.Props.ComplexInv
import Verif.Props.Constants
import Verif.Props.ConstantsMore
import Verif.Props.ConstantsPrimes
import Verif.Props.ConstantsSeries
import Verif.Props.Container
import Verif.Props.CudaFill
import Verif.Props.CudaTranspose
import Verif.Props.CudaTypes
import Verif.Props.Dual
import Verif.Props.DualFl
import Verif.Props.ErrFree
import Verif.Props.Expr
import Verif.Props.FillRandom
import Verif.Props.FloatComplex
import Verif.Props.FloatMul
import Verif.Props.FloatVec
import Verif.Props.FromData
import Verif.Props.Gaussian
import Verif.Props.Geam
import Verif.Props.Gpu
import Verif.Props.GpuAssign
import Verif.Props.GpuRandom
import Verif.Props.GpuSetup
import Verif.Props.GpuSigmoid
import Verif.Props.GpuStorage
import Verif.Props.Half
import Verif.Props.HalfAdd
import Verif.Props.HalfCast
import Verif.Props.HalfDiv
import Verif.Props.HalfLimits
import Verif.Props.HalfMul
import Verif.Props.Held
import Verif.Props.IntSqrt
import Verif.Props.Iterate
import Verif.Props.LerpFl
import Verif.Props.Log
import Verif.Props.Map
import Verif.Props.Matmul
import Verif.Props.MinMax
import Verif.Props.MixedUtil
import Verif.Props.MpConv
import Verif.Props.MpFormat
import Verif.Props.MpFormatReal
import Verif.Props.MpLog
import Verif.Props.MpPrec
import Verif.Props.MpRound
import Verif.Props.MpScan
import Verif.Props.Multiprec
import Verif.Props.Named
import Verif.Props.Print
import Verif.Props.Pseudo
import Verif.Props.PseudoFl
import Verif.Props.PyArray
import Verif.Props.PyShape
import Verif.Props.Python
import Verif.Props.Random
import Verif.Props.RandomDist
import Verif.Props.RandomSphere
import Verif.Props.Rfft
import Verif.Props.Round
import Verif.Props.RoundFl
import Verif.Props.RoundToFl
import Verif.Props.SeedFill
import Verif.Props.Serialize
import Verif.Props.Set
import Verif.Props.Shape
import Verif.Props.SigFig
import Verif.Props.SigFigFl
import Verif.Props.Sigmoid
import Verif.Props.Sign
import Verif.Props.Storage
import Verif.Props.StorageOom
import Verif.Props.Threads
import Verif.Props.Time
import Verif.Props.Timer
import Verif.Props.Transpose
import Verif.Props.TransposeSimd
import Verif.Props.TypeName
import Verif.Props.Utility
import Verif.Props.UtilityFl
import Verif.Props.VecFp
import Verif.Props.Vector
import Verif.Props.VectorMixed
import Verif.Props.Vendor
import Verif.Props.View
import Verif.Spec.BitSet
import Verif.Spec.BitSetHeap
import Verif.Spec.Blas
import Verif.Spec.Blas1Mat
import Verif.Spec.Blas3
import Verif.Spec.BlasBand
import Verif.Spec.BlasSparse
import Verif.Spec.Container
import Verif.Spec.Dual
import Verif.Spec.DualFl
import Verif.Spec.Expr
import Verif.Spec.FloatComplex
import Verif.Spec.FloatSum
import Verif.Spec.FromData
import Verif.Spec.GpuAssign
import Verif.Spec.GpuStorage
import Verif.Spec.Half
import Verif.Spec.Map
import Verif.Spec.Matmul
import Verif.Spec.Multiprec
import Verif.Spec.Named
import Verif.Spec.Print
import Verif.Spec.Scalar
import Verif.Spec.Set
import Verif.Spec.Shape
import Verif.Spec.Storage
import Verif.Spec.StorageOom
import Verif.Spec.Time
