import Verif.Alg.CCA
import Verif.Alg.Classes
import Verif.Alg.DIPLS
import Verif.Alg.DiplsFit
import Verif.Alg.DiplsHeap
import Verif.Alg.FastICA
import Verif.Alg.FilterHeap
import Verif.Alg.GLSW
import Verif.Alg.IcaHeap
import Verif.Alg.KernelHeap
import Verif.Alg.KernelPLS
import Verif.Alg.LifeLemmas
import Verif.Alg.Lifecycle
import Verif.Alg.Loadings
import Verif.Alg.NIPALS
import Verif.Alg.NipalsHeap
import Verif.Alg.NipalsPls1
import Verif.Alg.OPLS
import Verif.Alg.Objects
import Verif.Alg.ObjectsMore
import Verif.Alg.PCA
import Verif.Alg.PLS1
import Verif.Alg.PRM
import Verif.Alg.Pls1Ext
import Verif.Alg.Pls1Heap
import Verif.Alg.Pls1Object
import Verif.Alg.PlsEquiv
import Verif.Alg.PlsHeap
import Verif.Alg.PlsKrylov
import Verif.Alg.PrepExt
import Verif.Alg.Preproc
import Verif.Alg.PrmHeap
import Verif.Alg.PrmLemmas
import Verif.Alg.SIMPLS
import Verif.Alg.SimplsPls1
import Verif.Alg.SparseHeap
import Verif.Alg.SparsePLS
import Verif.Alg.VCPLS
import Verif.Alg.WrapHeap
import Verif.Alg.YGrad
import Verif.Core.Base
import Verif.Core.Csv
import Verif.Core.CsvLemmas
import Verif.Core.CsvSpecial
import Verif.Core.Decide
import Verif.Core.Eigen
import Verif.Core.Ext
import Verif.Core.ExtLemmas
import Verif.Core.Factory
import Verif.Core.FactoryLemmas
import Verif.Core.Heap
import Verif.Core.HeapCalls
import Verif.Core.HeapLemmas
import Verif.Core.HeapSim
import Verif.Core.LinAlg
import Verif.Core.ListLemmas
import Verif.Core.Loop
import Verif.Core.Mat
import Verif.Core.MatLemmas
import Verif.Core.Random
import Verif.Core.Range
import Verif.Core.RealInst
import Verif.Core.Rounded
import Verif.Core.SelLemmas
import Verif.Core.Serial
import Verif.Core.Shuffle
import Verif.Core.ShuffleC
import Verif.Core.Stats
import Verif.Core.Utils
import Verif.Core.UtilsLemmas
import Verif.Props.AffinePipeline
import Verif.Props.AffineProps
import Verif.Props.CallerData
import Verif.Props.CallerData2
import Verif.Props.CallerData3
import Verif.Props.CallerData4
import Verif.Props.CallerData5
import Verif.Props.CcaProps
import Verif.Props.CcaRegression
import Verif.Props.ClutterUnits
import Verif.Props.ColumnWise
import Verif.Props.CsvProps
import Verif.Props.CsvSpecial
import Verif.Props.DeadChannel
import Verif.Props.Decomp
import Verif.Props.DiplsLambda
import Verif.Props.DiplsPlain
import Verif.Props.DiplsProps
import Verif.Props.DiplsReduction
import Verif.Props.EigLemmas
import Verif.Props.EigSpec
import Verif.Props.ExtendedPls
import Verif.Props.ExtendedPrep
import Verif.Props.FFTEnergy
import Verif.Props.FFTProps
import Verif.Props.Factory
import Verif.Props.FeatureOrder
import Verif.Props.FeatureOrder2
import Verif.Props.FeatureOrder3
import Verif.Props.FilterProps
import Verif.Props.FitQuality
import Verif.Props.GlswInvariance
import Verif.Props.GlswProps
import Verif.Props.HeapProps
import Verif.Props.IcaApprox
import Verif.Props.IcaFunProps
import Verif.Props.IcaProps
import Verif.Props.IcaRows
import Verif.Props.KernelConverge
import Verif.Props.KernelFeature
import Verif.Props.KernelLinear
import Verif.Props.KernelMercer
import Verif.Props.KernelOrder
import Verif.Props.KernelPlsProps
import Verif.Props.KernelProps
import Verif.Props.KernelStale
import Verif.Props.KernelUnits
import Verif.Props.LifeDefaults
import Verif.Props.LifecycleProps
import Verif.Props.LoadingsProps
import Verif.Props.MatrixAccess
import Verif.Props.MatrixArith
import Verif.Props.MatrixMore
import Verif.Props.MatrixPred
import Verif.Props.MatrixSelect
import Verif.Props.MatrixText
import Verif.Props.Nested
import Verif.Props.NipalsProps
import Verif.Props.NormProps
import Verif.Props.ObjectMore
import Verif.Props.ObjectProps
import Verif.Props.OplsProps
import Verif.Props.OplsReduction
import Verif.Props.OrderProps
import Verif.Props.PLS1Props
import Verif.Props.PartitionProps
import Verif.Props.PcaInvariance
import Verif.Props.PcaOptimal
import Verif.Props.PcaProps
import Verif.Props.PlsContinuity
import Verif.Props.PlsContinuity2
import Verif.Props.PlsGram
import Verif.Props.PlsInvariance
import Verif.Props.PlsKrylovMore
import Verif.Props.PlsKrylovProps
import Verif.Props.PlsMoments
import Verif.Props.PlsPrepProps
import Verif.Props.PlsRotation
import Verif.Props.PrmLimit
import Verif.Props.PrmProps
import Verif.Props.PrmRobust
import Verif.Props.PrmScores
import Verif.Props.PrmSymmetry
import Verif.Props.PrmWide
import Verif.Props.RandomProps
import Verif.Props.Refuse
import Verif.Props.Refuse2
import Verif.Props.Refuse3
import Verif.Props.Refuse4
import Verif.Props.RepeatedPredictors
import Verif.Props.Replicates
import Verif.Props.Replicates2
import Verif.Props.Replicates3
import Verif.Props.Resampling
import Verif.Props.ResponseOrder
import Verif.Props.ResponseUnits
import Verif.Props.Rounding
import Verif.Props.Rounding2
import Verif.Props.RowWise
import Verif.Props.RowWiseAlg
import Verif.Props.SampleOrder
import Verif.Props.SampleOrder2
import Verif.Props.SavGolFit
import Verif.Props.SavGolMirror
import Verif.Props.SavGolProps
import Verif.Props.ScatterInvariance
import Verif.Props.ScatterPreProps
import Verif.Props.ScatterProps
import Verif.Props.SerialProps
import Verif.Props.SimplsProps
import Verif.Props.SparseLoadings
import Verif.Props.SparseNipals
import Verif.Props.SparseProps
import Verif.Props.StatsProps
import Verif.Props.Tighten
import Verif.Props.Tighten2
import Verif.Props.TransfProps
import Verif.Props.TuningParameters
import Verif.Props.UnitInvariance
import Verif.Props.UtilsProps
import Verif.Props.VcplsProps
import Verif.Props.WeiszfeldStop
import Verif.Props.WrapperProps
import Verif.Props.YGradProps
import Verif.Transf.Basic
import Verif.Transf.FFT
import Verif.Transf.Filter
import Verif.Transf.Kernel
import Verif.Transf.SavGol
import Verif.Transf.Scatter
import Verif.Transf.ScatterPre
import Verif.Transf.StatLemmas
import Verif.Transf.TransfHeap
import Verif.Transf.Wrappers
