import Verif.Props.Graph
import Verif.Props.Tree
import Verif.Props.Connections
import Verif.Props.Batch
import Verif.Props.Training
import Verif.Props.Adam
import Verif.Props.Loss
import Verif.Props.TrainArgs
import Verif.Props.Sequential
import Verif.Props.NonSeq
import Verif.Props.Edit
import Verif.Props.Serialize
import Verif.Props.TreeArith
import Verif.Props.Scalers
import Verif.Props.MinMax
import Verif.Props.Robust
import Verif.Props.MixedScaler
import Verif.Props.OneHot
import Verif.Props.OptState
import Verif.Props.ProgressBar
import Verif.Props.Hermitian
import Verif.Props.Observables
import Verif.Props.Eigen
import Verif.Props.Reshape
import Verif.Props.Concat
import Verif.Props.TreeKey
import Verif.Props.Elementwise
import Verif.Props.AffineTensor
import Verif.Props.Conformal
import Verif.Props.ConformalInterval
import Verif.Props.ConformalCoverage
import Verif.Props.ConformalSharp
import Verif.Props.ConformalStrata
import Verif.Props.Einsum
import Verif.Props.Matmul
import Verif.Spec.ScalerFile
import Verif.Lemmas.TreeBind
import Verif.Props.ScalerFile
import Verif.Props.ScalerFile2
import Verif.Props.ScalerFile3
import Verif.Model.ModelFile
import Verif.Model.ModelLib
import Verif.Spec.ModelFile
import Verif.Spec.ModelLib
import Verif.Lemmas.ModelFile
import Verif.Lemmas.ModelHyper
import Verif.Lemmas.ModelRound
import Verif.Lemmas.ModelDisk
import Verif.Props.ModelFile
import Verif.Props.ModelLib
import Verif.Props.ModelDisk
import Verif.Props.Predict
import Verif.Props.Grad
import Verif.Props.Precision
import Verif.Model.Pmm
import Verif.Spec.Pmm
import Verif.Lemmas.Spectrum
import Verif.Lemmas.Eigensystem
import Verif.Props.Pmm
import Verif.Props.PmmObs
import Verif.Model.Prebuilt
import Verif.Props.Prebuilt
import Verif.Props.Normalization
import Verif.Props.Sensitivity
import Verif.Model.Distance
import Verif.Spec.Distance
import Verif.Lemmas.Distance
import Verif.Props.Distance
import Verif.Model.Heuristic
import Verif.Spec.Heuristic
import Verif.Props.Heuristic
import Verif.Props.CompileKeys
import Verif.Model.Params
import Verif.Spec.Params
import Verif.Lemmas.TreePrefix
import Verif.Lemmas.Params
import Verif.Props.Params
import Verif.Model.ConfFile
import Verif.Spec.ConfFile
import Verif.Props.ConfFile
import Verif.Model.SeqNone
import Verif.Props.SeqNone
import Verif.Model.Func
import Verif.Spec.Func
import Verif.Props.Func
import Verif.Props.SensitivityUnc
import Verif.Model.ModelTrain
import Verif.Spec.ModelTrain
import Verif.Lemmas.ModelTrain
import Verif.Props.ModelTrain
import Verif.Model.LossCall
import Verif.Props.LossCall
import Verif.Model.LeafModules
import Verif.Props.LeafModules
import Verif.Model.ObsPmm
import Verif.Props.ObsPmm
import Verif.Model.Stale
import Verif.Props.Stale
import Verif.Model.Compare
import Verif.Props.Compare
import Verif.Model.CalArgs
import Verif.Props.CalArgs
import Verif.Model.Interrupt
import Verif.Props.Interrupt
import Verif.Spec.Samplewise
import Verif.Props.SamplewiseModules
import Verif.Props.SamplewiseLinear
import Verif.Props.SamplewisePmm
import Verif.Props.Samplewise
import Verif.Props.BatchArr
import Verif.Props.Nested
import Verif.Model.PrebuiltFile
import Verif.Spec.PrebuiltFile
import Verif.Props.PrebuiltFile
import Verif.Model.Repr
import Verif.Spec.Repr
import Verif.Lemmas.Repr
import Verif.Props.Repr
import Verif.Model.Unready
import Verif.Spec.Unready
import Verif.Props.Unready
import Verif.Model.Keys
import Verif.Spec.Keys
import Verif.Props.Keys
import Verif.Spec.BatchArr
import Verif.Props.BatchState
import Verif.Model.Subclass
import Verif.Spec.Subclass
import Verif.Props.Subclass
import Verif.Spec.Resume
import Verif.Props.Resume
import Verif.Model.Lifecycle
import Verif.Spec.Lifecycle
import Verif.Props.Lifecycle
import Verif.Model.Names
import Verif.Spec.Names
import Verif.Props.Names
import Verif.Spec.Rename
import Verif.Props.Rename
import Verif.Spec.FullBatch
import Verif.Props.FullBatch
import Verif.Model.Display
import Verif.Spec.Display
import Verif.Props.Display
import Verif.Model.Item
import Verif.Spec.Item
import Verif.Props.Item
import Verif.Model.Schedule
import Verif.Spec.Schedule
import Verif.Props.Schedule
import Verif.Model.Loaded
import Verif.Spec.Loaded
import Verif.Props.Loaded
import Verif.Model.SetParams
import Verif.Spec.SetParams
import Verif.Lemmas.SetParams
import Verif.Props.SetParams
import Verif.Model.LoadedTrain
import Verif.Spec.LoadedTrain
import Verif.Lemmas.LoadedTrain
import Verif.Lemmas.LoadedHeld
import Verif.Props.LoadedTrain
import Verif.Spec.Units
import Verif.Lemmas.Units
import Verif.Props.Units
import Verif.Spec.TrainRun
import Verif.Lemmas.TrainRun
import Verif.Props.TrainRun
import Verif.Lemmas.Unused
import Verif.Props.Unused
import Verif.Model.HermTrain
import Verif.Spec.HermTrain
import Verif.Lemmas.HermTrain
import Verif.Props.HermTrain
import Verif.Spec.ConfUnits
import Verif.Lemmas.ConfUnits
import Verif.Props.ConfUnits
import Verif.Spec.ConfStrata
import Verif.Lemmas.ConfStrata
import Verif.Props.ConfStrata
import Verif.Props.Grow
import Verif.Props.Rescale
import Verif.Props.Equivalence
import Verif.Props.Simulate
import Verif.Props.Descent
import Verif.Props.EigenGradient
import Verif.Props.Capacity
import Verif.Props.Reach
import Verif.Props.Stability
import Verif.Props.Combine
import Verif.Props.TrainUnits
import Verif.Props.TrainUnitsPmm
import Verif.Props.Symmetry
import Verif.Props.SymmetryPmm
import Verif.Props.Numbering
import Verif.Props.FitGradient
import Verif.Props.ObsContinuity
import Verif.Props.LossMinima
import Verif.Model.AxisActivations
import Verif.Props.AxisActivations
import Verif.Lemmas.Compress
import Verif.Props.Reduced
import Verif.Props.ObsBounds
import Verif.Model.Network
import Verif.Spec.Network
import Verif.Props.Network
import Verif.Props.Activations
import Verif.Props.NoEffect
import Verif.Props.SymmetryAll
import Verif.Props.DeadUnits
import Verif.Props.NormUnits
import Verif.Props.SensUnits
import Verif.Props.DistUnits
import Verif.Props.NetStability
import Verif.Props.TameActs
import Verif.Props.NetContinuity
import Verif.Props.NetUnits
import Verif.Props.NetCombine
import Verif.Props.NetFit
import Verif.Props.ExactFit
import Verif.Props.NetConvex
import Verif.Props.NetUniversal
import Verif.Props.NetUniversalActs
import Verif.Props.NetUniversalMore
import Verif.Props.NetUniversalSig
import Verif.Props.NetUniversalBends
