import Verif.Basic.Vec
import Verif.Lemmas.Bin
import Verif.Lemmas.BoundProg
import Verif.Lemmas.ContEnc
import Verif.Lemmas.ContGrad
import Verif.Lemmas.ContL1
import Verif.Lemmas.ContSystems
import Verif.Lemmas.Cuts
import Verif.Lemmas.DerivOf
import Verif.Lemmas.EventTime
import Verif.Lemmas.ExampleSystems
import Verif.Lemmas.Feedback
import Verif.Lemmas.GaussianKl
import Verif.Lemmas.Grad
import Verif.Lemmas.GradVec
import Verif.Lemmas.Hybrid
import Verif.Lemmas.HybridBounds
import Verif.Lemmas.HybridRate
import Verif.Lemmas.Jacobian
import Verif.Lemmas.Loose
import Verif.Lemmas.Lqr
import Verif.Lemmas.LyapEnc
import Verif.Lemmas.Mic
import Verif.Lemmas.Mip
import Verif.Lemmas.MipStep
import Verif.Lemmas.MipTorch
import Verif.Lemmas.NetBounds
import Verif.Lemmas.NetEnc
import Verif.Lemmas.Optimizer
import Verif.Lemmas.OutGrad
import Verif.Lemmas.Pattern
import Verif.Lemmas.Ray
import Verif.Lemmas.Ready
import Verif.Lemmas.Relax
import Verif.Lemmas.ReluSystem
import Verif.Lemmas.Rk4
import Verif.Lemmas.Roa
import Verif.Lemmas.RrtStar
import Verif.Lemmas.Strengthen
import Verif.Lemmas.StrengthenSys
import Verif.Lemmas.Variational
import Verif.Model.Barrier
import Verif.Model.BoundProg
import Verif.Model.Callback
import Verif.Model.CarSim
import Verif.Model.ContCostToGo
import Verif.Model.ContRateLoss
import Verif.Model.ContinuousLyap
import Verif.Model.ControlAffine
import Verif.Model.Cuts
import Verif.Model.Datasets
import Verif.Model.DynLoss
import Verif.Model.DynObject
import Verif.Model.DynTrain
import Verif.Model.DynamicsLearning
import Verif.Model.Encoders
import Verif.Model.ExampleNew
import Verif.Model.ExampleSystems
import Verif.Model.Feedback
import Verif.Model.FeedbackBound
import Verif.Model.ForwardTraining
import Verif.Model.Geometry
import Verif.Model.Grid
import Verif.Model.GridCosts
import Verif.Model.Hybrid
import Verif.Model.HybridRate
import Verif.Model.ImageNets
import Verif.Model.Integrator
import Verif.Model.Latent
import Verif.Model.Losses
import Verif.Model.LpCost
import Verif.Model.Lqr
import Verif.Model.LyapStrengthen
import Verif.Model.Lyapunov
import Verif.Model.Mic
import Verif.Model.Mip
import Verif.Model.Miqp
import Verif.Model.ModelBounds
import Verif.Model.ModelFiles
import Verif.Model.NetEnc
import Verif.Model.Norm
import Verif.Model.NumericalGradient
import Verif.Model.Optimizer
import Verif.Model.Params
import Verif.Model.Pattern
import Verif.Model.PbData
import Verif.Model.Physics
import Verif.Model.PoleSim
import Verif.Model.Polyhedron
import Verif.Model.QuadEnv
import Verif.Model.QuadFeedback
import Verif.Model.ROptions
import Verif.Model.RangeLp
import Verif.Model.ReluSystem
import Verif.Model.ReluSystemNew
import Verif.Model.ReplayBuffer
import Verif.Model.Rollout
import Verif.Model.RrtGrow
import Verif.Model.RrtStar
import Verif.Model.Sampling
import Verif.Model.Saturation
import Verif.Model.ScalarEnc
import Verif.Model.SimPlant
import Verif.Model.SimplePwl
import Verif.Model.Slip
import Verif.Model.SmallUtils
import Verif.Model.Strengthen
import Verif.Model.Td3
import Verif.Model.Td3Nets
import Verif.Model.TrainBarrier
import Verif.Model.TrainLog
import Verif.Model.TrainUtil
import Verif.Model.TrainValue
import Verif.Model.Trainer
import Verif.Model.TrainerSetup
import Verif.Model.UnicycleFeedback
import Verif.Model.UnicycleTrajOpt
import Verif.Model.ValueFit
import Verif.Model.ValueIteration
import Verif.Model.ValueObject
import Verif.Model.Variational
import Verif.Props.AbsEnc
import Verif.Props.Accepts
import Verif.Props.Accepts2
import Verif.Props.Adversarial
import Verif.Props.Barrier
import Verif.Props.BoundProg
import Verif.Props.BoundProgRun
import Verif.Props.Callback
import Verif.Props.CarSim
import Verif.Props.CarSimExamples
import Verif.Props.ContCostToGo
import Verif.Props.ContRateLoss
import Verif.Props.ContSystems
import Verif.Props.ContinuousLyap
import Verif.Props.ContinuousRate
import Verif.Props.ControlAffine
import Verif.Props.Converge
import Verif.Props.Cuts
import Verif.Props.Datasets
import Verif.Props.Descent
import Verif.Props.DynLoss
import Verif.Props.DynObject
import Verif.Props.DynTrain
import Verif.Props.DynamicsLearning
import Verif.Props.ExampleEquilibria
import Verif.Props.ExampleNew
import Verif.Props.ExampleSystems
import Verif.Props.ExampleSystems2
import Verif.Props.ExampleSystems3
import Verif.Props.Feedback
import Verif.Props.FeedbackBound
import Verif.Props.ForwardTraining
import Verif.Props.Geometry
import Verif.Props.Grad
import Verif.Props.Grid
import Verif.Props.GridCosts
import Verif.Props.Hybrid
import Verif.Props.HybridRate
import Verif.Props.HybridRate2
import Verif.Props.HybridRate3
import Verif.Props.ImageNets
import Verif.Props.Integrator
import Verif.Props.Latent
import Verif.Props.Losses
import Verif.Props.LpCost
import Verif.Props.Lqr
import Verif.Props.LqrCost
import Verif.Props.LqrExamples
import Verif.Props.Lyapunov
import Verif.Props.MaxBox
import Verif.Props.MicOps
import Verif.Props.Mip
import Verif.Props.Miqp
import Verif.Props.ModelBounds
import Verif.Props.ModelFiles
import Verif.Props.Network
import Verif.Props.Norm
import Verif.Props.NumericalGradient
import Verif.Props.Optimizer
import Verif.Props.Params
import Verif.Props.Pattern
import Verif.Props.PbData
import Verif.Props.Physics
import Verif.Props.PhysicsLaws
import Verif.Props.PoleSim
import Verif.Props.PoleSimExamples
import Verif.Props.Polyhedron
import Verif.Props.QuadEnv
import Verif.Props.QuadEnvExamples
import Verif.Props.QuadFeedback
import Verif.Props.ROptions
import Verif.Props.RangeLp
import Verif.Props.ReluSystem
import Verif.Props.ReluSystemNew
import Verif.Props.ReplayBuffer
import Verif.Props.Roa
import Verif.Props.Rollout
import Verif.Props.RrtGrow
import Verif.Props.RrtPaths
import Verif.Props.RrtStar
import Verif.Props.Sampling
import Verif.Props.Saturation
import Verif.Props.ScalarEnc
import Verif.Props.SimPlant
import Verif.Props.SimplePwl
import Verif.Props.Slip
import Verif.Props.SlipExact
import Verif.Props.SlipGrad
import Verif.Props.SmallUtils
import Verif.Props.Strengthen
import Verif.Props.Td3
import Verif.Props.Td3Nets
import Verif.Props.Tighten
import Verif.Props.Tighten2
import Verif.Props.Tighten3
import Verif.Props.TrainLog
import Verif.Props.TrainUtil
import Verif.Props.TrainValue
import Verif.Props.Trainer
import Verif.Props.TrainerSetup
import Verif.Props.TrajTraining
import Verif.Props.UnicycleFeedback
import Verif.Props.ValueFit
import Verif.Props.ValueIteration
import Verif.Props.ValueObject
import Verif.Props.Variational
import Verif.Spec.Adversarial
import Verif.Spec.CarSim
import Verif.Spec.ContCostToGo
import Verif.Spec.ContinuousLyap
import Verif.Spec.Datasets
import Verif.Spec.Descent
import Verif.Spec.DynTrain
import Verif.Spec.ExampleSystems
import Verif.Spec.Feedback
import Verif.Spec.ForwardTraining
import Verif.Spec.Geometry
import Verif.Spec.Hybrid
import Verif.Spec.Jacobian
import Verif.Spec.Lqr
import Verif.Spec.Lyapunov
import Verif.Spec.ModelBounds
import Verif.Spec.ModelFiles
import Verif.Spec.Network
import Verif.Spec.Norm
import Verif.Spec.Optimizer
import Verif.Spec.Pattern
import Verif.Spec.PbData
import Verif.Spec.Physics
import Verif.Spec.PoleSim
import Verif.Spec.QuadEnv
import Verif.Spec.RangeLp
import Verif.Spec.Roa
import Verif.Spec.RrtGrow
import Verif.Spec.RrtStar
import Verif.Spec.Scalar
import Verif.Spec.SimPlant
import Verif.Spec.SimplePwl
import Verif.Spec.Slip
import Verif.Spec.Td3
import Verif.Spec.TrainLog
import Verif.Spec.Trainer
import Verif.Spec.TrainerSetup
import Verif.Spec.UnicycleFeedback
import Verif.Spec.ValueIteration
import Verif.Spec.Variational
