import Verif.Props.Quaternion
import Verif.Props.AxisAngle
import Verif.Props.Euler
import Verif.Props.Fk
import Verif.Props.Tree
import Verif.Props.Gradient
import Verif.Props.Serial
import Verif.Props.Pose
import Verif.Props.Math
import Verif.Props.So3
import Verif.Props.Transform3d
import Verif.Props.IKPose
import Verif.Props.IKStep
import Verif.Props.IKSol
import Verif.Props.IKRun
import Verif.Props.IKSolve
import Verif.Model.Sdf
import Verif.Model.Mjcf
import Verif.Props.Urdf
import Verif.Spec.Sdf
import Verif.Spec.Mjcf
import Verif.Lemmas.SdfXml
import Verif.Props.Sdf
import Verif.Props.Mjcf
import Verif.Props.Urdf2
import Verif.Spec.Format
import Verif.Props.Format
import Verif.Props.Frame
import Verif.Props.Sdf2
import Verif.Props.Mjcf2
import Verif.Model.Cache
import Verif.Lemmas.Cache
import Verif.Props.Cache
import Verif.Props.IKStart
import Verif.Props.IKObj
import Verif.Props.Velocity
import Verif.Props.Descent
import Verif.Spec.Visual
import Verif.Props.Visual
import Verif.Model.Tags
import Verif.Model.TagsIK
import Verif.Props.Tags
import Verif.Props.TagsIK
import Verif.Model.Alias
import Verif.Spec.Alias
import Verif.Props.Alias
import Verif.Model.Heap
import Verif.Spec.Heap
import Verif.Props.Heap
import Verif.Model.Random
import Verif.Spec.Random
import Verif.Lemmas.Gauss
import Verif.Props.Random
import Verif.Props.Perturb
import Verif.Props.RandomIK
import Verif.Model.Float
import Verif.Spec.Float
import Verif.Lemmas.FkFl
import Verif.Lemmas.Fro
import Verif.Lemmas.Round
import Verif.Props.Float
import Verif.Spec.Valid
import Verif.Lemmas.Good
import Verif.Props.Valid
import Verif.Spec.Defaults
import Verif.Props.Defaults
import Verif.Props.Kept
import Verif.Props.DictZero
import Verif.Props.LocalConv
import Verif.Props.Hessian
import Verif.Props.Reach
import Verif.Model.Reflect
import Verif.Model.ReflectTables
import Verif.Lemmas.Reflect
import Verif.Lemmas.ReflectWrite
import Verif.Lemmas.ReflectTables
import Verif.Lemmas.ReflectUrdf
import Verif.Lemmas.ReflectSdf
import Verif.Props.Write
import Verif.Props.WriteSdf
import Verif.Model.RobotApi
import Verif.Props.RobotApi
import Verif.Model.FloatJac
import Verif.Lemmas.JacRound
import Verif.Props.FloatJac
import Verif.Model.FloatRot
import Verif.Lemmas.QuatRound
import Verif.Lemmas.QuatRound2
import Verif.Lemmas.AngleRound
import Verif.Lemmas.MatRound
import Verif.Props.FloatRot
import Verif.Model.FloatIK
import Verif.Props.FloatIK
import Verif.Model.Tape
import Verif.Lemmas.Tape
import Verif.Lemmas.TapeOps
import Verif.Model.TapeRot
import Verif.Props.TapeRot
import Verif.Spec.Gradient
import Verif.Props.Gradients
import Verif.Model.TapeFk
import Verif.Lemmas.TapeSmooth
import Verif.Lemmas.TapeFk
import Verif.Lemmas.TapeSecond
import Verif.Props.AutogradFk
import Verif.Model.TapeSo3
import Verif.Props.GradSo3
import Verif.Model.TapeT3
import Verif.Lemmas.TapeBatch
import Verif.Lemmas.TapeT3
import Verif.Lemmas.TapeT3Build
import Verif.Props.GradT3
import Verif.Model.Tensor
import Verif.Model.TensorRot
import Verif.Lemmas.Tensor
import Verif.Lemmas.TensorOps
import Verif.Lemmas.TensorExpr
import Verif.Lemmas.TensorRot
import Verif.Props.Batch
import Verif.Model.TensorChain
import Verif.Lemmas.TensorChain
import Verif.Lemmas.TensorFk
import Verif.Lemmas.TensorGrad
import Verif.Lemmas.TensorJac
import Verif.Props.BatchChain
import Verif.Model.TensorIK
import Verif.Lemmas.TensorTab
import Verif.Lemmas.TensorIK
import Verif.Lemmas.TensorSolve
import Verif.Lemmas.TensorKernel
import Verif.Lemmas.TensorSvd
import Verif.Lemmas.TensorEval
import Verif.Props.BatchIK
import Verif.Spec.Dtype
import Verif.Model.TensorT3
import Verif.Lemmas.TensorT3
import Verif.Lemmas.TensorT3Ops
import Verif.Lemmas.TensorT3Init
import Verif.Props.BatchT3
import Verif.Props.BatchT3Init
import Verif.Props.BatchT3Build
import Verif.Model.TensorLoad
import Verif.Props.Precision
import Verif.Model.TensorMath
import Verif.Lemmas.TensorMath
import Verif.Lemmas.TensorSo3
import Verif.Props.BatchMath
import Verif.Props.BatchSo3
import Verif.Props.BatchPerturb
import Verif.Model.TapeConv
import Verif.Lemmas.TapeConv
import Verif.Props.GradConv
import Verif.Model.InPlace
import Verif.Spec.InPlace
import Verif.Lemmas.InPlace
import Verif.Props.GradInPlace
import Verif.Model.FloatT3
import Verif.Spec.FloatT3
import Verif.Lemmas.T3Round
import Verif.Props.FloatT3
import Verif.Model.Ieee
import Verif.Spec.Ieee
import Verif.Lemmas.Ieee
import Verif.Lemmas.IeeeFk
import Verif.Lemmas.IeeeRound
import Verif.Props.Ieee
import Verif.Model.IeeeIK
import Verif.Lemmas.IeeeIK
import Verif.Props.IeeeIK
import Verif.Model.FloatLoad
import Verif.Spec.FloatLoad
import Verif.Lemmas.LoadRound
import Verif.Props.FloatLoad
import Verif.Model.FloatLoad2
import Verif.Spec.FloatLoad2
import Verif.Lemmas.LoadRound2
import Verif.Props.FloatLoad2
import Verif.Model.FloatGrad
import Verif.Spec.FloatGrad
import Verif.Lemmas.GradRound
import Verif.Props.FloatGrad
import Verif.Model.IeeeGrad
import Verif.Spec.IeeeGrad
import Verif.Lemmas.IeeeGrad
import Verif.Props.IeeeGrad
import Verif.Model.FloatSo3
import Verif.Lemmas.So3Round
import Verif.Props.FloatSo3
import Verif.Lemmas.So3LogRound
import Verif.Model.FloatSixD
import Verif.Props.FloatSixD
import Verif.Model.FloatAxisAngle
import Verif.Props.FloatAxisAngle
import Verif.Model.FloatApply
import Verif.Props.FloatApply
import Verif.Model.FloatDist
import Verif.Props.FloatDist
import Verif.Props.FloatDistAll
import Verif.Model.FloatSlerp
import Verif.Lemmas.SinRatio
import Verif.Props.FloatSlerp
import Verif.Model.FloatAcos
import Verif.Props.FloatAcos
import Verif.Model.FloatRelAngle
import Verif.Props.FloatRelAngle
import Verif.Props.FloatRelAngleReject
import Verif.Props.FloatRelAngleAll
import Verif.Model.FloatCheck
import Verif.Props.FloatCheck
