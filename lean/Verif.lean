import Verif.Props.Expr
import Verif.Props.Sqp
import Verif.Props.Legacy
import Verif.Props.Bounds
import Verif.Props.Cache
import Verif.Props.ModelType
import Verif.Props.OsqpModel
import Verif.Props.Convex
import Verif.Props.Session
import Verif.Props.NumDiff
import Verif.Props.ErrFunc
import Verif.Props.Sparse
import Verif.Props.OsqpRows
import Verif.Props.Collision
import Verif.Props.CollisionSets
import Verif.Props.TrajCosts
import Verif.Props.BasicArray
import Verif.Props.Interp
import Verif.Props.Problem
import Verif.Props.ProblemTerms
import Verif.Props.TimeTerms
import Verif.Props.Composite
import Verif.Props.IfoptCosts
import Verif.Props.VarSets
import Verif.Props.JointConstraints
import Verif.Props.SqpExprs
import Verif.Props.QpRows
import Verif.Props.QpAssembly
import Verif.Props.QpProblem
import Verif.Props.QpSession
import Verif.Props.QpProps
import Verif.Props.QpEval
import Verif.Props.QpSetup
import Verif.Props.QpLayout
import Verif.Props.IfoptQpRows
import Verif.Props.IfoptQpCost
import Verif.Props.IfoptQp
import Verif.Props.IfoptQpProps
import Verif.Props.BpmpdIo
import Verif.Props.OtherSolvers
import Verif.Props.SqpMore
import Verif.Props.LegacyMore
import Verif.Model.CollisionCons
import Verif.Props.CollisionCons
import Verif.Props.CollisionJac
import Verif.Model.OsqpEigen
import Verif.Props.OsqpEigen
import Verif.Props.OsqpEigenMeaning
import Verif.Model.CollisionTerms
import Verif.Props.CollisionTerms
import Verif.Model.Cartesian
import Verif.Props.Cartesian
import Verif.Model.CartLine
import Verif.Props.CartLine
import Verif.Model.KinTerms
import Verif.Props.KinTerms
import Verif.Model.Construct
import Verif.Props.Construct
import Verif.Props.ConstructTerms
import Verif.Model.JsonRead
import Verif.Props.JsonRead
import Verif.Props.JsonDoc
import Verif.Model.LegacySolvers
import Verif.Props.LegacySolvers
import Verif.Model.Yaml
import Verif.Props.Yaml
import Verif.Model.EndToEnd
import Verif.Props.EndToEnd
import Verif.Model.Parallel
import Verif.Props.Parallel
import Verif.Model.SqpRun
import Verif.Props.SqpRunQps
import Verif.Props.SqpRun
import Verif.Props.SqpRunSim
import Verif.Props.SqpRunMain
import Verif.Props.SqpRunTrajOpt
import Verif.Props.SqpRunLawful
import Verif.Props.SqpRunProps
import Verif.Model.SqpRunIfopt
import Verif.Props.SqpIfoptLawful
import Verif.Props.SqpIfoptProps
import Verif.Model.IfoptPlan
import Verif.Props.IfoptPlanRows
import Verif.Props.SqpRunRange
import Verif.Props.IfoptPlan
import Verif.Model.IfoptScene
import Verif.Props.IfoptScene
import Verif.Props.IfoptScenePose
import Verif.Props.IfoptSceneCollision
import Verif.Model.TermHatch
import Verif.Props.TermHatch
import Verif.Model.Gurobi
import Verif.Props.Gurobi
import Verif.Props.Optimal
import Verif.Props.JointConvex
import Verif.Props.SqpOptimal
import Verif.Props.SqpRunLast
import Verif.Props.SqpRunAffine
import Verif.Props.SqpRunOptimal
import Verif.Props.SqpRunExample
import Verif.Props.IfoptPlanOptimal
import Verif.Props.Output
import Verif.Model.SqpSession
import Verif.Props.SqpTwin
import Verif.Props.SqpSession
import Verif.Model.LegacySession
import Verif.Props.LegacySession
import Verif.Model.LegacyLog
import Verif.Props.LegacyLog
import Verif.Model.ProblemHistory
import Verif.Props.ProblemHistory
import Verif.Model.OptProb
import Verif.Props.OptProb
import Verif.Model.ParamEq
import Verif.Props.ParamEq
import Verif.Model.SqpWatch
import Verif.Props.SqpWatch
import Verif.Model.LegacyWatch
import Verif.Props.LegacyWatch
import Verif.Model.HullMerge
import Verif.Props.HullMerge
import Verif.Model.VhacdAsync
import Verif.Props.VhacdAsync
import Verif.Model.Voxelize
import Verif.Props.Voxelize
import Verif.Model.Decompose
import Verif.Props.Decompose
import Verif.Model.ClipPlane
import Verif.Props.ClipPlane
import Verif.Model.SArray
import Verif.Props.SArray
import Verif.Model.CircularList
import Verif.Props.CircularList
import Verif.Props.Separating
import Verif.Props.TriBox
import Verif.Model.MeshVolume
import Verif.Props.MeshVolume
import Verif.Model.TetClip
import Verif.Props.TetClip
import Verif.Props.TetConserve
import Verif.Props.TetGeneral
import Verif.Model.Diagonalize
import Verif.Props.Diagonalize
import Verif.Model.TetAxes
import Verif.Props.TetAxes
import Verif.Model.PartHull
import Verif.Props.PartHull
import Verif.Model.PlaneCost
import Verif.Props.PlaneCost
import Verif.Model.CutDir
import Verif.Props.CutDir
import Verif.Model.Raycast
import Verif.Props.Raycast
import Verif.Model.IncHull
import Verif.Props.IncHull
import Verif.Props.JsonRows
