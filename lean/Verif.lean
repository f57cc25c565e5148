import Verif.Base
import Verif.Base64.Props
import Verif.Base64.Variants
import Verif.Parallel.Props
import Verif.Parallel.Exceptions
import Verif.Parallel.Degree
import Verif.Knn.Props
import Verif.Serialization.Props
import Verif.Serialization.Eigen
import Verif.Graph.Props
import Verif.Astar.Props
import Verif.Astar.EqualProps
import Verif.Astar.Inflated
import Verif.Astar.CallbackMain
import Verif.GraphSearch.Props
import Verif.GraphSearch.Finite
import Verif.TaskPlanner.Props
import Verif.TaskPlanner.Registry
import Verif.TaskPlanner.Equal
import Verif.Voxel.DynamicProps
import Verif.Voxel.DynamicFloat
import Verif.Voxel.Ser
import Verif.Voxel.DSer
import Verif.Voxel.Self
import Verif.Voxel.HashIndex
import Verif.Dtw.Props
import Verif.Distances.Props
import Verif.Parallel.ThrowLoop
import Verif.Parallel.AtomicLoop
import Verif.Distances.Throw
import Verif.Knn.Throw
import Verif.Kmeans.Props
import Verif.Kmeans.Total
import Verif.Kmeans.Throw
import Verif.Hier.Props
import Verif.Hier.Throw
import Verif.Hier.Overloads
import Verif.Float
import Verif.Utility.Props
import Verif.Lifetime.Maybe
import Verif.Lifetime.Scope
import Verif.Lifetime.Omp
import Verif.Lifetime.Ref
import Verif.Lifetime.Atomic
import Verif.Ros.Conversions
import Verif.Path.Resample
import Verif.Path.SmoothMore
import Verif.Path.Throw
import Verif.Path.ThrowProps
import Verif.Path.ThrowCalls
import Verif.Path.ThrowPure
import Verif.Rrt.BiMore
import Verif.Rrt.BiActive
import Verif.Rrt.PlanMore
import Verif.Rrt.Helpers
import Verif.Rrt.Ser
import Verif.Rrt.Throw
import Verif.Rrt.ThrowProps
import Verif.Rrt.ThrowSim
import Verif.Rrt.BiThrow
import Verif.Rrt.BiThrowProps
import Verif.Rrt.BiThrowSim
import Verif.Prm.AddNode
import Verif.Prm.Linear
import Verif.Prm.Grow
import Verif.Prm.Throw
import Verif.Prm.Stats
import Verif.Prm.UpdateThrow
import Verif.Prm.Update
import Verif.Prm.Build
import Verif.Prm.QueryProps
import Verif.Prm.QueryEnds
import Verif.Prng.Props
import Verif.Prng.Reference
import Verif.Prng.Zero
import Verif.Prng.Period
import Verif.Math.RevoluteFloat
import Verif.Math.Average
import Verif.Math.Projection
import Verif.Math.OrthogonalPlane
import Verif.Math.Metric
import Verif.Math.TwistExp
import Verif.Math.Interpolate
import Verif.Gaussian.Sample
import Verif.Gaussian.Cdf
import Verif.Gaussian.Law
import Verif.Gaussian.Multivariate
import Verif.Gaussian.MultivariateLaw
import Verif.Zlib.Example
import Verif.Color.Props
import Verif.Totp.Limits
import Verif.Totp.Query
import Verif.Totp.PathSwitch
import Verif.Totp.Eval
import Verif.Totp.Ends
import Verif.Totp.StraightFalse
import Verif.Totp.Defined
import Verif.Totp.BlendFalse
import Verif.Totp.Under
import Verif.Totp.CornerFalse
import Verif.Totp.Switching
import Verif.Math.Fit
import Verif.Math.Quaternion
import Verif.Math.AverageRotation
import Verif.Math.Rpy
import Verif.Math.Slerp
import Verif.Math.VectorOps
import Verif.Math.Close
import Verif.Math.RandomEuler
import Verif.Print.Unique
import Verif.Utility.Hash
import Verif.Utility.Checks
import Verif.NaN.Hausdorff
import Verif.NaN.Dijkstra
import Verif.NaN.Clustering
import Verif.NaN.Dtw
import Verif.NaN.Astar
import Verif.NaN.Values
import Verif.Double
import Verif.Accuracy
import Verif.TaskPlanner.Callbacks
import Verif.TaskPlanner.CallbackProps
import Verif.Astar.Depth
import Verif.GraphSearch.Callbacks
import Verif.GraphSearch.CallbackLemmas
import Verif.GraphSearch.CallbackProps
import Verif.GraphSearch.CallbackMain
import Verif.TaskPlanner.Planning
import Verif.TaskPlanner.PlanningLemmas
import Verif.TaskPlanner.PlanningProps
import Verif.TaskPlanner.Session
import Verif.TaskPlanner.SessionProps
import Verif.GraphSearch.CallbackMono
import Verif.Prm.QueryThrow
import Verif.Prm.QueryThrowProps
import Verif.Prm.QueryThrowLift
import Verif.Prm.BuildThrow
import Verif.Prm.BuildThrowProps
import Verif.Prm.BuildThrowLift
