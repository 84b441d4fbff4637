import Verif.Walkers
import Verif.Orders
import Verif.Salesman
import Verif.Nested
import Verif.Phantoms
import Verif.Compound
import Verif.Arr
import Verif.Dynamic
import Verif.Combi
import Verif.Fixed
import Verif.Erf
import Verif.Priors
import Verif.Basis
import Verif.Engines
import Verif.Images
import Verif.Cyclic
import Verif.Product
import Verif.ErrDis
import Verif.Fitters
import Verif.LM
import Verif.Dirichlet
import Verif.Kernels
import Verif.LogFactorial
import Verif.Robust
import Verif.Simple
import Verif.Poly
import Verif.Splines
import Verif.Routing
import Verif.Heap
import Verif.Tree
import Verif.Amoeba
import Verif.XYProblem
import Verif.Multi
import Verif.Evidence
import Verif.BasicSplines
import Verif.SoftMax
import Verif.Shapes
import Verif.BSplines
import Verif.Scales
import Verif.MaxLike
import Verif.Kepler
import Verif.Kernel2d
import Verif.Growth
import Verif.Curve
import Verif.PhantomSampler
import Verif.Hyper
import Verif.ModelDist
import Verif.StartDyn
import Verif.Football
import Verif.Solver
import Verif.SplinesDyn
import Verif.MonteCarlo
import Verif.NumPartial
import Verif.Rerun
import Verif.Setup
import Verif.Pipes
import Verif.Summary
import Verif.Threads
import Verif.Boost
import Verif.Units
import Verif.LimitsFit
import Verif.ErrAlt
import Verif.Names
import Verif.Copies
import Verif.Signs
import Verif.Attributes
import Verif.SplineLab
import Verif.Lineage
import Verif.LinearModels
import Verif.Invariance
import Verif.Arrays
import Verif.RepPriors
import Verif.Evolution
import Verif.RepDeriv
import Verif.Classes
import Verif.Explorer
import Verif.Nice
import Verif.UnitSpace
import Verif.Redraw
import Verif.Props.Walkers
import Verif.Props.Orders
import Verif.Props.Salesman
import Verif.Props.Nested
import Verif.Props.NestedMore
import Verif.Props.NestedRuns
import Verif.Props.Phantoms
import Verif.Props.Compound
import Verif.Props.CompoundDeriv
import Verif.Props.Dynamic
import Verif.Props.Repeating
import Verif.Props.Combi
import Verif.Props.Fixed
import Verif.Props.Priors
import Verif.Props.PriorsMore
import Verif.Props.PriorsCirc
import Verif.Props.PriorsCopy
import Verif.Props.Basis
import Verif.Props.Engines
import Verif.Props.Galilean
import Verif.Props.Chord
import Verif.Props.Images
import Verif.Props.Cyclic
import Verif.Props.Product
import Verif.Props.ErrGrad
import Verif.Props.ErrSum
import Verif.Props.ErrNorm
import Verif.Props.Fitters
import Verif.Props.LM
import Verif.Props.Kernels
import Verif.Props.EnginesRange
import Verif.Props.LogFactorial
import Verif.Props.Robust
import Verif.Props.Simple
import Verif.Props.Poly
import Verif.Props.Splines
import Verif.Props.Routing
import Verif.Props.Heap
import Verif.Props.Tree
import Verif.Props.Amoeba
import Verif.Props.XYProblem
import Verif.Props.Multi
import Verif.Props.GaussInt
import Verif.Props.Evidence
import Verif.Props.EvidenceMore
import Verif.Props.BasicSplines
import Verif.Props.BasicSplinesAll
import Verif.Props.SoftMax
import Verif.Props.Tophats
import Verif.Props.Shapes
import Verif.Props.Cox
import Verif.Props.BSplines
import Verif.Props.BSplinesAll
import Verif.Props.Scales
import Verif.Props.Sigma
import Verif.Props.MaxLike
import Verif.Props.MaxLikeMore
import Verif.Props.Kepler
import Verif.Props.Orbits
import Verif.Props.Kernel2d
import Verif.Props.Growth
import Verif.Props.Curve
import Verif.Props.PhantomSampler
import Verif.Props.Hyper
import Verif.Props.ModelDist
import Verif.Props.StartDyn
import Verif.Props.Fresh
import Verif.Props.Football
import Verif.Props.Solver
import Verif.Props.SplinesDyn
import Verif.Props.MonteCarlo
import Verif.Props.NumPartial
import Verif.Props.Rerun
import Verif.Props.Setup
import Verif.Props.Pipes
import Verif.Props.Summary
import Verif.Props.Threads
import Verif.Props.Boost
import Verif.Props.Units
import Verif.Props.GalileanRange
import Verif.Props.LimitsFit
import Verif.Props.ErrAlt
import Verif.Props.Names
import Verif.Props.Copies
import Verif.Props.Signs
import Verif.Props.Attributes
import Verif.Props.SplineLab
import Verif.Props.Lineage
import Verif.Props.CoxZeros
import Verif.Props.SplineRank
import Verif.Props.Determined
import Verif.Props.Invariance
import Verif.Props.Shrink
import Verif.Props.OrderSpread
import Verif.Props.Accuracy
import Verif.Props.PriorLaw
import Verif.Props.EvidencePriors
import Verif.Props.Repeats
import Verif.Props.RepeatsErr
import Verif.Props.Quality
import Verif.Props.SameFit
import Verif.Props.SameFitModels
import Verif.Props.SameFitAfter
import Verif.Props.DeterminedMore
import Verif.Props.Linear
import Verif.Props.ErrMixed
import Verif.Props.Arrays
import Verif.Props.RepPriors
import Verif.Props.Noise
import Verif.Props.Evolution
import Verif.Props.RepDeriv
import Verif.Props.MostLikely
import Verif.Props.Classes
import Verif.Props.LMLinear
import Verif.Props.RobustLoss
import Verif.Props.TreeMask
import Verif.Props.NestedShift
import Verif.Props.EngineShift
import Verif.Props.Explorer
import Verif.Props.Nice
import Verif.Props.EngineEffort
import Verif.Props.Volumes
import Verif.Props.MoreData
import Verif.Props.UnitSpace
import Verif.Props.ScaleMeans
import Verif.Props.Redraw
import Verif.Props.Mixture
import Verif.Props.StepDirs
import Verif.Props.FairPick
import Verif.Props.PriorSlope
import Verif.Props.Records
import Verif.Props.Mixed
