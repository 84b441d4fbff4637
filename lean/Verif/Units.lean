import Verif.Simple
import Verif.Poly
import Verif.Splines
import Verif.Shapes
import Verif.Kernel2d
import Verif.Kepler
import Verif.SoftMax
import Verif.BSplines
import Verif.Dynamic
import Mathlib.Algebra.Group.Basic

/-!
# Units of parameters

Models `getParameterUnit` of a (compound) model, `baseParameterUnit` of the separate models and `getIntegralUnit`.

The units are those of astropy. Of them is used only that they can be multiplied, divided and raised to a power: they
are the elements of a commutative group `G`, in which the dimensionless unit is 1. A model has the attributes `xUnit`
(a list when the input has more dimensions) and `yUnit`; `rad` is `units.si.rad`. A parameter list is a function of
the index, as in the models themselves.
-/

noncomputable section

namespace BF.Units

variable {G : Type*} [CommGroup G]

/-! ## One input -/

/-- `ArctanModel.baseParameterUnit` 173-177. -/
def arctanUnit (xU yU : G) (k : ℕ) : G := if k = 0 then yU else if k = 2 then xU⁻¹ else xU

/-- `ExpModel.baseParameterUnit` 187-189. -/
def expUnit (xU yU : G) (k : ℕ) : G := if k = 0 then yU else xU⁻¹

/-- `baseParameterUnit` of `GaussModel` 194, `LogisticModel` 186, `LorentzModel` 215-217, `KernelModel` 212-214,
`PseudoVoigtModel` 213-215 and `VoigtModel` 249-251. -/
def peakUnit (xU yU : G) (k : ℕ) : G := if k = 0 then yU else xU

/-- `baseParameterUnit` of `PowerModel` 164, `SineAmpModel` 178, `HarmonicModel` 214, `ChebyshevPolynomialModel` 208,
`BSplinesModel` 264, `BasicSplinesModel` 598, `FreeShapeModel` 268 and `DecisionTreeModel` 508. -/
def sameUnit (_xU yU : G) (_k : ℕ) : G := yU

/-- `PowerLawModel.baseParameterUnit` 179-183. -/
def powerLawUnit (xU yU : G) (k : ℕ) : G := if k = 0 then yU else if k = 1 then xU else 1

/-- `SineModel.baseParameterUnit` 226-228. -/
def sineUnit (rad xU yU : G) (k : ℕ) : G := if k = 0 then rad / xU else yU

/-- `SineModel.phaseParameterUnit` 316-320. -/
def sinePhaseUnit (rad xU yU : G) (k : ℕ) : G := if k = 0 then yU else if k = 1 then rad / xU else rad

/-- `EtalonModel.baseParameterUnit` 198-206. -/
def etalonUnit (rad xU yU : G) (k : ℕ) : G :=
  if k = 0 then yU else if k = 1 then 1 else if k = 2 then rad / xU else if k = 3 then rad else yU

/-- `SineDriftModel.baseParameterUnit` 189-193. -/
def sineDriftUnit (rad xU yU : G) (k : ℕ) : G := if k = 0 then rad / xU else if k = 3 then rad / (xU * xU) else yU

/-- `PolynomialModel.baseParameterUnit` 189. -/
def polyUnit (xU yU : G) (k : ℕ) : G := yU / xU ^ k

/-- `PadeModel.baseParameterUnit` 287-290. -/
def padeUnit (num : ℕ) (xU yU : G) (k : ℕ) : G := if k ≤ num then yU / xU ^ k else (xU ^ (k - (num + 1)))⁻¹

/-- `SplinesModel.baseParameterUnit` 261-263. -/
def splineUnit (order : ℕ) (xU yU : G) (k : ℕ) : G := yU / xU ^ (if k > order then order else k)

/-- `SineSplineModel.baseParameterUnit` 221-224; `npbase` is even, so `npbase / 2` is a whole number. -/
def sineSplineUnit (order npbase : ℕ) (xU yU : G) (k : ℕ) : G :=
  let k := k % (npbase / 2)
  yU / xU ^ (if k > order then order else k)

/-- `SineSplineDriftModel.baseParameterUnit` 245-248. Simplification: `npbase` is even, which it is for an odd
degree; otherwise the remainder is a broken number. -/
def sineSplineDriftUnit (order npbase : ℕ) (xU yU : G) (k : ℕ) : G := sineSplineUnit order npbase xU yU k

/-- `RadialVelocityModel.baseParameterUnit` 246-248. -/
def radialVelocityUnit (rad xU yU : G) (k : ℕ) : G := if k = 0 then rad / xU else yU

/-- `StellarOrbitModel.baseParameterUnit` 412-419. -/
def stellarOrbitUnit (rad xU yU : G) (k : ℕ) : G :=
  if k = 0 then 1 else if k = 1 then yU else if k = 2 then 1 / xU else rad

/-! ## More inputs -/

/-- `EtalonDriftModel.baseParameterUnit` 200-210. -/
def etalonDriftUnit (rad : G) (xU : ℕ → G) (yU : G) (k : ℕ) : G :=
  if k = 0 then yU else if k = 1 then 1 else if k = 2 then rad / xU 0 else if k = 3 then rad
  else if k = 4 then rad / xU 1 else yU

/-- `Kernel2dModel.baseParameterUnit` 246-250. -/
def kernel2dUnit (rad : G) (xU : ℕ → G) (yU : G) (k : ℕ) : G :=
  if k = 0 then yU else if k = 5 then rad else xU ((k - 1) % 2)

/-- `PolySineAmpModel.baseParameterUnit` 208-209. -/
def polySineUnit (npbase : ℕ) (xU : ℕ → G) (yU : G) (k : ℕ) : G := yU / xU 1 ^ (k % (npbase / 2))

/-- The loop of `PolySurfaceModel.baseParameterUnit` 265-268: what is left of `k`, and `dk`. `fuel` bounds the
turns. -/
def triangle : ℕ → ℕ → ℕ → ℕ × ℕ
  | 0, k, dk => (k, dk)
  | fuel + 1, k, dk => if k > dk then triangle fuel (k - (dk + 1)) (dk + 1) else (k, dk)

/-- `PolySurfaceModel.baseParameterUnit` 265-269. -/
def polySurfaceUnit (xU : ℕ → G) (yU : G) (k : ℕ) : G :=
  let r := triangle k k 0
  yU / (xU 0 ^ r.1 * xU 1 ^ (r.2 - r.1))

/-- The loop of `SurfaceSplinesModel.baseParameterUnit` 225-231: each model is an order and a list of knots. -/
def surfaceSplinesLoop (xU : ℕ → G) : List (ℕ × List ℝ) → ℕ → ℕ → G → G
  | [], _, _, u => u
  | m :: models, n, k, u =>
    let nx := m.2.length + m.1 - 1
    let j := k % nx
    surfaceSplinesLoop xU models (n + 1) (k / nx) (u / xU n ^ (if j > 3 then 3 else j))

/-- `SurfaceSplinesModel.baseParameterUnit` 223-232. -/
def surfaceSplinesUnit (models : List (ℕ × List ℝ)) (xU : ℕ → G) (yU : G) (k : ℕ) : G :=
  surfaceSplinesLoop xU models 0 k yU

/-- `SoftMaxModel.baseParameterUnit` 229-230. With one input `xUnit` is no list; it is `xU 0` here. -/
def softMaxUnit (s : SoftMax.Spec) (xU : ℕ → G) (k : ℕ) : G :=
  1 / (if k > s.ndim * s.ndout then 1 else xU (k % s.ndim))

/-- The loop of `ProductModel.baseParameterUnit` 235-244. A component is its number of parameters, its own `yUnit`,
and its `baseParameterUnit` for an `xUnit` and a `yUnit`; line 236 gives it the `xUnit` of its input. -/
def productLoop (xU : ℕ → G) (yU : G) : List (ℕ × G × (G → G → ℕ → G)) → ℕ → ℕ → G → G
  | [], _, _, u => u
  | (np, own, unit) :: ms, n, k, u => if k < np then unit (xU n) own k / u else productLoop xU yU ms (n + 1) (k - np) yU

/-- `ProductModel.baseParameterUnit` 227-245. -/
def productUnit (ms : List (ℕ × G × (G → G → ℕ → G))) (xU : ℕ → G) (yU : G) (k : ℕ) : G := productLoop xU yU ms 0 k 1

/-- `RepeatingModel.baseParameterUnit` 515-519: the repeated model gets the units of the whole. -/
def repeatingUnit {α : Type*} (r : BF.Dynamic.Rep α) (unit : G → G → ℕ → G) (xU yU : G) (k : ℕ) : Option G :=
  (r.par2model k).map fun i => unit xU yU i.1

/-! ## Compound models -/

/-- A model in a chain, as far as its units go: `npbase`, `xUnit`, `yUnit` and `baseParameterUnit`. -/
structure Link (G : Type*) where
  npbase : ℕ
  xUnit : G
  yUnit : G
  unit : G → G → ℕ → G

/-- `Model.getParameterUnit` 1112-1119 with `BaseModel.getParameterUnit` 410-419: the models of the chain in turn.
`none` is the IndexError. -/
def getParameterUnit : List (Link G) → ℕ → Option G
  | [], _ => none
  | m :: ms, k => if k < m.npbase then some (m.unit m.xUnit m.yUnit k) else getParameterUnit ms (k - m.npbase)

/-- The operations of a chain, `Model.py` 515-531, without the pipe. -/
inductive Op where
  | add | sub | mul | div

/-- `Model.operate` 515-531. -/
def Op.operate : Op → ℝ → ℝ → ℝ
  | .add, a, b => a + b
  | .sub, a, b => a - b
  | .mul, a, b => a * b
  | .div, a, b => a / b

/-- `Model._recursiveResult` 499-513 from the second model on: each takes its own parameters. A model is given with its
operation and its result. -/
def restResult : List (Link G × Op × (ℝ → (ℕ → ℝ) → ℝ)) → ℝ → (ℕ → ℝ) → ℝ → ℝ
  | [], _, _, res => res
  | (m, op, f) :: ms, x, p, res => restResult ms x (fun k => p (m.npbase + k)) (op.operate res (f x p))

/-- `Model.result` 480-497. -/
def chainResult (head : Link G × (ℝ → (ℕ → ℝ) → ℝ)) (ms : List (Link G × Op × (ℝ → (ℕ → ℝ) → ℝ))) (x : ℝ)
    (p : ℕ → ℝ) : ℝ :=
  restResult ms x (fun k => p (head.1.npbase + k)) (head.2 x p)

/-- `Model.__init__` 182-185: the units of a new model. -/
def Link.new (npbase : ℕ) (unit : G → G → ℕ → G) : Link G := { npbase := npbase, xUnit := 1, yUnit := 1, unit := unit }

/-- `Model.__setattr__` 228-230 for `xUnit` and `yUnit` of a compound model: they are attributes of the head. -/
def setUnits (xU yU : G) : List (Link G) → List (Link G)
  | [] => []
  | m :: ms => { m with
      xUnit := xU
      yUnit := yU } :: ms

/-- `Model.getIntegralUnit` 1122-1129, for a list of `xUnit`s, or one. -/
def getIntegralUnit (xUs : List G) (yU : G) : G := xUs.foldl (· * ·) yU

/-- `getParameterUnit` of a model of which some parameters are fixed: `FixedModel` does not define it, so the number
is handed to `baseParameterUnit` as it is, `BaseModel.py` 410-419; `parlist` is not used. -/
def fixedUnit (unit : G → G → ℕ → G) (_parlist : List ℕ) (xU yU : G) (k : ℕ) : G := unit xU yU k

/-- `BracketModel.baseParameterUnit`, `Model.py` 1893, and, for the number in the repeated model,
`CombiModel.baseParameterUnit` 378: what the model inside says. The `xUnit` and `yUnit` of the model itself are not
handed on. -/
def bracketUnit (inside : List (Link G)) (_xU _yU : G) (k : ℕ) : Option G := getParameterUnit inside k

end BF.Units
