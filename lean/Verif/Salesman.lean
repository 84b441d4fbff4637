import Mathlib.Data.List.Rotate
import Mathlib.Analysis.SpecialFunctions.Complex.Arg
import Mathlib.Analysis.SpecialFunctions.Trigonometric.Basic
import Mathlib.Algebra.Order.BigOperators.Group.List

/-!
# The travelling salesman problem

Models `SalesmanProblem.py` and `DistanceCostFunction.py`. A tour is a list of cities; the
distance between two cities is a real function. Floats are reals.
-/

namespace BF
namespace Salesman

variable {α : Type*}

/-- `xd` and `numpy.roll( xd, -roll )` compared element by element: the common shape of
`SalesmanProblem.py` 193-195, 213-215, 249-271 and 290. `numpy.roll` by `-roll` is a rotation. -/
noncomputable def legs (dist : α → α → ℝ) (pars : List α) (roll : ℕ := 1) : List ℝ :=
  List.zipWith dist pars (pars.rotate roll)

/-- `SalesmanProblem.py` 148-175: distances divided by the scale; with `oneway` the last leg is
put to zero; weights multiply by the weight of the city that is left. -/
noncomputable def result (dist : α → α → ℝ) (scale : ℝ) (oneway : Bool)
    (weights : Option (α → ℝ)) (pars : List α) : List ℝ :=
  let res := (legs dist pars).map (· / scale)
  let res := if oneway then res.set (res.length - 1) 0 else res
  match weights with
  | none => res
  | some w => List.zipWith (· * ·) res (pars.map w)

/-- `DistanceCostFunction.py` 97-109. -/
noncomputable def logLdata (res : List ℝ) : List ℝ := res.map (- ·)

/-- `ErrorDistribution.py` 362-375: the sum of `logLdata`. -/
noncomputable def logLikelihood (res : List ℝ) : ℝ := (logLdata res).sum

/-- `DistanceCostFunction.py` 80-94. -/
noncomputable def logLikelihoodAlt (res : List ℝ) : ℝ := - res.sum

/-- `SalesmanProblem.py` 177-195, for one pair of cities. -/
noncomputable def manhattan (a b : List ℝ) : ℝ := (List.zipWith (fun x y => |x - y|) a b).sum

/-- `SalesmanProblem.py` 197-215, for one pair of cities. -/
noncomputable def euclidic (a b : List ℝ) : ℝ :=
  Real.sqrt (List.zipWith (fun x y => (x - y) ^ 2) a b).sum

/-- `numpy.arctan2( y, x )`. -/
noncomputable def arctan2 (y x : ℝ) : ℝ := Complex.arg ⟨x, y⟩

/-- The argument `a` of `SalesmanProblem.py` 236-267 for cities at (longitude, latitude) in
degrees, before clamping. -/
noncomputable def haversine (c1 c2 : ℝ × ℝ) : ℝ :=
  let rad := Real.pi / 180
  let shlon1 := Real.sin (c1.1 * rad / 2)
  let chlon1 := Real.cos (c1.1 * rad / 2)
  let shlat1 := Real.sin (c1.2 * rad / 2)
  let chlat1 := Real.cos (c1.2 * rad / 2)
  let shlon2 := Real.sin (c2.1 * rad / 2)
  let chlon2 := Real.cos (c2.1 * rad / 2)
  let shlat2 := Real.sin (c2.2 * rad / 2)
  let chlat2 := Real.cos (c2.2 * rad / 2)
  (shlat2 * chlat1 - shlat1 * chlat2) ^ 2 +
    Real.cos (c1.2 * rad) * Real.cos (c2.2 * rad) *
      (shlon2 * chlon1 - shlon1 * chlon2) ^ 2

/-- `SalesmanProblem.py` 217-271, for one pair of cities. -/
noncomputable def spherical (c1 c2 : ℝ × ℝ) : ℝ :=
  let a := if haversine c1 c2 > 1 then 1 else haversine c1 c2
  2 * arctan2 (Real.sqrt a) (Real.sqrt (1 - a))

/-- Smallest of a non-empty list (`ndarray.min`), starting from `m`. -/
noncomputable def minFrom (m : ℝ) (l : List ℝ) : ℝ := l.foldl min m

/-- `SalesmanProblem.py` 293-304: smallest distance between two cities. `none` is the ValueError of
`min` on an empty array. -/
noncomputable def minimumDistance (dist : α → α → ℝ) (cities : List α) : Option ℝ :=
  match legs dist cities 1 with
  | [] => none
  | d :: ds =>
      some ((List.range' 2 (cities.length - 2)).foldl
        (fun md roll => minFrom md (legs dist cities roll)) (minFrom d ds))

end Salesman
end BF
