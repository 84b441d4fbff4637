import Verif.Fitters
import Verif.Poly
import Verif.Splines
import Verif.BSplines
import Verif.BasicSplines

/-!
# Linear models for the fitters

The linear models of `Poly`, `Splines`, `BSplines` and `BasicSplines` as given to a fitter.

Simplifications: those of the modules mentioned. Models without fixed parameters are taken: their `partial` is their
`basePartial`. Of the chains only sums.
-/

noncomputable section

namespace BF.LinearModels

open BF.Fitters BF.Poly

/-- A linear model as the fitter sees it: `Model.partial` (`Model.py` 611-714) of one model, through `FixedModel.py`
278-314 without fixed parameters; result through `LinearModel.py` 91-115. -/
def ofPartial {X : Type*} (np : ℕ) (part : X → List ℝ) : Lin X := ⟨np, fun _ => 0, fun x k => (part x).getD k 0⟩

/-- `PolynomialModel.__init__` 70-92 and `basePartial` 107-134. -/
def polynomial (degree : ℕ) : Lin ℝ := ofPartial (degree + 1) (polyPartial degree)

/-- `ChebyshevPolynomialModel.__init__` 79-101 and `basePartial` 117-148. -/
def chebyshev (degree : ℕ) : Lin ℝ := ofPartial (degree + 1) (chebPartial degree)

/-- `HarmonicModel.__init__` 83-105 and `basePartial` 125-155. -/
def harmonic (order : ℕ) (period : ℝ) : Lin ℝ := ofPartial (2 * order) (harmonicPartial order period)

/-- `SplinesModel.__init__` 101-160 and `basePartial` 179-226. -/
def splines (order : ℕ) (knots : List ℝ) : Lin ℝ :=
  ofPartial (order + knots.length - 1) fun x => (Splines.splinePartial order knots x).getD []

/-- `BSplinesModel.__init__` 116-176 and `basePartial` 204-231, for points inside the knots; otherwise it raises. -/
def bsplines (order : ℕ) (knots : List ℝ) : Lin ℝ :=
  ofPartial (BSplines.makeSpec knots order).npar (BSplines.makeSpec knots order).bspline.call

/-- `BasicSplinesModel.__init__` 115-174, with the basis that its constructor made, and `basePartial` 478-506. -/
def basicSplines (m : BasicSplines.Spec) (basis : ℕ → ℕ → ℕ → ℝ) : Lin ℝ := ofPartial m.npmax (m.partials basis)

/-- The sum of two linear models: `Model.addModel` 322-341 and `appendModel` 397-444, with the result of 480-529 and the
partials of 611-714. The parameters of the second model, and their columns, follow those of the first. -/
def plus {X : Type*} (m1 m2 : Lin X) : Lin X :=
  ⟨m1.np + m2.np, fun x => m1.off x + m2.off x, fun x k => if k < m1.np then m1.part x k else m2.part x (k - m1.np)⟩

end BF.LinearModels
