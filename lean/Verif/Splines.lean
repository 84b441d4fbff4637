import Verif.Poly

/-!
# The splines model

Models `SplinesModel.py`.

Simplifications: floats are reals; one x is taken of `xdata`. The loop over the columns stops (211) as soon as no x
of all of `xdata` is beyond the knot; as long as the knots are in order nothing would be changed after that, so the
model has no such stop, and the theorems take the knots in order.
-/

noncomputable section

namespace BF.Splines

open BF.Poly

/-- `SplinesModel.py` 214-216 and 198-201: repeated multiplication. -/
def product (order : ℕ) (d : ℝ) : ℝ := (List.replicate order d).foldl (· * ·) 1

/-- The loop of `SplinesModel.py` 207-221 over the inner knots: `xc` is the value in `x`, `inn` says whether this
element is in `ki`. -/
def splineLoop (order : ℕ) (x : ℝ) : List ℝ → ℝ → Bool → List ℝ
  | [], xc, inn => [if inn then xc else 0]
  | k :: ks, xc, inn =>
      let c0 := if inn then xc else 0
      if x ≥ k then
        let t := product order (x - k)
        (c0 - t) :: splineLoop order x ks t true
      else c0 :: splineLoop order x ks xc false

/-- `SplinesModel.basePartial` 179-226, with parlist None. The loop uses the knots 1 to nrknots - 2. With less than
two knots line 221 is out of range, or the number of columns is negative: `none`. -/
def splinePartial (order : ℕ) (knots : List ℝ) (x : ℝ) : Option (List ℝ) :=
  if knots.length < 2 then none
  else some (powers order 1 x ++ splineLoop order x knots.tail.dropLast (product order x) true)

/-- The result of a `SplinesModel`, through `LinearModel.py` 91-115. -/
def splineResult (order : ℕ) (knots : List ℝ) (x : ℝ) (p : ℕ → ℝ) : Option ℝ :=
  (splinePartial order knots x).map (linearResult p)

/-- `SplinesModel.baseDerivative` 229-245, for orders from 1 on. -/
def splineDerivative (order : ℕ) (knots : List ℝ) (x : ℝ) (p : ℕ → ℝ) : Option ℝ :=
  let ff : ℕ → ℝ := fun k => if k < order + 1 then (k : ℝ) else 3
  let pars : ℕ → ℝ := fun k => p k * ff k
  splineResult (order - 1) knots x (fun k => pars (1 + k))

end BF.Splines
