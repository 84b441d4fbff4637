import Verif.Poly

/-!
# B-splines

Models `BSplinesModel.py`, `bspline.py` and `splinelab.augknt`.

Simplifications: floats are reals; the cache of `memoize` is left out, as the methods depend on their arguments only.
The option `compute_derivatives` of `bspline.py` 93 is left out: only `d` uses it, and nothing but the constructor
calls `d`, to no effect.
-/

noncomputable section

namespace BF.BSplines

open BF.Poly

/-- `Bspline.__init__`, `bspline.py` 69-81. -/
structure Bspline where
  knots : List ℝ
  order : ℕ
  last : Bool

/-- An element of `knot_vector`. -/
def Bspline.t (b : Bspline) (i : ℕ) : ℝ := b.knots.getD i 0

/-- An element of `last_knot`, `bspline.py` 72-74. -/
def Bspline.lastKnot (b : Bspline) (i : ℕ) : ℝ :=
  if i = b.knots.length - b.order - 1 then b.t i else b.t 0 - 1

open Classical in
/-- `Bspline.__basis0`, `bspline.py` 83-91. -/
def Bspline.basis0 (b : Bspline) (xi : ℝ) : List ℝ :=
  (List.range (b.knots.length - 1)).map fun i =>
    if b.t i ≤ xi ∧ (xi < b.t (i + 1) ∨ (b.last = true ∧ xi = b.lastKnot (i + 1))) then 1 else 0

/-- `first_term` in `Bspline.__basis`, `bspline.py` 104-122, for `p + 1`. -/
def Bspline.first (b : Bspline) (xi : ℝ) (p i : ℕ) : ℝ :=
  if b.t (i + p + 1) - b.t i ≠ 0 then (xi - b.t i) / (b.t (i + p + 1) - b.t i) else 0

/-- `second_term` in `Bspline.__basis`, `bspline.py` 107-125, for `p + 1`. -/
def Bspline.second (b : Bspline) (xi : ℝ) (p i : ℕ) : ℝ :=
  if b.t (i + p + 2) - b.t (i + 1) ≠ 0 then (b.t (i + p + 2) - xi) / (b.t (i + p + 2) - b.t (i + 1)) else 0

/-- `Bspline.__basis`, `bspline.py` 93-128. -/
def Bspline.basis (b : Bspline) (xi : ℝ) : ℕ → List ℝ
  | 0 => b.basis0 xi
  | p + 1 =>
    let prev := b.basis xi p
    (List.range (b.knots.length - 1 - (p + 1))).map fun i =>
      b.first xi p i * prev.getD i 0 + b.second xi p i * prev.getD (i + 1) 0

/-- `Bspline.__call__`, `bspline.py` 131-137. -/
def Bspline.call (b : Bspline) (xi : ℝ) : List ℝ := b.basis xi b.order

/-- `Bspline.diff` with `order=1` and `Bspline.__diff_internal`, `bspline.py` 190-266; lines 215-216 make both new
objects with the default of `last`. -/
def Bspline.diff (b : Bspline) (xi : ℝ) : List ℝ :=
  match b.order with
  | 0 => List.replicate (b.call 0).length 0
  | q + 1 =>
    let p : ℝ := ((q + 1 : ℕ) : ℝ)
    let b1 : Bspline := { knots := b.knots.dropLast, order := q, last := false }
    let b2 : Bspline := { knots := b.knots.tail, order := q, last := false }
    (List.range (b.knots.length - (q + 1) - 1)).map fun i =>
      let denom1 := b.t (i + q + 1) - b.t i
      let denom2 := b.t (i + q + 2) - b.t (i + 1)
      (if denom1 ≠ 0 then p / denom1 else 0) * (b1.call xi).getD i 0
        + (if denom2 ≠ 0 then -p / denom2 else 0) * (b2.call xi).getD i 0

/-- `Bspline.collmat`, `bspline.py` 269-311, before `squeeze`: `f` is `call` or `diff`. -/
def collmat (f : ℝ → List ℝ) (tau : List ℝ) : List (List ℝ) := tau.map f

/-- `numpy.squeeze` (`bspline.py` 311) of a matrix with `ncol` columns, followed by `Tools.toArray` with `ndim=2`
(`Tools.py` 282-298): a single column becomes a row. -/
def squeezed (ncol : ℕ) (a : List (List ℝ)) : List (List ℝ) :=
  if ncol = 1 ∧ a.length ≠ 1 then [a.map fun row => row.getD 0 0] else a

/-- `splinelab.augknt`, `splinelab.py` 23-48. -/
def augknt (knots : List ℝ) (order : ℕ) : List ℝ :=
  List.replicate order (knots.headD 0) ++ knots ++ List.replicate order (knots.getLastD 0)

/-- The attributes of a `BSplinesModel`, 116-176. -/
structure Spec where
  knots : List ℝ
  order : ℕ
  eps : ℝ

/-- `BSplinesModel.__init__` 165. -/
def Spec.npar (m : Spec) : ℕ := m.order + m.knots.length - 1

/-- `BSplinesModel.__init__` 173-176. -/
def makeSpec (knots : List ℝ) (order : ℕ) : Spec := { knots := knots, order := order, eps := 0 }

/-- `_bspline`, `BSplinesModel.py` 174-175. -/
def Spec.bspline (m : Spec) : Bspline := { knots := augknt m.knots m.order, order := m.order, last := true }

/-- `BSplinesModel.basePartial` 204-231, at one point. -/
def Spec.partials (m : Spec) (x : ℝ) : Option (List ℝ) :=
  if x < m.knots.headD 0 ∨ x > m.knots.getLastD 0 then none else some (m.bspline.call x)

/-- `BSplinesModel.basePartial` 204-231, for an array. -/
def Spec.matrix (m : Spec) (xdata : List ℝ) : Option (List (List ℝ)) :=
  if (∃ x ∈ xdata, x < m.knots.headD 0) ∨ (∃ x ∈ xdata, x > m.knots.getLastD 0) then none
  else some (squeezed (m.bspline.call 0).length (collmat m.bspline.call xdata))

/-- The result at one point, through `LinearModel.baseResult`. -/
def Spec.result (m : Spec) (x : ℝ) (p : ℕ → ℝ) : Option ℝ := (m.partials x).map (linearResult p)

/-- The result for an array: `LinearModel.baseResult` 91-115 makes one number for each row. -/
def Spec.results (m : Spec) (xdata : List ℝ) (p : ℕ → ℝ) : Option (List ℝ) :=
  (m.matrix xdata).map fun a => a.map fun row => ∑ k ∈ Finset.range m.npar, p k * row.getD k 0

/-- `BSplinesModel.baseDerivative` 233-249, at one point. -/
def Spec.derivative (m : Spec) (x : ℝ) (p : ℕ → ℝ) : ℝ :=
  let xd := if x = m.knots.getLastD 0 then (1 - m.eps) * m.knots.getLastD 0 else x
  linearResult p (m.bspline.diff xd)

end BF.BSplines
