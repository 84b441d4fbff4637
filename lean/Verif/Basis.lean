import Mathlib.Data.Real.Basic
import Mathlib.Data.Real.Sqrt

/-!
# OrthonormalBasis

Models `OrthonormalBasis.py`. Vectors are lists of reals.
-/

noncomputable section

namespace BF

/-- `numpy.inner` of two vectors. -/
def dot (u v : List ℝ) : ℝ := (List.zipWith (· * ·) u v).sum

/-- `OrthonormalBasis.py` 44-46: the attribute `basis` exists after the first call of `normalise`. -/
structure Basis where
  basis : Option (List (List ℝ))

/-- The sum of the projections, `OrthonormalBasis.py` 65-68; `uv = 0.0` is broadcast. -/
def projSum (vec : List ℝ) : List (List ℝ) → List ℝ
  | [] => vec.map fun _ => 0
  | u :: us => List.zipWith (fun a b => dot u vec * a + b) u (projSum vec us)

/-- `OrthonormalBasis.normalise` 48-78. For a vector in the span of the basis numpy divides by zero
(nan); Lean gives zero. -/
def Basis.normalise (b : Basis) (vec : List ℝ) (reset : Bool) : List ℝ × Basis :=
  let old : List (List ℝ) := if reset then [] else b.basis.getD []
  let old := if vec.length ≤ old.length then [] else old
  let uvec := List.zipWith (· - ·) vec (projSum vec old)
  let uvec := uvec.map (· / Real.sqrt (dot uvec uvec))
  (uvec, ⟨some (old ++ [uvec])⟩)

end BF
