import Verif.Splines
import Verif.Kernels

/-!
# Models made of splines or of a shape

Models `SineSplineModel.py`, `SineSplineDriftModel.py`, `SurfaceSplinesModel.py` and `FreeShapeModel.py`.

Simplifications: floats are reals; one x is taken of `xdata`. The splines are those of `Verif.Splines`.
-/

noncomputable section

namespace BF.Shapes

open BF.Poly BF.Splines BF.Kernels

/-! ## Sines with splines as amplitudes -/

/-- The number of parameters of a `SplinesModel`, `SineSplineModel.py` 114. -/
def nspline (order : ℕ) (knots : List ℝ) : ℕ := knots.length + order - 1

/-- `SineSplineModel.basePartial` 143-165. -/
def sineSplinePartial (freq : ℝ) (order : ℕ) (knots : List ℝ) (x : ℝ) : Option (List ℝ) :=
  let cx := Real.cos (2 * Real.pi * freq * x)
  let sx := Real.sin (2 * Real.pi * freq * x)
  (splinePartial order knots x).map fun b => b.map (cx * ·) ++ b.map (sx * ·)

/-- The result of a `SineSplineModel`, through `LinearModel.baseResult`. -/
def sineSplineResult (freq : ℝ) (order : ℕ) (knots : List ℝ) (x : ℝ) (p : ℕ → ℝ) : Option ℝ :=
  (sineSplinePartial freq order knots x).map (linearResult p)

/-- `SineSplineModel.getAmplitudes` 188-202. -/
def amplitudes (order : ℕ) (knots : List ℝ) (x : ℝ) (p : ℕ → ℝ) : Option (ℝ × ℝ) :=
  (splineResult order knots x p).bind fun a =>
    (splineResult order knots x fun k => p (nspline order knots + k)).map fun b => (a, b)

/-- `SplinesModel.baseDerivative` 229-245 for an array of `len` parameters: line 243 multiplies it by an array of
`nspline` elements, which is an error when the lengths differ. (When `nspline` is 1, numpy would broadcast; the
theorems leave that out.) -/
def splineDerivativeOf (order : ℕ) (knots : List ℝ) (x : ℝ) (len : ℕ) (p : ℕ → ℝ) : Option ℝ :=
  if len = nspline order knots then splineDerivative order knots x p else none

/-- `SineSplineModel.baseDerivative` 167-186. -/
def sineSplineDerivative (freq : ℝ) (order : ℕ) (knots : List ℝ) (x : ℝ) (p : ℕ → ℝ) : Option ℝ :=
  let tpf := 2 * Real.pi * freq
  let cx := Real.cos (tpf * x)
  let sx := Real.sin (tpf * x)
  let np := 2 * nspline order knots
  (amplitudes order knots x p).bind fun amps =>
    (splineDerivativeOf order knots x np p).bind fun cadx =>
      (splineDerivativeOf order knots x np p).map fun sadx =>
        tpf * (cadx * cx - amps.1 * sx + sadx * sx + amps.2 * cx)

/-- `SineSplineDriftModel.baseResult` 141-156. -/
def driftResult (degree order : ℕ) (knots : List ℝ) (x : ℝ) (p : ℕ → ℝ) : Option ℝ :=
  let t := 2 * Real.pi * x * polyResult degree x p
  (amplitudes order knots x fun k => p (degree + 1 + k)).map fun amps => amps.1 * Real.cos t + amps.2 * Real.sin t

/-- `SineSplineDriftModel.basePartial` 158-185. -/
def driftPartial (degree order : ℕ) (knots : List ℝ) (x : ℝ) (p : ℕ → ℝ) : Option (List ℝ) :=
  let t := 2 * Real.pi * x * polyResult degree x p
  let cx := Real.cos t
  let sx := Real.sin t
  let dpm := (polyPartial degree x).map fun v => 2 * Real.pi * x * v
  (amplitudes order knots x fun k => p (degree + 1 + k)).bind fun amps =>
    (splinePartial order knots x).map fun b =>
      (dpm.map fun d => amps.2 * cx * d - amps.1 * sx * d) ++ b.map (cx * ·) ++ b.map (sx * ·)

/-- `SineSplineDriftModel.baseDerivative` 187-209. -/
def driftDerivative (degree order : ℕ) (knots : List ℝ) (x : ℝ) (p : ℕ → ℝ) : Option ℝ :=
  let t := 2 * Real.pi * x * polyResult degree x p
  let cx := Real.cos t
  let sx := Real.sin t
  let np := 2 * nspline order knots + degree + 1
  let pdx := polyDerivative degree x p
  (amplitudes order knots x fun k => p (degree + 1 + k)).bind fun amps =>
    (splineDerivativeOf order knots x np p).bind fun cadx =>
      (splineDerivativeOf order knots x np p).map fun sadx =>
        2 * Real.pi * (cadx * cx - amps.1 * (sx * pdx) + sadx * sx + amps.2 * (cx * pdx))

/-! ## Products of splines -/

/-- `SurfaceSplinesModel.calcNp` 124-134. -/
def calcNp (models : List (ℕ × List ℝ)) : ℕ := models.foldl (fun np m => np * (m.2.length + m.1 - 1)) 1

/-- The two inner loops of `SurfaceSplinesModel.basePartial` 172-178. -/
def surfaceStep (part mpart : List ℝ) : List ℝ := part.flatMap fun a => mpart.map fun b => a * b

/-- The loop of `SurfaceSplinesModel.basePartial` 165-182 over the models, from dimension `n` on. -/
def surfaceLoop (x : ℕ → ℝ) : List (ℕ × List ℝ) → ℕ → List ℝ → Option (List ℝ)
  | [], _, part => some part
  | m :: models, n, part => (splinePartial m.1 m.2 (x n)).bind fun mpart =>
      surfaceLoop x models (n + 1) (surfaceStep part mpart)

/-- `SurfaceSplinesModel.basePartial` 150-182: each model is an order and a list of knots. -/
def surfacePartial (models : List (ℕ × List ℝ)) (x : ℕ → ℝ) : Option (List ℝ) := surfaceLoop x models 0 [1]

/-- The result of a `SurfaceSplinesModel`, through `LinearModel.baseResult`. -/
def surfaceResult (models : List (ℕ × List ℝ)) (x p : ℕ → ℝ) : Option ℝ :=
  (surfacePartial models x).map (linearResult p)

/-- `SurfaceSplinesModel.baseParameterName` 198-212: the numbers in the name. -/
def surfaceName : List (ℕ × List ℝ) → ℕ → List ℕ
  | [], _ => []
  | m :: models, k => let nx := m.2.length + m.1 - 1; k % nx :: surfaceName models (k / nx)

/-! ## Free shapes -/

/-- The attributes of a `FreeShapeModel`, 125-140 and 146-158. -/
structure Free where
  npix : ℕ
  shape : Kernel
  xlo : ℝ
  xhi : ℝ
  center : ℝ

/-- `FreeShapeModel.__init__` 98-134 with its defaults: shape, nconvolve and xhi. -/
def makeFree (npix : ℕ) (shape : Option Kernel) (nconvolve : ℕ) (center xlo : ℝ) (xhi : Option ℝ) : Free :=
  { npix := npix
    shape := shape.getD (tophat nconvolve)
    xlo := xlo
    xhi := xhi.getD npix
    center := center }

/-- `FreeShapeModel.checkDomain` 163-180; true when it does not raise. -/
def Free.inDomain (m : Free) (x : ℝ) : Prop :=
  ∀ r, m.shape.range = some r → ¬ (x < m.xlo - r ∨ x > m.xhi + r)

/-- The loop of `FreeShapeModel.basePartial` 223-227. -/
def freeLoop (k : ℝ → ℝ) : ℝ → ℕ → List ℕ → List ℝ
  | _, _, [] => []
  | xpix, p0, p :: ps =>
    let xpix := xpix - ((p : ℝ) - p0)
    k xpix :: freeLoop k xpix p ps

open Classical in
/-- `FreeShapeModel.basePartial` 199-230. -/
def Free.partials (m : Free) (x : ℝ) (parlist : Option (List ℕ)) : Option (List ℝ) :=
  if m.inDomain x then
    let xpix := m.npix * (x - m.xlo) / (m.xhi - m.xlo) + m.center
    some (freeLoop m.shape.result xpix 0 (parlist.getD (List.range m.npix)))
  else none

/-- `FreeShapeModel.baseResult` 183-197. -/
def Free.result (m : Free) (x : ℝ) (p : ℕ → ℝ) : Option ℝ := (m.partials x none).map (linearResult p)

end BF.Shapes
