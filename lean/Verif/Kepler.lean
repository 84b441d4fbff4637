import Mathlib.Analysis.SpecialFunctions.Complex.Arg
import Mathlib.Analysis.SpecialFunctions.Trigonometric.Deriv
import Mathlib.Analysis.SpecialFunctions.Pow.Real

/-!
# Orbits

Models `Kepplers2ndLaw.py`, `RadialVelocityModel.py` and `StellarOrbitModel.py`.

Simplifications:
* Floats are reals. `numpy.arctan2` is the argument of a complex number. In floating point the argument of (0, 0) with
  signed zeros matters when the cosine of the eccentric anomaly is -1 precisely; the theorems leave that out.
* Parameters are a function of the index.
* The iterations work on the whole of `xdata`, as they stop together. In the other functions one x is taken, and
  the solution for the eccentric anomaly is a parameter `ecc` of the eccentricity and the mean anomaly: it is the
  value of which the code takes sine and cosine (`Ep` of the last iteration).
* The partials are a function of the index of the parameter; a `parlist` selects from them.
-/

noncomputable section

namespace BF.Kepler

open Real

/-- `numpy.arctan2( y, x )`. -/
def arctan2 (y x : ℝ) : ℝ := Complex.arg ⟨x, y⟩

/-! ## `Kepplers2ndLaw` -/

/-- `meanAnomaly` 55-75. -/
def meanAnomaly (x : ℝ) (p : ℕ → ℝ) : ℝ := 2 * π * x / p 2 - p 3

/-- `dMdx` 77-87. -/
def dMdx (p : ℕ → ℝ) : ℝ := 0 + 2 * π / p 2

/-- `dMdpar` 90-105: to the period and to the phase. -/
def dMdpar (x : ℝ) (p : ℕ → ℝ) : ℝ × ℝ := (-(2 * π) * x / (p 2 * p 2), -1)

/-- A division, which has no (finite) value when the divisor is zero. -/
def ratio (a b : ℝ) : Option ℝ := if b = 0 then none else some (a / b)

/-- One turn of `eccentricAnomaly0` 117-153. -/
def meeus (e M Ep : ℝ) : Option ℝ := some (M - e * sin Ep)

/-- One turn of `eccentricAnomaly1` 155-190. -/
def newton (e M Ep : ℝ) : Option ℝ := (ratio (M + e * sin Ep - Ep) (e * cos Ep - 1)).map fun d => Ep - d

/-- One turn of `eccentricAnomaly2` 192-247. -/
def halley (e M Ep : ℝ) : Option ℝ :=
  let es := e * sin Ep
  let fx := M + es - Ep
  let fp := e * cos Ep - 1
  (ratio (2 * fx * fp) (2 * fp * fp + fx * es)).map fun d => Ep - d

/-- `numpy.abs( E - Ep ) < 1e-8`: false for values that are not finite. -/
def closeTo : Option ℝ → Option ℝ → Bool
  | some a, some b => decide (|a - b| < 1e-8)
  | _, _ => false

/-- The loop of `eccentricAnomaly2` 216-229 (and 134-143, 173-181 for the others): `n` turns are left, the values are
`E`, those before are `Ep`. It returns both, and whether it ended by `break`. -/
def iterate (step : ℝ → ℝ → Option ℝ) (Ms : List ℝ) :
    ℕ → List (Option ℝ) → List (Option ℝ) → List (Option ℝ) × List (Option ℝ) × Bool
  | 0, E, Ep => (E, Ep, false)
  | n + 1, E, _ =>
    let E' := List.zipWith (fun M a => a.bind (step M)) Ms E
    if (List.zipWith closeTo E' E).all id then (E', E, true) else iterate step Ms n E' E

/-- `eccentricAnomaly0`, `eccentricAnomaly1` and `eccentricAnomaly2`, according to the step: the mean anomaly is the
start, there are at most 100 turns. -/
def solve (step : ℝ → ℝ → ℝ → Option ℝ) (xs : List ℝ) (p : ℕ → ℝ) : List (Option ℝ) × List (Option ℝ) × Bool :=
  let M := xs.map fun x => meanAnomaly x p
  iterate (step (p 0)) M 100 (M.map some) []

/-- `eccentricAnomaly` 108-115: the method of Halley. -/
def eccentricAnomaly (xs : List ℝ) (p : ℕ → ℝ) : List (Option ℝ) × List (Option ℝ) × Bool := solve halley xs p

/-- `dEdM` 249-260. -/
def dEdM (p : ℕ → ℝ) (cosE : ℝ) : ℝ := 1.0 / (1.0 - p 0 * cosE)

/-- `dEdx` 262-271. -/
def dEdx (p : ℕ → ℝ) (cosE : ℝ) : ℝ := dEdM p cosE * dMdx p

/-- `dEdpar` 273-291: to eccentricity, period and phase. -/
def dEdpar (x : ℝ) (p : ℕ → ℝ) (cosE sinE : ℝ) : ℝ × ℝ × ℝ :=
  (dEdM p cosE * sinE, dEdM p cosE * (dMdpar x p).1, dEdM p cosE * (dMdpar x p).2)

/-- The radius of `radiusAndTrueAnomaly` 294-345. -/
def radius (p : ℕ → ℝ) (E : ℝ) : ℝ := p 1 * (1 - p 0 * cos E)

/-- The true anomaly of `radiusAndTrueAnomaly` 294-345. -/
def trueAnomaly (p : ℕ → ℝ) (E : ℝ) : ℝ := 2 * arctan2 (√((1 + p 0) / (1 - p 0)) * sin E) (1 + cos E)

/-- `c2` of lines 376 and 440. -/
def c2 (cosE : ℝ) : ℝ := if cosE ≤ -0.9999999999 then 1e10 else 1 / (1 + cosE)

/-- `drvdE` 347-382. -/
def drvdE (p : ℕ → ℝ) (cosE sinE : ℝ) : ℝ × ℝ :=
  let ef := (1 + p 0) / (1 - p 0)
  let t2 := (1 - cosE) * c2 cosE
  (p 1 * p 0 * sinE, √ef * (c2 cosE * 2) / (ef * t2 + 1))

/-- `drvdx` 384-398. -/
def drvdx (p : ℕ → ℝ) (cosE sinE : ℝ) : ℝ × ℝ :=
  ((drvdE p cosE sinE).1 * dEdx p cosE, (drvdE p cosE sinE).2 * dEdx p cosE)

/-- The radius part of `drvdpar` 400-450: to eccentricity, semi major axis, period and phase. -/
def drdpar (x : ℝ) (p : ℕ → ℝ) (cosE sinE : ℝ) : ℕ → ℝ
  | 0 => (drvdE p cosE sinE).1 * (dEdpar x p cosE sinE).1 - p 1 * cosE
  | 1 => 1 - p 0 * cosE
  | 2 => (drvdE p cosE sinE).1 * (dEdpar x p cosE sinE).2.1
  | 3 => (drvdE p cosE sinE).1 * (dEdpar x p cosE sinE).2.2
  | _ => 0

/-- The part of `drvdpar` 400-450 for the true anomaly: to eccentricity, period and phase (it does not depend on
the semi major axis). The replacement of nan at 447 has no counterpart. -/
def dvdpar (x : ℝ) (p : ℕ → ℝ) (cosE sinE : ℝ) : ℕ → ℝ
  | 0 =>
    let ef := (1 + p 0) / (1 - p 0)
    let sef := √ef
    let e2 := (1 - p 0) * (1 - p 0)
    let tanE := sinE * c2 cosE
    let dd1 := 2 * tanE / (sef * e2)
    let dd2 := dd1 + 2 * sef * (dEdpar x p cosE sinE).1 * c2 cosE
    dd2 / (1 + ef * tanE * tanE)
  | 2 => (drvdE p cosE sinE).2 * (dEdpar x p cosE sinE).2.1
  | 3 => (drvdE p cosE sinE).2 * (dEdpar x p cosE sinE).2.2
  | _ => 0

/-! ## `RadialVelocityModel` -/

variable (ecc : ℝ → ℝ → ℝ)

/-- The eccentric anomaly at `x`, for a given method of solution. -/
def anomaly (x : ℝ) (p : ℕ → ℝ) : ℝ := ecc (p 0) (meanAnomaly x p)

/-- `baseResult` 122-144. -/
def velocity (x : ℝ) (p : ℕ → ℝ) : ℝ :=
  p 1 * (cos (trueAnomaly p (anomaly ecc x p) + p 4) + p 0 * cos (p 4))

/-- `basePartial` 147-204. -/
def velocityPartial (x : ℝ) (p : ℕ → ℝ) (k : ℕ) : ℝ :=
  let E := anomaly ecc x p
  let vp4 := trueAnomaly p E + p 4
  match k with
  | 0 => p 1 * (cos (p 4) - sin vp4 * dvdpar x p (cos E) (sin E) 0)
  | 1 => cos vp4 + p 0 * cos (p 4)
  | 2 => -p 1 * sin vp4 * dvdpar x p (cos E) (sin E) 2
  | 3 => -p 1 * sin vp4 * dvdpar x p (cos E) (sin E) 3
  | 4 => -p 1 * (sin vp4 + p 0 * sin (p 4))
  | _ => 0

/-- `baseDerivative` 206-227. -/
def velocityDerivative (x : ℝ) (p : ℕ → ℝ) : ℝ :=
  let E := anomaly ecc x p;
  -p 1 * sin (trueAnomaly p E + p 4) * (drvdx p (cos E) (sin E)).2

/-- The attribute `semimajoraxis`, 103-105; `math.sqrt` raises for a negative argument. -/
def semimajoraxis (p : ℕ → ℝ) : Option ℝ :=
  if 1 - p 2 * p 2 < 0 then none else some (p 0 * p 1 * √(1 - p 2 * p 2) / (2 * π))

/-- `getMsini` 109-120; `math.pow` and `math.sqrt` raise for a negative argument. -/
def getMsini (stellarmass : ℝ) (p : ℕ → ℝ) : Option ℝ :=
  if 1 - p 2 * p 2 < 0 ∨ p 1 < 0 ∨ stellarmass < 0 then none
  else some (4.91e-3 * stellarmass ^ (2.0 / 3.0 : ℝ) * p 0 * p 1 ^ (1.0 / 3.0 : ℝ) * √(1 - p 2 * p 2))

/-! ## `StellarOrbitModel` -/

/-- `toRect` 171-185 for one row. -/
def toRect (rp : ℝ × ℝ) : ℝ × ℝ := (rp.1 * sin rp.2, -rp.1 * cos rp.2)

/-- `toSpher` 187-200 for one row. -/
def toSpher (xy : ℝ × ℝ) : ℝ × ℝ := (√(xy.1 * xy.1 + xy.2 * xy.2), arctan2 xy.1 (-xy.2))

/-- `baseResult` 127-169 for spherical coordinates. -/
def orbitSpherical (x : ℝ) (p : ℕ → ℝ) : ℝ × ℝ :=
  let E := anomaly ecc x p
  let vp := trueAnomaly p E + p 6
  let svp := sin vp * cos (p 4)
  let cvp := cos vp
  (radius p E * √(svp * svp + cvp * cvp), arctan2 svp cvp + p 5)

/-- `baseResult` 127-169. -/
def orbit (spherical : Bool) (x : ℝ) (p : ℕ → ℝ) : ℝ × ℝ :=
  if spherical then orbitSpherical ecc x p else toRect (orbitSpherical ecc x p)

/-- Lines 232 and 300: `cosE` is kept from being -1. -/
def away (cosE : ℝ) : ℝ := if cosE = -1 then -0.99999 else cosE

/-- From the derivatives of distance and angle to those of the rectangular coordinates, 260-263 and 343-381. -/
def rectParts (rho theta dR dT : ℝ) : ℝ × ℝ :=
  (sin theta * dR + rho * cos theta * dT, -cos theta * dR + rho * sin theta * dT)

/-- `baseDerivative` 202-265. -/
def orbitDerivative (spherical : Bool) (x : ℝ) (p : ℕ → ℝ) : ℝ × ℝ :=
  let E := anomaly ecc x p
  let drvdx := drvdx p (away (cos E)) (sin E)
  let r := radius p E
  let vp := trueAnomaly p E + p 6
  let svp := sin vp
  let cvp := cos vp
  let ci := cos (p 4)
  let svp2 := svp * svp
  let cvp2 := cvp * cvp
  let ci2 := ci * ci
  let theta := arctan2 (svp * ci) cvp + p 5
  let dtdv := ci * (svp2 + cvp2) / (ci2 * svp2 + cvp2)
  let dtdx := dtdv * drvdx.2
  let ssc := √(svp2 * ci2 + cvp2)
  let rho := r * ssc
  let dRdv := r / ssc * (svp * cvp * (ci2 - 1))
  let dRdx := ssc * drvdx.1 + dRdv * drvdx.2
  if spherical then (dRdx, dtdx) else rectParts rho theta dRdx dtdx

/-- `basePartial` 268-392. -/
def orbitPartial (spherical : Bool) (x : ℝ) (p : ℕ → ℝ) (k : ℕ) : ℝ × ℝ :=
  let E := anomaly ecc x p
  let cosE := away (cos E)
  let sinE := sin E
  let r := radius p E
  let vp := trueAnomaly p E + p 6
  let svp := sin vp
  let cvp := cos vp
  let ci := cos (p 4)
  let si := sin (p 4)
  let svp2 := svp * svp
  let cvp2 := cvp * cvp
  let ci2 := ci * ci
  let theta := arctan2 (svp * ci) cvp + p 5
  let dTdv := ci * (svp2 + cvp2) / (ci2 * svp2 + cvp2)
  let ssc := √(svp2 * ci2 + cvp2)
  let rho := r * ssc
  let dRdv := r / ssc * (ci2 - 1) * svp * cvp
  let part0 : ℝ := match k with
    | 0 => ssc * drdpar x p cosE sinE 0 + dRdv * dvdpar x p cosE sinE 0
    | 1 => ssc * drdpar x p cosE sinE 1
    | 2 => ssc * drdpar x p cosE sinE 2 + dRdv * dvdpar x p cosE sinE 2
    | 3 => ssc * drdpar x p cosE sinE 3 + dRdv * dvdpar x p cosE sinE 3
    | 4 => -r / ssc * svp2 * ci * si
    | 5 => 0
    | 6 => dRdv
    | _ => 0
  let part1 : ℝ := match k with
    | 0 => dTdv * dvdpar x p cosE sinE 0
    | 1 => 0
    | 2 => dTdv * dvdpar x p cosE sinE 2
    | 3 => dTdv * dvdpar x p cosE sinE 3
    | 4 => -cvp * svp * si / (cvp2 + svp2 * ci2)
    | 5 => 1
    | 6 => dTdv
    | _ => 0
  if spherical then (part0, part1) else rectParts rho theta part0 part1

end BF.Kepler
