import Verif.Kernels
import Mathlib.Analysis.SpecialFunctions.Trigonometric.Arctan
import Mathlib.Analysis.SpecialFunctions.Pow.Real
import Mathlib.Analysis.Complex.Basic

/-!
# The simple models

Models the models with a fixed number of parameters: `ArctanModel`, `ExpModel`, `GaussModel`, `LorentzModel`,
`LogisticModel`, `PowerModel`, `PowerLawModel`, `SineModel` (both forms), `SineAmpModel`, `EtalonModel`,
`SineDriftModel`, `KernelModel` (and `SincModel`), `PseudoVoigtModel`, `VoigtModel`, `EtalonDriftModel`,
`ConstantModel`.

Simplifications: floats are reals. Everything is element-wise in `xdata`, so the models are given for one x. The
parameters are a function of the index; the models read only the indices that they have. `numpy.power` is the real
power, which agrees with it for positive numbers, and for whole exponents. A division by zero gives 0, where numpy
gives inf or nan: the theorems exclude it.
-/

noncomputable section

namespace BF.Simple

open BF.Kernels

/-- A model of one x: the number of parameters (`npmax`), `baseResult`, the dictionary `parts` in `basePartial`
and `baseDerivative`. `byList` says how `basePartial` sizes its array: by the length of parlist, or else always by
`npbase`. -/
structure Simple where
  npmax : ℕ
  result : ℝ → (ℕ → ℝ) → ℝ
  parts : ℝ → (ℕ → ℝ) → ℕ → ℝ
  deriv : ℝ → (ℕ → ℝ) → ℝ
  byList : Bool

/-- What `basePartial` does around the dictionary, e.g. `ArctanModel.py` 122-138 (`byList`) and `GaussModel.py`
143-159 (not `byList`): one row of the array. `none` is an IndexError (a column out of range) or a KeyError (no
such parameter). An element `none` is memory that was never written. -/
def Simple.basePartial (m : Simple) (npbase : ℕ) (x : ℝ) (p : ℕ → ℝ) (parlist : Option (List ℕ)) :
    Option (List (Option ℝ)) :=
  let np := if m.byList then (match parlist with | none => npbase | some l => l.length) else npbase
  let l := parlist.getD (List.range m.npmax)
  if l.length ≤ np ∧ l.all (· < m.npmax) then
    some (l.map (fun k => some (m.parts x p k)) ++ List.replicate (np - l.length) none)
  else none

/-- `ArctanModel.py` 93-153. -/
def arctan : Simple where
  npmax := 3
  result x p := p 0 * Real.arctan (p 2 * (x - p 1))
  parts x p k :=
    let y := p 2 * (x - p 1)
    let xf := p 0 / (1 + y * y)
    match k with
    | 0 => Real.arctan y
    | 1 => -xf * p 2
    | _ => xf * (x - p 1)
  deriv x p :=
    let y := p 2 * (x - p 1)
    p 0 * p 2 / (1 + y * y)
  byList := true

/-- `ExpModel.py` 116-172; `sign` is -1 for a decay and 1 otherwise. -/
def exp (sign : ℝ) : Simple where
  npmax := 2
  result x p := p 0 * Real.exp (sign * p 1 * x)
  parts x p k :=
    let e := Real.exp (sign * p 1 * x)
    match k with
    | 0 => e
    | _ => sign * p 0 * e * x
  deriv x p := sign * p 1 * (p 0 * Real.exp (sign * p 1 * x))
  byList := true

/-- `GaussModel.py` 112-175. -/
def gauss : Simple where
  npmax := 3
  result x p :=
    let s := 1.0 / p 2
    let y := (x - p 1) * s
    p 0 * Real.exp (-0.5 * y * y)
  parts x p k :=
    let a := p 0
    let s := 1 / p 2
    let y := (x - p 1) * s
    let e := Real.exp (-0.5 * y * y)
    match k with
    | 0 => e
    | 1 => a * e * y * s
    | _ => a * e * y * y * s
  deriv x p :=
    let dx := (p 1 - x) / (p 2 * p 2)
    let s := 1.0 / p 2
    let y := (x - p 1) * s
    p 0 * Real.exp (-0.5 * y * y) * dx
  byList := false

/-- `LorentzModel.py` 128-195. -/
def lorentz : Simple where
  npmax := 3
  result x p :=
    let s2 := p 2 * p 2
    let y := x - p 1
    p 0 * s2 / (y * y + s2)
  parts x p k :=
    let a := p 0
    let s := |p 2|
    let s2 := s * s
    let y := x - p 1
    let e := 1 / (y * y + s2)
    match k with
    | 0 => s2 * e
    | 1 => a * 2 * s2 * y * e * e
    | _ => a * 2 * s * y * y * e * e
  deriv x p :=
    let y := x - p 1
    let c2 := p 2 * p 2;
    -2 * p 0 * c2 * y / (y * y + c2) ^ 2
  byList := false

/-- `LogisticModel.py` 100-165. -/
def logistic : Simple where
  npmax := 3
  result x p :=
    let y := (p 1 - x) / p 2
    p 0 / (1 + Real.exp y)
  parts x p k :=
    let a := p 0
    let s := p 2
    let y := p 1 - x
    let e := Real.exp (y / s)
    let f := 1 / (1 + e)
    let f2 := f * f
    match k with
    | 0 => f
    | 1 => -a / s * f2 * e
    | _ => a * y / (s * s) * f2 * e
  deriv x p :=
    let y := (p 1 - x) / p 2
    let e := Real.exp y
    p 0 / p 2 * e / (1 + e) ^ 2
  byList := false

/-- `PowerModel.py` 111-145, with the result of a linear model, `LinearModel.py` 91-115. The handling of parlist
(127-131) comes to the same for the one parameter there is. -/
def power (exponent : ℝ) : Simple where
  npmax := 1
  result x p := 0 + p 0 * x ^ exponent
  parts x _ _ := x ^ exponent
  deriv x p := p 0 * exponent * x ^ (exponent - 1)
  byList := true

/-- `PowerLawModel.py` 102-161. -/
def powerLaw : Simple where
  npmax := 3
  result x p := p 0 * (x - p 1) ^ p 2
  parts x p k :=
    let p0 := p 0
    let xs := x - p 1
    let p2 := p 2
    match k with
    | 0 => xs ^ p2
    | 1 => -p0 * p2 * xs ^ (p2 - 1)
    | _ => p0 * xs ^ p2 * Real.log xs
  deriv x p := p 0 * p 2 * (x - p 1) ^ (p 2 - 1)
  byList := false

/-- `SineModel.py` 142-207. -/
def sine : Simple where
  npmax := 3
  result x p :=
    let y := 2 * Real.pi * x * p 0
    p 1 * Real.cos y + p 2 * Real.sin y
  parts x p k :=
    let y := 2 * Real.pi * x
    let yf := y * p 0
    let c := Real.cos yf
    let s := Real.sin yf
    match k with
    | 0 => y * p 2 * c - y * p 1 * s
    | 1 => c
    | _ => s
  deriv x p :=
    let y := 2 * Real.pi * x * p 0
    2 * Real.pi * p 0 * (p 2 * Real.cos y - p 1 * Real.sin y)
  byList := true

/-- `SineModel.py` 232-297: the form with a phase. -/
def sinePhase : Simple where
  npmax := 3
  result x p := p 0 * Real.sin (2 * Real.pi * x * p 1 + p 2)
  parts x p k :=
    let y := 2 * Real.pi * x
    let yf := y * p 1 + p 2
    let c := p 0 * Real.cos yf
    match k with
    | 0 => Real.sin yf
    | 1 => c * y
    | _ => c
  deriv x p :=
    let y := 2 * Real.pi * x * p 1 + p 2
    p 0 * Real.cos y * (2 * Real.pi) * p 1
  byList := true

/-- `SineAmpModel.py` 116-159, with `LinearModel.py` 91-115. -/
def sineAmp (frequency : ℝ) : Simple where
  npmax := 2
  result x p := 0 + p 0 * Real.cos (2 * Real.pi * frequency * x) + p 1 * Real.sin (2 * Real.pi * frequency * x)
  parts x _ k :=
    match k with
    | 0 => Real.cos (2 * Real.pi * frequency * x)
    | _ => Real.sin (2 * Real.pi * frequency * x)
  deriv x p :=
    let tpf := 2 * Real.pi * frequency
    tpf * (p 1 * Real.cos (tpf * x) - p 0 * Real.sin (tpf * x))
  byList := true

/-- `EtalonModel.py` 109-179. -/
def etalon : Simple where
  npmax := 4
  result x p :=
    let y := Real.pi * x * p 2 + p 3
    let sx := Real.sin y
    p 0 / (1 + p 1 * sx * sx)
  parts x p k :=
    let y := Real.pi * x * p 2 + p 3
    let sx := Real.sin y
    let s2 := sx * sx
    let dd := 1 / (1 + p 1 * s2)
    let d2 := dd * dd
    let p3 := -2 * p 0 * p 1 * sx * Real.cos y * d2
    match k with
    | 0 => dd
    | 1 => -p 0 * s2 * d2
    | 2 => Real.pi * x * p3
    | _ => p3
  deriv x p :=
    let y := Real.pi * x * p 2 + p 3
    let sx := Real.sin y
    let dd := 1 + p 1 * sx * sx;
    -2 * Real.pi * p 0 * p 1 * p 2 * sx * Real.cos y / (dd * dd)
  byList := true

/-- `SineDriftModel.py` 104-169. -/
def sineDrift : Simple where
  npmax := 4
  result x p :=
    let y := 2 * Real.pi * x * (p 0 + p 3 * x)
    p 1 * Real.cos y + p 2 * Real.sin y
  parts x p k :=
    let x0 := 2 * Real.pi * x
    let x3 := x0 * x
    let xf := x0 * p 0 + x3 * p 3
    let cx := Real.cos xf
    let sx := Real.sin xf
    match k with
    | 0 => x0 * p 2 * cx - x0 * p 1 * sx
    | 1 => cx
    | 2 => sx
    | _ => x3 * p 2 * cx - x3 * p 1 * sx
  deriv x p :=
    let y := 2 * Real.pi * x * (p 0 + p 3 * x)
    2 * Real.pi * (p 0 + 2 * p 3 * x) * (p 2 * Real.cos y - p 1 * Real.sin y)
  byList := true

/-- `KernelModel.py` 130-189. -/
def kernel (k : Kernel) : Simple where
  npmax := 3
  result x p :=
    let y := (x - p 1) / p 2
    p 0 * k.result y
  parts x p j :=
    let y := (x - p 1) / p 2
    let dfdx := k.partialx y
    match j with
    | 0 => k.result y
    | 1 => -p 0 * dfdx / p 2
    | _ => -p 0 * dfdx * y / p 2
  deriv x p :=
    let y := (x - p 1) / p 2
    p 0 * k.partialx y / p 2
  byList := false

/-- `SincModel.py` 93. -/
def sincModel : Simple := kernel sinc

/-- `PseudoVoigtModel.py` 126-145 and 181-194. The dictionary stands for the columns that 161-179 make when
parlist is None; see `pseudoVoigtPartial` for the rest. -/
def pseudoVoigt : Simple where
  npmax := 4
  result x p := p 3 * lorentz.result x p + (1 - p 3) * gauss.result x p
  parts x p k :=
    match k with
    | 3 => lorentz.result x p - gauss.result x p
    | k => p 3 * lorentz.parts x p k + (1 - p 3) * gauss.parts x p k
  deriv x p := p 3 * lorentz.deriv x p + (1 - p 3) * gauss.deriv x p
  byList := true

/-- A row of numpy, times a number, plus another row, column by column; what is not written stays unknown. -/
def addRows (a b : ℝ) (r s : List (Option ℝ)) : List (Option ℝ) :=
  List.zipWith (fun u v => match u, v with | some u, some v => some (a * u + b * v) | _, _ => none) r s

/-- `PseudoVoigtModel.basePartial` 147-179, one row. The two inner models have 3 parameters, none of them fixed.
When `FixedModel` passes parlist it is a numpy array, which has no method `remove` (164): `none` is that error. -/
def pseudoVoigtPartial (x : ℝ) (p : ℕ → ℝ) (parlist : Option (List ℕ)) : Option (List (Option ℝ)) :=
  match parlist with
  | some l =>
      if 3 ∈ l then none
      else
        match lorentz.basePartial 3 x p (some l), gauss.basePartial 3 x p (some l) with
        | some r, some s => some (addRows (p 3) (1 - p 3) r s)
        | _, _ => none
  | none =>
      match lorentz.basePartial 3 x p none, gauss.basePartial 3 x p none with
      | some r, some s =>
          some (addRows (p 3) (1 - p 3) r s ++ [some (lorentz.result x p - gauss.result x p)])
      | _, _ => none

/-- `VoigtModel.py` 100-230, with `w` for `scipy.special.wofz`. -/
def voigt (w : ℂ → ℂ) : Simple where
  npmax := 4
  result x p :=
    let sigma := p 2 * Real.sqrt 2
    let gamma := p 3
    let z0 : ℂ := Complex.I * gamma / sigma
    let z : ℂ := ((x - p 1 : ℝ) : ℂ) / sigma + z0
    p 0 * (w z).re / (w z0).re
  parts x p k :=
    let sigma := p 2 * Real.sqrt 2
    let gamma := p 3
    let z0 : ℂ := Complex.I * gamma / sigma
    let z : ℂ := ((x - p 1 : ℝ) : ℂ) / sigma + z0
    let dwd0 : ℂ := 2 * Complex.I / Real.sqrt Real.pi - 2 * z0 * w z0
    let dwdz : ℂ := 2 * Complex.I / Real.sqrt Real.pi - 2 * z * w z
    let rwz := (w z).re
    let rw0 := (w z0).re
    let a := p 0 / rw0
    let a2 := a / rw0
    let dzdp1 : ℂ := -1 / sigma
    let d0dp2 : ℂ := -z0 / p 2
    let dzdp2 : ℂ := -z / p 2
    let dzdp3 : ℂ := Complex.I / sigma
    match k with
    | 0 => rwz / rw0
    | 1 => a * (dwdz * dzdp1).re
    | 2 => a2 * ((dwdz * dzdp2).re * rw0 - (dwd0 * d0dp2).re * rwz)
    | _ => a2 * ((dwdz * dzdp3).re * rw0 - (dwd0 * dzdp3).re * rwz)
  deriv x p :=
    let sigma := p 2 * Real.sqrt 2
    let gamma := p 3
    let z0 : ℂ := Complex.I * gamma / sigma
    let z : ℂ := ((x - p 1 : ℝ) : ℂ) / sigma + z0
    let wofz0 := (w z0).re
    let dwdz : ℂ := 2 * Complex.I / Real.sqrt Real.pi - 2 * z * w z
    ((p 0 : ℂ) * dwdz / (wofz0 * sigma)).re
  byList := false

/-! The etalon with drift has two inputs. -/

/-- `EtalonDriftModel.baseResult` 99-113. -/
def etalonDriftResult (x y : ℝ) (p : ℕ → ℝ) : ℝ :=
  let u := Real.pi * (p 2 * x + p 3 + p 4 * y)
  let sx := p 1 * Real.sin u
  p 0 / (1 + sx * sx)

/-- `EtalonDriftModel.basePartial` 138-180, the dictionary. -/
def etalonDriftParts (x y : ℝ) (p : ℕ → ℝ) (k : ℕ) : ℝ :=
  let u := Real.pi * (x * p 2 + p 3 + p 4 * y)
  let sx := Real.sin u
  let s2 := sx * sx
  let p1 := p 1 * p 1
  let dd := 1 / (1 + p1 * s2)
  let d2 := dd * dd
  let p3 := -2 * Real.pi * p 0 * p1 * sx * Real.cos u * d2
  match k with
  | 0 => dd
  | 1 => -2 * p 0 * p 1 * s2 * d2
  | 3 => p3
  | 2 => x * p3
  | _ => y * p3

/-- `EtalonDriftModel.baseDerivative` 115-136: the last line asks for the transpose of a python list, which is an
error whatever the input. -/
def etalonDriftDerivative (_x _y : ℝ) (_p : ℕ → ℝ) : Option (ℝ × ℝ) := none

/-- What `EtalonDriftModel.baseDerivative` would return but for that error: the numbers in the list of 136. -/
def etalonDriftValues (x y : ℝ) (p : ℕ → ℝ) : ℝ × ℝ :=
  let u := Real.pi * (x * p 2 + p 3 + p 4 * y)
  let sx := Real.sin u
  let p1 := p 1 * p 1
  let dd := 1 + p1 * sx * sx
  let df := -2 * Real.pi * p 0 * p1 * p 2 * sx * Real.cos u / (dd * dd)
  (df * p 2, df * p 4)

/-- `ConstantModel` 154-202: a table, or another model with its parameters. -/
inductive Constant where
  | table (t : ℝ)
  | fixedModel (m : Simple) (values : ℕ → ℝ)

/-- `ConstantModel.baseResult` 154-169, for one x; `table` is the number of the table at that x. -/
def Constant.result : Constant → ℝ → (ℕ → ℝ) → ℝ
  | .table t, _, _ => t
  | .fixedModel m v, x, _ => m.result x v

/-- `ConstantModel.basePartial` 171-185: no columns. -/
def Constant.partial : Constant → ℝ → (ℕ → ℝ) → List ℝ
  | _, _, _ => []

/-- `ConstantModel.baseDerivative` 187-202. -/
def Constant.deriv : Constant → ℝ → (ℕ → ℝ) → ℝ
  | .table _, _, _ => 0
  | .fixedModel m v, x, _ => m.deriv x v

end BF.Simple
