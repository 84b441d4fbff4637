import Mathlib.Analysis.SpecialFunctions.Trigonometric.Basic
import Mathlib.Analysis.SpecialFunctions.Log.Basic
import Mathlib.Analysis.SpecialFunctions.Pow.Real

/-!
# Kernels

Models `kernels/*.py`: the results, partials and the attributes `integral`, `fwhm` and `range`.

Simplifications: floats are reals, one element of an array at a time (`numpy.where` is `if`). `numpy.zeros_like`
of an integer array, which would truncate, is not modelled.
-/

noncomputable section

namespace BF.Kernels

/-- `Kernel.py` 90-151. `integral` and `range` are `none` when infinite. `resultsq` is `none` when it is
not defined: the method of the base class then returns None. -/
structure Kernel where
  result : ℝ → ℝ
  resultsq : Option (ℝ → ℝ)
  partialx : ℝ → ℝ
  integral : Option ℝ
  fwhm : ℝ
  range : Option ℝ
  isBound : Bool

/-- `numpy.sign`. -/
def sgn (x : ℝ) : ℝ := if x < 0 then -1 else if x = 0 then 0 else 1

/-- `Biweight.py` 52-65. -/
def biweight : Kernel where
  result x := (if x * x ≤ 1 then 1 - x * x else 0) * (if x * x ≤ 1 then 1 - x * x else 0)
  resultsq := some fun xsq => (if xsq ≤ 1 then 1 - xsq else 0) * (if xsq ≤ 1 then 1 - xsq else 0)
  partialx x := if |x| ≤ 1 then -4 * (1 - x * x) * x else 0
  integral := some (16 / 15)
  fwhm := 1.0823922
  range := some 1
  isBound := true

/-- `Cosine.result` 55-56. -/
def cosResult (x : ℝ) : ℝ := if |x| ≤ 1 then Real.cos (0.5 * Real.pi * x) else 0

/-- `Cosine.partial` 61-63. -/
def cosPartial (x : ℝ) : ℝ :=
  if |x| ≤ 1 then -(0.5 * Real.pi) * Real.sin (0.5 * Real.pi * x) else 0

/-- `Cosine.py` 43-66. -/
def cosine : Kernel where
  result := cosResult
  resultsq := some fun xsq => cosResult (Real.sqrt xsq)
  partialx := cosPartial
  integral := some (4 / Real.pi)
  fwhm := 4 / 3
  range := some 1
  isBound := true

/-- `CosSquare.py` 47-60. -/
def cosSquare : Kernel where
  result x := cosResult x * cosResult x
  resultsq := some fun xsq => cosResult (Real.sqrt xsq) * cosResult (Real.sqrt xsq)
  partialx x := 2 * cosResult x * cosPartial x
  integral := some 1
  fwhm := 1
  range := some 1
  isBound := true

/-- `Gauss.py` 50-67. -/
def gauss : Kernel where
  result x := Real.exp (-0.5 * (x * x))
  resultsq := some fun xsq => Real.exp (-0.5 * xsq)
  partialx x := -x * Real.exp (-0.5 * (x * x))
  integral := some (Real.sqrt (2 * Real.pi))
  fwhm := 2 * Real.sqrt (2 * Real.log 2)
  range := none
  isBound := false

/-- `Huber.py` 52-67. -/
def huber : Kernel where
  result x := if |x| < 1 then 1 else 1 / |x|
  resultsq := some fun xsq => if Real.sqrt xsq < 1 then 1 else 1 / Real.sqrt xsq
  partialx x := if |x| < 1 then 0 else -1 / (x * |x|)
  integral := none
  fwhm := 4
  range := none
  isBound := false

/-- `Lorentz.py` 49-65. -/
def lorentz : Kernel where
  result x := 1 / (1 + x * x)
  resultsq := some fun xsq => 1 / (1 + xsq)
  partialx x := -2 * x * (1 / (1 + x * x)) * (1 / (1 + x * x))
  integral := some Real.pi
  fwhm := 2
  range := none
  isBound := false

/-- `Parabola.py` 50-62. -/
def parabola : Kernel where
  result x := if x * x ≤ 1 then 1 - x * x else 0
  resultsq := some fun xsq => if xsq ≤ 1 then 1 - xsq else 0
  partialx x := if |x| ≤ 1 then -2 * x else 0
  integral := some (4 / 3)
  fwhm := 2 * Real.sqrt 0.5
  range := some 1
  isBound := true

/-- `Sinc.py` 54-67. -/
def sinc : Kernel where
  result x :=
    let xp := if x = 0 then 1 else x * Real.pi
    if x = 0 then 1 else Real.sin xp / xp
  resultsq := none
  partialx x :=
    let xp := if x = 0 then 1 else x * Real.pi
    if x = 0 then 0 else Real.pi * (xp * Real.cos xp - Real.sin xp) / (xp * xp)
  integral := some 1
  fwhm := 2 * 1.8954942670 / Real.pi
  range := none
  isBound := false

/-- `Triangle.py` 49-59. -/
def triangle : Kernel where
  result x := if |x| ≤ 1 then 1 - |x| else 0
  resultsq := none
  partialx x := if |x| ≤ 1 then -sgn x else 0
  integral := some 1
  fwhm := 1
  range := some 1
  isBound := true

/-- `Tricube.py` 49-62. -/
def tricube : Kernel where
  result x :=
    let res := if |x| ≤ 1 then 1 - |x| * |x| * |x| else 0
    res * res * res
  resultsq := none
  partialx x :=
    let u := 1 - |x| * |x| * |x|
    if |x| ≤ 1 then -9 * u * u * |x| * |x| * sgn x else 0
  integral := some (81 / 70)
  fwhm := 1.18176021
  range := some 1
  isBound := true

/-- `Triweight.py` 49-63. -/
def triweight : Kernel where
  result x :=
    let res := if x * x ≤ 1 then 1 - x * x else 0
    res * res * res
  resultsq := some fun xsq =>
    let res := if xsq ≤ 1 then 1 - xsq else 0
    res * res * res
  partialx x :=
    let df := if |x| ≤ 1 then 1 - x * x else 0;
    -6 * df * df * x
  integral := some (32 / 35)
  fwhm := 2 * 0.454202
  range := some 1
  isBound := true

/-- `Uniform.result` 51-53. -/
def uniResult (x : ℝ) : ℝ := if |x| < 1 then 1 else if |x| = 1 then 0.5 else 0

/-- `Uniform.py` 49-62. -/
def uniform : Kernel where
  result := uniResult
  resultsq := some uniResult
  partialx _ := 0
  integral := some 2
  fwhm := 2
  range := some 1
  isBound := true

/-- `Conv0` to `Conv6`, `Tophat.py` 97-307. -/
def convResult (nconv : ℕ) (x : ℝ) : ℝ :=
  let x1 := |x|
  let x2 := x1 * x1
  let x3 := x2 * x1
  let x4 := x3 * x1
  let x5 := x4 * x1
  let x6 := x5 * x1
  match nconv with
  | 0 => if x1 < 0.5 then 1 else if x1 = 0.5 then 0.5 else 0
  | 1 => if x1 < 1 then 1 - x1 else 0
  | 2 =>
    if x1 < 1.5 then
      if x1 < 0.5 then (3 - 4 * x2) / 3
      else (9 - 12 * x1 + 4 * x2) / 6
    else 0
  | 3 =>
    if x1 < 2 then
      if x1 < 1 then (4 - 6 * x2 + 3 * x3) / 4
      else (8 - 12 * x1 + 6 * x2 - x3) / 4
    else 0
  | 4 =>
    if x1 < 2.5 then
      if x1 < 0.5 then (115 - 120 * x2 + 48 * x4) / 115
      else if x1 < 1.5 then (55 + 20 * x1 - 120 * x2 + 80 * x3 - 16 * x4) * 2 / 115
      else (625 - 1000 * x1 + 600 * x2 - 160 * x3 + 16 * x4) / 230
    else 0
  | 5 =>
    if x1 < 3 then
      if x1 < 1 then (33 - 30 * x2 + 15 * x4 - 5 * x5) / 33
      else if x1 < 2 then (51 + 75 * x1 - 210 * x2 + 150 * x3 - 45 * x4 + 5 * x5) / 66
      else (243 - 405 * x1 + 270 * x2 - 90 * x3 + 15 * x4 - x5) / 66
    else 0
  | _ =>
    if x1 < 3.5 then
      if x1 < 0.5 then (5887 - 4620 * x2 + 1680 * x4 - 320 * x6) / 5887
      else if x1 < 1.5 then
        (23583 - 420 * x1 - 16380 * x2 - 5600 * x3 + 15120 * x4 - 6720 * x5 + 960 * x6) / 23548
      else if x1 < 2.5 then
        (4137 + 30408 * x1 - 59220 * x2 + 42560 * x3 - 15120 * x4 + 2688 * x5 - 192 * x6) / 11774
      else
        (117649 - 201684 * x1 + 144060 * x2 - 54880 * x3 + 11760 * x4 - 1344 * x5 + 64 * x6) / 23548
    else 0

/-- The partials of `Conv0` to `Conv6`, `Tophat.py` 102-336. -/
def convPartial (nconv : ℕ) (x : ℝ) : ℝ :=
  let s0 := sgn x
  let x1 := |x|
  let x2 := x1 * x1
  let x3 := x2 * x1
  let x4 := x3 * x1
  let x5 := x4 * x1
  match nconv with
  | 0 => 0
  | 1 => if x1 < 1 then -sgn x else 0
  | 2 =>
    if x1 < 1.5 then
      if x1 < 0.5 then s0 * (-8 * x1) / 3
      else s0 * (-12 + 8 * x1) / 6
    else 0
  | 3 =>
    if x1 < 2 then
      if x1 < 1 then s0 * (-12 * x1 + 9 * x2) / 4
      else s0 * (-12 + 12 * x1 - 3 * x2) / 4
    else 0
  | 4 =>
    if x1 < 2.5 then
      if x1 < 0.5 then s0 * (-240 * x1 + 192 * x3) / 115
      else if x1 < 1.5 then s0 * (20 - 240 * x1 + 240 * x2 - 64 * x3) * 2 / 115
      else s0 * (-1000 + 1200 * x1 - 480 * x2 + 64 * x3) / 230
    else 0
  | 5 =>
    if x1 < 3 then
      if x1 < 1 then s0 * (-60 * x1 + 60 * x3 - 25 * x4) / 33
      else if x1 < 2 then s0 * (75 - 420 * x1 + 450 * x2 - 180 * x3 + 25 * x4) / 66
      else s0 * (-405 + 540 * x1 - 270 * x2 + 60 * x3 - 5 * x4) / 66
    else 0
  | _ =>
    if x1 < 3.5 then
      if x1 < 0.5 then s0 * (-2 * 4620 * x1 + 4 * 1680 * x3 - 6 * 320 * x5) / 5887
      else if x1 < 1.5 then
        s0 * (-420 - 2 * 16380 * x1 - 3 * 5600 * x2 + 4 * 15120 * x3 - 5 * 6720 * x4 + 6 * 960 * x5) / 23548
      else if x1 < 2.5 then
        s0 * (30408 - 2 * 59220 * x1 + 3 * 42560 * x2 - 4 * 15120 * x3 + 5 * 2688 * x4 - 6 * 192 * x5) / 11774
      else
        s0 * (-201684 + 2 * 144060 * x1 - 3 * 54880 * x2 + 4 * 11760 * x3 - 5 * 1344 * x4 + 6 * 64 * x5)
          / 23548
    else 0

/-- `Tophat.FWHM`, 41-42. -/
def tophatFwhm : List ℝ := [0.5, 0.5, 0.6339745962155612, 0.7223517244643762, 0.7971951696335494,
  0.8660920722545018, 0.9301994777857857]

/-- `Tophat.RANGE`, 43. -/
def tophatRange : List ℝ := [0.5, 1.0, 1.5, 2.0, 2.5, 3.0, 3.5]

/-- `Tophat.INTEGRAL`, 44. -/
def tophatIntegral : List ℝ := [1.0, 1.0, 4 / 3, 3 / 2, 192 / 115, 20 / 11, 11520 / 5887]

/-- `Tophat.__init__` and methods, 46-95, for `nconv` at most 6; more is an error. -/
def tophat (nconv : ℕ) : Kernel where
  result := convResult nconv
  resultsq := some fun xsq => convResult nconv xsq
  partialx := convPartial nconv
  integral := some (tophatIntegral.getD nconv 0)
  fwhm := 2 * tophatFwhm.getD nconv 0
  range := some (tophatRange.getD nconv 0)
  isBound := true

end BF.Kernels
