import Verif.Kernels
import Mathlib.Analysis.SpecialFunctions.Trigonometric.Basic

/-!
# Two dimensional kernel models

Models `Kernel2dModel.py`.

Simplifications:
* Floats are reals; one row of `xdata`, as a pair, at a time. Parameters are a function of the index.
* Operations with `None`, which raise, and divisions by zero, which give nan, are `none`.
* The partials are a function of the index of the parameter; a `parlist` selects from them.
-/

noncomputable section

namespace BF.Kernel2d

open Real Kernels

/-- The argument `shape` of the constructor: a number or the first letter of a word. -/
inductive ShapeArg
  | num (n : ℤ)
  | word (first : Char)

/-- `str.find( 'xxcCeErR', shape[0] )`. -/
def find (c : Char) : ℤ :=
  match ['x', 'x', 'c', 'C', 'e', 'E', 'r', 'R'].findIdx? (· = c) with
  | some k => k
  | none => -1

/-- `parseShape` 146-151. -/
def parseShape (a : ShapeArg) : ℤ :=
  let n := match a with
    | .num n => n
    | .word c => find c / 2
  if 1 ≤ n ∧ n ≤ 3 then n else 1

/-- The three subclasses of `BaseShape2d`: `Circle`, `Ellipse` and `Rotated`. -/
inductive Shape
  | circle
  | ellipse
  | rotated
  deriving DecidableEq

/-- `setKernelShape` 164-184: the subclass of a shape. -/
def toShape (n : ℤ) : Shape := if n = 1 then .circle else if n = 2 then .ellipse else .rotated

/-- `NPAR` 93. -/
def Shape.npar : Shape → ℕ
  | .circle => 4
  | .ellipse => 5
  | .rotated => 6

/-- The parameters that are set at 157-179: 1/∞ is 0. -/
def Shape.pars (s : Shape) (K : Kernel) : List ℝ :=
  let amp := match K.integral with
    | some v => 2.0 / (v * π)
    | none => 0
  match s with
  | .circle => [amp, 0, 0, 1]
  | .ellipse => [amp, 0, 0, 1, 1]
  | .rotated => [amp, 0, 0, 2, 0.5, 0]

/-- `u` and `v` of lines 261-262, 289-290, 329-330 and 363-368. -/
def Shape.uv (s : Shape) (x : ℝ × ℝ) (p : ℕ → ℝ) : ℝ × ℝ :=
  match s with
  | .circle => ((x.1 - p 1) / p 3, (x.2 - p 2) / p 3)
  | .ellipse => ((x.1 - p 1) / p 3, (x.2 - p 2) / p 4)
  | .rotated =>
    let X := x.1 - p 1
    let Y := x.2 - p 2
    let c := cos (p 5)
    let s := sin (p 5)
    ((X * c - Y * s) / p 3, (X * s + Y * c) / p 4)

/-- `result` 260-263 and 362-369. -/
def Shape.result (s : Shape) (K : Kernel) (x : ℝ × ℝ) (p : ℕ → ℝ) : Option ℝ :=
  let (u, v) := s.uv x p
  K.resultsq.map fun f => p 0 * f (u * u + v * v)

/-- `numpy.where( r == 0, 1.0, u / r )`, 295-296, 335-336, 380-381 and 401-402. -/
def unit (u r : ℝ) : ℝ := if r = 0 then 1 else u / r

/-- `partial` 286-311, 326-353 and 388-428: the column of parameter k. -/
def Shape.part (s : Shape) (K : Kernel) (x : ℝ × ℝ) (p : ℕ → ℝ) (k : ℕ) : Option ℝ :=
  let (u, v) := s.uv x p
  let r2 := u * u + v * v
  let r := √r2
  let p0dkdr := -p 0 * K.partialx r
  let drdu := unit u r
  let drdv := unit v r
  match s with
  | .circle =>
    match k with
    | 0 => K.resultsq.map fun f => f r2
    | 1 => some (p0dkdr * drdu / p 3)
    | 2 => some (p0dkdr * drdv / p 3)
    | 3 => some (p0dkdr * r / p 3)
    | _ => none
  | .ellipse =>
    match k with
    | 0 => K.resultsq.map fun f => f r2
    | 1 => some (p0dkdr * drdu / p 3)
    | 2 => some (p0dkdr * drdv / p 4)
    | 3 => some (p0dkdr * u * drdu / p 3)
    | 4 => some (p0dkdr * v * drdv / p 4)
    | _ => none
  | .rotated =>
    let X := x.1 - p 1
    let Y := x.2 - p 2
    let c := cos (p 5)
    let s := sin (p 5)
    match k with
    | 0 => K.resultsq.map fun f => f r2
    | 1 => some (p0dkdr * (drdu * c / p 3 + drdv * s / p 4))
    | 2 => some (p0dkdr * (-drdu * s / p 3 + drdv * c / p 4))
    | 3 => some (p0dkdr * drdu * u / p 3)
    | 4 => some (p0dkdr * drdv * v / p 4)
    | 5 => some (-p0dkdr * (drdu * (-X * s - Y * c) / p 3 + drdv * (-Y * s + X * c) / p 4))
    | _ => none

/-- `derivative` 265-273, 283-284, 323-324 and 371-386: to both coordinates. -/
def Shape.deriv (s : Shape) (K : Kernel) (x : ℝ × ℝ) (p : ℕ → ℝ) : Option (ℝ × ℝ) :=
  let (u, v) := s.uv x p
  let r := √(u * u + v * v)
  let kp := match s with
    | .circle => 3
    | _ => 4
  match s with
  | .rotated =>
    let c := cos (p 5)
    let s := sin (p 5)
    let drdu := unit u r
    let drdv := unit v r
    let p0dkdr := p 0 * K.partialx r
    some (p0dkdr * (drdu * c / p 3 + drdv * s / p 4), p0dkdr * (drdv * c / p 4 - drdu * s / p 3))
  | _ =>
    if r = 0 then none
    else some (p 0 * K.partialx r * (u / r) / p 3, p 0 * K.partialx r * (v / r) / p kp)

end BF.Kernel2d
