import Mathlib.Data.Real.Basic

/-!
# Residuals of periodic data

Models `Problem.py` 196-297: the residuals and their cyclic correction. Floats are reals.
-/

noncomputable section

namespace BF.Cyclic

/-- `Problem.cyclize` 271-297, for one element. -/
def cyclize (period res : ℝ) : ℝ :=
  let hp := period / 2
  if res < -hp then res + period else if hp < res then res - period else res

/-- The attribute `model.cyclic`, as looked at in `Problem.__init__` 118-123. -/
inductive Setting
  /-- no such attribute: `cyclicCorrection` 227-241 -/
  | none
  /-- one period for all: `cycor1` 243-253 -/
  | all (period : ℝ)
  /-- a dictionary from output number to period: `cycor2` 255-269 -/
  | columns (periods : List (ℕ × ℝ))

/-- `cycor1` 243-253 on a list of data. -/
def cycor1 (period : ℝ) (res : List ℝ) : List ℝ := res.map (cyclize period)

/-- `cycor2` 255-269 on one row, one data point of several outputs. `none` is the IndexError. -/
def cycor2 : List (ℕ × ℝ) → List ℝ → Option (List ℝ)
  | [], row => some row
  | (key, period) :: rest, row =>
      match row[key]? with
      | none => none
      | some r => cycor2 rest (row.set key (cyclize period r))

/-- `Problem.residuals` 211-224 for data with one output; with a dictionary the indexing `res[:,key]` fails
on such data. -/
def residuals (s : Setting) (ydata result : List ℝ) : Option (List ℝ) :=
  let res := List.zipWith (· - ·) ydata result
  match s with
  | .none => some res
  | .all p => some (cycor1 p res)
  | .columns _ => none

/-- `Problem.residuals` 211-224 for one data point with several outputs. -/
def residualsRow (s : Setting) (ydata result : List ℝ) : Option (List ℝ) :=
  let res := List.zipWith (· - ·) ydata result
  match s with
  | .none => some res
  | .all p => some (cycor1 p res)
  | .columns ks => cycor2 ks res

end BF.Cyclic
