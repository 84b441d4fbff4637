import Mathlib.Data.Real.Basic
import Mathlib.Data.Real.Archimedean
import Mathlib.Algebra.Order.Floor.Ring

/-!
# Rounding helpers

Models `Tools.py` 451-480, with real numbers for floats. Loops without a bound have fuel.
-/

noncomputable section

namespace BF.Nice

open Classical

/-- `while x > 10 : x /= 10 ; n *= 10`, `Tools.py` 463-465. `none` when the fuel is used up. -/
def downLoop : ℕ → ℝ × ℝ → Option (ℝ × ℝ)
  | 0, _ => none
  | fuel + 1, (x, n) => if x > 10 then downLoop fuel (x / 10, n * 10) else some (x, n)

/-- `while x < 1 : x *= 10 ; n /= 10`, `Tools.py` 466-468. -/
def upLoop : ℕ → ℝ × ℝ → Option (ℝ × ℝ)
  | 0, _ => none
  | fuel + 1, (x, n) => if x < 1 then upLoop fuel (x * 10, n / 10) else some (x, n)

/-- `int( x )`, and `numpy.fix`: rounds towards zero. -/
def trunc (x : ℝ) : ℤ := if 0 ≤ x then ⌊x⌋ else ⌈x⌉

/-- `Tools.nicenumber` 451-469. -/
def nicenumber (fuel : ℕ) (x : ℝ) : Option ℝ :=
  if x = 0 then some x
  else
    let sx : ℝ × ℝ := if x < 0 then (-1, |x|) else (1, x)
    match downLoop fuel (sx.2, 1) with
    | none => none
    | some p =>
        match upLoop fuel p with
        | none => none
        | some q => some (sx.1 * trunc q.1 * q.2)

/-- `Tools.fix2int` 472-480, for one element of the array. -/
def fix2int (x : ℝ) : ℤ := trunc (x + 0.000001)

end BF.Nice
