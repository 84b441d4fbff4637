import Mathlib.Analysis.SpecialFunctions.Pow.Real
import Mathlib.Analysis.SpecialFunctions.Sqrt

/-!
# The football model

Models `FootballModel.py`.

Simplifications: floats are reals; a root of a negative number and a power of a negative number, which are nan in numpy, have
the value of Lean. One match: the rows of `xdata` are independent. The numbers of the teams are natural numbers (negative
ones count from the end in numpy). The parameters are a function of their index.
-/

noncomputable section

namespace BF.Football

open Real

/-- `goals1` 177-179. -/
def goals1 (p : ℕ → ℝ) (x0 x1 : ℕ) : ℝ × ℝ := (p x0, p x1)

/-- `goals2` 181-186. -/
def goals2 (p : ℕ → ℝ) (x0 x1 : ℕ) : ℝ × ℝ :=
  let k0 := x0 * 2
  let k1 := x1 * 2
  (p k0 * (1 - p (k1 + 1)), p k1 * (1 - p (k0 + 1)))

/-- `goals3` 188-199. -/
def goals3 (p : ℕ → ℝ) (x0 x1 : ℕ) : ℝ × ℝ :=
  let k0 := x0 * 3
  let k1 := x1 * 3
  let ma0 := p (k0 + 2) / p (k1 + 2)
  let md1 := ma0
  let ma1 := 1 / ma0
  let md0 := ma1
  (p k0 * √ma0 * (1 - p (k1 + 1) ^ md1), p k1 * √ma1 * (1 - p (k0 + 1) ^ md0))

/-- `goals4` 201-212. -/
def goals4 (p : ℕ → ℝ) (x0 x1 : ℕ) : ℝ × ℝ :=
  let k0 := x0 * 4
  let k1 := x1 * 4
  let ma0 := p (k0 + 2) * p (k0 + 3) / p (k1 + 2)
  let md1 := ma0
  let ma1 := 1 / ma0
  let md0 := ma1
  (p k0 * √ma0 * (1 - p (k1 + 1) ^ md1), p k1 * √ma1 * (1 - p (k0 + 1) ^ md0))

/-- `goals5` 214-234. -/
def goals5 (p : ℕ → ℝ) (x0 x1 : ℕ) : ℝ × ℝ :=
  let k0 := x0 * 5
  let k1 := x1 * 5
  let m0 := p (k0 + 2) * p (k0 + 3) / p (k1 + 2)
  let m1 := 1 / m0
  let ma0 := m0 * p (k0 + 4)
  let md0 := m1 * p (k0 + 4)
  let ma1 := m1 * p (k1 + 4)
  let md1 := m0 * p (k1 + 4)
  (p k0 * √ma0 * (1 - p (k1 + 1) ^ md1), p k1 * √ma1 * (1 - p (k0 + 1) ^ md0))

/-- `baseResult` 237-251 with the choice of 144-165; `none` is the ValueError of 119-120. -/
def result (complexity : ℕ) (p : ℕ → ℝ) (x0 x1 : ℕ) : Option (ℝ × ℝ) :=
  match complexity with
  | 1 => some (goals1 p x0 x1)
  | 2 => some (goals2 p x0 x1)
  | 3 => some (goals3 p x0 x1)
  | 4 => some (goals4 p x0 x1)
  | 5 => some (goals5 p x0 x1)
  | _ => none

/-! ## Partials -/

/-- One row of an array of zeros with `width` columns after assignments `row[i] = v`; `none` is the IndexError. -/
def assign (width : ℕ) (l : List (ℕ × ℝ)) : Option (ℕ → ℝ) :=
  l.foldl (fun r a => r.bind fun r => if a.1 < width then some (Function.update r a.1 a.2) else none) (some fun _ => 0)

/-- The same with `row[i] += v`. -/
def increase (width : ℕ) (l : List (ℕ × ℝ)) : Option (ℕ → ℝ) :=
  l.foldl (fun r a => r.bind fun r => if a.1 < width then some (Function.update r a.1 (r a.1 + a.2)) else none)
    (some fun _ => 0)

/-- `part1` 290-300: assignments in the rows of home and away. -/
def part1 (x0 x1 : ℕ) : List (ℕ × ℝ) × List (ℕ × ℝ) := ([(x0, 1)], [(x1, 1)])

/-- `part2` 302-316. -/
def part2 (p : ℕ → ℝ) (x0 x1 : ℕ) : List (ℕ × ℝ) × List (ℕ × ℝ) :=
  let k0 := x0 * 2
  let k1 := x1 * 2
  ([(k0, 1 - p (k1 + 1)), (k1 + 1, -p k0)], [(k1, 1 - p (k0 + 1)), (k0 + 1, -p k1)])

/-- `part3` 318-364. -/
def part3 (p : ℕ → ℝ) (x0 x1 : ℕ) : List (ℕ × ℝ) × List (ℕ × ℝ) :=
  let k0 := x0 * 3
  let k1 := x1 * 3
  let a0 := p k0
  let a1 := p k1
  let b0 := p (k0 + 1)
  let b1 := p (k1 + 1)
  let c0 := p (k0 + 2)
  let c1 := p (k1 + 2)
  let m0 := c0 / c1
  let m1 := 1 / m0
  let sm0 := √m0
  let sm1 := √m1
  let pp0 := b0 ^ m1
  let pp1 := b1 ^ m0
  let lb0 := log b0
  let lb1 := log b1
  let pc0 := (pp0 - 1) * c0
  let pc1 := (pp1 - 1) * c1
  let pl0 := 2 * pp0 * lb0 * c1
  let pl1 := 2 * pp1 * lb1 * c0
  let sc0 := 2 * sm0 * c1 * c1
  let sc1 := 2 * sm1 * c0 * c0
  let apps0 := a0 * (pc1 + pl1) / sc0
  let apps1 := a1 * (pc0 + pl0) / sc1
  ([(k0, sm0 * (1 - pp1)), (k1 + 1, -a0 * sm0 * m0 * pp1 / b1), (k0 + 2, -apps0), (k1 + 2, apps0 * m0)],
   [(k1, sm1 * (1 - pp0)), (k0 + 1, -a1 * sm1 * m1 * pp0 / b0), (k1 + 2, -apps1), (k0 + 2, apps1 * m1)])

/-- `part4` 366-419. -/
def part4 (p : ℕ → ℝ) (x0 x1 : ℕ) : List (ℕ × ℝ) × List (ℕ × ℝ) :=
  let k0 := x0 * 4
  let k1 := x1 * 4
  let a0 := p k0
  let a1 := p k1
  let b0 := p (k0 + 1)
  let b1 := p (k1 + 1)
  let c0 := p (k0 + 2)
  let c1 := p (k1 + 2)
  let d0 := p (k0 + 3)
  let m0 := c0 * d0 / c1
  let m1 := 1 / m0
  let sm0 := √m0
  let sm1 := √m1
  let pp0 := b0 ^ m1
  let pp1 := b1 ^ m0
  let lb0 := log b0
  let lb1 := log b1
  let pc0 := (pp0 - 1) * c0
  let pc1 := (pp1 - 1) * c1
  let pl0 := 2 * pp0 * lb0 * c1
  let pl1 := 2 * pp1 * lb1 * c0 * d0
  let sc0 := 2 * sm0 * c1 * c1
  let sc1 := 2 * sm1 * c0 * c0
  let d02 := d0 * d0
  let apps0 := a0 * (pc1 + pl1) / sc0
  let apps1 := a1 * (pc0 * d0 + pl0) / sc1
  ([(k0, sm0 * (1 - pp1)), (k1 + 1, -a0 * sm0 * m0 * pp1 / b1), (k0 + 2, -apps0 * d0), (k1 + 2, apps0 * m0),
    (k0 + 3, -apps0 * c0)],
   [(k1, sm1 * (1 - pp0)), (k0 + 1, -a1 * sm1 * m1 * pp0 / b0), (k1 + 2, -apps1 / d02), (k0 + 2, apps1 * m1 / d0),
    (k0 + 3, apps1 * c1 / (d02 * d0))])

/-- `part5` 422-519. -/
def part5 (p : ℕ → ℝ) (x0 x1 : ℕ) : List (ℕ × ℝ) × List (ℕ × ℝ) :=
  let k0 := x0 * 5
  let k1 := x1 * 5
  let a0 := p k0
  let a1 := p k1
  let b0 := p (k0 + 1)
  let b1 := p (k1 + 1)
  let c0 := p (k0 + 2)
  let c1 := p (k1 + 2)
  let d0 := p (k0 + 3)
  let f0 := p (k0 + 4)
  let f1 := p (k1 + 4)
  let cd0 := c0 * d0
  let ma0 := cd0 * f0 / c1
  let ma1 := c1 * f1 / cd0
  let sm0 := √ma0
  let sm1 := √ma1
  let md0 := c1 * f0 / cd0
  let md1 := cd0 * f1 / c1
  let pp0 := b0 ^ md0
  let pp1 := b1 ^ md1
  let lb0 := log b0
  let lb1 := log b1
  let pb0 := pp0 - 1
  let pb1 := pp1 - 1
  ([(k0, -sm0 * pb1), (k1 + 1, -a0 * sm0 * md1 * pp1 / b1),
    (k0 + 2, -(a0 * d0 * f0 * (2 * pp1 * lb1 * cd0 * f1 + pb1 * c1)) / (2 * c1 ^ 2 * sm0)),
    (k1 + 2, (a0 * cd0 * f0 * (pb1 * c1 + 2 * pp1 * lb1 * cd0 * f1)) / (2 * sm0 * c1 ^ 3)),
    (k0 + 3, -(a0 * c0 * f0 * (2 * pp1 * lb1 * cd0 * f1 + pb1 * c1)) / (2 * c1 ^ 2 * sm0)),
    (k0 + 4, -(a0 * pb1 * cd0) / (2 * c1 * sm0)), (k1 + 4, -(a0 * pp1 * lb1 * cd0 * sm0) / c1)],
   [(k1, -sm1 * pb0), (k0 + 1, -a1 * sm1 * md0 * pp0 / b0),
    (k1 + 2, -(a1 * f1 * (2 * pp0 * lb0 * f0 * c1 + pb0 * cd0)) / (2 * cd0 ^ 2 * sm1)),
    (k0 + 2, (a1 * c1 * f1 * (pb0 * cd0 + 2 * pp0 * lb0 * c1 * f0)) / (2 * cd0 ^ 2 * sm1 * c0)),
    (k0 + 3, (a1 * c1 * f1 * (pb0 * cd0 + 2 * pp0 * lb0 * c1 * f0)) / (2 * cd0 ^ 2 * sm1 * d0)),
    (k1 + 4, -(a1 * pb0 * c1) / (2 * cd0 * sm1)), (k0 + 4, -(a1 * pp0 * lb0 * c1 * sm1) / cd0)])

/-- `basePartial` 255-286: `npbase` is the number of parameters that are not fixed; the argument `parlist` is not used. -/
def basePartial (complexity npbase : ℕ) (p : ℕ → ℝ) (x0 x1 : ℕ) : Option ((ℕ → ℝ) × (ℕ → ℝ)) :=
  let rows (f : ℕ → List (ℕ × ℝ) → Option (ℕ → ℝ)) (l : List (ℕ × ℝ) × List (ℕ × ℝ)) :=
    match f npbase l.1, f npbase l.2 with
    | some h, some a => some (h, a)
    | _, _ => none
  match complexity with
  | 1 => rows assign (part1 x0 x1)
  | 2 => rows assign (part2 p x0 x1)
  | 3 => rows increase (part3 p x0 x1)
  | 4 => rows assign (part4 p x0 x1)
  | 5 => rows assign (part5 p x0 x1)
  | _ => none

/-! ## Priors -/

/-- A model in a chain: the number of its parameters, its complexity when it is a football model, and `basePrior`
(`BaseModel.py` 369-385). -/
structure Link (P : Type*) where
  npbase : ℕ
  complexity : Option ℕ
  prior : ℕ → P

/-- `getPrior`: `FootballModel.py` 132-141 and `Model.py` 1023-1044; `none` is the IndexError. -/
def getPrior {P : Type*} : List (Link P) → ℕ → Option P
  | [], _ => none
  | m :: ms, k =>
      match m.complexity with
      | some c => some (m.prior (k % c))
      | none => if k < m.npbase then some (m.prior k) else getPrior ms (k - m.npbase)

end BF.Football
