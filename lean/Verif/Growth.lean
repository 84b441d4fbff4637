import Verif.Dynamic
import Verif.Poly
import Verif.Priors

/-!
# Dynamic models and their growth

Models `PolynomialDynamicModel.py`, `HarmonicDynamicModel.py`, `Dynamic.setGrowPrior` and the decision to grow or
shrink in `BirthEngine.py` and `DeathEngine.py`.

Simplifications: floats are reals. The dynamic model is the state `Dyn` of `Dynamic.lean`; its own parameters start at
`offset` in those of the chain. `npmax` is equal to `npbase`, as there are no fixed parameters. Exceptions are `none`.
-/

noncomputable section

namespace BF.Growth

open Dynamic Poly Priors

/-- `PolynomialDynamicModel.__init__` 94-137; the components are the coefficients (164-169). -/
def polyInit (degree minDegree : ℕ) (maxDegree : Option ℕ) : Option (Dyn ℝ) :=
  if degree < minDegree ∨ (∃ m ∈ maxDegree, m < degree) then none
  else some
    { ncomp := degree + 1, minComp := minDegree + 1, maxComp := maxDegree.map (· + 1),
      npbase := degree + 1, npchain := degree + 1, params := List.replicate (degree + 1) 0 }

/-- `HarmonicDynamicModel.__init__` 92-140; the components are the orders (167-172). -/
def harmInit (order minOrder : ℕ) (maxOrder : Option ℕ) : Option (Dyn ℝ) :=
  if order < minOrder ∨ (∃ m ∈ maxOrder, m < order) then none
  else some
    { ncomp := order, minComp := minOrder, maxComp := maxOrder,
      npbase := 2 * order, npchain := 2 * order, params := List.replicate (2 * order) 0 }

/-- `PolynomialDynamicModel.copy` 139-141: a model of the same degree, with the default for `minDegree`, 0, and for
`maxDegree`, None, in the check of 123; after that the attributes are copied. -/
def polyCopy (s : Dyn ℝ) : Option (Dyn ℝ) := (polyInit (s.ncomp - 1) 0 none).map fun _ => s

/-- `HarmonicDynamicModel.copy` 142-144: the default for `minOrder` is 1. -/
def harmCopy (s : Dyn ℝ) : Option (Dyn ℝ) := (harmInit s.ncomp 1 none).map fun _ => s

/-- The parameters of the model itself, at their place in those of the chain. -/
def own (s : Dyn ℝ) (offset : ℕ) : ℕ → ℝ := fun k => s.params.getD (offset + k) 0

/-- The result of a `PolynomialDynamicModel`: that of a `PolynomialModel` with `npmax` coefficients. -/
def polyDynResult (s : Dyn ℝ) (offset : ℕ) (x : ℝ) : ℝ := linearResult (own s offset) (powers s.npbase 1 x)

/-- The result of a `HarmonicDynamicModel`: that of a `HarmonicModel` with `npmax` amplitudes. -/
def harmDynResult (period : ℝ) (s : Dyn ℝ) (offset : ℕ) (x : ℝ) : ℝ :=
  let y := 2 * Real.pi * x / period
  linearResult (own s offset) ((List.range s.npbase).map fun kp =>
    let j : ℕ := 1 + kp / 2
    if kp % 2 = 0 then Real.cos (j * y) else Real.sin (j * y))

/-- `Dynamic.setGrowPrior` 67-92 without a given prior (same in `RepeatingModel.py` 175-180). -/
def growPrior (min : ℕ) (max : Option ℕ) : Option Prior :=
  match max with
  | none => exponential 2 ⊤
  | some m => construct .uniform 0 1 (some (some ((min : ℝ) : EReal), some (((m : ℝ) + 1 : ℝ) : EReal))) .no

/-- Whether `BirthEngine.execute` proposes a birth, 121-130; `u` is `rng.rand()`. -/
def birth (q : Prior) (s : Dyn ℝ) (offset : ℕ) (value : List ℝ) (u : ℝ) : Option (Dyn ℝ × Bool) :=
  match q.unit2Domain u with
  | none => none
  | some d => open Classical in if (s.ncomp : ℝ) < d then grow s offset value else some (s, false)

/-- Whether `DeathEngine.execute` proposes a death, 120-133. -/
def death (q : Prior) (s : Dyn ℝ) (offset n : ℕ) (u : ℝ) : Option (Dyn ℝ × Bool) :=
  match q.unit2Domain u with
  | none => none
  | some d => open Classical in if d < (s.ncomp : ℝ) then shrink s offset n else some (s, false)

end BF.Growth
