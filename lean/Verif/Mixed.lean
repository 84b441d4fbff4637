import Mathlib.Data.Finset.Image
import Mathlib.Data.Finset.SDiff
import Mathlib.Data.Int.Interval

/-!
# Mixed models

Models `NonLinearModel.py` 79-112: the indices of the linear parameters of a non-linear model. A model is here its
number of parameters, that of the compound model at the time of the call (`Model.py` 961-963), and the set `_linear`.
-/

namespace BF.Mixed

/-- The attribute `_linear` of a model. -/
structure Mdl where
  linear : Finset ℤ

/-- The constructor, `NonLinearModel.py` 80-84, with or without a model to be copied. -/
def construct : Option Mdl → Mdl
  | none => ⟨∅⟩
  | some m => ⟨m.linear⟩

/-- `setMixedModel` 86-102. -/
def setMixedModel (_ : Mdl) : Option (List ℤ) → Mdl
  | none => ⟨∅⟩
  | some l => ⟨l.toFinset⟩

/-- `isMixed` 104-106. -/
def isMixed (m : Mdl) : Bool := decide (0 < m.linear.card)

/-- `getNonLinearIndex` 108-112, for a model with `np` parameters. -/
def getNonLinearIndex (np : ℕ) (m : Mdl) : Finset ℤ :=
  ((List.range np).map fun k : ℕ => (k : ℤ)).toFinset \ m.linear

end BF.Mixed
