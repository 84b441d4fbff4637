import Verif.Routing
import Verif.Dynamic
import Verif.Combi

/-!
# Priors of repeated and combined models

`RepeatingModel.py`, `CombiModel.py` and `HarmonicDynamicModel.py`: which prior belongs to which parameter, one at a
time (`getPrior`, by which the engines convert parameters) and all at once (`Model.nextPrior`).

Simplifications: as in `Verif/Routing.lean`; the model that is repeated is one base model, not a chain.
-/

namespace BF.RepPriors

open BF.Routing BF.Dynamic

variable {α ν : Type}

/-! ## Repeating models -/

/-- A `RepeatingModel` of `ncomp` times the model `leaf`, and the attribute `priors` of itself: the list `own`, which
may be the same object as the list of `leaf` (`RepeatingModel.py` 153: "point to the same"). -/
structure Repeat (α ν : Type) where
  ncomp : ℕ
  same : List ℕ
  leaf : Leaf α ν
  own : List α
  shared : Bool

/-- `RepeatingModel.__init__` 115-182; an empty list is `None`, which can not be shared. -/
def Repeat.make (ncomp : ℕ) (leaf : Leaf α ν) (same : List ℕ) : Repeat α ν :=
  ⟨ncomp, same, leaf, leaf.priors, !leaf.priors.isEmpty⟩

/-- The numbers of the repeating model, for `par2model` and `index`. -/
def Repeat.rep (r : Repeat α ν) : Rep ℕ := ⟨r.ncomp, r.leaf.np, r.same, fun _ => 0⟩

/-- `RepeatingModel.basePrior` 475-485, for a parameter of its own. -/
def Repeat.getPrior (r : Repeat α ν) (k : ℕ) : Option α :=
  (r.rep.par2model k).bind fun i => r.leaf.basePrior i.1

/-- `RepeatingModel.setPrior` 445-470. `BaseModel.setPrior` replaces in the list (342), or makes a new list (339),
which is not shared. -/
def Repeat.setPrior (deflt : α) (r : Repeat α ν) (k : ℕ) (prior : Option α) (att : α → Option α) :
    Option (Repeat α ν) :=
  if k < r.leaf.np then
    (r.leaf.setPrior deflt k prior att).map fun l =>
      if k < r.leaf.priors.length then
        { r with
          leaf := l
          own := if r.shared then l.priors else r.own }
      else
        { r with
          leaf := l
          shared := false }
  else none

/-- What `Model.nextPrior` 1289-1300 yields for parameter `k`: from the attribute `priors` of the repeating model. -/
def Repeat.nextPrior (r : Repeat α ν) (k : ℕ) : Option α :=
  if k < r.own.length then r.own[k]? else r.own.getLast?

/-- `setPrior` of a chain with a repeating model at its head: the class overrides `Model.setPrior` and does not look
at the next one. -/
def Repeat.chainSetPrior (deflt : α) (r : Repeat α ν) (next : Chain α ν) (k : ℕ) (prior : Option α)
    (att : α → Option α) : Option (Repeat α ν × Chain α ν) :=
  (r.setPrior deflt k prior att).map fun r' => (r', next)

/-! ## Dynamic harmonics -/

/-- `HarmonicDynamicModel.basePrior` 176-185; `deltaNpar` is 2 (133). -/
def harmonicPrior (l : Leaf α ν) (k : ℕ) : Option α := l.basePrior (k % 2)

/-- What `Model.nextPrior` 1289-1300 yields for parameter `k` of a base model. -/
def leafNextPrior (l : Leaf α ν) (k : ℕ) : Option α :=
  if k < l.priors.length then l.priors[k]? else l.priors.getLast?

/-! ## Combi models -/

/-- The chain of copies, `CombiModel.py` 158-165. -/
def chainOf : Leaf α ν → List (Leaf α ν) → Chain α ν
  | l, [] => .last (.base l)
  | l, m :: ms => .cons (.base l) (chainOf m ms)

/-- `CombiModel.getPrior` 380-399; `select` is made by `combine`. A model that is next in the chain of the
combi model is not looked at. -/
def combiGetPrior (inner : Chain α ν) (nmp : ℕ) (select : List ℕ) (k : ℕ) : Option α :=
  match inner.getPrior k with
  | some p => some p
  | none => (select[k]?).bind fun s => inner.getPrior (s % nmp)

end BF.RepPriors
