import Mathlib.Data.Real.Basic
import Verif.Routing

/-!
# From the domain of the parameters to unit space and back

Models `Engine.domain2Unit`, `Engine.unit2Domain`, `Engine.makeIndex`, `Engine.getUnitMinmax` and
`Engine.getUnitRange`, and what they call in `Problem.py`, `ErrorsInXandYProblem.py`, `Model.py`,
`ErrorDistribution.py` and `HyperParameter.py`. Floats are reals, `none` is a raised exception. Numbers of parameters of
a problem are natural numbers; those of hyperparameters are negative, they count from the end.
-/

noncomputable section

namespace BF.UnitSpace

open BF.Routing

/-- `Prior.domain2Unit` and `Prior.unit2Domain` of a prior. -/
structure Maps where
  d2u : ℝ → ℝ
  u2d : ℝ → ℝ

/-- A problem with a model (`Problem.py`), or one with errors in x too (`ErrorsInXandYProblem.py` 119-125): that has a
prior for the xdata. -/
inductive Problem (ν : Type)
  | plain (c : Chain Maps ν)
  | xy (c : Chain Maps ν) (prior : Maps) (xdata : List ℝ)

variable {ν : Type}

/-- `problem.npars`, `Problem.py` 156-157 and `ErrorsInXandYProblem.py` 122. -/
def Problem.npars : Problem ν → ℕ
  | .plain c => c.np
  | .xy c _ xdata => c.np + xdata.length

/-- `Problem.domain2Unit` 354-365 with `Model.domain2Unit` 1260-1261; `ErrorsInXandYProblem.domain2Unit` 328-345. -/
def Problem.domain2Unit (p : Problem ν) (dval : ℝ) (kpar : ℕ) : Option ℝ :=
  match p with
  | .plain c => c.mapOne Maps.d2u kpar dval
  | .xy c prior xdata =>
    if kpar < c.np then c.mapOne Maps.d2u kpar dval
    else xdata[kpar - c.np]?.map fun x => prior.d2u (dval - x)

/-- `Problem.unit2Domain` 368-379 with `Model.unit2Domain` 1235-1236; `ErrorsInXandYProblem.unit2Domain` 347-361. -/
def Problem.unit2Domain (p : Problem ν) (uval : ℝ) (kpar : ℕ) : Option ℝ :=
  match p with
  | .plain c => c.mapOne Maps.u2d kpar uval
  | .xy c prior xdata =>
    if kpar < c.np then c.mapOne Maps.u2d kpar uval
    else xdata[kpar - c.np]?.map fun x => prior.u2d uval + x

/-- `self.hyperpar[ks]` for a negative index: IndexError when there are not that many. -/
def fromEnd {γ : Type} (l : List γ) (ks : ℤ) : Option γ :=
  if ks.natAbs ≤ l.length then l[l.length - ks.natAbs]? else none

/-- `ErrorDistribution.domain2Unit` 315-328 with `HyperParameter.domain2Unit` 136-148: `checkPrior` raises an exception
without a prior, and all exceptions lead to 0. -/
def errDomain2Unit (hyper : List (Option Maps)) (dval : ℝ) (ks : ℤ) : ℝ :=
  match fromEnd hyper ks with
  | some (some pr) => pr.d2u dval
  | _ => 0

/-- `ErrorDistribution.unit2Domain` 330-343 with `HyperParameter.unit2Domain` 150-162. -/
def errUnit2Domain (hyper : List (Option Maps)) (uval : ℝ) (ks : ℤ) : ℝ :=
  match fromEnd hyper ks with
  | some (some pr) => pr.u2d uval
  | _ => 0

/-- `Engine.makeIndex` 328-332; `len` is the length of the array. -/
def makeIndex (np len : ℕ) : List ℤ :=
  let nh := len - np
  ((List.range np).map fun k : ℕ => (k : ℤ)) ++ ((List.range nh).map fun j : ℕ => -((nh - j : ℕ) : ℤ))

/-- `Engine.domain2Unit` 256-258 (and 263-266): one parameter. -/
def domain2UnitOne (p : Problem ν) (hyper : List (Option Maps)) (dval : ℝ) (kpar : ℤ) : Option ℝ :=
  if 0 ≤ kpar then p.domain2Unit dval kpar.toNat else some (errDomain2Unit hyper dval kpar)

/-- `Engine.unit2Domain` 287-289 (and 292-296): one parameter. -/
def unit2DomainOne (p : Problem ν) (hyper : List (Option Maps)) (uval : ℝ) (kpar : ℤ) : Option ℝ :=
  if 0 ≤ kpar then p.unit2Domain uval kpar.toNat else some (errUnit2Domain hyper uval kpar)

/-- The loops `Engine.py` 262-266 and 291-296: the array of values may not be shorter than that of the indices. -/
def mapList (one : ℝ → ℤ → Option ℝ) : List ℤ → List ℝ → Option (List ℝ)
  | [], _ => some []
  | _ :: _, [] => none
  | kp :: kpar, v :: vals =>
    match one v kp, mapList one kpar vals with
    | some u, some us => some (u :: us)
    | _, _ => none

/-- `Engine.domain2Unit` 238-267 with a list of parameters. -/
def domain2UnitList (p : Problem ν) (hyper : List (Option Maps)) (dval : List ℝ) (kpar : List ℤ) : Option (List ℝ) :=
  mapList (domain2UnitOne p hyper) kpar dval

/-- `Engine.unit2Domain` 269-297 with a list of parameters. -/
def unit2DomainList (p : Problem ν) (hyper : List (Option Maps)) (uval : List ℝ) (kpar : List ℤ) : Option (List ℝ) :=
  mapList (unit2DomainOne p hyper) kpar uval

/-- `Engine.domain2Unit` 252-254 without a list. -/
def domain2UnitAll (p : Problem ν) (hyper : List (Option Maps)) (dval : List ℝ) : Option (List ℝ) :=
  domain2UnitList p hyper dval (makeIndex p.npars dval.length)

/-- `Engine.unit2Domain` 285-286 without a list. -/
def unit2DomainAll (p : Problem ν) (hyper : List (Option Maps)) (uval : List ℝ) : Option (List ℝ) :=
  unit2DomainList p hyper uval (makeIndex p.npars uval.length)

/-- `Engine.getUnitMinmax` 383-404: ( umin, umax ). `box` is the answer of `phantoms.getParamMinmax` (392). -/
def getUnitMinmax (p : Problem ν) (hyper : List (Option Maps)) (box : Option (List ℝ × List ℝ)) :
    Option (List ℝ × List ℝ) :=
  let npars := p.npars + hyper.length
  match box with
  | none => some (List.zipWith min (List.replicate npars 0) (List.replicate npars 1), List.replicate npars 1)
  | some (pamin, pamax) =>
    match domain2UnitAll p hyper pamax, domain2UnitAll p hyper pamin with
    | some umax, some umin => some (List.zipWith min umin umax, umax)
    | _, _ => none

/-- `Engine.getUnitRange` 406-421: ( uran, umin ). -/
def getUnitRange (p : Problem ν) (hyper : List (Option Maps)) (box : Option (List ℝ × List ℝ)) :
    Option (List ℝ × List ℝ) :=
  (getUnitMinmax p hyper box).map fun b => (List.zipWith (fun hi lo => |hi - lo|) b.2 b.1, b.1)

end BF.UnitSpace
