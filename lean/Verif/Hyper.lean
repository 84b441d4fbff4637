import Verif.Phantoms
import Mathlib.Data.Real.Basic

/-!
# The hyperparameters of error distributions: limits, fixed values and copies

Models `HyperParameter.py`, `NoiseScale.py` and the parts of `ErrorDistribution.py`,
`ScaledErrorDistribution.py`, `ExponentialErrorDistribution.py` and `MixedErrorDistribution.py` that make,
set and copy hyperparameters. Hyperparameters are python objects that several distributions may
share, so they live in a store and a distribution holds their addresses.

Simplifications:
* Of a prior only its kind and its limits are kept; limits outside its domain raise (`none`).
* Dictionaries have natural numbers as keys (python allows negative ones too).
* Attributes `stdev`, `deltaP`, `constrain`, `minimum` are left out.
-/

noncomputable section

namespace BF.HyperPar

open Classical

/-- Limits as the user gives them, `[low,high]`, either may be `None`. -/
abbrev Limits := Option ℝ × Option ℝ

/-- The two priors that the distributions make: `JeffreysPrior` on `[0,inf]` and `UniformPrior`. -/
inductive Kind where
  | jeffreys
  | uniform
deriving DecidableEq

/-- A prior: its limits, `none` for the end of the domain, `Prior.py` 177-183. -/
structure Pri where
  kind : Kind
  low : Option ℝ
  high : Option ℝ

/-- `Prior.setLimits` 177-189: `none` is the ValueError of 189. -/
def Pri.setLimits (p : Pri) (limits : Option Limits) : Option Pri :=
  let low := limits.bind Prod.fst
  let high := limits.bind Prod.snd
  let okLow : Prop := p.kind = .jeffreys → ∀ l ∈ low, 0 ≤ l
  let okOrder : Prop := (∀ l ∈ low, ∀ h ∈ high, l < h) ∧
    (p.kind = .jeffreys → low = none → ∀ h ∈ high, 0 < h)
  if okLow ∧ okOrder then some { p with low := low, high := high } else none

/-- `JeffreysPrior.isBound` 164-166, `UniformPrior.isBound` 158-160 with `Prior.py` 384-390: a low limit
of 0 is the end of the domain of a Jeffreys prior. -/
def Pri.isBound (p : Pri) : Bool :=
  match p.low, p.high with
  | some l, some _ => match p.kind with
    | .jeffreys => decide (0 < l)
    | .uniform => true
  | _, _ => false

/-- A hyperparameter, `HyperParameter.py` 82-90. `fixed` is the attribute that `keepFixed` sets,
`ErrorDistribution.py` 270-278. -/
structure HPar where
  hypar : ℝ
  isFixed : Bool
  prior : Option Pri
  fixed : Bool

/-- `HyperParameter.__init__` 81-90 with `isFixed=True`. -/
def HPar.make (hypar : ℝ) (prior : Option Pri) (limits : Option Limits) : Option HPar :=
  match prior with
  | some p => (p.setLimits limits).map fun q => ⟨hypar, false, some q, false⟩
  | none =>
      match limits with
      | some l =>
          ((⟨.jeffreys, none, none⟩ : Pri).setLimits (some l)).map fun q => ⟨hypar, true, some q, false⟩
      | none => some ⟨hypar, true, none, false⟩

/-- `NoiseScale.__init__` 92-95. -/
def HPar.makeScale (scale : ℝ) (limits : Option Limits) : Option HPar :=
  match limits with
  | some l => HPar.make scale (some ⟨.jeffreys, none, none⟩) (some l)
  | none => HPar.make scale none none

/-- `HyperParameter.setLimits` 113-125: `none` is the ValueError of `checkPrior` or of the prior. -/
def HPar.setLimits (h : HPar) (limits : Limits) : Option HPar :=
  match h.prior with
  | none => none
  | some p => (p.setLimits (some limits)).map fun q => { h with
      prior := some q
      isFixed := false }

/-- `HyperParameter.copy` 100-102 with `__init__` 81-99; the attribute `fixed` is not copied. -/
def HPar.copy (h : HPar) : HPar := ⟨h.hypar, h.isFixed, h.prior, false⟩

/-- `NoiseScale.copy` 101-103 with `__init__` 92-100: `copy` is not passed to `HyperParameter.__init__`. -/
def HPar.copyScale (h : HPar) : Option HPar := HPar.makeScale h.hypar none

/-- What the sampler asks, `NestedSampler.py` 529: fixed, bound, value. A hyperparameter that is not fixed
always has a prior here, so that `isBound` does not raise. -/
def HPar.view (h : HPar) : Fitlist.Hyper ℝ :=
  ⟨h.isFixed, h.prior.elim false Pri.isBound, h.hypar⟩

/-- All hyperparameters that were made. -/
abbrev Store := List HPar

/-- An error distribution: the addresses of its hyperparameters, and its attribute `fixed`. -/
structure Dis where
  refs : List ℕ
  fixed : Option (List (ℕ × ℝ))

/-- The hyperparameters of a distribution as the sampler sees them. -/
def hypers (s : Store) (d : Dis) : List (Fitlist.Hyper ℝ) :=
  d.refs.filterMap fun a => s[a]?.map HPar.view

/-- The loop of `ErrorDistribution.py` 276-278; `none` is the IndexError. -/
def keepLoop (refs : List ℕ) : List (ℕ × ℝ) → Store → Option Store
  | [], s => some s
  | (f, v) :: l, s =>
      match refs[f]? with
      | none => none
      | some a => keepLoop refs l (s.modify a fun h => { h with
          fixed := true
          hypar := v })

/-- `ErrorDistribution.keepFixed` 253-280 on the hyperparameters at `refs`. -/
def keepFixed (refs : List ℕ) (fixed : Option (List (ℕ × ℝ))) (s : Store) : Option Store :=
  let s0 := refs.foldl (fun t a => t.modify a fun h => { h with fixed := false }) s
  match fixed with
  | none => some s0
  | some l => keepLoop refs l s0

/-- `ScaledErrorDistribution.__init__` 75-83 without `copy`; `ErrorDistribution.__init__` 96-99 handles
`fixed` when there are no hyperparameters yet. -/
def newScaled (s : Store) (scale : ℝ) (limits : Option Limits) (fixed : Option (List (ℕ × ℝ))) :
    Option (Store × Dis) :=
  match keepFixed [] fixed s with
  | none => none
  | some s1 =>
      match HPar.makeScale scale limits with
      | none => none
      | some h =>
          let refs := [s1.length]
          let s2 := s1 ++ [h]
          match limits with
          | some _ => some (s2, ⟨refs, fixed⟩)
          | none => (keepFixed refs (some [(0, scale)]) s2).map fun s3 => (s3, ⟨refs, some [(0, scale)]⟩)

/-- `ScaledErrorDistribution.__init__` 75-83 with `copy`, as the methods `copy` of the Gauss, Laplace,
Cauchy, Uniform and Exponential distributions call it: scale 1 and no limits
(`ErrorDistribution.__init__` 101-104, `ExponentialErrorDistribution.__init__` 98 and 119). -/
def copyScaled (s : Store) (d : Dis) : Option (Store × Dis) :=
  match keepFixed d.refs d.fixed s with
  | none => none
  | some s1 => (keepFixed d.refs (some [(0, 1)]) s1).map fun s2 => (s2, ⟨d.refs, some [(0, 1)]⟩)

/-- `ExponentialErrorDistribution.__init__` 98-117, without `copy`, with limits on the scale and on the power
taken apart (100-113). The scaled distribution made at 98 leaves its attribute `fixed`; its
hyperparameter is dropped. -/
def newExponential (s : Store) (scale power : ℝ) (slim plim : Option Limits) : Option (Store × Dis) :=
  match HPar.makeScale scale slim, HPar.make power none plim with
  | some h1, some h2 => some (s ++ [h1, h2], ⟨[s.length, s.length + 1], some [(0, 1)]⟩)
  | _, _ => none

/-- `MixedErrorDistribution.__init__` 92-100 without `copy`: the hyperparameters are those of the two
distributions, and a fraction. -/
def newMixed (s : Store) (d1 d2 : Dis) (fraction : ℝ) (limits : Option Limits) : Option (Store × Dis) :=
  (HPar.make fraction (some ⟨.uniform, none, none⟩) limits).map fun h =>
    (s ++ [h], ⟨d1.refs ++ d2.refs ++ [s.length], none⟩)

/-- `MixedErrorDistribution.copy` 102-104 and `ErrorDistribution.__init__` 101-105. -/
def copyMixed (s : Store) (d : Dis) : Option (Store × Dis) :=
  (keepFixed d.refs d.fixed s).map fun s1 => (s1, d)

/-- Set limits on the hyperparameters at the addresses one by one, `ErrorDistribution.py` 312-313. -/
def limitLoop : List (ℕ × Limits) → Store → Option Store
  | [], s => some s
  | (a, l) :: r, s =>
      match s[a]? with
      | none => none
      | some h =>
          match h.setLimits l with
          | none => none
          | some h' => limitLoop r (s.set a h')

/-- `ErrorDistribution.setLimits` 295-313; one pair of limits for each hyperparameter. -/
def setLimitsBase (s : Store) (d : Dis) (limits : List Limits) : Option Store :=
  limitLoop (d.refs.zip limits) s

/-- `ScaledErrorDistribution.setLimits` 89-104: the scale gets a prior when it has none. -/
def setLimitsScaled (s : Store) (d : Dis) (limits : List Limits) : Option Store :=
  match d.refs with
  | [] => none
  | a :: _ =>
      setLimitsBase (s.modify a fun h =>
        if h.prior.isNone then { h with prior := some ⟨.jeffreys, none, none⟩ } else h) d limits

end BF.HyperPar
