import Verif.Evidence

/-!
# The likelihood of a model as a whole: `ModelDistribution`

Models `ModelDistribution.logLikelihood_alt` 113-220 and `logLdata` 222-238 on top of the linear fitter and
its evidence (`Verif.Evidence`). The walkers of an evidence problem each have a model of their own; the
"likelihood" of that model is the evidence that an arbiter finds for it.

Simplifications:
* Of the arbiters these are modelled: none at all and "fitter", both for linear models, a linear fitter object, and
  "nested". The iterative fitters are not.
* The extra keywords for the arbiter (`kwarbs`) are left out; they are only passed on.
* The list `allpars` of a walker has the parameters of its model and the noise scale.
* The limits on the noise scale, when present, are two finite numbers.
* The sampler that "nested" makes is a parameter.
-/

noncomputable section

namespace BF.ModelDist

open BF.Fitters BF.Evidence

variable {X : Type}

/-- What `EvidenceProblem.__init__` 56-79 keeps, for a linear model: the model with its parameters and the limits
of their priors (`Model.getLimits` 1170-1194), and the data. -/
structure Prob (X : Type) where
  m : Lin X
  params : ℕ → ℝ
  limits : List (ℝ × ℝ)
  n : ℕ
  x : ℕ → X
  y : ℕ → ℝ
  weights : Option (ℕ → ℝ)

/-- A linear fitter with the model and the `xdata` it was made with. -/
structure Ftr (X : Type) where
  m : Lin X
  start : Start
  x : ℕ → X

/-- The argument `arbiter`, `ModelDistribution.py` 146-200. -/
inductive Arbiter (X : Type) where
  | auto
  | fitter
  | given (f : Ftr X)
  | nested

/-- The distribution: arbiter, noise scale and its limits, `ModelDistribution.__init__` 67-98. -/
structure Dist (X : Type) where
  arbiter : Arbiter X
  scale : ℝ
  limits : Option (ℝ × ℝ)

/-- `- sys.float_info.max`, 215 and 217. -/
def lowest : ℝ := -((2 - 1 / 2 ^ 52) * 2 ^ 1023)

/-- The keyword `fixedScale`, 134-139: `HyperParameter.getLimits` raises when there is no prior. -/
def Dist.fixedScale (d : Dist X) : Option ℝ :=
  match d.limits with
  | some _ => none
  | none => some d.scale

/-- The new fitter of 149 and 163. The priors of the model are not asked for, as limits are given. -/
def newFitter (d : Dist X) (p : Prob X) : Ftr X :=
  ⟨p.m, start p.m.np p.params none d.fixedScale none, p.x⟩

/-- `allpars[-1] = self.hyperpar[0].hypar`, 141-142. -/
def setScale (d : Dist X) (p : Prob X) (allpars : List ℝ) : List ℝ :=
  if d.limits = none ∧ p.m.np < allpars.length then allpars.dropLast ++ [d.scale] else allpars

/-- `allpars[:mdl.npars] = pars` and `allpars[-1] = ftr.scale`, 208-210. `none` is the ValueError of numpy,
which does not fit a list of another length, unless it has one item. -/
def storePars (d : Dist X) (np : ℕ) (pars : List ℝ) (scale : ℝ) (allpars : List ℝ) : Option (List ℝ) :=
  let new : Option (List ℝ) :=
    if pars.length = np then some pars
    else
      match pars with
      | [v] => some (List.replicate np v)
      | _ => none
  new.map fun l =>
    let a := l ++ allpars.drop np
    if d.limits = none then a else a.dropLast ++ [scale]

/-- 204-217: fit the data and ask the evidence. The outer `none` is an exception that is not caught (the
RuntimeError of `BaseFitter.py` 904, no degrees of freedom). -/
def byFitter (solve : ℕ → (ℕ → ℕ → ℝ) → (ℕ → ℝ) → Option (ℕ → ℝ)) (d : Dist X) (p : Prob X) (f : Ftr X)
    (allpars : List ℝ) : Option (ℝ × List ℝ) :=
  -- 205: ftr.fit( problem.ydata )
  match fitState solve f.m f.start ⟨p.n, f.x, p.y, none, .none⟩ none with
  | none => some (lowest, allpars)
  | some t =>
    if t.dof ≤ 0 then none
    else
      match getLogZ f.m.np t (some (.array p.limits)) d.limits with
      | none => some (lowest, allpars)
      | some z =>
        let pars := (List.range f.m.np).map t.base.params
        match storePars d p.m.np pars ((getScale t).getD 0) allpars with
        | none => some (lowest, allpars)
        | some a => some (z, a)

/-- A nested sampler: for a model with limits, data, noise scale and limits on it, the attributes `logZ`,
`parameters` and `scale` after `sample()`; `none` for a RuntimeError. -/
abbrev Sampler (X : Type) := Prob X → ℝ → Option (ℝ × ℝ) → Option (ℝ × List ℝ × ℝ)

/-- 176-197: `sample` returns the 10log of the evidence (`NestedSampler.py` 484 and 916-917). The scale of this
distribution is not handed on, so that the sampler has its own default, 1 (`NestedSampler.py` 364-369).
The value ⊥ is `-math.inf`. -/
def byNested (sample : Sampler X) (d : Dist X) (p : Prob X) (allpars : List ℝ) : WithBot ℝ × List ℝ :=
  match sample p 1 d.limits with
  | none => (⊥, allpars)
  | some (logZ, pars, scale) =>
    let a := pars ++ allpars.drop p.m.np
    (((logZ / Real.log 10 : ℝ) : WithBot ℝ), if d.limits = none then a else a.dropLast ++ [scale])

/-- `logLikelihood_alt` 113-220: the value and the new list of the parameters of the walker. -/
def logLikelihood (solve : ℕ → (ℕ → ℕ → ℝ) → (ℕ → ℝ) → Option (ℕ → ℝ)) (sample : Sampler X) (d : Dist X)
    (p : Prob X) (allpars : List ℝ) : Option (WithBot ℝ × List ℝ) :=
  let allpars := setScale d p allpars
  match d.arbiter with
  | .auto => (byFitter solve d p (newFitter d p) allpars).map fun r => ((r.1 : WithBot ℝ), r.2)
  | .fitter => (byFitter solve d p (newFitter d p) allpars).map fun r => ((r.1 : WithBot ℝ), r.2)
  | .given f => (byFitter solve d p f allpars).map fun r => ((r.1 : WithBot ℝ), r.2)
  | .nested => some (byNested sample d p allpars)

end BF.ModelDist
