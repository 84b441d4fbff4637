import Verif.ErrDis

/-!
# The noise scale according to the residuals, and the standard deviation that belongs to it

Models `getScale` and `toSigma` of the error distributions. `sw` is `problem.sumweight`, which the code takes
from the problem.

Simplifications, besides those of `ErrDis`:
* `scipy.optimize.bisect` is a function that fulfils `BisectSpec`: it gives the zero of a continuous function,
  not an approximation.
-/

noncomputable section

namespace BF.ErrDis

open Real

variable {X : Type*}

/-- `GaussErrorDistribution.getScale` 97-109, `ErrorDistribution.getGaussianScale` 158-173. -/
def gaussScale (sw : ℝ) (P : Prob X) (allpars : List ℝ) : ℝ := √(getChisq P 1 allpars / sw)

/-- `PoissonErrorDistribution.getScale` 86-100; there are no hyperparameters. -/
def poissonScale (sw : ℝ) (P : Prob X) (allpars : List ℝ) : ℝ := √(getChisq P 0 allpars / sw)

/-- `allpars[:-nh]` as Python has it: `[:-0]` is `[:0]`, the empty list. -/
def butLast (allpars : List ℝ) (nh : ℕ) : List ℝ := if nh = 0 then [] else allBut allpars nh

/-- `BernoulliErrorDistribution.getScale` 82-95 with `ErrorDistribution.getResiduals` 176-194; there are no
hyperparameters. `numpy.max` raises when there are no data; here it is 0. A model that needs more parameters than
it gets raises an IndexError; here it has some value. -/
def bernoulliScale (P : Prob X) (allpars : List ℝ) : ℝ :=
  (P.data.map fun d => |P.residual (butLast allpars 0) d|).foldr max 0

/-- `LaplaceErrorDistribution.getScale` 112-125. -/
def laplaceScale (sw : ℝ) (P : Prob X) (allpars : List ℝ) : ℝ := laplaceSumRes P allpars (fun _ => 1) / sw

/-- `UniformErrorDistribution.getScale` 100-113 with `ErrorDistribution.getResiduals` 176-194. `numpy.max` raises
when there are no data; here it is 0. -/
def uniformScale (P : Prob X) (allpars : List ℝ) : ℝ :=
  (P.data.map fun d => |P.residual (allBut allpars 1) d|).foldr max 0

/-- `ExponentialErrorDistribution.getScale` 226-240. -/
def powerScale (sw : ℝ) (P : Prob X) (allpars : List ℝ) : ℝ :=
  (expChipow P allpars (fun _ => 1) / sw) ^ (1.0 / fromEnd allpars 1)

/-- `CauchyErrorDistribution.funct` 122-127, with `res2` and `sumweight` as set at 115-117. -/
def cauchyFunct (sw : ℝ) (P : Prob X) (allpars : List ℝ) (scale : ℝ) : ℝ :=
  (P.data.map fun d =>
    log (P.residual (allBut allpars 1) d * P.residual (allBut allpars 1) d + scale * scale)).sum
      - sw * (2 * log scale + √2)

/-- What `scipy.optimize.bisect` does: it raises when the values at the ends have the same sign, otherwise it
gives a zero between the ends. -/
structure BisectSpec (bisect : (ℝ → ℝ) → ℝ → ℝ → Option ℝ) : Prop where
  raises : ∀ (f : ℝ → ℝ) (a b : ℝ), 0 < f a * f b → bisect f a b = none
  zero : ∀ (f : ℝ → ℝ) (a b : ℝ), a ≤ b → ContinuousOn f (Set.Icc a b) → f a * f b ≤ 0 →
    ∃ s, bisect f a b = some s ∧ a ≤ s ∧ s ≤ b ∧ f s = 0

/-- `CauchyErrorDistribution.getScale` 103-120. -/
def cauchyScale (bisect : (ℝ → ℝ) → ℝ → ℝ → Option ℝ) (sw : ℝ) (P : Prob X) (allpars : List ℝ) : Option ℝ :=
  bisect (cauchyFunct sw P allpars) 0.001 100

/-! ## Standard deviations -/

/-- `ErrorDistribution.toSigma` 223-234: used by the Gauss, Cauchy and Poisson distributions. -/
def toSigma (scale : ℝ) : ℝ := scale

/-- `LaplaceErrorDistribution.toSigma` 102-110. -/
def laplaceSigma (scale : ℝ) : ℝ := scale * √2

/-- `UniformErrorDistribution.toSigma` 115-123. -/
def uniformSigma (scale : ℝ) : ℝ := scale * 2 / √12

/-- `ExponentialErrorDistribution.toSigma` 132-141. -/
def powerSigma (scale power : ℝ) : ℝ := scale * √(Gamma (3 / power) / Gamma (1 / power))

end BF.ErrDis
