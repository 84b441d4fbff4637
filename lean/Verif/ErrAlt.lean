import Verif.ErrDis

/-!
# The alternative calculation of the gradient of the log likelihood

Models `partialLogL_alt` of the Gauss, Laplace, Cauchy, Poisson, Bernoulli, Uniform and Exponential error distributions,
for a model with one output, with the conventions of `ErrDis.lean`. `none` is an exception: an index beyond the array, or an array
that is to be stored in one element.
-/

noncomputable section

namespace BF.ErrDis

variable {X : Type*}

/-- `dL[i] = v` for a non-negative `i`. -/
def putAt (dL : List ℝ) (i : ℕ) (v : ℝ) : Option (List ℝ) :=
  if i < dL.length then some (dL.set i v) else none

/-- `dL[-j] = v` for a positive `j`. -/
def putEnd (dL : List ℝ) (j : ℕ) (v : ℝ) : Option (List ℝ) :=
  if j ≤ dL.length then some (dL.set (dL.length - j) v) else none

/-- The loops, `GaussErrorDistribution.py` 202-210 and others: the elements for the parameters are stored from the begin, those for
the hyperparameters at place `slot k` from the end. -/
def altLoop (val : ℤ → Option ℝ) (slot : ℤ → ℕ) : List ℤ → ℕ → List ℝ → Option (List ℝ)
  | [], _, dL => some dL
  | k :: ks, i, dL =>
    match val k with
    | none => none
    | some v =>
      if 0 ≤ k then
        match putAt dL i v with
        | none => none
        | some dL => altLoop val slot ks (i + 1) dL
      else
        match putEnd dL (slot k) v with
        | none => none
        | some dL => altLoop val slot ks i dL

/-- `numpy.zeros( len( fitIndex ) )`, and the loop. -/
def altFill (val : ℤ → Option ℝ) (slot : ℤ → ℕ) (fitIndex : List ℤ) : Option (List ℝ) :=
  altLoop val slot fitIndex 0 (List.replicate fitIndex.length 0)

/-- `GaussErrorDistribution.partialLogL_alt` 174-215. -/
def gaussGradAlt (P : Prob X) (allpars : List ℝ) (fitIndex : List ℤ) : Option (List ℝ) :=
  let scale := fromEnd allpars 1
  altFill (fun k =>
    if 0 ≤ k then
      some (P.data.map fun d =>
        (P.weightedResSq allpars d).2 * P.dM (allBut allpars 1) d k / gaussS2 P allpars d).sum
    else
      some (P.data.map fun d =>
        let s2 := gaussS2 P allpars d
        let sc := scale / s2
        let s4 := sc / s2
        (P.weightedResSq allpars d).1 * s4 - P.wgt d * sc).sum) (fun _ => 1) fitIndex

/-- `LaplaceErrorDistribution.partialLogL_alt` 203-235. -/
def laplaceGradAlt (P : Prob X) (allpars : List ℝ) (fitIndex : List ℤ) : Option (List ℝ) :=
  altFill (fun k => some (laplacePartialAlt P allpars k)) (fun _ => 1) fitIndex

/-- `CauchyErrorDistribution.partialLogL_alt` 189-224. In line 222 the scale must be one number. -/
def cauchyGradAlt (P : Prob X) (allpars : List ℝ) (fitIndex : List ℤ) : Option (List ℝ) :=
  let r2s := fun d => P.residual (allBut allpars 1) d * P.residual (allBut allpars 1) d
    + scaleOf P allpars d * scaleOf P allpars d
  let sum2 := (P.data.map fun d => 2 * scaleOf P allpars d / r2s d).sum
  altFill (fun k =>
    if 0 ≤ k then
      some (2 * (P.data.map fun d => P.residual (allBut allpars 1) d * P.dM (allBut allpars 1) d k / r2s d).sum)
    else
      match P.acc with
      | .none => some ((P.data.length : ℝ) / fromEnd allpars 1 - sum2)
      | .scalar a => some ((P.data.length : ℝ) / a - sum2)
      | .array => none) (fun _ => 1) fitIndex

/-- `PoissonErrorDistribution.partialLogL_alt` 163-186. There is no test on the sign of the index. -/
def poissonGradAlt (P : Prob X) (allpars : List ℝ) (fitIndex : List ℤ) : List ℝ :=
  fitIndex.map fun k => (P.data.map fun d => (d.y / P.f d.x allpars - 1) * P.dM allpars d k).sum

/-- `BernoulliErrorDistribution.partialLogL_alt` 158-181 for a model with one output: all parameters, whatever the
`fitIndex`. -/
def bernoulliGradAlt (P : Prob X) (allpars : List ℝ) (_fitIndex : List ℤ) : List ℝ :=
  (List.range P.np).map fun k : ℕ => bernoulliPartialAlt P allpars (k : ℤ)

/-- `UniformErrorDistribution.partialLogL_alt` 187-206. -/
def uniformGradAlt (P : Prob X) (allpars : List ℝ) (fitIndex : List ℤ) : Option (List ℝ) :=
  let dL := List.replicate fitIndex.length (0 : ℝ)
  match fitIndex.getLast? with
  | none => none
  | some k => if k = -1 then putEnd dL 1 (-P.sumweight / fromEnd allpars 1) else some dL

/-- `ExponentialErrorDistribution.partialLogL_alt` 243-288. In line 280 the scale must be one number. -/
def expGradAlt (P : Prob X) (allpars : List ℝ) (fitIndex : List ℤ) : Option (List ℝ) :=
  let power := fromEnd allpars 1
  let param := allBut allpars 2
  let ars := fun d => |P.residual param d / expScale P allpars d|
  let rsp := fun d => if P.hasW then ars d ^ power * d.w else ars d ^ power
  altFill (fun k =>
    if 0 ≤ k then
      some (P.data.map fun d => power * rsp d / P.residual param d * P.dM param d k).sum
    else if k = -2 then
      match P.acc with
      | .none => some (-P.sumweight / fromEnd allpars 2 + power * (P.data.map rsp).sum / fromEnd allpars 2)
      | .scalar a => some (-P.sumweight / a + power * (P.data.map rsp).sum / a)
      | .array => none
    else
      some (P.sumweight * (power + psi (1 / power)) / (power * power)
        - (P.data.map fun d => rsp d * Real.log (ars d)).sum)) (fun k => if k = -2 then 2 else 1) fitIndex

end BF.ErrDis
