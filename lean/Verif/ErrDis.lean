import Verif.Cyclic
import Mathlib.Analysis.SpecialFunctions.Log.Basic
import Mathlib.Analysis.SpecialFunctions.Pow.Real
import Mathlib.Analysis.SpecialFunctions.Gamma.Basic
import Mathlib.Analysis.Calculus.LogDeriv

/-!
# Error distributions

Models `ErrorDistribution.py` 158-411, `ScaledErrorDistribution.py`, the Gauss, Laplace, Cauchy, Poisson,
Bernoulli, Uniform, Exponential and Mixed error distributions, and the parts of `Problem.py` and
`ClassicProblem.py` that they use.

Simplifications:
* Arrays with one element for each data point are functions of the record of the data point, which holds
  `x`, `y`, the weight and the accuracy. Floats are reals.
* The model is given by its result at one `x` and the row of its partials.
* `allpars[-1]` of an empty list is an IndexError; here it is 0. The theorems ask for enough parameters.
* `partialLogL` falls back on a numerical derivative when there is an exception (`ErrorDistribution.py`
  408-411); a wrong index, which is the exception there could be, gives 0 here. The theorems ask for
  proper indices.
* An infinite or undefined value (`-inf`, `nan`) is `none` where the code makes it on purpose.
* `scipy.special.gammaln` is the logarithm of Mathlib's `Gamma`, `scipy.special.psi` the logarithmic
  derivative of it.
* The call counters are left out.
-/

noncomputable section

namespace BF.ErrDis

open Real

/-- One data point: `xdata[i]`, `ydata[i]`, `weights[i]` and `accuracy[i]`. -/
structure Datum (X : Type*) where
  x : X
  y : ℝ
  w : ℝ
  acc : ℝ

/-- The argument `accuracy` of `Problem.py` 74-104: not given, one number, or one for each point. -/
inductive Acc
  | none
  | scalar (a : ℝ)
  | array

/-- A problem with a model, `Problem.py` 74-123 and `ClassicProblem.py` 56-113. `hasW`: weights are
given (`hasWeights` 190-192); `cyclic` is the period when there is one (`cycor1`). -/
structure Prob (X : Type*) where
  data : List (Datum X)
  np : ℕ
  f : X → List ℝ → ℝ
  df : X → List ℝ → List ℝ
  hasW : Bool
  acc : Acc
  cyclic : Option ℝ

variable {X : Type*}

/-- `Problem.setAccuracy` 176-188. -/
def Prob.hasAccuracy (P : Prob X) : Bool :=
  match P.acc with
  | .none => false
  | _ => true

/-- `Problem.setAccuracy` 187: the accuracy, 0 when there is none. -/
def Prob.accuracy (P : Prob X) (d : Datum X) : ℝ :=
  match P.acc with
  | .none => 0
  | .scalar a => a
  | .array => d.acc

/-- `Problem.setAccuracy` 188. -/
def Prob.varyy (P : Prob X) (d : Datum X) : ℝ := P.accuracy d * P.accuracy d

/-- `Problem.sumweight`, 160-168. -/
def Prob.sumweight (P : Prob X) : ℝ :=
  if P.hasW then (P.data.map Datum.w).sum else (P.data.length : ℝ)

/-- `Problem.cyclicCorrection`, 118-123 and 227-253. -/
def Prob.fold (P : Prob X) (r : ℝ) : ℝ :=
  match P.cyclic with
  | none => r
  | some p => Cyclic.cyclize p r

/-- `Problem.residuals` 211-224. -/
def Prob.residual (P : Prob X) (param : List ℝ) (d : Datum X) : ℝ := P.fold (d.y - P.f d.x param)

/-- `Problem.weightedResSq` 329-348 with `extra`: ( resw * res, resw ). -/
def Prob.weightedResSq (P : Prob X) (allpars : List ℝ) (d : Datum X) : ℝ × ℝ :=
  let res := P.residual (allpars.take P.np) d
  let resw := if P.hasW then res * d.w else res
  (resw * res, resw)

/-- `dM[:,k]`, `ClassicProblem.py` 104-113, for `k ≥ 0`. -/
def Prob.dM (P : Prob X) (param : List ℝ) (d : Datum X) (k : ℤ) : ℝ := (P.df d.x param).getD k.toNat 0

/-- `allpars[-k]` for positive `k`. -/
def fromEnd (allpars : List ℝ) (k : ℕ) : ℝ := allpars.getD (allpars.length - k) 0

/-- `allpars[:-k]` for positive `k`. -/
def allBut (allpars : List ℝ) (k : ℕ) : List ℝ := allpars.take (allpars.length - k)

/-- `problem.weights`, or 1.0: `GaussErrorDistribution.py` 251 and others. -/
def Prob.wgt (P : Prob X) (d : Datum X) : ℝ := if P.hasW then d.w else 1

/-- `ErrorDistribution.logLhood` 362-375. -/
def logLhood (ld : Datum X → ℝ) (P : Prob X) : ℝ := (P.data.map ld).sum

/-- `ErrorDistribution.partialLogL` 378-411. -/
def partialLogL (pd : ℤ → Datum X → ℝ) (P : Prob X) (fitIndex : List ℤ) : List ℝ :=
  fitIndex.map fun k => (P.data.map (pd k)).sum

/-- `ErrorDistribution.getChisq` 197-221 with `nh` hyperparameters. -/
def getChisq (P : Prob X) (nh : ℕ) (allpars : List ℝ) : ℝ :=
  let param := if nh > 0 then allBut allpars nh else allpars
  (P.data.map fun d => (P.weightedResSq param d).1).sum

/-! ## Gauss -/

/-- `GaussErrorDistribution.LOG2PI` 62. -/
def LOG2PI : ℝ := log (2 * π)

/-- `allpars[-1] * allpars[-1] + problem.varyy`, `GaussErrorDistribution.py` 163. -/
def gaussS2 (P : Prob X) (allpars : List ℝ) (d : Datum X) : ℝ :=
  fromEnd allpars 1 * fromEnd allpars 1 + P.varyy d

/-- `GaussErrorDistribution.logLdata` 143-171. -/
def gaussLd (P : Prob X) (allpars : List ℝ) (d : Datum X) : ℝ :=
  let res2 := -0.5 * (P.weightedResSq allpars d).1
  let s2 := gaussS2 P allpars d
  let res2 := res2 / s2
  if P.hasW then res2 - (0.5 * (LOG2PI + log s2)) * d.w
  else res2 - 0.5 * (LOG2PI + log s2)

/-- `GaussErrorDistribution.logLikelihood_alt` 112-138. `s2` is a float when there is no accuracy or a
single one. -/
def gaussAlt (P : Prob X) (allpars : List ℝ) : ℝ :=
  let chisq := (P.data.map fun d => (P.weightedResSq allpars d).1 / gaussS2 P allpars d).sum
  let norm := (match P.acc with
    | .none => P.sumweight * (LOG2PI + log (fromEnd allpars 1 * fromEnd allpars 1 + 0 * 0))
    | .scalar a => P.sumweight * (LOG2PI + log (fromEnd allpars 1 * fromEnd allpars 1 + a * a))
    | .array =>
        if P.hasW then (P.data.map fun d => d.w * (LOG2PI + log (gaussS2 P allpars d))).sum
        else (P.data.map fun d => LOG2PI + log (gaussS2 P allpars d)).sum);
  -0.5 * (chisq + norm)

/-- `GaussErrorDistribution.nextPartialData` 218-252. -/
def gaussPd (P : Prob X) (allpars : List ℝ) (k : ℤ) (d : Datum X) : ℝ :=
  let r := P.weightedResSq allpars d
  let s2 := gaussS2 P allpars d
  if 0 ≤ k then (r.2 * P.dM (allpars.take P.np) d k) / s2
  else (r.1 / s2 - P.wgt d) * fromEnd allpars 1 / s2

/-! ## Laplace -/

/-- `allpars[-1] if not problem.hasAccuracy else problem.accuracy`, `LaplaceErrorDistribution.py` 197;
the same in the Cauchy and Uniform distributions. -/
def scaleOf (P : Prob X) (allpars : List ℝ) (d : Datum X) : ℝ :=
  if P.hasAccuracy then P.accuracy d else fromEnd allpars 1

/-- `LaplaceErrorDistribution.logLdata` 178-201. -/
def laplaceLd (P : Prob X) (allpars : List ℝ) (d : Datum X) : ℝ :=
  let res := P.residual (allpars.take P.np) d
  let scale := scaleOf P allpars d
  let res := -|res| / scale - (log 2 + log scale)
  if P.hasW then res * d.w else res

/-- `LaplaceErrorDistribution.getSumRes` 128-148 with `ErrorDistribution.getResiduals` 176-194; the
scale may differ for each point. -/
def laplaceSumRes (P : Prob X) (allpars : List ℝ) (scale : Datum X → ℝ) : ℝ :=
  (P.data.map fun d =>
    let res := P.residual (allBut allpars 1) d / scale d
    |if P.hasW then res * d.w else res|).sum

/-- `LaplaceErrorDistribution.logLikelihood_alt` 152-175. -/
def laplaceAlt (P : Prob X) (allpars : List ℝ) : ℝ :=
  let sumres := laplaceSumRes P allpars (scaleOf P allpars)
  let norm := (match P.acc with
    | .none => P.sumweight * (log 2 + log (fromEnd allpars 1))
    | .scalar a => P.sumweight * (log 2 + log a)
    | .array =>
        if P.hasW then (P.data.map fun d => d.w * (log 2 + log (scaleOf P allpars d))).sum
        else (P.data.map fun d => log 2 + log (scaleOf P allpars d)).sum);
  -(norm + sumres)

/-- `numpy.copysign`, where zero counts as positive. -/
def copysign (a r : ℝ) : ℝ := if r < 0 then -|a| else |a|

/-- `LaplaceErrorDistribution.nextPartialData` 237-274. -/
def laplacePd (P : Prob X) (allpars : List ℝ) (k : ℤ) (d : Datum X) : ℝ :=
  let param := allBut allpars 1
  let scale := scaleOf P allpars d
  let res := P.residual param d
  let wgt := P.wgt d
  let swgt := copysign wgt res
  let res := res * (swgt / scale)
  if 0 ≤ k then (swgt * P.dM param d k) / scale
  else (res - wgt) / scale

/-- `LaplaceErrorDistribution.partialLogL_alt` 203-235, the element for index `k`. -/
def laplacePartialAlt (P : Prob X) (allpars : List ℝ) (k : ℤ) : ℝ :=
  if 0 ≤ k then
    (P.data.map fun d =>
      copysign (P.wgt d) (P.residual (allBut allpars 1) d) / scaleOf P allpars d
        * P.dM (allBut allpars 1) d k).sum
  else laplaceSumRes P allpars (scaleOf P allpars) - P.sumweight

/-! ## Cauchy -/

/-- `CauchyErrorDistribution.logLdata` 166-187. -/
def cauchyLd (P : Prob X) (allpars : List ℝ) (d : Datum X) : ℝ :=
  let res := P.residual (allBut allpars 1) d
  let scale := scaleOf P allpars d
  log scale - log π - log (res * res + scale * scale)

/-- `CauchyErrorDistribution.logLikelihood_alt` 130-160. -/
def cauchyAlt (P : Prob X) (allpars : List ℝ) : ℝ :=
  let res2 := fun d => (P.residual (allBut allpars 1) d) ^ 2
  match P.acc with
  | .none => (P.data.length : ℝ) * (log (fromEnd allpars 1) - log π)
      - (P.data.map fun d => log (res2 d + fromEnd allpars 1 ^ 2)).sum
  | .scalar a => (P.data.length : ℝ) * (log a - log π)
      - (P.data.map fun d => log (res2 d + a ^ 2)).sum
  | .array => -(P.data.length : ℝ) * log π
      + (P.data.map fun d => log (scaleOf P allpars d / (res2 d + scaleOf P allpars d ^ 2))).sum

/-- `CauchyErrorDistribution.nextPartialData` 226-259. -/
def cauchyPd (P : Prob X) (allpars : List ℝ) (k : ℤ) (d : Datum X) : ℝ :=
  let res := P.residual (allBut allpars 1) d
  let scale := scaleOf P allpars d
  let r2s := res * res + scale * scale
  if 0 ≤ k then 2 * res * P.dM (allBut allpars 1) d k / r2s
  else 1.0 / scale - 2 * scale / r2s

/-! ## Poisson -/

/-- `PoissonErrorDistribution.logLdata` 130-161; `lf` is `logFactorial` of the datum. `none` is minus
infinity: for a model value of zero or less the logarithm is infinite or nan (155). -/
def poissonLd (lf : ℝ → ℝ) (P : Prob X) (allpars : List ℝ) (d : Datum X) : Option ℝ :=
  let mock := P.f d.x allpars
  if mock ≤ 0 then none else some (d.y * log mock - mock - lf d.y)

/-- The sum of values of which some may be minus infinity. -/
def sumOpt : List (Option ℝ) → Option ℝ
  | [] => some 0
  | none :: _ => none
  | some v :: l => (sumOpt l).map (v + ·)

/-- `ErrorDistribution.logLhood` 362-375, where points may contribute minus infinity. -/
def logLhoodOpt (ld : Datum X → Option ℝ) (P : Prob X) : Option ℝ := sumOpt (P.data.map ld)

/-- `PoissonErrorDistribution.logLikelihood_alt` 103-128. -/
def poissonAlt (lf : ℝ → ℝ) (P : Prob X) (allpars : List ℝ) : Option ℝ :=
  if P.data.any (fun d => decide (P.f d.x allpars ≤ 0)) then none
  else some (P.data.map fun d =>
    d.y * log (P.f d.x allpars) - P.f d.x allpars - lf d.y).sum

/-- `PoissonErrorDistribution.nextPartialData` 188-212. -/
def poissonPd (P : Prob X) (allpars : List ℝ) (k : ℤ) (d : Datum X) : ℝ :=
  (d.y / P.f d.x allpars - 1) * P.dM allpars d k

/-! ## Bernoulli -/

/-- `BernoulliErrorDistribution.logLdata` 129-149 for a model with one output. `none`: the logarithm of
a number that is not positive. -/
def bernoulliLd (P : Prob X) (allpars : List ℝ) (d : Datum X) : Option ℝ :=
  let mock := P.f d.x allpars
  let v := if d.y = 0 then mock else 1 - mock
  if v ≤ 0 then none else some (log v)

/-- `BernoulliErrorDistribution.nextPartialData` 191-234 for a model with one output. -/
def bernoulliPd (P : Prob X) (allpars : List ℝ) (k : ℤ) (d : Datum X) : ℝ :=
  let mock := P.f d.x allpars
  1.0 / (if d.y = 0 then mock else mock - 1) * P.dM allpars d k

/-- `BernoulliErrorDistribution.partialLogL_alt` 158-181 for a model with one output: the element for
parameter `k`. -/
def bernoulliPartialAlt (P : Prob X) (allpars : List ℝ) (k : ℤ) : ℝ :=
  (P.data.map fun d =>
    1.0 / (if d.y = 0 then P.f d.x allpars else 1 - P.f d.x allpars) * P.dM allpars d k).sum

/-- The loop `BernoulliErrorDistribution.py` 153-154 for a model with several outputs: `mock` holds the
outputs from number `k` on. -/
def classLoop (y : ℝ) : List ℝ → ℕ → ℝ → ℝ
  | [], _, lld => lld
  | m :: ms, k, lld => classLoop y ms (k + 1) (lld + (if y = (k : ℝ) then m else 0))

/-- `BernoulliErrorDistribution.logLdata` 151-156 for one datum of a model with outputs `mock`. -/
def classLd (mock : List ℝ) (y : ℝ) : Option ℝ :=
  let v := classLoop y mock 0 0
  if v ≤ 0 then none else some (log v)

/-! ## Uniform -/

/-- `UniformErrorDistribution.logLdata` 159-184; there is no cyclic correction here. `none` is minus
infinity, also after multiplication with a (positive) weight. -/
def uniformLd (P : Prob X) (allpars : List ℝ) (d : Datum X) : Option ℝ :=
  let scale := scaleOf P allpars d
  if |d.y - P.f d.x (allBut allpars 1)| < scale then
    some (if P.hasW then -log (2 * scale) * d.w else -log (2 * scale))
  else none

/-- `UniformErrorDistribution.logLikelihood_alt` 126-157. -/
def uniformAlt (P : Prob X) (allpars : List ℝ) : Option ℝ :=
  if P.data.all (fun d => decide (|P.residual (allBut allpars 1) d| < scaleOf P allpars d)) then
    match P.acc with
    | .none => some (-log (2 * fromEnd allpars 1) * P.sumweight)
    | .scalar a => some (-log (2 * a) * P.sumweight)
    | .array =>
        if P.hasW then some (-(P.data.map fun d => log (2 * scaleOf P allpars d) * d.w).sum)
        else some (-(P.data.map fun d => log (2 * scaleOf P allpars d)).sum)
  else none

/-- `UniformErrorDistribution.nextPartialData` 208-240. -/
def uniformPd (P : Prob X) (allpars : List ℝ) (k : ℤ) (d : Datum X) : ℝ :=
  if 0 ≤ k then 0 else -P.wgt d / fromEnd allpars 1

/-! ## Exponential -/

/-- `allpars[-2] if not problem.hasAccuracy else problem.accuracy`, `ExponentialErrorDistribution.py`
190. -/
def expScale (P : Prob X) (allpars : List ℝ) (d : Datum X) : ℝ :=
  if P.hasAccuracy then P.accuracy d else fromEnd allpars 2

/-- `scipy.special.gammaln` for a positive argument. -/
def gammaln (x : ℝ) : ℝ := log (Gamma x)

/-- `scipy.special.psi`. -/
def psi (x : ℝ) : ℝ := logDeriv Gamma x

/-- `ExponentialErrorDistribution.logLdata` 174-200. -/
def expLd (P : Prob X) (allpars : List ℝ) (d : Datum X) : ℝ :=
  let scale := expScale P allpars d
  let power := fromEnd allpars 1
  let res := P.residual (allBut allpars 2) d
  let lld := -(|res / scale| ^ power)
  let lld := lld + (log (power / (2 * scale)) - gammaln (1 / power))
  if P.hasW then lld * d.w else lld

/-- `ExponentialErrorDistribution.getChipow` 202-224. -/
def expChipow (P : Prob X) (allpars : List ℝ) (scale : Datum X → ℝ) : ℝ :=
  (P.data.map fun d =>
    let ares := |P.residual (allBut allpars 2) d / scale d| ^ fromEnd allpars 1
    if P.hasW then ares * d.w else ares).sum

/-- `ExponentialErrorDistribution.logLikelihood_alt` 144-172. -/
def expAlt (P : Prob X) (allpars : List ℝ) : ℝ :=
  let power := fromEnd allpars 1
  let chipow := expChipow P allpars (expScale P allpars)
  let norm := (match P.acc with
    | .none => P.sumweight * log (0.5 * power / fromEnd allpars 2)
    | .scalar a => P.sumweight * log (0.5 * power / a)
    | .array =>
        if P.hasW then (P.data.map fun d => d.w * log (0.5 * power / expScale P allpars d)).sum
        else (P.data.map fun d => log (0.5 * power / expScale P allpars d)).sum)
  let sumpow := P.sumweight * gammaln (1 / power)
  norm - sumpow - chipow

/-- `ExponentialErrorDistribution.nextPartialData` 290-336. -/
def expPd (P : Prob X) (allpars : List ℝ) (k : ℤ) (d : Datum X) : ℝ :=
  let param := allBut allpars 2
  let res := P.residual param d
  let scale := expScale P allpars d
  let power := fromEnd allpars 1
  let ars := |res / scale|
  let rsp := ars ^ power
  let rsp := if P.hasW then rsp * d.w else rsp
  let wgt := P.wgt d
  let dLdm := power * rsp / res
  let dlp := wgt * (power + psi (1 / power)) / (power * power)
  if 0 ≤ k then dLdm * P.dM param d k
  else if k = -2 then (power * rsp - wgt) / scale
  else dlp - rsp * log ars

/-! ## Mixed -/

/-- An error distribution with `nh` hyperparameters: `logLdata` and the terms of `nextPartialData`. -/
structure Dist (X : Type*) where
  nh : ℕ
  ld : Prob X → List ℝ → Datum X → ℝ
  pd : Prob X → List ℝ → ℤ → Datum X → ℝ

/-- `GaussErrorDistribution`. -/
def gaussDist : Dist X := ⟨1, gaussLd, gaussPd⟩

/-- `LaplaceErrorDistribution`. -/
def laplaceDist : Dist X := ⟨1, laplaceLd, laplacePd⟩

/-- `CauchyErrorDistribution`. -/
def cauchyDist : Dist X := ⟨1, cauchyLd, cauchyPd⟩

/-- `p1`, `MixedErrorDistribution.py` 148. -/
def mixP1 (e2 : Dist X) (allpars : List ℝ) : List ℝ := allBut allpars (e2.nh + 1)

/-- `p2`, `MixedErrorDistribution.py` 149-150, for `e2.nh > 0`; with no hyperparameters in the second
distribution line 150 raises an exception. -/
def mixP2 (e1 e2 : Dist X) (allpars : List ℝ) : List ℝ :=
  allBut (allBut allpars (e1.nh + 1)) e2.nh
    ++ (allBut allpars 1).drop ((allBut allpars 1).length - e2.nh)

/-- `numpy.logaddexp`. -/
def logaddexp (a b : ℝ) : ℝ := log (exp a + exp b)

/-- `MixedErrorDistribution.logLdata` 128-159. -/
def mixLd (e1 e2 : Dist X) (P : Prob X) (allpars : List ℝ) (d : Datum X) : ℝ :=
  let f := fromEnd allpars 1
  if f ≤ 0 then e2.ld P (mixP2 e1 e2 allpars) d
  else if 1 ≤ f then e1.ld P (mixP1 e2 allpars) d
  else logaddexp (e1.ld P (mixP1 e2 allpars) d + log f)
    (e2.ld P (mixP2 e1 e2 allpars) d + log (1 - f))

/-- `sys.float_info.min`, `MixedErrorDistribution.py` 212. -/
def floatMin : ℝ := (2 : ℝ) ^ (-1022 : ℤ)

/-- `fff`, `MixedErrorDistribution.py` 201-213. -/
def mixFff (e1 e2 : Dist X) (P : Prob X) (allpars : List ℝ) (d : Datum X) : ℝ :=
  let f := fromEnd allpars 1
  let ff1 := f * exp (e1.ld P (mixP1 e2 allpars) d) + (1 - f) * exp (e2.ld P (mixP2 e1 e2 allpars) d)
  if ff1 > floatMin then 1.0 / ff1 else 0

/-- The loop `MixedErrorDistribution.py` 217-236. `r1` and `r2` are the indices which the generators
`pg1` and `pg2` still have to go; `none`: a generator is exhausted. -/
def mixLoop (e1 e2 : Dist X) (P : Prob X) (allpars : List ℝ) :
    List ℤ → List ℤ → List ℤ → Option (List (Datum X → ℝ))
  | [], _, _ => some []
  | fi :: fis, r1, r2 =>
    let f := fromEnd allpars 1
    let emf := 1 - f
    let p1 := mixP1 e2 allpars
    let p2 := mixP2 e1 e2 allpars
    let lhd1 := fun d => exp (e1.ld P p1 d)
    let lhd2 := fun d => exp (e2.ld P p2 d)
    let fff := mixFff e1 e2 P allpars
    if 0 ≤ fi then
      match r1, r2 with
      | k1 :: r1, k2 :: r2 =>
        (mixLoop e1 e2 P allpars fis r1 r2).map
          ((fun d => fff d * (f * lhd1 d * e1.pd P p1 k1 d + emf * lhd2 d * e2.pd P p2 k2 d)) :: ·)
      | _, _ => none
    else if fi = -1 then
      (mixLoop e1 e2 P allpars fis r1 r2).map ((fun d => (lhd1 d - lhd2 d) * fff d) :: ·)
    else if fi = -2 then
      match r2 with
      | k2 :: r2 =>
        (mixLoop e1 e2 P allpars fis r1 r2).map
          ((fun d => emf * lhd2 d * fff d * e2.pd P p2 k2 d) :: ·)
      | [] => none
    else if fi = -3 then
      match r1 with
      | k1 :: r1 =>
        (mixLoop e1 e2 P allpars fis r1 r2).map
          ((fun d => f * lhd1 d * fff d * e1.pd P p1 k1 d) :: ·)
      | [] => none
    else mixLoop e1 e2 P allpars fis r1 r2

/-- `MixedErrorDistribution.nextPartialData` 161-236: the generators get the non-negative indices and
-1 if the scale of the distribution is in the list (191-198). -/
def mixParts (e1 e2 : Dist X) (P : Prob X) (allpars : List ℝ) (fitIndex : List ℤ) :
    Option (List (Datum X → ℝ)) :=
  let f0 := fitIndex.filter fun k => decide (0 ≤ k)
  let f1 := if (-3) ∈ fitIndex then f0 ++ [-1] else f0
  let f2 := if (-2) ∈ fitIndex then f0 ++ [-1] else f0
  mixLoop e1 e2 P allpars fitIndex f1 f2

/-- `ErrorDistribution.partialLogL` 378-411 for the mixed distribution. -/
def mixPartialLogL (e1 e2 : Dist X) (P : Prob X) (allpars : List ℝ) (fitIndex : List ℤ) :
    Option (List ℝ) :=
  (mixParts e1 e2 P allpars fitIndex).map fun l => l.map fun g => (P.data.map g).sum

/-- The same with the fallback of lines 390-411: when the generator has less items than there are indices
`next` raises, as it does when a generator of one of the two is exhausted; then it is `num`, what
`numPartialLogL` 432-460 returns. -/
def mixGradient (num : List ℝ) (e1 e2 : Dist X) (P : Prob X) (allpars : List ℝ) (fitIndex : List ℤ) :
    List ℝ :=
  match mixPartialLogL e1 e2 P allpars fitIndex with
  | some g => if g.length < fitIndex.length then num else g
  | none => num

/-- `MixedErrorDistribution.py` 149-150: `p2[-n2:] = allpars[-n2-1:-1]`. For `n2 = 0` the slice on the left is
all of `p2` and the one on the right is empty, which numpy refuses when `p2` has another length than 1 or 0 (an
array of length 0 is refused for a place of length 1 too). -/
def mixP2? (n1 n2 : ℕ) (allpars : List ℝ) : Option (List ℝ) :=
  let p2 := allBut allpars (n1 + 1)
  if n2 = 0 then (if p2.length = 0 then some p2 else none)
  else some (allBut p2 n2 ++ (allBut allpars 1).drop ((allBut allpars 1).length - n2))

/-- `MixedErrorDistribution.logLdata` 128-159 with the exception that line 150 may raise. -/
def mixLd? (e1 e2 : Dist X) (P : Prob X) (allpars : List ℝ) (d : Datum X) : Option ℝ :=
  (mixP2? e1.nh e2.nh allpars).map fun p2 =>
    let f := fromEnd allpars 1
    if f ≤ 0 then e2.ld P p2 d
    else if 1 ≤ f then e1.ld P (mixP1 e2 allpars) d
    else logaddexp (e1.ld P (mixP1 e2 allpars) d + log f) (e2.ld P p2 d + log (1 - f))

/-- `ExponentialErrorDistribution`. -/
def expDist : Dist X := ⟨2, expLd, expPd⟩

end BF.ErrDis
