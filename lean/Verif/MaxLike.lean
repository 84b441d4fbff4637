import Verif.Scales

/-!
# Maximum likelihood fitters

Models `MaxLikelihoodFitter.py`: the functions that it hands to the minimisers (`_Chisq` and `_LogL`), the noise scale
and the log likelihood after the fit; and the part of `ScipyFitter.fit` around the call of the minimiser.

Simplifications, besides those of `ErrDis`:
* The problem `P` holds what the user gives to the fit: data, weights and accuracy. `index` is the fit index, which
  `BaseFitter.fitprolog` always gives.
* The parameters, the fitted ones and the gradients are lists; a matrix is a function of row and column.
* `userGradient` is True.
* An exception is `none`, where that matters.
* `scipy.optimize.minimize` is a parameter.
-/

noncomputable section

namespace BF.ErrDis

open Real

variable {X : Type*}

/-- An element of `fitWgts`, `BaseFitter.fitprolog` 262-268. -/
def Prob.fitWgt (P : Prob X) (d : Datum X) : ℝ :=
  let w := if P.hasW then 1.0 * d.w else 1.0
  match P.acc with
  | .none => w
  | .scalar a => w / (a * a)
  | .array => w / (d.acc * d.acc)

/-- The `ClassicProblem` of `_LogL.__init__` 307-308: `fitWgts` are the weights, and there is no accuracy.
A single weight is multiplied with all data points alike, so it is a weight for each here. -/
def Prob.land (P : Prob X) : Prob X :=
  { P with
    data := P.data.map fun d => { d with w := P.fitWgt d }
    hasW := true
    acc := .none }

/-- `problem.sumweight` of that problem, `Problem.py` 160-165: `fitWgts` is a single number when no weights are
given and the accuracy is a single number or not given. -/
def Prob.landSum (P : Prob X) : ℝ :=
  if P.hasW then P.land.sumweight
  else match P.acc with
    | .none => 1.0
    | .scalar a => 1.0 / (a * a)
    | .array => P.land.sumweight

/-- `pars[index] = fitpar`, `BaseFitter.py` 342. -/
def putAll : List ℝ → List ℕ → List ℝ → List ℝ
  | pars, i :: is, v :: vs => putAll (pars.set i v) is vs
  | pars, _, _ => pars

/-- `BaseFitter.insertParameters` 320-343. -/
def insertPars (params : List ℝ) (index : List ℕ) (fitpar : List ℝ) : List ℝ :=
  if fitpar.length = params.length then fitpar else putAll params index fitpar

/-! ## `_Chisq` -/

/-- `BaseFitter.chiSquared` 719-747 up to the exception: the sum. There is no cyclic correction. -/
def chiSum (P : Prob X) (param : List ℝ) : ℝ :=
  (P.data.map fun d => (d.y - P.f d.x param) ^ 2 * P.fitWgt d).sum

/-- `_Chisq.func` 237-247; it raises when the sum is not positive (`BaseFitter.py` 744-745). -/
def chiFunc (P : Prob X) (params : List ℝ) (index : List ℕ) (par : List ℝ) : Option ℝ :=
  let c := chiSum P (insertPars params index par)
  if c ≤ 0 then none else some c

/-- `_Chisq.dfunc` 256-268 with `BaseFitter.getDesign` 691-716. -/
def chiDfunc (P : Prob X) (params : List ℝ) (index : List ℕ) (par : List ℝ) : List ℝ :=
  let param := insertPars params index par
  index.map fun k => 2 * (P.data.map fun d => (P.df d.x param).getD k 0 * ((P.f d.x param - d.y) * P.fitWgt d)).sum

/-- `_Chisq.hessian` 270-274 with `BaseFitter.getHessian` 561-601. The parameters are not inserted: `par` is
given to the model. -/
def chiHess (P : Prob X) (index : List ℕ) (par : List ℝ) (a b : ℕ) : ℝ :=
  (P.data.map fun d => (P.df d.x par).getD (index.getD a 0) 0 *
    ((P.df d.x par).getD (index.getD b 0) 0 * P.fitWgt d)).sum

/-! ## `_LogL` -/

/-- The distributions with a finite log likelihood for all parameters, with their hyperparameters as in
`_LogL.__init__` 310-330. -/
inductive Kind
  | gauss
  | laplace
  | cauchy
  | exponential

/-- `self.hypar`, 310-330. -/
def Kind.hypar (scale power : ℝ) : Kind → List ℝ
  | .exponential => [scale, power]
  | _ => [scale]

/-- `logLdata` of the distribution. -/
def Kind.ld : Kind → Prob X → List ℝ → Datum X → ℝ
  | .gauss => gaussLd
  | .laplace => laplaceLd
  | .cauchy => cauchyLd
  | .exponential => expLd

/-- `nextPartialData` of the distribution. -/
def Kind.pd : Kind → Prob X → List ℝ → ℤ → Datum X → ℝ
  | .gauss => gaussPd
  | .laplace => laplacePd
  | .cauchy => cauchyPd
  | .exponential => expPd

/-- `_LogL.func` 346-349. -/
def Kind.func (e : Kind) (P : Prob X) (params : List ℝ) (index : List ℕ) (hypar par : List ℝ) : ℝ :=
  -logLhood (e.ld P.land (insertPars params index par ++ hypar)) P.land

/-- `_LogL.dfunc` 352-356. -/
def Kind.dfunc (e : Kind) (P : Prob X) (params : List ℝ) (index : List ℕ) (hypar par : List ℝ) : List ℝ :=
  (partialLogL (e.pd P.land (insertPars params index par ++ hypar)) P.land (index.map fun k : ℕ => (k : ℤ))).map
    fun g => -g

/-- `_LogL.func` for a distribution with a likelihood that can be zero: `ld` is its `logLdata`. -/
def optFunc (ld : Prob X → List ℝ → Datum X → Option ℝ) (P : Prob X) (params : List ℝ) (index : List ℕ)
    (hypar par : List ℝ) : Option ℝ :=
  (logLhoodOpt (ld P.land (insertPars params index par ++ hypar)) P.land).map fun v => -v

/-- `_LogL.dfunc` for such a distribution: `pd` is its `nextPartialData`. -/
def optDfunc (pd : Prob X → List ℝ → ℤ → Datum X → ℝ) (P : Prob X) (params : List ℝ) (index : List ℕ)
    (hypar par : List ℝ) : List ℝ :=
  (partialLogL (pd P.land (insertPars params index par ++ hypar)) P.land (index.map fun k : ℕ => (k : ℤ))).map
    fun g => -g

/-- `GaussErrorDistribution.hessianLogL` 254-295. `deswgt` is the same array as `design`, so that line 287
multiplies both with the weights. With the scale in the index it raises, as its column is asked of the model. -/
def hessianLogL (P : Prob X) (allpars : List ℝ) (fitIndex : List ℕ) : Option (ℕ → ℕ → ℝ) :=
  if fitIndex = [] ∨ fitIndex.getLast? = some P.np then none
  else
    let param := allpars.take P.np
    let s2 := allpars.getD P.np 0 * allpars.getD P.np 0
    let design := fun (d : Datum X) (a : ℕ) =>
      (P.df d.x param).getD (fitIndex.getD a 0) 0 * (if P.hasW then d.w else 1)
    some fun a b => (P.data.map fun d => design d a * design d b).sum / s2

/-- `_LogL.hessian` 358-362 for the Gauss distribution; the others have no `hessianLogL`. -/
def gaussHess (P : Prob X) (params : List ℝ) (index : List ℕ) (hypar par : List ℝ) : Option (ℕ → ℕ → ℝ) :=
  (hessianLogL P.land (insertPars params index par ++ hypar) index).map fun h a b => -h a b

/-! ## After the fit -/

/-- `MaxLikelihoodFitter.getScale` 148-155 and `_LogL.getScale` 334-343: the scale, and `hypar` afterwards. -/
def Kind.getScale (bisect : (ℝ → ℝ) → ℝ → ℝ → Option ℝ) (e : Kind) (P : Prob X) (params hypar : List ℝ) :
    Option (ℝ × List ℝ) :=
  let allpars := params ++ hypar
  match e with
  | .gauss => some (toSigma (gaussScale P.landSum P.land allpars), hypar)
  | .laplace => some (laplaceSigma (laplaceScale P.landSum P.land allpars), hypar)
  | .cauchy => (cauchyScale bisect P.landSum P.land allpars).map fun s => (toSigma s, hypar)
  | .exponential =>
    let hypar := hypar.set 0 (powerScale P.landSum P.land allpars)
    some (powerSigma (hypar.getD 0 0) (hypar.getD 1 0), hypar)

/-- `MaxLikelihoodFitter.getLogLikelihood` 158-168: the log likelihood, and `hypar` afterwards. -/
def Kind.getLogLikelihood (bisect : (ℝ → ℝ) → ℝ → ℝ → Option ℝ) (e : Kind) (P : Prob X) (params : List ℝ)
    (index : List ℕ) (hypar : List ℝ) (autoscale : Bool) : Option (ℝ × List ℝ) :=
  if autoscale then
    (e.getScale bisect P params hypar).map fun r =>
      let hypar := r.2.set 0 r.1
      (-e.func P params index hypar params, hypar)
  else some (-e.func P params index hypar params, hypar)

/-! ## `ScipyFitter` -/

/-- What `scipy.optimize.minimize` does with bounds, according to its documentation: they are pairs of a minimum
and a maximum, one pair for each parameter; otherwise it raises. The result is within the bounds. -/
structure MinimizeSpec (minimize : (List ℝ → ℝ) → List ℝ → Option (List (List ℝ)) → Option (List ℝ)) : Prop where
  pairs : ∀ f x0 bounds, (bounds.length ≠ x0.length ∨ ∃ b ∈ bounds, b.length ≠ 2) →
    minimize f x0 (some bounds) = none
  length : ∀ f x0 bounds x, minimize f x0 bounds = some x → x.length = x0.length
  within : ∀ f x0 bounds x, minimize f x0 (some bounds) = some x →
    ∀ i b, bounds[i]? = some b → b.getD 0 0 ≤ x.getD i 0 ∧ x.getD i 0 ≤ b.getD 1 0

/-- `ScipyFitter.fit` 225-246 and 310-343, for the methods that take bounds. `low` and `high` are the limits of
the priors of the model, which replace the limits that are given (231-235). -/
def scipyFit (minimize : (List ℝ → ℝ) → List ℝ → Option (List (List ℝ)) → Option (List ℝ))
    (func : List ℝ → ℝ) (params low high : List ℝ) (index : List ℕ) (limits : Bool) : Option (List ℝ) :=
  let inipar := index.map fun k => params.getD k 0
  let bounds := if limits then some [index.map fun k => low.getD k 0, index.map fun k => high.getD k 0] else none
  (minimize func inipar bounds).map fun x => insertPars params index x

end BF.ErrDis
