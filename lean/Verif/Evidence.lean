import Verif.Fitters
import Mathlib.LinearAlgebra.Matrix.NonsingularInverse
import Mathlib.Analysis.SpecialFunctions.Log.Basic
import Mathlib.Analysis.Real.Sqrt
import Mathlib.Analysis.Real.Pi.Bounds

/-!
# Noise scale, covariance, standard deviations and evidence

Models `BaseFitter.py` 139-216 (constructor), 244-268 (`fitprolog`), 494-535 (`__getattr__`), 561-656,
750-774 and 806-962, on top of the linear fitters of `Verif.Fitters`.

Simplifications:
* Those of `Verif.Fitters`. Furthermore `numpy.linalg.det` and `numpy.linalg.inv` are the exact
  determinant and the exact inverse; a singular matrix is a `LinAlgError`.
* Errors (`RuntimeError`, `ValueError`, `LinAlgError`, a logarithm that does not exist) are `none`.
* The scale that `fitpostscript` and plots might print are left out.
-/

noncomputable section

namespace BF.Evidence

open BF.Fitters Finset

variable {X : Type}

/-- The argument `accuracy` of `fit`: nothing, one number for all data, or one for each of the (more than
one) data. -/
inductive Acc where
  | none
  | scalar (a : ℝ)
  | array (a : ℕ → ℝ)

/-- The accuracy as it is broadcast over the data. -/
def Acc.each : Acc → Option (ℕ → ℝ)
  | .none => Option.none
  | .scalar a => some fun _ => a
  | .array a => some a

/-- The arguments of `fit`, with the `xdata` of the constructor. -/
structure Inp (X : Type) where
  n : ℕ
  x : ℕ → X
  y : ℕ → ℝ
  weights : Option (ℕ → ℝ)
  acc : Acc

/-- The same as the data of `Verif.Fitters`. -/
def Inp.data (i : Inp X) : Data X := ⟨i.n, i.x, i.y, i.weights, i.acc.each⟩

/-- `self.sumwgt`, `BaseFitter.py` 263-266. -/
def Inp.sumwgt (i : Inp X) : ℝ :=
  match i.weights with
  | some w => ∑ k ∈ range i.n, w k
  | none => i.n

/-- A square matrix of any size. -/
structure Sq where
  K : ℕ
  M : Matrix (Fin K) (Fin K) ℝ

/-- The state of a fitter after a fit. -/
structure State (X : Type) where
  base : Fitter
  /-- `self.keep is not None` -/
  keep : Bool
  fixedScale : Option ℝ
  minimumScale : Option ℝ
  /-- integrals of the priors of the model: `none` when it has no limits -/
  priors : Option (List ℝ)
  inp : Inp X
  chisq : ℝ
  /-- the attribute `hessian`: that of the latest call of `getHessian` -/
  hessian : Sq

/-- A fitter before the first fit, `BaseFitter.__init__` 139-203 and `setMinimumScale` 205-216. -/
structure Start where
  base : Fitter
  keep : Bool
  fixedScale : Option ℝ
  minimumScale : Option ℝ
  priors : Option (List ℝ)

/-- The ranges that are used for a chain of models, all with limits, `BaseFitter.py` 931 and 934-935: those of the
attribute `priors` of the model, that is of the first one of the chain. Given are the ranges per model. -/
def chainPriors : List (List ℝ) → Option (List ℝ)
  | [] => none
  | head :: _ => some head

/-- The constructor, `BaseFitter.__init__` 139-203. -/
def start (np : ℕ) (params : ℕ → ℝ) (keep : Option (List (ℤ × ℝ))) (fixedScale : Option ℝ)
    (priors : Option (List ℝ)) : Start :=
  ⟨initFitter np params keep, keep.isSome, fixedScale, none, priors⟩

/-- `getHessian` 561-601 as a matrix. -/
def hessMat (m : Lin X) (d : Data X) (s : Fitter) (index : List ℤ) :
    Matrix (Fin index.length) (Fin index.length) ℝ :=
  Matrix.of fun a b => getHessian m d s index a b

/-- `getHessian` 561-601 with its size. -/
def hessianOf (m : Lin X) (d : Data X) (s : Fitter) (index : List ℤ) : Sq :=
  ⟨index.length, hessMat m d s index⟩

/-- `Fitter.fit` 96-159, with the attributes it leaves: `chisq` (155) and `hessian` (136). -/
def fitState (solve : ℕ → (ℕ → ℕ → ℝ) → (ℕ → ℝ) → Option (ℕ → ℝ)) (m : Lin X) (c : Start)
    (inp : Inp X) (keep : Option (List (ℤ × ℝ))) : Option (State X) :=
  (fit solve m inp.data c.base keep).map fun s =>
    let fi := (fitprolog m.np c.base keep).1
    { base := s
      keep := c.keep
      fixedScale := c.fixedScale
      minimumScale := c.minimumScale
      priors := c.priors
      inp := inp
      chisq := chiSquared m inp.data s.params
      hessian := hessianOf m inp.data s fi }

/-- `dof`, `BaseFitter.py` 818 and 903. -/
def State.dof (t : State X) : ℝ := t.inp.sumwgt - t.base.npfit

/-- `BaseFitter.getScale` 806-822. -/
def getScale (t : State X) : Option ℝ :=
  if t.dof ≤ 0 then none else some (Real.sqrt (t.chisq / t.dof))

/-- `BaseFitter.makeVariance` 636-656 without argument. -/
def makeVariance (t : State X) : Option ℝ :=
  (getScale t).map fun scale =>
    let var := scale * scale
    match t.minimumScale with
    | some s => var + s * s
    | none => var

/-- `BaseFitter.getInverseHessian` 606-622: it also sets `self.hessian` (596-598). -/
def getInverseHessian (m : Lin X) (t : State X) (index : Option (List ℤ)) : State X × Option Sq :=
  let fi := index.getD ((List.range m.np).map fun k : ℕ => (k : ℤ))
  let h := hessianOf m t.inp.data t.base fi
  ({ t with hessian := h }, if h.M.det = 0 then none else some ⟨h.K, h.M⁻¹⟩)

/-- `BaseFitter.getCovarianceMatrix` 624-633. -/
def getCovarianceMatrix (m : Lin X) (t : State X) : State X × Option Sq :=
  let r := getInverseHessian m t t.base.fitIndex
  (r.1, r.2.bind fun inv => (makeVariance r.1).map fun v => ⟨inv.K, v • inv.M⟩)

/-- The square roots of the diagonal, `BaseFitter.py` 766, as an array. -/
def rootDiag (c : Sq) (a : ℕ) : ℝ := if h : a < c.K then Real.sqrt (c.M ⟨a, h⟩ ⟨a, h⟩) else 0

/-- `BaseFitter.getStandardDeviations` 750-774. -/
def getStandardDeviations (m : Lin X) (t : State X) : State X × Option (ℕ → ℝ) :=
  let r := getCovarianceMatrix m t
  (r.1, r.2.map fun cov =>
    let stdevs := rootDiag cov
    if t.keep then
      match t.base.fitIndex with
      | some fi => insertParameters m.np (fun _ => 0) stdevs fi
      | none => stdevs
    else stdevs)

/-- `slacc`, `BaseFitter.py` 864-870. -/
def slacc (t : State X) : ℝ :=
  match t.inp.acc with
  | .array a => ∑ k ∈ range t.inp.n, Real.log (a k)
  | .scalar a => t.inp.sumwgt * Real.log a
  | .none => 0

/-- `BaseFitter.getLogLikelihood` 851-876. -/
def getLogLikelihood (t : State X) (var : ℝ) : ℝ :=
  -0.5 * (t.inp.sumwgt * Real.log (2 * Real.pi * var) + t.chisq / var) - slacc t

/-- The argument `limits`: two numbers or two arrays of the same length. -/
inductive Limits where
  | scalar (lo hi : ℝ)
  | array (lohi : List (ℝ × ℝ))

/-- The ranges of the parameters, `BaseFitter.py` 931-937. -/
def prirange (t : State X) : Option Limits → Option (List ℝ)
  | some (.scalar lo hi) => some [hi - lo]
  | some (.array l) => some (l.map fun e => e.2 - e.1)
  | none => t.priors

/-- The sum of the logarithms of the ranges, `BaseFitter.py` 939-954. -/
def sumRange (np : ℕ) (t : State X) (limits : Option Limits) (ranges : List ℝ) : Option ℝ :=
  let pr := ranges.map Real.log
  let (len, spr) :=
    if pr.length = 1 then (1, pr.getD 0 0)
    else
      match limits, t.base.fitIndex with
      | none, some fi =>
        let fq := fi.filter fun k : ℤ => decide (k < (pr.length : ℤ))
        (fq.length, (fq.map fun k => pr.getD (pyIdx np k) 0).sum)
      | _, _ => (pr.length, pr.sum)
  if len < t.base.npfit then
    pr.getLast?.map fun last => spr + (t.base.npfit - len : ℕ) * last
  else some spr

/-- The variance, the start of `logOccam` and that of `spr`, `BaseFitter.py` 907-921. -/
def noisePart (t : State X) : Option (ℝ × ℝ) → Option (ℝ × ℝ × ℝ)
  | some (lo, hi) =>
    let scalerange := Real.log hi - Real.log lo
    if lo ≤ 0 ∨ hi ≤ 0 ∨ scalerange ≤ 0 then none
    else
      (makeVariance t).map fun s2 =>
        (s2, 0.5 * Real.log (Real.pi * t.dof) - scalerange, Real.log scalerange)
  | none =>
    let scale := t.fixedScale.getD 1
    some (scale * scale, 0, 0)

/-- `BaseFitter.getLogZ` 878-962. -/
def getLogZ (np : ℕ) (t : State X) (limits : Option Limits) (noiseLimits : Option (ℝ × ℝ)) : Option ℝ :=
  if t.dof ≤ 0 then none
  else
    (noisePart t noiseLimits).bind fun h =>
      let (s2, logOccam, spr) := h
      let logLikelihood := getLogLikelihood t s2
      if t.base.npfit = 0 then some (logLikelihood + logOccam)
      else
        (prirange t limits).bind fun ranges =>
          (sumRange np t limits ranges).bind fun sr =>
            let spr := spr + sr
            if t.hessian.M.det ≤ 0 then none
            else
              let lidet := Real.log t.hessian.M.det
              let logOccam := logOccam + (-spr + 0.5 * (t.base.npfit * Real.log (2 * Real.pi * s2) - lidet))
              some (logLikelihood + logOccam)

end BF.Evidence
