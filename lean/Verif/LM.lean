import Verif.Fitters
import Mathlib.Data.Real.Sqrt

/-!
# The Levenberg-Marquardt fitter

Models `LevenbergMarquardtFitter.py` 129-326, `IterativeFitter.fitprolog` 153-185 and, for models that are
not linear, the parts of `BaseFitter.py` it uses (539-601, 691-747).

Simplifications:
* as in `Verif.Fitters`; reports and plots are left out.
* `onEdge` is set to False after `checkLimits` (257), so the branches on it (259-260, 275-279) are dead and
  left out. `checkLimits` clips its argument in place, which is modelled.
* Python's `while self.iter < maxiter` counts up; here `left = maxiter - iter` counts down.
-/

noncomputable section

namespace BF.LM

open Finset BF.Fitters

/-- A model: the result and its partial derivatives, at `x` for parameters `p`. -/
structure Nl (X : Type*) where
  np : ℕ
  result : X → (ℕ → ℝ) → ℝ
  part : X → (ℕ → ℝ) → ℕ → ℝ

variable {X : Type*}

/-- `BaseFitter.getDesign` 691-716. -/
def design (m : Nl X) (d : Data X) (s : Fitter) (p : ℕ → ℝ) (index : List ℤ) (i a : ℕ) : ℝ :=
  let k := pyIdx m.np (index.getD a 0)
  if i < d.n then m.part (d.x i) p k else s.normdfdp (i - d.n) k

/-- `BaseFitter.getHessian` 561-601. -/
def hessian (m : Nl X) (d : Data X) (s : Fitter) (p : ℕ → ℝ) (index : List ℤ) (a b : ℕ) : ℝ :=
  ∑ i ∈ range (d.n + s.nnorm),
    design m d s p index i a * (design m d s p index i b * allWgts d s i)

/-- `BaseFitter.getVector` 539-558. -/
def vector (m : Nl X) (d : Data X) (s : Fitter) (p : ℕ → ℝ) (index : List ℤ) (yd : ℕ → ℝ) (a : ℕ) : ℝ :=
  ∑ i ∈ range (d.n + s.nnorm), design m d s p index i a * yd i

/-- The sum of squares in `BaseFitter.chiSquared` 739-743. -/
def chisq (m : Nl X) (d : Data X) (p : ℕ → ℝ) : ℝ :=
  ∑ i ∈ range d.n, (d.y i - m.result (d.x i) p) ^ 2 * d.fitWgts i

/-- The part of the extra measurements, `chiSquaredExtra` 224-227. -/
def chinorm (np : ℕ) (s : Fitter) (p : ℕ → ℝ) : ℝ :=
  ∑ i ∈ range s.nnorm, (∑ k ∈ range np, s.normdfdp i k * p k - s.normdata i) ^ 2 * s.normweight i

/-- `chiSquaredExtra` 219-229; `none` is the ValueError of `chiSquared` (744-745). -/
def chiExtra (m : Nl X) (d : Data X) (s : Fitter) (p : ℕ → ℝ) : Option ℝ :=
  if chisq m d p ≤ 0 then none else some (chisq m d p + chinorm m.np s p)

/-- The errors: `ConvergenceError`, `LinAlgError`, `ValueError`. `fuel` is an artefact of the model and
proved not to happen. -/
inductive Err
  | convergence
  | linalg
  | value
  | fuel
deriving DecidableEq

/-- What is left after an error: the parameters of the model. -/
structure Fail where
  err : Err
  params : ℕ → ℝ

/-- The limits of a parameter: `lowLimit` and `highLimit`, when there are any. -/
structure Lim where
  low : Option ℝ
  high : Option ℝ

/-- One parameter in `checkLimits` 314-322. -/
def Lim.clip (l : Lim) (v : ℝ) : ℝ :=
  match l.low with
  | some lo =>
    if v < lo then lo
    else match l.high with
      | some hi => if hi < v then hi else v
      | none => v
  | none =>
    match l.high with
    | some hi => if hi < v then hi else v
    | none => v

/-- `checkLimits` 305-326. `lims` is `none` when the model has no priors. -/
def checkLimits (np : ℕ) (lims : Option (ℕ → Lim)) (fi : List ℤ) (fitpar : ℕ → ℝ) (a : ℕ) : ℝ :=
  match lims with
  | some l => (l (pyIdx np (fi.getD a 0))).clip (fitpar a)
  | none => fitpar a

/-- What a successful `trialfit` returns, and the state it leaves: `lamda` and the iterations left. -/
structure Step where
  params : ℕ → ℝ
  chi : ℝ
  lamda : ℝ
  left : ℕ

/-- The data of all of a fit. -/
structure Setup (X : Type*) where
  solve : ℕ → (ℕ → ℕ → ℝ) → (ℕ → ℝ) → Option (ℕ → ℝ)
  m : Nl X
  d : Data X
  s : Fitter
  lims : Option (ℕ → Lim)
  fi : List ℤ

/-- The loop in `trialfit` 249-288. `mp` are the parameters of the model. `same`: `params` is the same
array as the parameters of the model, then `insertParameters` writes over the latter (unless all
parameters are fitted). -/
def trialLoop (S : Setup X) (params vec : ℕ → ℝ) (chi : ℝ) (same : Bool) :
    ℕ → (ℕ → ℕ → ℝ) → ℝ → (ℕ → ℝ) → Except Fail Step
  | 0, _, _, mp => .error ⟨.convergence, mp⟩
  | left + 1, hes, lamda, mp =>
    let nfit := S.fi.length
    let hes := fun a b => if a = b ∧ a < nfit then hes a b * (1 + lamda) else hes a b
    match S.solve nfit hes vec with
    | none => .error ⟨.linalg, mp⟩
    | some dx =>
      let newpar := fun a => params (pyIdx S.m.np (S.fi.getD a 0)) + 0.5 * dx a
      let newpar := checkLimits S.m.np S.lims S.fi newpar
      let trypar := insertParameters S.m.np params newpar S.fi
      let mp := if same && S.fi.length != S.m.np then trypar else mp
      match chiExtra S.m S.d S.s trypar with
      | none => .error ⟨.value, mp⟩
      | some trychi =>
        if trychi ≤ chi then .ok ⟨trypar, trychi, lamda, left⟩
        else trialLoop S params vec chi same left hes (if lamda < 1e20 then lamda * 10 else lamda) mp

/-- `trialfit` 233-288. The vector takes the partials at the parameters of the model (`getVector` 556),
the residuals are those of `params`. -/
def trialfit (S : Setup X) (params mp : ℕ → ℝ) (chi : ℝ) (same : Bool) (left : ℕ) (lamda : ℝ) :
    Except Fail Step :=
  let hes := hessian S.m S.d S.s params S.fi
  let residu := fun i =>
    if i < S.d.n then (S.d.y i - S.m.result (S.d.x i) params) * S.d.fitWgts i
    else (S.s.normdata (i - S.d.n) - ∑ k ∈ range S.m.np, S.s.normdfdp (i - S.d.n) k * params k)
      * S.s.normweight (i - S.d.n)
  let vec := vector S.m S.d S.s mp S.fi residu
  trialLoop S params vec chi same left hes lamda mp

/-- What a fit that converged leaves: the parameters, chi squared, the accepted steps in order and the
number of iterations that was left. -/
structure Done where
  params : ℕ → ℝ
  chi : ℝ
  steps : List ((ℕ → ℝ) × ℝ)
  left : ℕ

/-- The loop in `fit` 197-216. `fuel` bounds the number of turns. -/
def mainLoop (S : Setup X) (tolerance : ℝ) : ℕ → ℕ → ℝ → ℝ → (ℕ → ℝ) → (ℕ → ℝ) → Bool →
    List ((ℕ → ℝ) × ℝ) → Except Fail Done
  | 0, _, _, _, _, mp, _, _ => .error ⟨.fuel, mp⟩
  | fuel + 1, left, lamda, chi, trypar, mp, same, steps =>
    if left = 0 then .error ⟨.convergence, mp⟩
    else
      match trialfit S trypar mp chi same left lamda with
      | .error f => .error f
      | .ok st =>
        let tol := if chi < 1 then tolerance else tolerance * chi
        let steps := steps ++ [(st.params, st.chi)]
        if |chi - st.chi| < tol then .ok ⟨st.params, st.chi, steps, st.left⟩
        else
          mainLoop S tolerance fuel st.left (if 1e-100 < st.lamda then st.lamda * 0.1 else st.lamda)
            st.chi st.params st.params true steps

/-- `fit` 129-216 after `fitprolog`. -/
def fitLoop (S : Setup X) (tolerance : ℝ) (maxiter : ℕ) (par0 : Option (ℕ → ℝ)) : Except Fail Done :=
  let trypar := par0.getD S.s.params
  match chiExtra S.m S.d S.s trypar with
  | none => .error ⟨.value, S.s.params⟩
  | some chi0 =>
    mainLoop S tolerance (maxiter + 1) maxiter 0.001 (chi0 + 1) trypar S.s.params par0.isNone []

/-- `LevenbergMarquardtFitter.fit` 129-216. -/
def fit (solve : ℕ → (ℕ → ℕ → ℝ) → (ℕ → ℝ) → Option (ℕ → ℝ)) (m : Nl X) (d : Data X) (s : Fitter)
    (lims : Option (ℕ → Lim)) (keep : Option (List (ℤ × ℝ))) (par0 : Option (ℕ → ℝ))
    (tolerance : ℝ) (maxiter : ℕ) : Except Fail Done :=
  let (fi, s) := fitprolog m.np s keep
  fitLoop ⟨solve, m, d, s, lims, fi⟩ tolerance maxiter par0

end BF.LM
