import Mathlib.Data.Real.Basic

/-!
# Robust fitting

Models `RobustShell.py`. The inner fitter is arbitrary: it may keep a state of its own and it may raise.

Simplifications: floats are reals. Where python divides by `scale * domain` equal to zero, and numpy fills the
weights with nan, the model stops with `none`. Reports (250, 253) are left out.
-/

noncomputable section

namespace BF.Robust

/-- What the shell reads from the inner fitter after a fit: `param`, `fitter.chisq`, `fitter.scale`. -/
structure Fit where
  param : List ℝ
  chisq : ℝ
  scale : ℝ

/-- The surroundings: the inner fitter with its state `σ`, the model with its data points, the limits of
`IterativeFitter.py` 113-116. -/
structure Env (σ : Type*) where
  fit : σ → List ℝ → Option (List ℝ) → Option (σ × Fit)
  yfit : List ℝ → List ℝ
  maxIter : ℕ
  tolerance : ℝ

variable {σ : Type*}

/-- `RobustShell.setOneSided` 184-210 on a string: its first character counts; `none` is the error. The empty
string raises too (an IndexError). -/
def setOneSided : Option String → Option ℤ
  | none => some 0
  | some s =>
      match s.toList with
      | [] => none
      | c :: _ => if c = 'p' ∨ c = 'P' then some 1 else if c = 'n' ∨ c = 'N' then some (-1) else none

/-- `RobustShell.getOneSidedWeights` 264-271. -/
def oneSidedWeights (wgt res : List ℝ) (onesided : ℤ) : List ℝ :=
  if onesided = 0 then wgt
  else if onesided = 1 then List.zipWith (fun w r => if r < 0 then 1 else w) wgt res
  else if onesided = -1 then List.zipWith (fun w r => if 0 < r then 1 else w) wgt res
  else wgt

/-- The weights of one robustification step, `RobustShell.py` 236-244. -/
def robustWeights (kernel : ℝ → ℝ) (domain : ℝ) (onesided : ℤ) (data yfit : List ℝ) (scale : ℝ)
    (weights : Option (List ℝ)) : List ℝ :=
  let residuals := (List.zipWith (· - ·) data yfit).map (· / (scale * domain))
  let robwgt := oneSidedWeights (residuals.map kernel) residuals onesided
  match weights with
  | none => robwgt
  | some w => List.zipWith (· * ·) robwgt w

/-- One turn of the loop: the weights it used and what the inner fit gave. -/
structure Step where
  weights : List ℝ
  fit : Fit

/-- The loop of `RobustShell.fit` 234-255; the number of turns that `maxIter` still allows goes down. Returns the
state of the inner fitter and the turns. -/
def loop (e : Env σ) (data : List ℝ) (weights : Option (List ℝ)) (kernel : ℝ → ℝ) (domain : ℝ)
    (onesided : ℤ) : ℕ → σ → Fit → Option (σ × List Step)
  | 0, s, _ => some (s, [])
  | n + 1, s, f =>
      if f.scale * domain = 0 then none
      else
        let w := robustWeights kernel domain onesided data (e.yfit f.param) f.scale weights
        match e.fit s data (some w) with
        | none => none
        | some (s', g) =>
            let tol := if g.chisq < 1 then e.tolerance else e.tolerance * g.chisq
            if |f.chisq - g.chisq| < tol then some (s', [⟨w, g⟩])
            else (loop e data weights kernel domain onesided n s' g).map fun r => (r.1, ⟨w, g⟩ :: r.2)

/-- `RobustShell.fit` 213-262: the first fit, the turns, and the last one of them, of which the parameters and
chisq are returned. `none` when something raises; with `maxIter` = 0 the name `trychi` (258) is not known. -/
def fit (e : Env σ) (s : σ) (data : List ℝ) (weights : Option (List ℝ)) (kernel : ℝ → ℝ) (domain : ℝ)
    (onesided : ℤ) : Option (Fit × List Step × Step) :=
  match e.fit s data weights with
  | none => none
  | some (s1, f) =>
      match loop e data weights kernel domain onesided e.maxIter s1 f with
      | none => none
      | some (_, steps) => steps.getLast?.map fun l => (f, steps, l)

/-- `RobustShell.__init__` 144-146: the default size of the influence domain. -/
def defaultDomain (fwhm : ℝ) : ℝ := 6.0 / fwhm

end BF.Robust
