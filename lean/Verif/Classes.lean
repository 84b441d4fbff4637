import Verif.ErrDis
import Verif.SoftMax

/-!
# Classification: a model with several outputs and a Bernoulli error distribution

Models `BernoulliErrorDistribution.logLdata` (151-156) and `nextPartialData` (213-232) for a model with
several outputs, and what `ErrorDistribution.logLhood` and `partialLogL` make of them.

Simplifications: parameters and inputs are functions of the index; the model is given by its outputs at one
point and their partials. There are no hyperparameters. Floats are reals.
-/

noncomputable section

namespace BF.Classes

open BF.ErrDis BF.SoftMax

/-- One data point: its inputs and its class (`ydata[i]`, a float). -/
structure Point (X : Type*) where
  x : X
  y : ℝ

variable {X : Type*}

/-- A model with `ndout` outputs: output number `o` at one point, and the partial of that output to parameter
`k` (`dM[o][i,k]`, a list of one matrix for each output). -/
structure Outs (X : Type*) where
  ndout : ℕ
  f : X → (ℕ → ℝ) → ℕ → ℝ
  df : X → (ℕ → ℝ) → ℕ → ℕ → ℝ

/-- The row `mockdata[i,:]`. -/
def Outs.mock (M : Outs X) (x : X) (p : ℕ → ℝ) : List ℝ := (List.range M.ndout).map (M.f x p)

/-- `BernoulliErrorDistribution.logLdata` 151-156 and `ErrorDistribution.logLhood` 362-375; `none` is minus
infinity. -/
def Outs.logL (M : Outs X) (data : List (Point X)) (p : ℕ → ℝ) : Option ℝ :=
  sumOpt (data.map fun d => classLd (M.mock d.x p) d.y)

/-- The loop `BernoulliErrorDistribution.nextPartialData` 221-223 for one point: the array is filled where the
datum equals the number of the output. -/
def fillLoop (mock : ℕ → ℝ) (y : ℝ) : ℕ → ℕ → ℝ
  | 0, _ => 0
  | k + 1, o => if o = k ∧ y = (k : ℝ) then 1.0 / mock k else fillLoop mock y k o

/-- `BernoulliErrorDistribution.nextPartialData` 225: the tensordot over points and outputs; element `k`. -/
def Outs.tensordot (M : Outs X) (data : List (Point X)) (p : ℕ → ℝ) (k : ℕ) : ℝ :=
  (data.map fun d => ((List.range M.ndout).map fun o =>
    fillLoop (M.f d.x p) d.y M.ndout o * M.df d.x p o k).sum).sum

/-- `ErrorDistribution.partialLogL` 392-407 with `nextPartialData` 231-232. -/
def Outs.partialLogL (M : Outs X) (data : List (Point X)) (p : ℕ → ℝ) (fitIndex : List ℕ) : List ℝ :=
  fitIndex.map (M.tensordot data p)

/-- A `SoftMaxModel` as model of the classes. -/
def softOuts (s : Spec) : Outs (ℕ → ℝ) where
  ndout := s.ndout
  f := fun x p n => s.result x p n
  df := fun x p n k => (s.partials x p none n).getD k 0

end BF.Classes
