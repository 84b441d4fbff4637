import Verif.ErrDis

/-!
# Problems with multiple outputs

Models `MultipleOutputProblem.py`. A two dimensional array is a list of rows. `numpy.flatten` puts the
rows one after the other. The model is a parameter: the list of its outputs and the rows of partial
derivatives of each output. Cyclic corrections are left out here, see `Cyclic`.
-/

noncomputable section

namespace BF.Multi

open Real

variable {X : Type}

/-- Weights (or accuracies): shape as xdata, or shape as ydata; `MultipleOutputProblem.py` 67-68. -/
inductive Wgt
  | flat (w : List ℝ)
  | table (w : List (List ℝ))

/-- `MultipleOutputProblem.expandFlat` 90-102 of an array: `wgts[:,k] = weights` for each output. -/
def expandFlat (ndout : ℕ) : Wgt → List ℝ
  | .flat w => (w.map fun v => List.replicate ndout v).flatten
  | .table w => w.flatten

/-- `MultipleOutputProblem.__init__` 54-79, with the model: number of parameters, number of outputs,
result and partials at one position. `df x p k` is the row of partial derivatives of output `k`. -/
structure Prob (X : Type) where
  xdata : List X
  ydata : List (List ℝ)
  weights : Option Wgt
  accuracy : Option Wgt
  np : ℕ
  ndout : ℕ
  f : X → List ℝ → List ℝ
  df : X → List ℝ → ℕ → List ℝ

/-- `MultipleOutputProblem.result` 115. -/
def Prob.result (P : Prob X) (param : List ℝ) : List (List ℝ) := P.xdata.map fun x => P.f x param

/-- `MultipleOutputProblem.residuals` 152-153 with `Problem.residuals` 223. -/
def Prob.residuals (P : Prob X) (param : List ℝ) : List ℝ :=
  (List.zipWith (fun y m => List.zipWith (fun a b => a - b) y m) P.ydata (P.result param)).flatten

/-- `model.partial` of a model with several outputs: one array for each output. -/
def Prob.parts (P : Prob X) (param : List ℝ) : List (List (List ℝ)) :=
  (List.range P.ndout).map fun k => P.xdata.map fun x => P.df x param k

/-- `numpy.append( a, b, 1 )`: along the second axis. -/
def append1 (a b : List (List ℝ)) : List (List ℝ) := List.zipWith (fun r s => r ++ s) a b

/-- `a.reshape( -1, n )` of a flattened array. -/
def reshape (n : ℕ) (l : List ℝ) : List (List ℝ) :=
  (List.range (l.length / n)).map fun r => (l.drop (r * n)).take n

/-- `MultipleOutputProblem.partial` 128-134. -/
def Prob.part (P : Prob X) (param : List ℝ) : List (List ℝ) :=
  match P.parts param with
  | [] => []
  | p0 :: ps => reshape P.np (ps.foldl append1 p0).flatten

/-- `problem.weights`, `MultipleOutputProblem.py` 75. -/
def Prob.flatWeights (P : Prob X) : Option (List ℝ) := P.weights.map (expandFlat P.ndout)

/-- `problem.varyy`, `MultipleOutputProblem.py` 76 and `Problem.py` 186-188. -/
def Prob.varyy (P : Prob X) : Option (List ℝ) :=
  P.accuracy.map fun a => (expandFlat P.ndout a).map fun v => v * v

/-- Element `r` of the weights, 1 when there are none. -/
def Prob.wgt (P : Prob X) (r : ℕ) : ℝ :=
  match P.flatWeights with
  | none => 1
  | some w => w.getD r 0

/-- Element `r` of `problem.varyy`, `Problem.py` 186-188. -/
def Prob.varAt (P : Prob X) (r : ℕ) : ℝ :=
  match P.varyy with
  | none => 0 * 0
  | some v => v.getD r 0

/-- `allpars[-1] * allpars[-1] + problem.varyy`, `GaussErrorDistribution.py` 163; element `r`. -/
def Prob.s2 (P : Prob X) (allpars : List ℝ) (r : ℕ) : ℝ :=
  ErrDis.fromEnd allpars 1 * ErrDis.fromEnd allpars 1 + P.varAt r

/-- `GaussErrorDistribution.logLdata` 143-171 on the arrays of the problem; element `r`. -/
def Prob.gaussLd (P : Prob X) (allpars : List ℝ) (r : ℕ) : ℝ :=
  let res := (P.residuals (allpars.take P.np)).getD r 0
  let res2 := -0.5 * (res * P.wgt r * res) / P.s2 allpars r
  res2 - 0.5 * (ErrDis.LOG2PI + log (P.s2 allpars r)) * P.wgt r

/-- `ErrorDistribution.logLhood` 362-375: the sum over the elements. -/
def Prob.logL (P : Prob X) (allpars : List ℝ) : ℝ :=
  ((List.range (P.residuals (allpars.take P.np)).length).map (P.gaussLd allpars)).sum

/-- `GaussErrorDistribution.nextPartialData` 218-252 on the arrays of the problem; element `r`. -/
def Prob.gaussPd (P : Prob X) (allpars : List ℝ) (k : ℤ) (r : ℕ) : ℝ :=
  let res := (P.residuals (allpars.take P.np)).getD r 0
  if 0 ≤ k then
    res * P.wgt r * ((P.part (allpars.take P.np)).getD r []).getD k.toNat 0 / P.s2 allpars r
  else (res * P.wgt r * res / P.s2 allpars r - P.wgt r) * ErrDis.fromEnd allpars 1 / P.s2 allpars r

/-- `ErrorDistribution.partialLogL` 378-411. -/
def Prob.partialLogL (P : Prob X) (allpars : List ℝ) (fitIndex : List ℤ) : List ℝ :=
  fitIndex.map fun k =>
    ((List.range (P.residuals (allpars.take P.np)).length).map (P.gaussPd allpars k)).sum

/-- `problem.sumweight`, `Problem.py` 160-168: the sum of the (flattened) weights or the number of rows
in ydata. -/
def Prob.sumweight (P : Prob X) : ℝ :=
  match P.flatWeights with
  | none => (P.ydata.length : ℝ)
  | some w => w.sum

/-- `ErrorDistribution.getGaussianScale` 158-173. -/
def Prob.gaussianScale (P : Prob X) (param : List ℝ) : ℝ :=
  √(((List.range (P.residuals param).length).map fun r =>
    (P.residuals param).getD r 0 * P.wgt r * (P.residuals param).getD r 0).sum / P.sumweight)

end BF.Multi
