import Mathlib.Analysis.SpecialFunctions.Log.Basic
import Mathlib.Algebra.BigOperators.Group.Finset.Basic
import Mathlib.Data.Real.Basic
import Verif.ErrDis

/-!
# Problems with errors in x and y

Models `ErrorsInXandYProblem.py` and `Gauss2dErrorDistribution.py`.

* Floats are real numbers.
* The model is a parameter: its result, its partial and its derivative at one position. The prior of the
  targets too: its two maps.
* An array of length `n` is a function on `ℕ` of which the values below `n` are used. A single number,
  valid for all data points, is a constant function (numpy's broadcasting).
* `allpars` is a list. A missing element is an IndexError in the code; here it is 0. The theorems ask for
  lists that are long enough.
* `partialLogL_alt` and `logLikelihood_alt` are left out. The first prints its arrays, the second refers
  to an undefined name when there are weights (146).
* Before it calculates anything, `ErrorDistribution.partialLogL` 393 asks for the result of the problem
  with the parameters of the model only: the model at an empty list of positions. That is left out.
-/

noncomputable section

namespace BF.XY

open Real Finset

/-! ## The accuracies in memory -/

/-- An array of accuracies: a 0-dimensional one, one of shape (2,) or (3,), or one of shape (ndata,2) or
(ndata,3), `ErrorsInXandYProblem.py` 105-110 and 210-226. The optional third column is the correlation. -/
inductive Arr
  | zero (a : ℝ)
  | one (y x : ℝ) (c : Option ℝ)
  | two (y x : ℕ → ℝ) (c : Option (ℕ → ℝ))

/-- The arrays in memory, by address. -/
abbrev Mem := ℕ → Arr

/-- The columns of an array of shape (ndata,3). -/
inductive Col
  | y | x | c

/-- What the names `varyy`, `varxx` and `varxy` refer to: an object of their own (a float, a numpy
scalar or a new array), a 0-dimensional array, or a view on a column of an array of shape (ndata,·). -/
inductive Ref
  | num (v : ℕ → ℝ)
  | whole (addr : ℕ)
  | col (addr : ℕ) (j : Col)

/-- The value for data point `i`. A reference to something else than what it was made for does not
occur; its value is 0 here. -/
def Ref.read (m : Mem) (i : ℕ) : Ref → ℝ
  | .num v => v i
  | .whole p => (match m p with
    | .zero a => a
    | _ => 0)
  | .col p .y => (match m p with
    | .two y _ _ => y i
    | _ => 0)
  | .col p .x => (match m p with
    | .two _ x _ => x i
    | _ => 0)
  | .col p .c => (match m p with
    | .two _ _ (some c) => c i
    | _ => 0)

/-- `name *= v`: in place when the name refers to (a part of) an array, `ErrorsInXandYProblem.py`
228-230. Floats and numpy scalars cannot be changed: the name gets a new object. -/
def mulIn (m : Mem) (r : Ref) (v : ℕ → ℝ) : Mem × Ref :=
  match r with
  | .num u => (m, .num fun i => u i * v i)
  | .whole p => (match m p with
    | .zero a => (Function.update m p (.zero (a * v 0)), r)
    | _ => (m, r))
  | .col p .y => (match m p with
    | .two y x c => (Function.update m p (.two (fun i => y i * v i) x c), r)
    | _ => (m, r))
  | .col p .x => (match m p with
    | .two y x c => (Function.update m p (.two y (fun i => x i * v i) c), r)
    | _ => (m, r))
  | .col p .c => (match m p with
    | .two y x (some c) => (Function.update m p (.two y x (some fun i => c i * v i)), r)
    | _ => (m, r))

/-- The attributes set by `setAccuracy`, `ErrorsInXandYProblem.py` 234-241. -/
structure Obj where
  hasAccuracy : Bool
  accuracy : Option ℕ
  varyy : Ref
  varxx : Ref
  varxy : Ref
  determinant : ℕ → ℝ

/-- The arguments of `setAccuracy`: nothing, the address of an array of accuracies, or the elements yy, xx
and xy of the covariance matrices. Both accuracy and covar raises an AttributeError (232). -/
inductive Arg
  | nothing
  | acc (addr : ℕ)
  | covar (yy xx xy : ℕ → ℝ)

/-- The references to the accuracies themselves, `ErrorsInXandYProblem.py` 210-226. -/
def refs (m : Mem) (p : ℕ) : Ref × Ref × Ref :=
  match m p with
  | .zero _ => (.whole p, .whole p, .num fun _ => 0)
  | .one y x none => (.num fun _ => y, .num fun _ => x, .num fun _ => 0)
  | .one y x (some c) => (.num fun _ => y, .num fun _ => x, .num fun _ => c)
  | .two _ _ none => (.col p .y, .col p .x, .num fun _ => 0)
  | .two _ _ (some _) => (.col p .y, .col p .x, .col p .c)

/-- `ErrorsInXandYProblem.setAccuracy` 195-241. `numpy.asarray` (210) returns the array it gets. -/
def setAccuracy (m : Mem) : Arg → Mem × Obj
  | .nothing =>
      (m, ⟨false, none, .num fun _ => 0, .num fun _ => 0, .num fun _ => 0, fun _ => 0 * 0 - 0 * 0⟩)
  | .covar yy xx xy =>
      (m, ⟨true, none, .num yy, .num xx, .num xy, fun i => yy i * xx i - xy i * xy i⟩)
  | .acc p =>
      let r := refs m p
      let vxy := mulIn m r.2.2 fun i => r.1.read m i * r.2.1.read m i
      let vyy := mulIn vxy.1 r.1 fun i => r.1.read vxy.1 i
      let vxx := mulIn vyy.1 r.2.1 fun i => r.2.1.read vyy.1 i
      (vxx.1, ⟨true, some p, vyy.2, vxx.2, vxy.2, fun i =>
        vyy.2.read vxx.1 i * vxx.2.read vxx.1 i - vxy.2.read vxx.1 i * vxy.2.read vxx.1 i⟩)

/-- `ErrorsInXandYProblem.copy` 141, that is `__init__` with `copy`: `Problem.__init__` 106-111 sets the
attribute `accuracy`, which `__setattr__` 148-149 turns into a call of `setAccuracy`; after that 128-134
take over the attributes of the original. Where there is no array of accuracies, `setAccuracy` gets None
or 0 and nothing in memory changes. -/
def copy (m : Mem) (o : Obj) : Mem × Obj :=
  match o.accuracy with
  | none => (m, o)
  | some p =>
      let n := setAccuracy m (.acc p)
      (n.1, { n.2 with
        hasAccuracy := o.hasAccuracy
        varxx := o.varxx
        varxy := o.varxy
        varyy := o.varyy
        determinant := o.determinant })

/-- A history: in each step a copy is made of one of the problems. -/
def copies (m : Mem) (os : List Obj) : List ℕ → Mem × List Obj
  | [] => (m, os)
  | j :: l => (match os[j]? with
    | none => copies m os l
    | some o => copies (copy m o).1 (os ++ [(copy m o).2]) l)

/-! ## The problem -/

/-- Variances and covariance of one data point, with the attribute `determinant`. -/
structure Vars where
  yy : ℝ
  xx : ℝ
  xy : ℝ
  det : ℝ

/-- What a problem uses for data point `i`. -/
def Obj.vars (m : Mem) (o : Obj) (i : ℕ) : Vars :=
  ⟨o.varyy.read m i, o.varxx.read m i, o.varxy.read m i, o.determinant i⟩

/-- `ErrorsInXandYProblem.__init__` 86-134: the number of data points, the data, the weights if any, the
variances, the model (number of parameters, result, partial and derivative) and the prior of the
targets. -/
structure Prob where
  n : ℕ
  xdata : ℕ → ℝ
  ydata : ℕ → ℝ
  weights : Option (ℕ → ℝ)
  var : ℕ → Vars
  np : ℕ
  f : ℝ → List ℝ → ℝ
  df : ℝ → List ℝ → List ℝ
  dx : ℝ → List ℝ → ℝ
  modelD2U : ℝ → ℕ → ℝ
  modelU2D : ℝ → ℕ → ℝ
  priorD2U : ℝ → ℝ
  priorU2D : ℝ → ℝ

/-- `self.npars += Tools.length( self.xdata )`, `ErrorsInXandYProblem.py` 122. -/
def Prob.npars (P : Prob) : ℕ := P.np + P.n

/-- `ErrorsInXandYProblem.splitParam` 278-279, the targets. -/
def Prob.target (P : Prob) (param : List ℝ) (i : ℕ) : ℝ := (param.drop P.np).getD i 0

/-- `ErrorsInXandYProblem.splitParam` 278-279, the parameters of the model. -/
def Prob.pars (P : Prob) (param : List ℝ) : List ℝ := param.take P.np

/-- `ErrorsInXandYProblem.result` 260-261. -/
def Prob.result (P : Prob) (param : List ℝ) (i : ℕ) : ℝ := P.f (P.target param i) (P.pars param)

/-- `numpy.identity`. -/
def ident (i j : ℕ) : ℝ := if i = j then 1 else 0

/-- `ErrorsInXandYProblem.partial` 298-313: the element in row `r` and column `c`. -/
def Prob.part (P : Prob) (param : List ℝ) (r c : ℕ) : ℝ :=
  if r < P.n then
    if c < P.np then (P.df (P.target param r) (P.pars param)).getD c 0
    else P.dx (P.target param (c - P.np)) (P.pars param) * ident r (c - P.np)
  else
    if c < P.np then 0 else ident (r - P.n) (c - P.np)

/-- `ErrorsInXandYProblem.domain2Unit` 339-345. -/
def Prob.domain2Unit (P : Prob) (dval : ℝ) (kpar : ℕ) : ℝ :=
  if kpar < P.np then P.modelD2U dval kpar
  else P.priorD2U (dval - P.xdata (kpar - P.np))

/-- `ErrorsInXandYProblem.unit2Domain` 358-361. -/
def Prob.unit2Domain (P : Prob) (uval : ℝ) (kpar : ℕ) : ℝ :=
  if kpar < P.np then P.modelU2D uval kpar
  else P.priorU2D uval + P.xdata (kpar - P.np)

/-- `ErrorsInXandYProblem.getXYresiduals` 376-378, in y. -/
def Prob.yres (P : Prob) (param : List ℝ) (i : ℕ) : ℝ := P.ydata i - P.result param i

/-- `ErrorsInXandYProblem.getXYresiduals` 378, in x. -/
def Prob.xres (P : Prob) (param : List ℝ) (i : ℕ) : ℝ := P.xdata i - P.target param i

/-- `problem.weights` or 1: 416-430 and `Gauss2dErrorDistribution.py` 171, 251. -/
def Prob.weight (P : Prob) (i : ℕ) : ℝ :=
  match P.weights with
  | none => 1
  | some w => w i

/-- The results of `weightedResSq` for one data point. -/
structure Res where
  res2 : ℝ
  yr : ℝ
  xr : ℝ
  xyr2 : ℝ

/-- `ErrorsInXandYProblem.weightedResSq` 395-432 with `extra`. -/
def Prob.weightedResSq (P : Prob) (allpars : List ℝ) (i : ℕ) : Res :=
  let param := allpars.take P.npars
  let yres := P.yres param i
  let xres := P.xres param i
  let v := P.var i
  let s2 := allpars.getD P.npars 0 * allpars.getD P.npars 0
  let det := v.det + s2 * (v.yy + v.xx + s2)
  let myy := (v.xx + s2) / det
  let mxx := (v.yy + s2) / det
  let mxy := -v.xy / det
  let res2 := xres * xres * mxx + yres * yres * myy + 2 * (xres * yres * mxy)
  let xr := xres * mxx + yres * mxy
  let yr := yres * myy + xres * mxy
  let xyr2 := xres * xres + yres * yres
  match P.weights with
  | none => ⟨res2, yr, xr, xyr2⟩
  | some w => ⟨res2 * w i, yr * w i, xr * w i, xyr2 * w i⟩

/-! ## The error distribution -/

/-- `Gauss2dErrorDistribution.updateDeterminant` 115-116, for data point `i`. -/
def updateDeterminant (P : Prob) (scale : ℝ) (i : ℕ) : ℝ :=
  (P.var i).det + scale * scale * ((P.var i).xx + (P.var i).yy + scale * scale)

/-- `Gauss2dErrorDistribution.logLdata` 166-174. -/
def logLdata (P : Prob) (allpars : List ℝ) (i : ℕ) : ℝ :=
  let det := updateDeterminant P (ErrDis.fromEnd allpars 1) i
  let rot2 := (P.weightedResSq allpars i).res2
  let norm := log (2 * π) + log det
  let norm := (match P.weights with
    | none => norm
    | some w => norm * w i);
  -0.5 * (norm + rot2)

/-- `ErrorDistribution.logLhood` 362-375. -/
def logLhood (P : Prob) (allpars : List ℝ) : ℝ := ∑ i ∈ range P.n, logLdata P allpars i

/-- `numpy.append( yr, xr )`, `ErrorsInXandYProblem.py` 432. -/
def resAt (P : Prob) (allpars : List ℝ) (r : ℕ) : ℝ :=
  if r < P.n then (P.weightedResSq allpars r).yr else (P.weightedResSq allpars (r - P.n)).xr

/-- `Gauss2dErrorDistribution.nextPartialData` 237-255, summed by `ErrorDistribution.partialLogL`
395-400. -/
def partialAt (P : Prob) (allpars : List ℝ) (k : ℤ) : ℝ :=
  if 0 ≤ k then
    ∑ r ∈ range (2 * P.n), resAt P allpars r * P.part (allpars.take P.npars) r k.toNat
  else
    let s := ErrDis.fromEnd allpars 1
    ∑ i ∈ range P.n,
      -s / updateDeterminant P s i * (((P.var i).xx + (P.var i).yy + 2 * s * s)
        * (P.weight i - (P.weightedResSq allpars i).res2) + (P.weightedResSq allpars i).xyr2)

/-- `ErrorDistribution.partialLogL` 378-405. -/
def partialLogL (P : Prob) (allpars : List ℝ) (fitIndex : List ℤ) : List ℝ :=
  fitIndex.map (partialAt P allpars)

end BF.XY
