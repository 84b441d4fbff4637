import Verif.Phantoms
import Mathlib.Analysis.SpecialFunctions.Log.Basic

/-!
# The tables that a list of samples or walkers gives

`SampleList.py` 391-493: the "evolutions".  `WalkerList.py` 234-286: the same for walkers.

Floats are reals.  An exception is `none`.  `numpy.asarray` of lists of different lengths raises a ValueError
(numpy 1.24 and later).
-/

namespace BF
namespace Evolution

noncomputable section

/-- `Sample.py` 75-125: what the tables use of a sample.  `npchain` and `dynamic` are those of its model, `hyper` is
not there unless it has been set. -/
structure Smp where
  id : ℤ
  parent : ℤ
  start : ℕ
  npchain : ℕ
  dynamic : Bool
  parameters : List ℝ
  hyper : Option (List ℝ)
  logL : ℝ
  logW : ℝ

/-- `numpy.asarray` of a list of one-dimensional arrays: an array of rows, all of the same length. -/
def asarray (rows : List (List ℝ)) : Option (List (List ℝ)) :=
  match rows with
  | [] => some []
  | r :: rs => if rs.all fun q => q.length = r.length then some (r :: rs) else none

/-- What `kpar` can be: not given, a number or several numbers. -/
inductive Kpar where
  | all
  | one (k : ℤ)
  | some (ks : List ℤ)

/-- The place of a python index in a list of length `n`. -/
def place (n : ℕ) (k : ℤ) : Option ℕ :=
  if 0 ≤ k ∧ k < n then some k.toNat
  else if k < 0 ∧ 0 ≤ n + k then some (n + k).toNat
  else none

/-- What comes out: a table, or one column of it. -/
inductive Table where
  | rows (t : List (List ℝ))
  | column (c : List ℝ)

/-- `array[:,k]` of an array of rows; without rows it has one dimension only and the index fails. -/
def column (t : List (List ℝ)) (k : ℤ) : Option (List ℝ) :=
  match t with
  | [] => none
  | r :: _ => (place r.length k).map fun j => t.map fun q => q.getD j 0

/-- `array[:,(k1,k2,...)]`. -/
def columns (t : List (List ℝ)) (ks : List ℤ) : Option (List (List ℝ)) :=
  match t with
  | [] => none
  | r :: _ => (ks.mapM (place r.length)).map fun js => t.map fun q => js.map fun j => q.getD j 0

/-- The last lines of both methods `getParameterEvolution`: `SampleList.py` 416-419, `WalkerList.py` 273-276. -/
def pick (pe : List (List ℝ)) : Kpar → Option Table
  | .all => (asarray pe).map .rows
  | .one k => (asarray pe).bind fun t => (column t k).map .column
  | .some ks => (asarray pe).bind fun t => (columns t ks).map .rows

/-- `SampleList.getParameterEvolution`, `SampleList.py` 400-419. -/
def getParameterEvolution (sl : List Smp) (kpar : Kpar) : Option Table := pick (sl.map Smp.parameters) kpar

/-- `getParAndWgtEvolution`, `SampleList.py` 421-437. -/
def getParAndWgtEvolution (sl : List Smp) : Option (List (List ℝ) × List ℝ) :=
  (asarray (sl.map Smp.parameters)).map fun t => (t, (sl.map Smp.logW).map Real.exp)

/-- `getNumberOfParametersEvolution`, `SampleList.py` 440-443. -/
def getNumberOfParametersEvolution (sl : List Smp) : List ℕ := sl.map Smp.npchain

/-- `getMaximumNumberOfParameters`, `SampleList.py` 391-398. -/
def getMaximumNumberOfParameters (sl : List Smp) : Option ℕ :=
  match sl with
  | [] => none
  | s :: r =>
      if s.dynamic then some ((getNumberOfParametersEvolution r).foldl max s.npchain)
      else some s.npchain

/-- `getScaleEvolution`, `SampleList.py` 445-448: a sample without `hyper` raises an AttributeError
(`Sample.py` 141-144). -/
def getScaleEvolution (sl : List Smp) : Option (List (List ℝ)) := (sl.mapM Smp.hyper).bind asarray

/-- `getLogLikelihoodEvolution`, `SampleList.py` 450-453. -/
def getLogLikelihoodEvolution (sl : List Smp) : List ℝ := sl.map Smp.logL

/-- `getLogWeightEvolution`, `SampleList.py` 455-463. -/
def getLogWeightEvolution (sl : List Smp) : List ℝ := sl.map Smp.logW

/-- `getWeightEvolution`, `SampleList.py` 465-472. -/
def getWeightEvolution (sl : List Smp) : List ℝ := (getLogWeightEvolution sl).map Real.exp

/-- `getParentEvolution`, `getStartEvolution` and `getGeneration`, `SampleList.py` 474-493. -/
def getDescent (sl : List Smp) : List (ℤ × ℕ × ℤ) := sl.map fun s => (s.parent, s.start, s.id)

/-- `normalize`, `SampleList.py` 208-223.  `none`: numpy's error on the maximum of an empty array. -/
def normalize (sl : List Smp) : Option (List Smp) :=
  match getLogWeightEvolution sl with
  | [] => none
  | w :: ws =>
      let lmax := ws.foldl max w
      let lswt := Real.log (((w :: ws).map fun x => Real.exp (x - lmax)).sum)
      some (sl.map fun s => { s with logW := s.logW - (lmax + lswt) })

/-- `WalkerList.getParameterEvolution`, `WalkerList.py` 256-276; `np w` is the number of parameters of the model of
walker `w` (`Walker.py` 147-149). -/
def walkerEvolution (np : Walker ℝ ℝ → ℕ) (ws : List (Walker ℝ ℝ)) (kpar : Kpar) : Option Table :=
  pick (ws.map fun w => w.allpars.take (np w)) kpar

end

end Evolution
end BF
