import Mathlib.Data.Real.Basic
import Mathlib.Algebra.BigOperators.Group.Finset.Basic
import Mathlib.Data.List.Sort
import Mathlib.Data.List.Dedup

/-!
# The linear fitters

Models `BaseFitter.py` 140-343, 539-601, 658-747, `Fitter.py` 96-159 and `QRFitter.py` 89-182.

Simplifications:
* An array of length `n` is a function on the natural numbers of which only the values below `n` matter.
  Floats are reals.
* The linear algebra of numpy is a parameter: `solve`, `qr` and `inv` are any functions; what is asked of
  them is in `SolveSpec` and `QrSpec` beside the theorems. A `LinAlgError` is `none`.
* Maps (`ImageAssistant`), nan checks and plots are left out. The model has at least one parameter.
* That `chiSquared` raises an error on a perfect fit (744) is left out: it does so after the parameters
  were set.
-/

noncomputable section

namespace BF.Fitters

open Finset

/-- A linear model: the result is an offset (from fixed parts of the model, mostly 0) plus the inner
product of the parameters with the partials, `LinearModel.baseResult` 91-115. -/
structure Lin (X : Type*) where
  np : ℕ
  off : X → ℝ
  part : X → ℕ → ℝ

/-- `Model.result` of a linear model. -/
def Lin.result {X : Type*} (m : Lin X) (x : X) (p : ℕ → ℝ) : ℝ :=
  m.off x + ∑ k ∈ range m.np, p k * m.part x k

/-- The data of one call of `fit`: `nxdata`, `xdata`, `ydata`, `weights` and `accuracy`. -/
structure Data (X : Type*) where
  n : ℕ
  x : ℕ → X
  y : ℕ → ℝ
  weights : Option (ℕ → ℝ)
  accuracy : Option (ℕ → ℝ)

variable {X : Type*}

/-- `self.fitWgts`, `BaseFitter.fitprolog` 262-268. -/
def Data.fitWgts (d : Data X) (i : ℕ) : ℝ :=
  let f := 1
  let f := match d.weights with
    | some w => f * w i
    | none => f
  match d.accuracy with
  | some a => f / (a i * a i)
  | none => f

/-- `numpy.setxor1d` on integers: the sorted values that are in precisely one of the two. -/
def setxor1d (a b : List ℤ) : List ℤ :=
  ((a ++ b).dedup.filter fun k => (decide (k ∈ a)) != (decide (k ∈ b))).mergeSort

/-- Python's index `k` into an array of length `n`: negative ones count from the end. -/
def pyIdx (n : ℕ) (k : ℤ) : ℕ := (if 0 ≤ k then k else n + k).toNat

/-- The state of a fitter: parameters of the model, `fitIndex`, `npfit` and the "normalize" data. -/
structure Fitter where
  params : ℕ → ℝ
  fitIndex : Option (List ℤ)
  npfit : ℕ
  nnorm : ℕ
  normdfdp : ℕ → ℕ → ℝ
  normdata : ℕ → ℝ
  normweight : ℕ → ℝ

/-- `self.model.parameters[keys] = values`, `BaseFitter.py` 317: in order of the dictionary. -/
def storeKept (np : ℕ) (params : ℕ → ℝ) : List (ℤ × ℝ) → ℕ → ℝ
  | [] => params
  | (k, v) :: l => storeKept np (fun j => if j = pyIdx np k then v else params j) l

/-- `BaseFitter.keepFixed` 290-318; the result is the fit index and the new state. `keep` is a dictionary
as list of pairs. -/
def keepFixed (np : ℕ) (s : Fitter) : Option (List (ℤ × ℝ)) → Option (List ℤ) × Fitter
  | none => (none, { s with npfit := np })
  | some keep =>
    let fitIndex := (List.range np).map fun k : ℕ => (k : ℤ)
    let fitIndex := setxor1d fitIndex (keep.map Prod.fst)
    (some fitIndex, { s with npfit := keep.length, params := storeKept np s.params keep })

/-- The constructor, `BaseFitter.__init__` 194-199, with the parameters that the model has. -/
def initFitter (np : ℕ) (params : ℕ → ℝ) (keep : Option (List (ℤ × ℝ))) : Fitter :=
  let s : Fitter := ⟨params, none, np, 0, fun _ _ => 0, fun _ => 0, fun _ => 0⟩
  let r := keepFixed np s keep
  { r.2 with fitIndex := r.1 }

/-- `BaseFitter.fitprolog` 270-279: the fit index. -/
def fitprolog (np : ℕ) (s : Fitter) (keep : Option (List (ℤ × ℝ))) : List ℤ × Fitter :=
  match keep with
  | some k =>
    let r := keepFixed np s (some k)
    (r.1.getD [], r.2)
  | none =>
    match s.fitIndex with
    | none => ((List.range np).map fun k : ℕ => (k : ℤ), { s with npfit := np })
    | some fi => (fi, { s with npfit := fi.length })

/-- `BaseFitter.insertParameters` 320-343 with an index. -/
def insertParameters (np : ℕ) (params fitpar : ℕ → ℝ) (index : List ℤ) : ℕ → ℝ :=
  if index.length = np then fitpar
  else fun j =>
    -- the last occurrence counts
    match ((List.range index.length).filter fun i => decide (pyIdx np (index.getD i 0) = j)).getLast? with
    | some i => fitpar i
    | none => params j

/-- `BaseFitter.normalize` 658-687 with one extra measurement. -/
def normalize (s : Fitter) (dfdp : ℕ → ℝ) (data weight : ℝ) : Fitter :=
  { s with
    nnorm := s.nnorm + 1
    normdfdp := fun i => if i = s.nnorm then dfdp else s.normdfdp i
    normdata := fun i => if i = s.nnorm then data else s.normdata i
    normweight := fun i => if i = s.nnorm then weight else s.normweight i }

/-- `BaseFitter.getDesign` 691-716: row `i`, column `a`. -/
def getDesign (m : Lin X) (d : Data X) (s : Fitter) (index : List ℤ) (i a : ℕ) : ℝ :=
  let k := pyIdx m.np (index.getD a 0)
  if i < d.n then m.part (d.x i) k else s.normdfdp (i - d.n) k

/-- The weights with those of `normalize` appended, `BaseFitter.getHessian` 587-592. -/
def allWgts (d : Data X) (s : Fitter) (i : ℕ) : ℝ :=
  if i < d.n then d.fitWgts i else s.normweight (i - d.n)

/-- `BaseFitter.getHessian` 561-601. -/
def getHessian (m : Lin X) (d : Data X) (s : Fitter) (index : List ℤ) (a b : ℕ) : ℝ :=
  ∑ i ∈ range (d.n + s.nnorm),
    getDesign m d s index i a * (getDesign m d s index i b * allWgts d s i)

/-- `BaseFitter.getVector` 539-558. -/
def getVector (m : Lin X) (d : Data X) (s : Fitter) (index : List ℤ) (yd : ℕ → ℝ) (a : ℕ) : ℝ :=
  ∑ i ∈ range (d.n + s.nnorm), getDesign m d s index i a * yd i

/-- `fxpar`, `Fitter.py` 140-141. -/
def zeroed (np : ℕ) (params : ℕ → ℝ) (index : List ℤ) (k : ℕ) : ℝ :=
  if k ∈ index.map (pyIdx np) then 0 else params k

/-- `BaseFitter.chiSquared` 719-747. -/
def chiSquared (m : Lin X) (d : Data X) (p : ℕ → ℝ) : ℝ :=
  ∑ i ∈ range d.n, (d.y i - m.result (d.x i) p) ^ 2 * d.fitWgts i

/-- `Fitter.fit` 96-159. -/
def fit (solve : ℕ → (ℕ → ℕ → ℝ) → (ℕ → ℝ) → Option (ℕ → ℝ)) (m : Lin X) (d : Data X) (s : Fitter)
    (keep : Option (List (ℤ × ℝ))) : Option Fitter :=
  let (fi, s) := fitprolog m.np s keep
  let hessian := getHessian m d s fi
  let fxpar := zeroed m.np s.params fi
  let ydatacopy := fun i => d.y i - m.result (d.x i) fxpar
  let ydatacopy := fun i =>
    if i < d.n then ydatacopy i * d.fitWgts i
    else s.normdata (i - d.n) * s.normweight (i - d.n)
  let vector := getVector m d s fi ydatacopy
  (solve fi.length hessian vector).map fun params =>
    { s with params := insertParameters m.np s.params params fi }

/-- The state of the QR fitter: `needsNewDecomposition` and `qrmat`. -/
structure Qr where
  base : Fitter
  needs : Bool
  qrmat : ℕ → ℕ → ℝ

/-- `QRFitter.fit` 118-182. `sqrt` of the weights of normalize (159) is a parameter. -/
def qrFit (qr : ℕ → ℕ → (ℕ → ℕ → ℝ) → (ℕ → ℕ → ℝ) × (ℕ → ℕ → ℝ))
    (inv : ℕ → (ℕ → ℕ → ℝ) → Option (ℕ → ℕ → ℝ)) (sqrt : ℝ → ℝ)
    (m : Lin X) (d : Data X) (q : Qr) (keep : Option (List (ℤ × ℝ))) : Option Qr :=
  let (fi, s) := fitprolog m.np q.base keep
  let fxpar := zeroed m.np s.params fi
  let ydatacopy := fun i =>
    if i < d.n then d.y i - m.result (d.x i) fxpar else s.normdata (i - d.n)
  let wgts := fun i => if i < d.n then d.fitWgts i else sqrt (s.normweight (i - d.n))
  let ydatacopy := fun i => ydatacopy i * wgts i
  let rows := d.n + s.nnorm
  let qrmat : Option (ℕ → ℕ → ℝ) :=
    if q.needs || d.weights.isSome then
      let design := fun i a => getDesign m d s fi i a * wgts i
      let (qm, r) := qr rows fi.length design
      (inv fi.length r).map fun ri => fun a i => ∑ b ∈ range fi.length, ri a b * qm i b
    else some q.qrmat
  qrmat.map fun M =>
    let params := fun a => ∑ i ∈ range rows, M a i * ydatacopy i
    ⟨{ s with params := insertParameters m.np s.params params fi }, false, M⟩

end BF.Fitters
