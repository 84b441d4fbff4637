import Verif.Poly

/-!
# The basic splines model

Models `BasicSplinesModel.py` with `border=0`: the construction of the basis 180-232, 275-448 and the result,
partial and derivative 451-583.

Simplifications: floats are reals; one x is taken of `xdata`. `numpy.linalg.solve` is an argument; a
`LinAlgError` is `none`. Arrays are functions of the index, where the sizes are known. Not modelled: the periodic
borders, the spreading of knots over a range, copies.
-/

noncomputable section

namespace BF.BasicSplines

open BF.Poly Finset

/-- The attributes that are set by the constructor, `BasicSplinesModel.py` 158-170. -/
structure Spec where
  order : ℕ
  knots : List ℝ

/-- The number of parameters, `BasicSplinesModel.py` 161-162. -/
def Spec.npmax (m : Spec) : ℕ := m.knots.length + m.order - 1

/-- A linear solver. -/
abbrev Solver := ℕ → (ℕ → ℕ → ℝ) → (ℕ → ℝ) → Option (ℕ → ℝ)

/-! ## numpy -/

/-- `numpy.arange( k0 )` as floats. -/
def arange (k0 : ℕ) : List ℝ := (List.range k0).map fun j : ℕ => (j : ℝ)

/-- `numpy.power( x, kdf )`, with `kdf = numpy.arange( k0 )`. -/
def power (x : ℝ) (k0 : ℕ) : List ℝ := (List.range k0).map fun j : ℕ => x ^ j

/-- `numpy.roll( l, s )`. -/
def roll (l : List ℝ) (s : ℕ) : List ℝ :=
  (List.range l.length).map fun j => l.getD ((j + l.length - s % l.length) % l.length) 0

/-- Element-wise multiplication. -/
def mul (a b : List ℝ) : List ℝ := List.zipWith (· * ·) a b

/-- Assignment to part of a row of a matrix: `row[i:i+len(l)] = l`. -/
def place (i : ℕ) (l : List ℝ) (row : ℕ → ℝ) : ℕ → ℝ := fun c =>
  if i ≤ c ∧ c < i + l.length then l.getD (c - i) 0 else row c

/-! ## The parameters of one blob -/

/-- The values of `xx` and `ff` after `k` turns of the loops at 373-377, 399-405 and 415-420. -/
def turn (k0 : ℕ) (x : ℝ) : ℕ → List ℝ × List ℝ
  | 0 => (power x k0, List.replicate k0 1)
  | k + 1 =>
    let s := turn k0 x k
    (roll s.1 1, mul s.2 (roll (arange k0) k))

/-- `xx * ff` in turn `k`. -/
def diffRow (k0 : ℕ) (x : ℝ) (k : ℕ) : List ℝ := mul (turn k0 x k).1 (turn k0 x k).2

/-- `ne1`, `BasicSplinesModel.py` 372. -/
def Spec.ne1 (m : Spec) (kpar : ℕ) : ℕ := min m.order kpar

/-- The rows of the left edge, `BasicSplinesModel.py` 373-377. -/
def Spec.leftRows (m : Spec) (kpar : ℕ) : List (ℕ → ℝ) :=
  (List.range (m.ne1 kpar)).map fun n => place 0 (diffRow (m.order + 1) 0 n) fun _ => 0

/-- The rows of the other knots, `BasicSplinesModel.py` 387-408; `len` is the length of `knotix`. -/
def Spec.innerRows (m : Spec) (len : ℕ) (dist : ℕ → ℝ) : List (ℕ → ℝ) :=
  let k0 := m.order + 1
  (List.range (len - 2)).flatMap fun ks =>
    (List.range m.order).map fun k =>
      let i := ks * k0
      place (i + k0) ((diffRow k0 0 k).map fun v => -v) (place i (diffRow k0 (dist ks) k) fun _ => 0)

/-- The rows of the right edge, `BasicSplinesModel.py` 411-420: as many as are left. -/
def Spec.rightRows (m : Spec) (len : ℕ) (dist : ℕ → ℝ) (n : ℕ) : List (ℕ → ℝ) :=
  let k0 := m.order + 1
  let np := (len - 1) * k0
  (List.range (np - 1 - n)).map fun k => place ((len - 2) * k0) (diffRow k0 (dist (len - 2)) k) fun _ => 0

/-- The last row, for the normalization: `BasicSplinesModel.py` 380-381, 393 and 428-433. -/
def Spec.lastRow (m : Spec) (len : ℕ) (dist : ℕ → ℝ) (kpar : ℕ) : ℕ → ℝ :=
  let k0 := m.order + 1
  let np := (len - 1) * k0
  let i := (len - 2) * k0
  let r : ℕ → ℝ := if m.ne1 kpar = 0 then place 0 (power 0 k0) fun _ => 0 else fun _ => 0
  let r := (List.range (len - 2)).foldl (fun r ks => place (ks * k0) (power (dist ks) k0) r) r
  if 0 < kpar then
    if len = 2 then
      let cc := ((np - kpar) * m.knots.getD 0 0 + kpar * m.knots.getD 1 0) / np
      place i (power cc k0) r
    else place i [1] r
  else r

/-- `BasicSplinesModel.findParameters` 331-448. -/
def Spec.findParameters (solve : Solver) (m : Spec) (len : ℕ) (dist : ℕ → ℝ) (kpar : ℕ) : Option (ℕ → ℝ) :=
  let k0 := m.order + 1
  let np := (len - 1) * k0
  let head := m.leftRows kpar ++ m.innerRows len dist
  let rows := head ++ m.rightRows len dist head.length
  let last := m.lastRow len dist kpar
  let mat (last : ℕ → ℝ) : ℕ → ℕ → ℝ := fun r c => if r = np - 1 then last c else rows.getD r (fun _ => 0) c
  let beta : ℕ → ℝ := fun r => if r = np - 1 then 1 else 0
  match solve np (mat last) beta with
  | some p => some p
  | none => solve np (mat (place (np - 1) [1] last)) beta

/-! ## The basis -/

/-- `lo` and `hi` in turn `k` of the loop `BasicSplinesModel.py` 212-217. -/
def Spec.window (m : Spec) : ℕ → ℕ × ℕ
  | 0 => (if 0 ≥ m.order + 1 then 1 else 0, if 1 < m.knots.length then 2 else 1)
  | k + 1 =>
    let w := m.window k
    (if k + 1 ≥ m.order + 1 then w.1 + 1 else w.1, if w.2 < m.knots.length then w.2 + 1 else w.2)

/-- `BasicSplinesModel.makeDist` 234-235. -/
def Spec.dist (m : Spec) (lo : ℕ) (ks : ℕ) : ℝ := m.knots.getD (lo + ks + 1) 0 - m.knots.getD (lo + ks) 0

/-- The parameters of blob `k`, `BasicSplinesModel.py` 219-223. -/
def Spec.blobPar (solve : Solver) (m : Spec) (k : ℕ) : Option (ℕ → ℝ) :=
  let w := m.window k
  m.findParameters solve (w.2 - w.1) (m.dist w.1) k

/-- `BasicSplinesModel.makeBaseBasis` 201-226, before the normalization: piece `q`, power `j`, parameter `k`. -/
def Spec.rawBasis (solve : Solver) (m : Spec) : Option (ℕ → ℕ → ℕ → ℝ) :=
  if (List.range m.npmax).all fun k => (m.blobPar solve k).isSome then
    some fun q j k =>
      let w := m.window k
      if w.1 ≤ q ∧ q + 1 < w.2 then ((m.blobPar solve k).getD fun _ => 0) ((q - w.1) * (m.order + 1) + j) else 0
  else none

/-- `BasicSplinesModel.makeKnotIndices` 516-529. -/
def Spec.knotIndex (m : Spec) (x : ℝ) : ℕ :=
  m.knots.tail.dropLast.foldl (fun ix kn => if x ≥ kn then ix + 1 else ix) 0

/-- `BasicSplinesModel.basicBlob` 532-556: `degree` is that of the polynomial. -/
def Spec.basicBlob (m : Spec) (degree : ℕ) (b : ℕ → ℕ → ℝ) (x : ℝ) : ℝ :=
  let k := m.knotIndex x
  if ∀ j < degree + 1, b k j = 0 then 0
  else polyResult degree (x - m.knots.getD k 0) (b k)

/-- The points `xx` of `normalizeBasis`, `BasicSplinesModel.py` 290-318. -/
def Spec.points (m : Spec) (r : ℕ) : ℝ :=
  let nk := m.knots.length
  let np := m.npmax
  let t : ℕ → ℝ := fun i => m.knots.getD i 0
  let xmid : ℕ → ℝ := fun i => if m.order % 2 = 0 then (t (i + 1) + t i) / 2 else t (i + 1)
  if m.order = 0 then xmid r
  else if nk = 2 then t 0 + r * (t 1 - t 0) / ((np - 1 : ℕ) : ℝ)
  else
    let n := np - nk
    let ds := (t 1 - t 0) / n
    let de := (t (nk - 1) - t (nk - 2)) / n
    let ne := n / 2
    if r = 0 then t 0
    else if r = np - 1 then t (nk - 1)
    else if r < 1 + ne then t 0 + r * ds
    else if np - 1 - ne ≤ r then t (nk - 1) - ((np - 1 - r : ℕ) : ℝ) * de
    else xmid (r - 1 - ne)

/-- `BasicSplinesModel.normalizeBasis` 275-328. -/
def Spec.normalizeBasis (solve : Solver) (m : Spec) (basis : ℕ → ℕ → ℕ → ℝ) : Option (ℕ → ℕ → ℕ → ℝ) :=
  let mat : ℕ → ℕ → ℝ := fun r k => m.basicBlob m.order (fun q j => basis q j k) (m.points r)
  (solve m.npmax mat fun _ => 1).map fun bpar q j k => basis q j k * bpar k

/-- `BasicSplinesModel.makeBaseBasis` 201-232. -/
def Spec.makeBasis (solve : Solver) (m : Spec) : Option (ℕ → ℕ → ℕ → ℝ) :=
  (m.rawBasis solve).bind (m.normalizeBasis solve)

/-! ## The model -/

/-- `BasicSplinesModel.baseResult` 451-475. -/
def Spec.result (m : Spec) (basis : ℕ → ℕ → ℕ → ℝ) (x : ℝ) (p : ℕ → ℝ) : ℝ :=
  let k := m.knotIndex x
  polyResult m.order (x - m.knots.getD k 0) fun j => ∑ n ∈ range m.npmax, basis k j n * p n

/-- `BasicSplinesModel.basePartial` 478-506, with parlist None. -/
def Spec.partials (m : Spec) (basis : ℕ → ℕ → ℕ → ℝ) (x : ℝ) : List ℝ :=
  (List.range m.npmax).map fun k => m.basicBlob m.order (fun q j => basis q j k) x

/-- `BasicSplinesModel.baseDerivative` 558-583. -/
def Spec.derivative (m : Spec) (basis : ℕ → ℕ → ℕ → ℝ) (x : ℝ) (p : ℕ → ℝ) : ℝ :=
  if m.order = 0 then 0
  else
    (List.range m.npmax).foldl (fun dfdx n =>
      dfdx + m.basicBlob (m.order - 1) (fun q j => basis q (j + 1) n * ((j + 1 : ℕ) : ℝ)) x * p n) 0

end BF.BasicSplines
