import Verif.BSplines

/-!
# Knots and matrices for interpolation

Models `splinelab.py` and the derivatives of any order in `bspline.py`.

Simplifications: floats are reals; arrays of one axis only, so that the checks on `ndim` never raise. `none` is a raised
exception. `cast` is what storing in an array of the type of the sites does: nothing for floats, cutting off the decimals
for integers.
-/

noncomputable section

namespace BF.SplineLab

open BF.BSplines

/-- `Bspline.__diff_internal`, `bspline.py` 190-225. -/
def split (b : Bspline) : List (List ℝ × Bspline) :=
  let p : ℝ := (b.order : ℝ)
  let n := b.knots.length - b.order - 1
  [((List.range n).map fun i =>
      let denom1 := b.t (i + b.order) - b.t i
      if denom1 ≠ 0 then p / denom1 else 0, { knots := b.knots.dropLast, order := b.order - 1, last := false }),
    ((List.range n).map fun i =>
      let denom2 := b.t (i + b.order + 1) - b.t (i + 1)
      if denom2 ≠ 0 then -p / denom2 else 0, { knots := b.knots.tail, order := b.order - 1, last := false })]

/-- The list `terms` after `k` rounds of the loop in `Bspline.diff`, `bspline.py` 256-261. -/
def terms (b : Bspline) : ℕ → List (List ℝ × Bspline)
  | 0 => [(List.replicate (b.knots.length - b.order - 1) 1, b)]
  | k + 1 => (terms b k).flatMap fun u => (split u.2).map fun v => (List.zipWith (· * ·) u.1 v.1, v.2)

/-- `Bspline.diff` of any order, `bspline.py` 228-264, called at `xi`. -/
def diffN (b : Bspline) (order : ℕ) (xi : ℝ) : List ℝ :=
  if order = 0 then b.call xi
  else if order > b.order then List.replicate (b.call 0).length 0
  else
    (List.range (b.call 0).length).map fun i =>
      ((terms b order).map fun u => u.1.getD i 0 * (u.2.call xi).getD i 0).sum

/-- `aveknt`, `splinelab.py` 51-79; an average of no elements is a division by zero. -/
def aveknt (cast : ℝ → ℝ) (t : List ℝ) (k : ℕ) : Option (List ℝ) :=
  let u := t.length + 1 - k
  if k = 0 ∧ 0 < u then none
  else some ((List.range u).map fun j => cast (((t.drop j).take k).sum / k))

/-- The test of `aptknt` on the order of the sites, `splinelab.py` 124-125. -/
def nondecreasing (tau : List ℝ) : Prop := tau.Pairwise (· ≤ ·)

open Classical in
/-- `aptknt`, `splinelab.py` 82-146. -/
def aptknt (cast : ℝ → ℝ) (tau : List ℝ) (order : ℕ) : Option (List ℝ) :=
  let k := if tau.length < order + 1 then tau.length else order + 1
  if ¬ nondecreasing tau then none
  else if ∃ i, i < tau.length - k ∧ tau.getD (i + k - 1) 0 = tau.getD i 0 then none
  else
    match tau.head?, tau.getLast? with
    | some first, some last =>
      (aveknt cast tau.tail.dropLast (k - 1)).map fun middle =>
        List.replicate k first ++ middle ++ List.replicate k last
    | _, _ => none

open Classical in
/-- The loop of `knt2mlt`, `splinelab.py` 172-183, with the variables `e` and `count`. -/
def multLoop : Option ℝ → ℕ → List ℝ → List ℕ
  | _, _, [] => []
  | e, count, x :: t => if some x ≠ e then 0 :: multLoop (some x) 0 t else (count + 1) :: multLoop e (count + 1) t

/-- `knt2mlt`, `splinelab.py` 149-183. -/
def knt2mlt (t : List ℝ) : List ℕ := multLoop none 0 t

/-- `spcol`, `splinelab.py` 186-221. -/
def spcol (knots : List ℝ) (order : ℕ) (tau : List ℝ) : List (List ℝ) :=
  (tau.zip (knt2mlt tau)).map fun item =>
    diffN { knots := knots, order := order, last := false } item.2 item.1

end BF.SplineLab
