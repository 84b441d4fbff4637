import Mathlib.Data.List.Basic
import Mathlib.Algebra.BigOperators.Group.List.Basic

/-!
# Images: from pixels to a list of positions and back

Models `ImageAssistant.py` 78-188. An image is a shape (`List ℕ`, the slowest index first) and a function
on the multi-indices.

Simplifications:
* `numpy.reshape` is modelled as numpy documents it: the list is read in C order (last index fastest) or
  in Fortran order (first index fastest).
* For images of rank 1 `getIndices` returns a flat array (117); here it is an array of rows of one.
* `getPositions` (132-159) adds 0.5 to the indices; `deproject` is left out.
* The argument `order` of `getIndices` and `getPositions` is not used by the code either.
-/

namespace BF.Images

/-- The attribute `order`, 90. -/
inductive Order
  | C | F
  deriving DecidableEq

/-- The loop 123-128 for the row of pixel `i`: `dd` is the product of the dimensions done, the list holds
the dimensions that are left, the last one first. The fastest index comes first. -/
def digits (i : ℕ) : ℕ → List ℕ → List ℕ
  | _, [] => []
  | dd, n :: ns => ((i / dd) % n) :: digits i (dd * n) ns

/-- One row of `kdata`, 119-128: for order C the columns are filled from the last to the first one, for
order F from the first to the last. -/
def row (o : Order) (shape : List ℕ) (i : ℕ) : List ℕ :=
  match o with
  | .C => (digits i 1 shape.reverse).reverse
  | .F => digits i 1 shape.reverse

/-- `getIndices` 93-130; `size` is the product of the shape (113). -/
def getIndices (o : Order) (shape : List ℕ) : List (List ℕ) :=
  (List.range shape.prod).map (row o shape)

/-- The offset of an element in memory: the first index is the slowest. -/
def ravel : List ℕ → List ℕ → ℕ
  | n :: ns, k :: ks => k * ns.prod + ravel ns ks
  | _, _ => 0

/-- The offset for either order, in numpy's definition. -/
def offset (o : Order) (shape idx : List ℕ) : ℕ :=
  match o with
  | .C => ravel shape idx
  | .F => ravel shape.reverse idx.reverse

/-- All multi-indices with the last index fastest. -/
def pixels : List ℕ → List (List ℕ)
  | [] => [[]]
  | n :: ns => (List.range n).flatMap fun k => (pixels ns).map (k :: ·)

/-- The order in which `numpy.reshape` reads the elements. -/
def reading (o : Order) (shape : List ℕ) : List (List ℕ) :=
  match o with
  | .C => pixels shape
  | .F => (pixels shape.reverse).map List.reverse

/-- `getydata` 162-171. -/
def getydata {α : Type*} (o : Order) (shape : List ℕ) (img : List ℕ → α) : List α :=
  (reading o shape).map img

/-- `resizeData` 173-188, as a function on the multi-indices; a ValueError (not modelled as such) when
the length differs from the size. -/
def resizeData {α : Type*} (o : Order) (shape : List ℕ) (res : List α) (idx : List ℕ) : Option α :=
  res[offset o shape idx]?

end BF.Images
