import Mathlib.Data.Real.Basic

/-!
# ProductModel

Models `ProductModel.py` 73-182: a product of one dimensional models, each on its own coordinate.

Simplifications: one data point; each component is given by its number of parameters, its result and its
list of partials at that number of parameters.
-/

noncomputable section

namespace BF.Product

/-- A one dimensional component: `npchain`, `result` and `partial`. -/
structure Comp where
  np : ℕ
  res : ℝ → List ℝ → ℝ
  par : ℝ → List ℝ → List ℝ

/-- The number of parameters, `ProductModel.__init__` 102-106. -/
def npars (ms : List Comp) : ℕ := ms.foldl (fun np m => np + m.np) 0

/-- The loop of `baseResult` 145-148; `none` is the IndexError of a missing coordinate. -/
def resLoop (xs params : List ℝ) : List Comp → ℕ → ℕ → ℝ → Option ℝ
  | [], _, _, res => some res
  | m :: ms, k, n, res =>
      match xs[k]? with
      | none => none
      | some x => resLoop xs params ms (k + 1) (n + m.np)
          (res * m.res x ((params.take (n + m.np)).drop n))

/-- `baseResult` 127-149. -/
def baseResult (ms : List Comp) (xs params : List ℝ) : Option ℝ := resLoop xs params ms 0 0 1

/-- The loop of `basePartial` 173-181. -/
def parLoop (xs params : List ℝ) : List Comp → ℕ → ℕ → ℝ → List ℝ → Option (List ℝ)
  | [], _, _, _, part => some part
  | m :: ms, k, n, res, part =>
      match xs[k]? with
      | none => none
      | some xk =>
          let x := m.res xk ((params.take (n + m.np)).drop n)
          let part := part.map (· * x)
          let p := (m.par xk ((params.take (n + m.np)).drop n)).map (res * ·)
          parLoop xs params ms (k + 1) (n + m.np) (res * x) (part ++ p)

/-- `basePartial` 152-182. The argument `parlist` is not used by the code. -/
def basePartial (ms : List Comp) (xs params : List ℝ) : Option (List ℝ) :=
  parLoop xs params ms 0 0 1 []

end BF.Product
