import Mathlib.Analysis.SpecialFunctions.Exp
import Mathlib.Analysis.SpecialFunctions.Trigonometric.Arctan

/-!
# The softmax model and its neural net utilities

Models `SoftMaxModel.py` and `NeuralNetUtilities.py`.

Simplifications: floats are reals, so `numpy.exp` does not overflow; one row of `xdata` is taken: `x k` is input
`k`. The results are indexed by the output, the partials by the output and the parameter.
-/

noncomputable section

namespace BF.SoftMax

open Finset

/-- The attributes set in `SoftMaxModel.__init__` 87-138. -/
structure Spec where
  ndim : ℕ
  ndout : ℕ
  offset : Bool
  normed : Bool

/-- `nraster`, `NeuralNetUtilities.py` 100, and `in2out`, `SoftMaxModel.py` 109. -/
def Spec.nraster (s : Spec) : ℕ := s.ndim * s.ndout

/-- The number of parameters, `SoftMaxModel.py` 109-115. -/
def Spec.np (s : Spec) : ℕ := if s.offset then s.nraster + s.ndout else s.nraster

/-! ## Layers -/

/-- `Connect.result`, `NeuralNetUtilities.py` 104-118; the parameters are reshaped to rows of length `ndim`. -/
def connectResult (s : Spec) (x p : ℕ → ℝ) (n : ℕ) : ℝ := ∑ k ∈ range s.ndim, x k * p (n * s.ndim + k)

/-- `Connect.partial`, `NeuralNetUtilities.py` 120-132: the loop over the outputs, with the running index `i2o`. -/
def connectLoop (s : Spec) (x : ℕ → ℝ) : ℕ → (ℕ → ℕ → ℝ) × ℕ
  | 0 => (fun _ _ => 0, 0)
  | n + 1 =>
    let l := connectLoop s x n
    (fun a j => if a = n ∧ l.2 ≤ j ∧ j < l.2 + s.ndim then x (j - l.2) else l.1 a j, l.2 + s.ndim)

/-- `Connect.partial`. -/
def connectPartial (s : Spec) (x : ℕ → ℝ) : ℕ → ℕ → ℝ := (connectLoop s x s.ndout).1

/-- `Connect.derivative`, `NeuralNetUtilities.py` 136-147. -/
def connectDerivative (s : Spec) (p : ℕ → ℝ) (n k : ℕ) : ℝ := p (n * s.ndim + k)

/-- `raster.result`: of `Connect` or of `ConnectWithBias`, `NeuralNetUtilities.py` 159-160. -/
def rasterResult (s : Spec) (x p : ℕ → ℝ) (n : ℕ) : ℝ :=
  if s.offset then connectResult s x p n + p (s.nraster + n) else connectResult s x p n

/-- `raster.partial`: of `Connect` or of `ConnectWithBias`, `NeuralNetUtilities.py` 162-172. -/
def rasterPartial (s : Spec) (x : ℕ → ℝ) (n j : ℕ) : ℝ :=
  if s.offset then
    if j < s.nraster then connectPartial s x n j
    else if j - s.nraster = n then 1 else 0
  else connectPartial s x n j

/-- `raster.derivative`, `NeuralNetUtilities.py` 136-147 and 174-175. -/
def rasterDerivative (s : Spec) (p : ℕ → ℝ) (n k : ℕ) : ℝ := connectDerivative s p n k

/-! ## Transfer functions -/

/-- `Logistic.result`, `NeuralNetUtilities.py` 235-236. -/
def logistic (r : ℝ) : ℝ := 1 / (1 + Real.exp (-r))

/-- `Logistic.derivative`, `NeuralNetUtilities.py` 238-240. -/
def logisticDerivative (r : ℝ) : ℝ := Real.exp r / (1 + Real.exp r) ^ 2

/-- `Arctan.derivative`, `NeuralNetUtilities.py` 214-215. -/
def arctanDerivative (r : ℝ) : ℝ := 1 / (1 + r * r)

/-- `Heaviside.result`, `NeuralNetUtilities.py` 256-257. -/
def heaviside (r : ℝ) : ℝ := if r ≥ 0 then 1 else 0

/-- `Softmax.result`, `NeuralNetUtilities.py` 278-281. -/
def softmax (nd : ℕ) (r : ℕ → ℝ) (n : ℕ) : ℝ := Real.exp (r n) / ∑ i ∈ range nd, Real.exp (r i)

/-- `Softmax.derivative`, `NeuralNetUtilities.py` 283-298: of output `k` to input `n`; the diagonal is written last. -/
def softmaxDerivative (nd : ℕ) (r : ℕ → ℝ) (k n : ℕ) : ℝ :=
  let f : ℕ → ℝ := fun n => Real.exp (r n)
  let norm := ∑ i ∈ range nd, f i
  let n2 := norm * norm
  if k = n then (norm - f n) * f n / n2 else -(f k * f n / n2)

/-! ## The model -/

/-- `SoftMaxModel.baseResult` 145-161: the transfer function as chosen in 122-128. -/
def Spec.result (s : Spec) (x p : ℕ → ℝ) (n : ℕ) : ℝ :=
  if s.normed then
    if s.ndout = 1 then logistic (rasterResult s x p n) else softmax s.ndout (rasterResult s x p) n
  else rasterResult s x p n

/-- The methods `pipe`: of the base class (`NeuralNetUtilities.py` 54-65) for Softmax, of Logistic (242-248) and of
Identity (200-202). `drd` is the derivative of the layer to something. -/
def Spec.pipe (s : Spec) (r : ℕ → ℝ) (drd : ℕ → ℕ → ℝ) (n j : ℕ) : ℝ :=
  if s.normed then
    if s.ndout = 1 then logisticDerivative (r n) * drd n j
    else ∑ i ∈ range s.ndout, softmaxDerivative s.ndout r n i * drd i j
  else drd n j

/-- `SoftMaxModel.basePartial` 163-183, of output `n` to parameter `j`; `parlist` is not used. -/
def Spec.partials (s : Spec) (x p : ℕ → ℝ) (_parlist : Option (List ℕ)) (n : ℕ) : List ℝ :=
  (List.range s.np).map fun j => s.pipe (rasterResult s x p) (rasterPartial s x) n j

/-- `SoftMaxModel.baseDerivative` 185-208, of output `n` to input `k`. -/
def Spec.derivative (s : Spec) (x p : ℕ → ℝ) (n k : ℕ) : ℝ :=
  s.pipe (rasterResult s x p) (rasterDerivative s p) n k

end BF.SoftMax
