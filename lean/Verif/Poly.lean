import Mathlib.Data.Real.Basic
import Mathlib.Analysis.SpecialFunctions.Trigonometric.Basic

/-!
# The models with a variable number of parameters

Models `PolynomialModel`, `ChebyshevPolynomialModel`, `HarmonicModel`, `PolySineAmpModel`, `PadeModel` and
`PolySurfaceModel`, and the result of linear models.

Simplifications: floats are reals; all is element-wise in `xdata`, so one x (or one pair x,y) is taken. Parameters
are a function of the index. A division by zero gives 0, where numpy gives inf or nan: the theorems exclude it.
-/

noncomputable section

namespace BF.Poly

/-- `LinearModel.baseResult` 91-115, for one row of partials. -/
def linearResult (p : ℕ → ℝ) (part : List ℝ) : ℝ :=
  (part.zipIdx).foldl (fun res c => res + p c.2 * c.1) 0

/-- The loop that multiplies by x, `PolynomialModel.py` 127-129, from the value `v` on. -/
def powers : ℕ → ℝ → ℝ → List ℝ
  | 0, _, _ => []
  | n + 1, v, x => v :: powers n (v * x) x

/-- `PolynomialModel.basePartial` 107-134, with parlist None; `npmax` is degree + 1 (89). -/
def polyPartial (degree : ℕ) (x : ℝ) : List ℝ := powers (degree + 1) 1 x

/-- The result of a `PolynomialModel`. -/
def polyResult (degree : ℕ) (x : ℝ) (p : ℕ → ℝ) : ℝ := linearResult p (polyPartial degree x)

/-- `PolynomialModel.baseDerivative` 136-154. -/
def polyDerivative (degree : ℕ) (x : ℝ) (p : ℕ → ℝ) : ℝ :=
  if degree + 1 ≤ 1 then 0
  else
    let q : ℕ → ℝ := fun k => p k * k
    polyResult (degree + 1 - 2) x (fun k => q (1 + k))

/-- The loop of `ChebyshevPolynomialModel.py` 143-144: `b` is `part[:,i-1]` and `a` is `part[:,i-2]`. -/
def chebLoop (x : ℝ) : ℕ → ℝ → ℝ → List ℝ
  | 0, _, _ => []
  | n + 1, a, b => (2 * x * b - a) :: chebLoop x n b (2 * x * b - a)

/-- `ChebyshevPolynomialModel.basePartial` 117-148, with parlist None. -/
def chebPartial (degree : ℕ) (x : ℝ) : List ℝ :=
  let np := degree + 1
  if np ≥ 2 then 1 :: x :: chebLoop x (np - 2) 1 x else [1]

/-- The result of a `ChebyshevPolynomialModel`. -/
def chebResult (degree : ℕ) (x : ℝ) (p : ℕ → ℝ) : ℝ := linearResult p (chebPartial degree x)

/-- The loop of `ChebyshevPolynomialModel.py` 179-183; the first argument counts the turns. -/
def chebDerLoop (x : ℝ) (p : ℕ → ℝ) : ℕ → ℕ → ℝ → ℝ → ℝ → ℝ
  | 0, _, _, _, der => der
  | n + 1, i, um, uu, der =>
      let up := 2 * x * uu - um
      chebDerLoop x p n (i + 1) uu up (der + (i + 1) * up * p (i + 1))

/-- `ChebyshevPolynomialModel.baseDerivative` 150-184. -/
def chebDerivative (degree : ℕ) (x : ℝ) (p : ℕ → ℝ) : ℝ :=
  if degree + 1 ≤ 1 then 0
  else
    let np := degree + 1 - 1
    let um : ℝ := 1
    let der := um * p 1
    if np ≥ 2 then
      let uu := 2 * x
      let der := der + 2 * uu * p 2
      chebDerLoop x p (np - 2) 2 um uu der
    else der

/-- `HarmonicModel.basePartial` 125-155, with parlist None. -/
def harmonicPartial (order : ℕ) (period x : ℝ) : List ℝ :=
  let y := 2 * Real.pi * x / period
  (List.range (2 * order)).map fun kp =>
    let j : ℕ := 1 + kp / 2
    if kp % 2 = 0 then Real.cos (j * y) else Real.sin (j * y)

/-- The result of a `HarmonicModel`. -/
def harmonicResult (order : ℕ) (period x : ℝ) (p : ℕ → ℝ) : ℝ := linearResult p (harmonicPartial order period x)

/-- The loop of `HarmonicModel.py` 172-175: `k` goes up by 2 and `j` by 1; the first argument counts the turns. -/
def harmonicLoop (tp x : ℝ) (p : ℕ → ℝ) : ℕ → ℕ → ℕ → ℝ → ℝ
  | 0, _, _, df => df
  | n + 1, k, j, df =>
      harmonicLoop tp x p n (k + 2) (j + 1)
        (df + tp * (j + 1 : ℕ) * (p (k + 1) * Real.cos ((j + 1 : ℕ) * x) - p k * Real.sin ((j + 1 : ℕ) * x)))

/-- `HarmonicModel.baseDerivative` 157-176. -/
def harmonicDerivative (order : ℕ) (period x : ℝ) (p : ℕ → ℝ) : ℝ :=
  let tp := 2 * Real.pi / period
  harmonicLoop tp (tp * x) p order 0 0 0

/-- `PolySineAmpModel.basePartial` 126-153: the cosines come first, then the sines. -/
def polySinePartial (degree : ℕ) (frequency x y : ℝ) : List ℝ :=
  powers (degree + 1) (Real.cos (2 * Real.pi * frequency * x)) y ++
    powers (degree + 1) (Real.sin (2 * Real.pi * frequency * x)) y

/-- The result of a `PolySineAmpModel`. -/
def polySineResult (degree : ℕ) (frequency x y : ℝ) (p : ℕ → ℝ) : ℝ :=
  linearResult p (polySinePartial degree frequency x y)

/-- `PolySineAmpModel.baseDerivative` 155-179. -/
def polySineDerivative (degree : ℕ) (frequency x y : ℝ) (p : ℕ → ℝ) : ℝ × ℝ :=
  let np := degree + 1
  let tpf := 2 * Real.pi * frequency
  let cx := Real.cos (tpf * x)
  let sx := Real.sin (tpf * x)
  (tpf * (polyResult degree y (fun k => p (np + k)) * cx - polyResult degree y p * sx),
   polyDerivative degree y p * cx + polyDerivative degree y (fun k => p (np + k)) * sx)

/-- The loops of `PadeModel.py` 162-165 and 169-172: `n` turns from `k` on. -/
def padeLoop (x : ℝ) (p : ℕ → ℝ) : ℕ → ℕ → ℝ → ℝ → ℝ
  | 0, _, s, _ => s
  | n + 1, k, s, xx => padeLoop x p n (k + 1) (s + p k * xx) (xx * x)

/-- The numerator and the denominator in `PadeModel.py`, 159-172; `npmax` is num + den + 2. -/
def padeNum (num : ℕ) (x : ℝ) (p : ℕ → ℝ) : ℝ := padeLoop x p (num + 1) 0 0 1

@[inherit_doc padeNum]
def padeDen (num den : ℕ) (x : ℝ) (p : ℕ → ℝ) : ℝ := padeLoop x p (num + den + 2 - (num + 1)) (num + 1) 0 1

/-- `PadeModel.baseResult` 147-174. -/
def padeResult (num den : ℕ) (x : ℝ) (p : ℕ → ℝ) : ℝ := padeNum num x p / padeDen num den x p

/-- `PadeModel.basePartial` 176-221, with parlist None. -/
def padePartial (num den : ℕ) (x : ℝ) (p : ℕ → ℝ) : List ℝ :=
  let nm := padeNum num x p
  let dn := padeDen num den x p
  (powers (num + 1) 1 x).map (· / dn) ++ (powers (num + den + 2 - (num + 1)) 1 x).map (fun xx => -xx * nm / (dn * dn))

/-- The loops of `PadeModel.py` 243-247 and 252-256, which keep both the sum and its derivative: the factor is `k`
less the offset. -/
def padeDerLoop (x : ℝ) (p : ℕ → ℝ) (off : ℕ) : ℕ → ℕ → ℝ → ℝ → ℝ → ℝ × ℝ
  | 0, _, s, ds, _ => (s, ds)
  | n + 1, k, s, ds, xx =>
      padeDerLoop x p off n (k + 1) (s + p k * (xx * x)) (ds + ((k : ℝ) - off) * p k * xx) (xx * x)

/-- `PadeModel.baseDerivative` 223-258. -/
def padeDerivative (num den : ℕ) (x : ℝ) (p : ℕ → ℝ) : ℝ :=
  let a := padeDerLoop x p 0 num 1 (p 0 * 1) 0 1
  let b := padeDerLoop x p (num + 1) (num + den + 2 - (num + 2)) (num + 2) (p (num + 1) * 1) 0 1
  let nm := a.1
  let dnm := a.2
  let dn := b.1
  let ddn := b.2
  (dnm * dn - ddn * nm) / (dn * dn)

/-- The columns of degree `d` in `PolySurfaceModel.py` 143-154: upwards in powers of y, and then downwards in powers
of x. -/
def surfaceBlock (d : ℕ) (x y : ℝ) : List ℝ :=
  List.zipWith (· * ·) (powers (d + 1) 1 y) (powers (d + 1) 1 x).reverse

/-- `PolySurfaceModel.basePartial` 125-159, with parlist None. -/
def surfacePartial (degree : ℕ) (x y : ℝ) : List ℝ :=
  (List.range (degree + 1)).flatMap fun d => surfaceBlock d x y

/-- The result of a `PolySurfaceModel`. -/
def surfaceResult (degree : ℕ) (x y : ℝ) (p : ℕ → ℝ) : ℝ := linearResult p (surfacePartial degree x y)

/-- The loop of `PolySurfaceModel.py` 194-201 that makes `xindex` and `xfact`; `fuel` bounds the turns. -/
def xIndexLoop (np : ℕ) : ℕ → ℕ → ℕ → List (ℕ × ℕ)
  | 0, _, _ => []
  | fuel + 1, n, k =>
      if k < np then (List.range n).map (fun f => (k + f, n - f)) ++ xIndexLoop np fuel (n + 1) (k + n + 1) else []

/-- The loop of `PolySurfaceModel.py` 210-217 that makes `yindex` and `yfact`. -/
def yIndexLoop (np : ℕ) : ℕ → ℕ → ℕ → List (ℕ × ℕ)
  | 0, _, _ => []
  | fuel + 1, n, k =>
      if k < np then (List.range n).map (fun f => (k + f, f + 1)) ++ yIndexLoop np fuel (n + 1) (k + n + 1) else []

/-- The number of parameters of a `PolySurfaceModel` (101). -/
def surfaceCount (degree : ℕ) : ℕ := (degree + 2) * (degree + 1) / 2

/-- Parameters picked by an index and multiplied, `PolySurfaceModel.py` 225 and 230. -/
def pick (p : ℕ → ℝ) (l : List (ℕ × ℕ)) (k : ℕ) : ℝ :=
  match l[k]? with
  | some c => p c.1 * c.2
  | none => 0

/-- `PolySurfaceModel.baseDerivative` 161-233. -/
def surfaceDerivative (degree : ℕ) (x y : ℝ) (p : ℕ → ℝ) : ℝ × ℝ :=
  let np := surfaceCount degree
  if np ≤ 1 then (0, 0)
  else
    (surfaceResult (degree - 1) x y (pick p (xIndexLoop np np 1 1)),
     surfaceResult (degree - 1) x y (pick p (yIndexLoop np np 1 2)))

end BF.Poly
