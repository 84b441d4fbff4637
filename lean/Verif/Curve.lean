import Verif.LM
import Mathlib.Data.EReal.Basic

/-!
# The curve fitter

Models `CurveFitter.py` 83-222: a fit by `scipy.optimize.curve_fit`.

Simplifications: as in `Verif.Fitters` and `Verif.LM`. `curve_fit` is a parameter; what is asked of it is in `CurveSpec`.
It gets the numbers of rows and of parameters, the function and its jacobian, the data, sigma, the initial parameters
and the bounds. An exception is `none`. `fitprolog` never returns None for the weights, so lines 121-123 are dead.
`inipar` is an array. Reports and plots are left out, as is the ValueError of `chiSquared` after the fit.
-/

noncomputable section

namespace BF.Curve

open Finset BF.Fitters BF.LM

/-- The argument `bounds` of `curve_fit`: two numbers, or two arrays. -/
inductive Bounds
  | scalars (lo hi : EReal)
  | arrays (lo hi : List EReal)

/-- The lower bound of parameter `k`. -/
def Bounds.low : Bounds → ℕ → EReal
  | .scalars lo _, _ => lo
  | .arrays lo _, k => lo.getD k ⊥

/-- The upper bound of parameter `k`. -/
def Bounds.high : Bounds → ℕ → EReal
  | .scalars _ hi, _ => hi
  | .arrays _ hi, k => hi.getD k ⊤

/-- `scipy.optimize.curve_fit`. -/
abbrev CurveFit := ℕ → ℕ → ((ℕ → ℝ) → ℕ → ℝ) → ((ℕ → ℝ) → ℕ → ℕ → ℝ) → (ℕ → ℝ) → (ℕ → ℝ) → (ℕ → ℝ) → Bounds →
  Option (ℕ → ℝ)

variable {X : Type*}

/-- 124-127 and 148-155: sigma. -/
def sigma (d : Data X) (s : Fitter) (i : ℕ) : ℝ :=
  let w := fun i => if d.fitWgts i = 0 then 1e-20 else d.fitWgts i
  let sg := fun i => 1 / √(w i)
  let ms := (((List.range d.n).map sg).min?).getD 0
  let nw := fun j => if s.normweight j = 0 then ms / 1e10 else s.normweight j
  if i < d.n then sg i else 1.0 / √(nw (i - d.n))

/-- The data, 146-149. -/
def ydat (d : Data X) (s : Fitter) (i : ℕ) : ℝ := if i < d.n then d.y i else s.normdata (i - d.n)

/-- `self.insertParameters( params )` without index: that of `self.fitIndex`. -/
def inserted (np : ℕ) (s : Fitter) (q : ℕ → ℝ) : ℕ → ℝ :=
  match s.fitIndex with
  | none => q
  | some idx => insertParameters np s.params q idx

/-- `result` 187-205. -/
def result (m : Nl X) (d : Data X) (s : Fitter) (q : ℕ → ℝ) (i : ℕ) : ℝ :=
  let p := inserted m.np s q
  if i < d.n then m.result (d.x i) p else ∑ k ∈ range m.np, s.normdfdp (i - d.n) k * p k

/-- `jacobian` 207-222. -/
def jacobian (m : Nl X) (d : Data X) (s : Fitter) (q : ℕ → ℝ) (i a : ℕ) : ℝ :=
  let p := inserted m.np s q
  match s.fitIndex with
  | none => if i < d.n then m.part (d.x i) p a else s.normdfdp (i - d.n) a
  | some idx => design m d s p idx i a

/-- `fit` 83-174. `limits` are those of the call, `prior` those of the model. -/
def fit (cf : CurveFit) (m : Nl X) (d : Data X) (s : Fitter) (inipar : Option (ℕ → ℝ))
    (keep : Option (List (ℤ × ℝ))) (limits prior : Option Bounds) : Option Fitter :=
  let (fi, s) := fitprolog m.np s keep
  let sg := sigma d s
  let bounds := match limits with
    | some b => b
    | none =>
      match prior with
      | some b => b
      | none => .scalars ⊥ ⊤
  let s := match keep with
    | some k =>
      let r := keepFixed m.np s (some k)
      { r.2 with fitIndex := r.1 }
    | none => s
  let p0 := fun a => inipar.getD s.params (pyIdx m.np (fi.getD a 0))
  (cf (d.n + s.nnorm) fi.length (result m d s) (jacobian m d s) (ydat d s) sg p0 bounds).map fun q =>
    { s with params := insertParameters m.np s.params q fi }

end BF.Curve
