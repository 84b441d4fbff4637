import Verif.Dynamic
import Mathlib.Analysis.SpecialFunctions.Pow.Real

/-!
# Splines with a variable set of knots

Models `SplinesDynamicModel.py`: grow, shrink and vary, and the copy.

Simplifications: no fixed parameters (`npmax` is `npbase`); parameter names are left out; the basis itself is in `BasicSplines`,
here only is recorded what it was made for. Random numbers are given beforehand. Positions are natural numbers: python's
negative indices do not occur. Loops without a bound get `fuel`.
-/

noncomputable section

namespace BF.SplinesDyn

open BF.Dynamic

/-- What a basis was made for: knots, number of parameters and border. -/
structure Basis where
  knots : List ℝ
  size : ℕ
  border : ℕ

/-- Attributes of the model that grow, shrink and vary use, and the parameters and their number of the head of the chain. -/
structure Spl where
  knots : List ℝ
  order : ℕ
  border : ℕ
  minKnots : ℕ
  maxKnots : Option ℕ
  minDistance : ℝ
  npbase : ℕ
  npchain : ℕ
  params : List ℝ
  basis : Basis

/-- Limits of a prior; `none` is infinite. -/
structure Lim where
  low : Option ℝ
  high : Option ℝ

/-- `Prior.py` 348. -/
def Lim.isOut (q : Lim) (x : ℝ) : Prop := q.low.elim False (x < ·) ∨ q.high.elim False (· < x)

open Classical in
/-- `Prior.py` 378-382. -/
def Lim.stay (q : Lim) (x : ℝ) : ℝ :=
  if q.low.elim False (x < ·) then q.low.getD x
  else if q.high.elim False (· < x) then q.high.getD x
  else x

/-- `makeBasis` (`BasicSplinesModel.py` 171, 201-273): `good` tells whether the linear systems can be solved; otherwise an
exception. -/
def makeBasis (good : List ℝ → Bool) (s : Spl) : Option Basis :=
  if good s.knots then some ⟨s.knots, s.npbase, s.border⟩ else none

/-- `SplinesDynamicModel.py` 94-144 with `BasicSplinesModel.py` 164-175, knots given. The parameters start at zero. -/
def construct (good : List ℝ → Bool) (knots : List ℝ) (order border minKnots : ℕ) (maxKnots : Option ℕ) (fraction : ℝ) :
    Option Spl :=
  let np := if border = 0 then knots.length + order - 1 else knots.length - 1
  if good knots then
    if knots.length < minKnots ∨ maxKnots.elim false (fun m => decide (m < knots.length)) then none
    else
      match knots.head?, knots.getLast? with
      | some a, some b => some ⟨knots, order, border, minKnots, maxKnots, fraction * ((b - a) / knots.length), np, np,
          List.replicate np 0, ⟨knots, np, border⟩⟩
      | _, _ => none
  else none

/-- `SplinesDynamicModel.py` 153-160 and 132-150: the keyword `border` is not passed on, so that it is 0
(`BasicSplinesModel.py` 116, 170-171); everything else is taken over. The check of 135 is made with the default minimum. -/
def copy (s : Spl) : Option Spl :=
  if s.knots.length < 2 then none else some { s with border := 0 }

/-! ## grow -/

/-- How a search without bound ends. -/
inductive Search (α : Type*)
  | found (a : α)
  | raised
  | running

/-- `SplinesDynamicModel.py` 223-224: the list holds the knots from `k` on. -/
def seg (x : ℝ) : List ℝ → ℕ → Option ℕ
  | [], _ => none
  | t :: ts, k => if t < x then seg x ts (k + 1) else some k

/-- The loop of 221-227: position, new knot and number of draws. -/
def place (knots : List ℝ) (minD : ℝ) (rand : ℕ → ℝ) : ℕ → ℕ → Search (ℕ × ℝ × ℕ)
  | 0, _ => .running
  | n + 1, i =>
      match knots.getLast?, knots.head? with
      | some b, some a =>
          let x := rand i * (b - a) + a
          match seg x (knots.drop 1) 1 with
          | none => .raised
          | some k =>
              match knots[k - 1]?, knots[k]? with
              | some l, some r =>
                  if x - l > minD ∧ r - x > minD then .found (k, x, i + 1) else place knots minD rand n (i + 1)
              | _, _ => .raised
      | _, _ => .raised

/-- Line 231 and 293. -/
def location (npars nrknots k : ℕ) : ℕ := (((npars : ℤ) - nrknots) / 2 + k + 1).toNat

/-- Lines 196-260. `none`: an exception or no end within `fuel`. The flag is the returned bool. -/
def grow (good : List ℝ → Bool) (s : Spl) (offset : ℕ) (force : Bool) (rand : ℕ → ℝ) (fuel i : ℕ) : Option (Spl × Bool × ℕ) :=
  if force = false ∧ s.maxKnots.elim false (fun m => decide (m ≤ s.knots.length)) then some (s, false, i)
  else
    match place s.knots s.minDistance rand fuel i with
    | .running => none
    | .raised => none
    | .found (k, x, i') =>
        let loc := location s.npbase s.knots.length k
        let s1 := { s with
          knots := s.knots.take k ++ [x] ++ s.knots.drop k
          npbase := s.npbase + 1
          npchain := s.npchain + 1 }
        match makeBasis good s1 with
        | none => some (s1, false, i')
        | some b =>
            match s.params[loc + offset - 1]? with
            | none => none
            | some v =>
                match insertPars (s.params.set (loc + offset - 1) (v * (7 / 10))) loc offset [v * (7 / 10)] with
                | none => none
                | some p => some ({ s1 with
                    basis := b
                    params := p }, true, i')

/-! ## shrink -/

open Classical in
/-- Lines 287-289 and 300-303: the parameter that comes in the place of two, for a knot `t` between `a` and `b`. -/
def merged (lim : Lim) (p q a t b : ℝ) : ℝ :=
  let dis := b - a
  let r1 := (t - a) / dis
  let r2 := (b - t) / dis
  let v := 7 / 5 * (p * r1 + q * r2)
  if lim.isOut v then (lim.stay v + p + q) / 3 else v

open Classical in
/-- Lines 263-334. `r` is the draw of `randint`, `prior` is `self.getPrior`: the parameters are counted from this model on.
`none`: an exception. -/
def shrink (good : List ℝ → Bool) (s : Spl) (offset : ℕ) (prior : ℕ → Option Lim) (r : ℕ) : Option (Spl × Bool) :=
  let n := s.knots.length
  if n ≤ s.minKnots then some (s, false)
  else if n ≤ 2 then none                              -- randint( 0 )
  else
    let k := r % (n - 2) + 1
    match s.knots[k - 1]?, s.knots[k]?, s.knots[k + 1]? with
    | some a, some t, some b =>
        let loc := location s.npbase n k
        let kl := offset + loc - 1
        match s.params[kl]?, s.params[kl + 1]?, prior kl with
        | some p, some q, some lim =>
            let v := merged lim p q a t b
            if lim.isOut v then none
            else
              let s1 := { s with
                knots := s.knots.take k ++ s.knots.drop (k + 1)
                npbase := s.npbase - 1
                npchain := s.npchain - 1 }
              match makeBasis good s1 with
              | none => some (s1, false)
              | some bs =>
                  match deletePars s.params loc 1 offset with
                  | none => none
                  | some w => some ({ s1 with
                      basis := bs
                      params := w.set kl v }, true)
        | _, _, _ => none
    | _, _, _ => none

/-! ## vary -/

/-- The loop of 346-354; `kn` are the knots. Python evaluates the second condition only when the first one holds. -/
def varyLoop (kn : List ℝ) (kk : ℕ) (minD : ℝ) (rand : ℕ → ℝ) : ℕ → ℕ → ℝ → Search (ℝ × ℕ)
  | 0, _, _ => .running
  | n + 1, i, x =>
      match kn[kk - 1]? with
      | none => .raised
      | some a =>
          let rn := (rand i + rand (i + 1)) - 1
          if rn < 0 then
            let y := x + rn * (x - a)
            if y - a > minD then
              match kn[kk + 1]? with
              | none => .raised
              | some b => if b - y > minD then .found (y, i + 2) else varyLoop kn kk minD rand n (i + 2) y
            else varyLoop kn kk minD rand n (i + 2) y
          else
            match kn[kk + 1]? with
            | none => .raised
            | some b =>
                let y := x + rn * (b - x)
                if y - a > minD ∧ b - y > minD then .found (y, i + 2) else varyLoop kn kk minD rand n (i + 2) y

/-- Lines 336-366; `loc` is the keyword `location`, `r` the draw of `randint` when it is not given. -/
def vary (good : List ℝ → Bool) (s : Spl) (loc : Option ℕ) (r : ℕ) (rand : ℕ → ℝ) (fuel i : ℕ) : Option (Spl × Bool × ℕ) :=
  let n := s.knots.length
  if n ≤ 2 ∨ loc = some 0 ∨ loc = some n then some (s, false, i)
  else
    let kk := loc.getD (r % (n - 2) + 1)
    match s.knots[kk]? with
    | none => none
    | some x =>
        match varyLoop s.knots kk s.minDistance rand fuel i x with
        | .running => none
        | .raised => none
        | .found (y, i') =>
            let s1 := { s with knots := s.knots.set kk y }
            match makeBasis good s1 with
            | none => none
            | some b => some ({ s1 with basis := b }, true, i')

/-- Lines 368-384: a new knot, also above the maximum, and one thrown out. -/
def varyAlt (good : List ℝ → Bool) (s : Spl) (offset : ℕ) (prior : ℕ → Option Lim) (rand : ℕ → ℝ) (fuel r : ℕ) :
    Option (Spl × Bool) :=
  match grow good s offset true rand fuel 0 with
  | none => none
  | some (s', false, _) => some (s', false)
  | some (s', true, _) => shrink good s' offset prior r

/-! ## Histories -/

/-- One call. -/
inductive Op
  | grow (force : Bool) (rand : ℕ → ℝ) (fuel : ℕ)
  | shrink (r : ℕ)
  | vary (loc : Option ℕ) (r : ℕ) (rand : ℕ → ℝ) (fuel : ℕ)

def Op.run (good : List ℝ → Bool) (offset : ℕ) (prior : ℕ → Option Lim) (s : Spl) : Op → Option Spl
  | .grow force rand fuel => (SplinesDyn.grow good s offset force rand fuel 0).map (·.1)
  | .shrink r => (SplinesDyn.shrink good s offset prior r).map (·.1)
  | .vary loc r rand fuel => (SplinesDyn.vary good s loc r rand fuel 0).map (·.1)

/-- Calls one after the other. -/
def runAll (good : List ℝ → Bool) (offset : ℕ) (prior : ℕ → Option Lim) : List Op → Spl → Option Spl
  | [], s => some s
  | a :: as, s =>
      match a.run good offset prior s with
      | none => none
      | some s' => runAll good offset prior as s'

end BF.SplinesDyn
