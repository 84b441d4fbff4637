import Mathlib.Algebra.Order.Field.Basic
import Mathlib.Algebra.Order.AbsoluteValue.Basic
import Mathlib.Algebra.BigOperators.Intervals
import Mathlib.Algebra.Order.BigOperators.Group.Finset
import Mathlib.Tactic.Linarith
import Mathlib.Tactic.NormNum
import Mathlib.Tactic.Ring
import Mathlib.Tactic.FieldSimp
import Mathlib.Tactic.Positivity

/-!
# The simplex minimiser

Models `AnnealingAmoeba` (AnnealingAmoeba.py 132-612), the minimiser behind
`AmoebaFitter` (AmoebaFitter.py 105-218).

Simplifications, for the whole file:
* numbers are elements of an ordered field `α` (think of the reals), rounding is not modelled;
* the function is finite everywhere, so the retries of lines 346-348 (non finite corners) and
  477-480, 484-488, 494-498, 502-506 (`isnan`) are taken once;  each such loop still draws a random
  number, which nobody uses;
* a point is a function of the number of the coordinate, a simplex one of the number of the corner;
  only the first `n` coordinates and the first `n + 1` corners play a role;
* the random numbers `-log( rand + 1e-30 )` of line 612 are a given sequence `e`;
* printing (`verbose`) is left out;
* a limit that is infinite is `none`.
-/

namespace Verif.Amoeba

variable {α : Type} [Field α] [LinearOrder α]

/-- What does not change during a minimisation: function, number of parameters, limits,
tolerances, number of iterations, cooling, random numbers and callback
(AnnealingAmoeba.py 132-221). -/
structure Conf (α : Type) where
  f : (ℕ → α) → α
  n : ℕ
  lo : ℕ → Option α := fun _ => none
  hi : ℕ → Option α := fun _ => none
  abstol : Option α
  reltol : Option α
  maxiter : ℕ := 1000
  steps : ℕ := 10
  cooling : α
  e : ℕ → α := fun _ => cooling
  callback : Option ((ℕ → α) → (ℕ → α)) := none

/-- What `self.xopt` refers to: an array of its own (`corner.copy()`, line 351,
`partry.copy()`, line 597) or the memory of a corner of the simplex (`self.xopt = p`, line 568,
where `p = self.simplex[i,:]` is a view). -/
inductive Best (α : Type) where
  | own (p : ℕ → α)
  | view (i : ℕ)

/-- The state of the minimiser: `simplex`, `values`, `sum`, `xopt`, `fopt`, `iter`, `temp`, the
number `k` of random numbers drawn.  `seen` are the points where the function has been
computed, `expanded` tells whether the first simplex has been blown up;  these two are not in the
code. -/
structure St (α : Type) where
  simplex : ℕ → ℕ → α
  values : ℕ → α
  sum : ℕ → α
  xopt : Best α
  fopt : α
  iter : ℕ
  temp : α
  k : ℕ
  seen : List (ℕ → α)
  expanded : Bool

/-- The array that `self.xopt` is, at this moment. -/
def St.best (s : St α) : ℕ → α :=
  match s.xopt with
  | .own p => p
  | .view i => s.simplex i

/-- `stayInLimits` (AnnealingAmoeba.py 289-314). -/
def stay (c : Conf α) (old try_ : ℕ → α) : ℕ → α := fun k =>
  match c.lo k, c.hi k with
  | none, none => try_ k
  | some l, none => if l > try_ k then (old k + l) / 2 else try_ k
  | none, some h => if try_ k > h then (old k + h) / 2 else try_ k
  | some l, some h =>
    if l > try_ k then (old k + l) / 2 else if try_ k > h then (old k + h) / 2 else try_ k

/-- `numpy.sum( self.simplex, axis=0 )` (AnnealingAmoeba.py 352, 410, 570). -/
def total (n : ℕ) (simplex : ℕ → ℕ → α) : ℕ → α := fun k =>
  ((List.range (n + 1)).map fun i => simplex i k).sum

/-- The first loop of `makeSimplex`, one coordinate (AnnealingAmoeba.py 240-261): start value and
step.  `hasLowLimits` (277-281) looks at the high limit: it is true whenever there are limits, but
then `ir <= -inf` is false.  The second test uses the old value `ir`. -/
def startAt (lo hi : Option α) (ir st : α) : α × α :=
  let q := match lo with
    | none => (ir, st)
    | some l =>
      if ir ≤ l then
        match hi with
        | some h => ((1 / 2) * (h + l), (1 / 10) * (h - l))
        | none => (l + 10, 1)
      else (ir, st)
  match hi with
  | none => q
  | some h =>
    if h ≤ ir then
      match lo with
      | some l => ((1 / 2) * (h + l), (1 / 10) * (h - l))
      | none => (h - 10, 1)
    else q

/-- The corners of the first simplex (AnnealingAmoeba.py 240-273). -/
def corners (c : Conf α) (xini step : ℕ → α) : ℕ → ℕ → α := fun i =>
  let x : ℕ → α := fun k => (startAt (c.lo k) (c.hi k) (xini k) (step k)).1
  let st : ℕ → α := fun k => (startAt (c.lo k) (c.hi k) (xini k) (step k)).2
  stay c x fun k => if k = i ∧ i < c.n then x k + st k else x k

/-- `checkSimplex` (AnnealingAmoeba.py 316-333): true when it raises. -/
def degenerate (n : ℕ) (simplex : ℕ → ℕ → α) : Bool :=
  (List.range n).any fun i => (List.range n).all fun j => decide (simplex i j = simplex 0 i)

/-- One turn of the loop of `setValues` (AnnealingAmoeba.py 340-351). -/
def setValue (c : Conf α) (s : St α) (i : ℕ) : St α :=
  let cost := c.f (s.simplex i)
  let s := { s with
    values := Function.update s.values i cost
    seen := s.simplex i :: s.seen }
  if i = 0 ∨ cost < s.fopt then { s with
    fopt := cost
    xopt := .own (s.simplex i) }
  else s

/-- The constructor (AnnealingAmoeba.py 132-221) with `makeSimplex` (225-275) and `setValues`
(335-352).  `none` stands for ValueError. -/
def init (c : Conf α) (xini step : ℕ → α) (temp : α) : Option (St α) :=
  if c.abstol.isNone ∧ c.reltol.isNone then none
  else
    let simplex := corners c xini step
    if degenerate c.n simplex then none
    else
      let s : St α := ⟨simplex, fun _ => 0, fun _ => 0, .own fun _ => 0, 0, 0, temp, 0, [], false⟩
      let s := (List.range (c.n + 1)).foldl (setValue c) s
      some { s with sum := total c.n simplex }

/-- The lowest, highest and next highest value, as found in `temperatureStep`. -/
structure Rank (α : Type) where
  ilo : ℕ
  ihi : ℕ
  ylo : α
  ynhi : α
  yhi : α

/-- The first two corners (AnnealingAmoeba.py 414-425). -/
def rank0 (y0 y1 : α) : Rank α :=
  if y0 > y1 then ⟨1, 0, y1, y1, y0⟩ else ⟨0, 1, y0, y0, y1⟩

/-- One turn of the loop over the other corners (AnnealingAmoeba.py 426-436). -/
def rankStep (y : ℕ → α) (r : Rank α) (i : ℕ) : Rank α :=
  let yt := y i
  let r := if yt ≤ r.ylo then { r with
    ilo := i
    ylo := yt } else r
  if yt > r.yhi then { r with
    ynhi := r.yhi
    ihi := i
    yhi := yt }
  else if yt > r.ynhi then { r with ynhi := yt }
  else r

/-- The fluctuating values of the corners (AnnealingAmoeba.py 416-427, 610-612). -/
def noisy (c : Conf α) (s : St α) : ℕ → α := fun i => s.values i + s.temp * c.e (s.k + i)

/-- Lines 414-436 of AnnealingAmoeba.py. -/
def rank (c : Conf α) (s : St α) : Rank α :=
  (List.range' 2 (c.n - 1)).foldl (rankStep (noisy c s)) (rank0 (noisy c s 0) (noisy c s 1))

/-- The test for convergence (AnnealingAmoeba.py 442-444). -/
def stops (c : Conf α) (r : Rank α) : Bool :=
  (c.abstol.elim true fun t => decide (|r.yhi - r.ylo| < t)) &&
  (c.reltol.elim true fun t =>
    decide (|r.yhi - r.ylo| / max (|r.yhi| + |r.ylo|) (1 / 10 ^ 20) < t))

/-- The tolerance of line 460 (AnnealingAmoeba.py);  the constructor sees to it that there is
one. -/
def tol (c : Conf α) : α := (c.abstol <|> c.reltol).getD 0

/-- Lines 450-456 (AnnealingAmoeba.py): the values are swapped, but `swap` is a view of row 0,
which has been overwritten before it is put in row `ilo`. -/
def swapBest (s : St α) (ilo : ℕ) : St α :=
  if 0 < ilo then { s with
    values := Function.update (Function.update s.values 0 (s.values ilo)) ilo (s.values 0)
    simplex := Function.update s.simplex 0 (s.simplex ilo) }
  else s

/-- Lines 462-463 (AnnealingAmoeba.py): the best point so far goes into the simplex;  `sum` is not
adapted. -/
def replace (s : St α) (ilo : ℕ) : St α :=
  { s with
    simplex := Function.update s.simplex ilo s.best
    values := Function.update s.values ilo s.fopt }

/-- The evaluation of one corner in `inflateSimplex` (AnnealingAmoeba.py 562-568), with the local
`ylo`. -/
def inflateValue (c : Conf α) (q : St α × α) (i : ℕ) : St α × α :=
  let v := c.f (q.1.simplex i)
  let s := { q.1 with
    values := Function.update q.1.values i v
    seen := q.1.simplex i :: q.1.seen }
  if v < q.2 then
    if v < q.1.fopt then ({ s with
      fopt := v
      xopt := .view i }, v)
    else (s, v)
  else (s, q.2)

/-- The corners after the first loop of `inflateSimplex` (AnnealingAmoeba.py 551-558).  `inpar` is
a view: when `stayInLimits` looks at it, it already holds the new values. -/
def inflated (c : Conf α) (simplex : ℕ → ℕ → α) (ilo : ℕ) (factor : α) : ℕ → ℕ → α := fun i =>
  if i = ilo then simplex i
  else
    let row : ℕ → α := fun k => factor * simplex i k + (1 - factor) * simplex ilo k
    stay c row row

/-- `inflateSimplex` (AnnealingAmoeba.py 535-572). -/
def inflate (c : Conf α) (s : St α) (ilo : ℕ) (factor : α) : St α × α :=
  let milo := (List.range (c.n + 1)).filter (· ≠ ilo)
  let s1 := { s with simplex := inflated c s.simplex ilo factor }
  let q := milo.foldl (inflateValue c) (s1, s.values ilo)
  ({ q.1 with sum := total c.n q.1.simplex }, q.2)

/-- The point that `trialStep` looks at (AnnealingAmoeba.py 587-592). -/
def trial (c : Conf α) (s : St α) (ihi : ℕ) (factor : α) : ℕ → α :=
  let fac1 := (1 - factor) / c.n
  let fac2 := fac1 - factor
  stay c (s.simplex ihi) fun k => s.sum k * fac1 - s.simplex ihi k * fac2

/-- `trialStep` (AnnealingAmoeba.py 574-608) and the random number drawn after it (478, 486, 496:
`randomRange`). -/
def trialStep (c : Conf α) (s : St α) (ihi : ℕ) (yhi factor : α) : St α × α :=
  let p := trial c s ihi factor
  let ytry := c.f p
  let s1 := { s with seen := p :: s.seen }
  let s2 := if ytry < s1.fopt then { s1 with
    fopt := ytry
    xopt := .own p } else s1
  let yflu := ytry - s2.temp * c.e s2.k
  let s3 := { s2 with k := s2.k + 2 }
  if yflu < yhi then ({ s3 with
    values := Function.update s3.values ihi ytry
    sum := fun k => s3.sum k + (p k - s3.simplex ihi k)
    simplex := Function.update s3.simplex ihi p }, yflu)
  else (s3, yflu)

/-- The moves of `temperatureStep` when it has not converged (AnnealingAmoeba.py 474-511): reflect,
then extrapolate, contract or shrink.  Returns the number of transforms too. -/
def move (c : Conf α) (s : St α) (r : Rank α) : St α × ℕ :=
  let a := trialStep c s r.ihi r.yhi (-1)
  if a.2 < r.ylo then ((trialStep c a.1 r.ihi r.yhi 2).1, 2)
  else if r.ynhi ≤ a.2 then
    let b := trialStep c a.1 r.ihi r.yhi (1 / 2)
    if r.yhi ≤ b.2 then
      let d := (inflate c b.1 r.ilo (1 / 2)).1
      ({ d with k := d.k + 1 }, 2 + c.n)
    else (b.1, 2)
  else (a.1, 1)

/-- Lines 513-516 (AnnealingAmoeba.py): callback and count of iterations. -/
def after (c : Conf α) (s : St α) (ihi : ℕ) : St α :=
  match c.callback with
  | none => { s with iter := s.iter + 1 }
  | some g => { s with
      simplex := Function.update s.simplex ihi (g (s.simplex ihi))
      iter := s.iter + 1 }

/-- One turn of the loop of `temperatureStep` (AnnealingAmoeba.py 413-516): the new state, the
number of transforms, and whether the loop is left. -/
def step (c : Conf α) (s : St α) : St α × ℕ × Bool :=
  let r := rank c s
  let s := { s with k := s.k + (c.n + 1) }
  if stops c r then
    let s := swapBest s r.ilo
    if |s.fopt - r.ylo| > tol c then (replace s r.ilo, 0, false)
    else if s.iter = 0 then ({ (inflate c s r.ilo 10).1 with expanded := true }, c.n, false)
    else (s, 0, true)
  else
    let m := move c s r
    (after c m.1 r.ihi, m.2, false)

/-- The loop of `temperatureStep` (AnnealingAmoeba.py 413-518).  `fuel` bounds the number of turns
that we follow;  `none` when that is not enough. -/
def tempLoop (c : Conf α) (maxit : ℕ) : ℕ → St α → ℕ → Option (St α × ℕ)
  | 0, _, _ => none
  | fuel + 1, s, t =>
    if s.iter < maxit then
      let q := step c s
      if q.2.2 then some (q.1, t + q.2.1) else tempLoop c maxit fuel q.1 (t + q.2.1)
    else some (s, t)

/-- `temperatureStep` (AnnealingAmoeba.py 391-518). -/
def temperatureStep (c : Conf α) (fuel : ℕ) (s : St α) : Option (St α × ℕ) :=
  tempLoop c (s.iter + if s.temp = 0 then c.maxiter else c.steps * c.n) fuel
    { s with sum := total c.n s.simplex } 0

/-- How `minimize` ends. -/
inductive Out (α : Type) where
  | done (x : ℕ → α) (s : St α)
  | failed (s : St α)

/-- The state in which `minimize` leaves the object. -/
def Out.st : Out α → St α
  | .done _ s => s
  | .failed s => s

/-- The loop of `minimize` (AnnealingAmoeba.py 374-389). -/
def minLoop (c : Conf α) (maxit : ℕ) : ℕ → St α → Option (Out α)
  | 0, _ => none
  | fuel + 1, s =>
    if s.iter < maxit then
      (temperatureStep c fuel s).bind fun q =>
        let s := { q.1 with temp := if 0 < q.1.temp then q.1.temp * c.cooling else q.1.temp }
        if q.2 = 0 then some (.done s.best s) else minLoop c maxit fuel s
    else some (.failed s)

/-- `minimize` (AnnealingAmoeba.py 355-389). -/
def minimize (c : Conf α) (fuel : ℕ) (s : St α) : Option (Out α) :=
  minLoop c (c.maxiter * if s.temp = 0 then 1 else c.steps) fuel s

end Verif.Amoeba
