import Mathlib.Data.Real.Basic
import Mathlib.Data.Real.Sqrt
import Verif.Basis

/-!
# The engines that move the parameters of a walker

Models `Engine.py` and `execute` of `StartEngine`, `RandomEngine`, `StepEngine`, `GibbsEngine`,
`ChordEngine`, `GalileanEngine`, `BirthEngine`, `DeathEngine`, `StructureEngine`.

Conventions.
* The log likelihood is an arbitrary function `L` of the problem and the parameters; the maps between
  the unit range and the parameters are arbitrary (`u2d`, `d2u`; their laws are the subject of C13);
  the bounding box of the phantoms is an arbitrary function (`box`; see C41).
* `rand k` is the `k`-th number delivered by the random generator. Where numpy draws an array, element
  `i` is draw `k + i`. The theorems hold for all `rand`, so the assignment of draws is immaterial.
* Every unbounded loop has an argument `fuel`; `none` is returned when it is used up, and also for
  python's exceptions. A theorem about all runs that return `some` is one about all terminating runs.
* `verbose`, the plotter and the report counters are left out. `checkBest` is the default `noBoost`
  (`Engine.py` 111, 189); with `bestBoost` a walker may be replaced by one that is fitted.
* `setWalker` stores a copy (`Walker.py` 100) or an array that the engine does not write to again
  (`GalileanEngine.py` 200, 210), so walkers are values.
-/

noncomputable section

namespace BF.Engines

/-- `Walker.py` 70-112. -/
structure Wk (π β : Type*) where
  id : ℕ
  parent : ℤ
  start : ℕ
  problem : π
  allpars : List ℝ
  fitIndex : List ℤ
  logL : β

/-- What the engines share: the list of walkers with its counter (`WalkerList.py` 79-90), the
phantoms in the order in which they are stored (`Engine.py` 187), and the number of draws. -/
structure St (π β : Type*) where
  walkers : List (Wk π β)
  count : ℕ
  phantoms : List (Wk π β)
  k : ℕ

/-- The surroundings of an engine, see the header. `box` is `Engine.getUnitMinmax` 383-404. -/
structure Env (π β : Type*) where
  L : π → List ℝ → β
  u2d : π → ℤ → ℝ → ℝ
  d2u : π → ℤ → ℝ → ℝ
  box : List (Wk π β) → π → β → List ℝ × List ℝ
  rand : ℕ → ℝ
  maxtrials : ℕ
  nstep : ℕ

variable {π β : Type*}

/-! ## Python and numpy indexing with negative numbers -/

/-- The place of index `c` in a list of length `n`; `none` is the IndexError. -/
def place (n : ℕ) (c : ℤ) : Option ℕ :=
  if 0 ≤ c then (if c < n then some c.toNat else none)
  else (if 0 ≤ c + n then some (c + n).toNat else none)

/-- `a[c]`. -/
def get (a : List ℝ) (c : ℤ) : Option ℝ := (place a.length c).bind fun i => a[i]?

/-- `a[c] = v`. -/
def put (a : List ℝ) (c : ℤ) (v : ℝ) : Option (List ℝ) :=
  (place a.length c).map fun i => a.set i v

/-- `a[idx]`. -/
def gets (a : List ℝ) : List ℤ → Option (List ℝ)
  | [] => some []
  | c :: cs => match get a c, gets a cs with
      | some v, some vs => some (v :: vs)
      | _, _ => none

/-- `a[idx] = vals`; ValueError when the lengths differ. -/
def puts : List ℝ → List ℤ → List ℝ → Option (List ℝ)
  | a, [], [] => some a
  | a, c :: cs, v :: vs => match put a c v with
      | some b => puts b cs vs
      | none => none
  | _, _, _ => none

/-! ## Engine -/

/-- `Engine.unit2Domain` 269-297 with a list `kpar`. -/
def Env.unit2Domain (e : Env π β) (p : π) (uval : List ℝ) (kpar : List ℤ) : List ℝ :=
  List.zipWith (e.u2d p) kpar uval

/-- `Engine.domain2Unit` 238-267 with a list `kpar`. -/
def Env.domain2Unit (e : Env π β) (p : π) (dval : List ℝ) (kpar : List ℤ) : List ℝ :=
  List.zipWith (e.d2u p) kpar dval

/-- `Engine.getUnitRange` 406-421: ( uran, umin ). -/
def Env.getUnitRange (e : Env π β) (st : St π β) (p : π) (lowL : β) : List ℝ × List ℝ :=
  let b := e.box st.phantoms p lowL
  (List.zipWith (fun lo hi => |hi - lo|) b.1 b.2, b.1)

/-- `Engine.setWalker` 153-187 and `WalkerList.setWalker` 103-122. Without `walker` a new one is made
with the id of the old one (0 when it is appended), parent -1 and start 0 (`Walker.py` 70-106). -/
def St.setWalker (st : St π β) (kw : ℕ) (p : π) (allpars : List ℝ) (logL : β)
    (walker : Option (Wk π β)) (fitIndex : List ℤ) : St π β :=
  let w : Wk π β := match walker with
    | none => ⟨match st.walkers[kw]? with | some o => o.id | none => 0, -1, 0, p, allpars, fitIndex,
        logL⟩
    | some w => { w with
                  allpars := allpars
                  logL := logL }
  if kw < st.walkers.length then
    { st with
      walkers := st.walkers.set kw w
      phantoms := st.phantoms ++ [w] }
  else
    let w' : Wk π β := { w with id := st.count }
    { st with
      walkers := st.walkers ++ [w']
      count := st.count + 1
      phantoms := st.phantoms ++ [w'] }

/-- The index that is handed to `setWalker`: `len( self.walkers ) if append else kw`. -/
def St.target (st : St π β) (append : Bool) (kw : ℕ) : ℕ :=
  if append then st.walkers.length else kw

variable [LinearOrder β]

/-! ## StartEngine, for a model that is not dynamic -/

/-- The loop `StartEngine.py` 102-144 for a static model; `finite` is `numpy.isfinite`. Exhausting the
trials (141) raises an error: `none`. -/
def startLoop (e : Env π β) (finite : β → Prop) [DecidablePred finite] (w : Wk π β) :
    ℕ → ℕ → List ℝ → Option (List ℝ × β × ℕ)
  | 0, _, _ => none
  | n + 1, k, allp =>
      let uval := (List.range w.fitIndex.length).map fun i => e.rand (k + i)
      match puts allp w.fitIndex (e.unit2Domain w.problem uval w.fitIndex) with
      | none => none
      | some allp' =>
          let logL := e.L w.problem allp'
          if finite logL then some (allp', logL, k + w.fitIndex.length)
          else startLoop e finite w n (k + w.fitIndex.length) allp'

/-- `StartEngine.execute` 73-157 for a static model: `ktry` runs from 0 while it is at most
`maxtrials + walker.id`. The new walker is stored at the index `walker.id`. Left out: the factor 100
for a constrained distribution, and `check`. -/
def startExecute (e : Env π β) (finite : β → Prop) [DecidablePred finite] (st : St π β) (kw : ℕ) :
    Option (St π β × ℕ) :=
  match st.walkers[kw]? with
  | none => none
  | some w =>
      match startLoop e finite w (e.maxtrials + w.id + 2) st.k w.allpars with
      | none => none
      | some (allp, logL, k) =>
          some (St.setWalker { st with k := k } w.id w.problem allp logL none w.fitIndex,
            w.fitIndex.length)

/-! ## RandomEngine -/

/-- The loop of `RandomEngine.py` 121-167; `um` and `ux` are the widened box, 110-117. The list of
draws has one element for each parameter (124); `unit2Domain` (125) uses the first ones. -/
def randomLoop (e : Env π β) (w : Wk π β) (lowL : β) (kw : ℕ) (append : Bool) (um ux : List ℝ) :
    ℕ → St π β → Option (St π β × ℕ)
  | 0, st => some (st, 0)
  | n + 1, st =>
      let uval := (List.range w.allpars.length).zipWith
        (fun i (b : ℝ × ℝ) => b.1 + (b.2 - b.1) * e.rand (st.k + i)) (List.zip um ux)
      let st1 : St π β := { st with k := st.k + w.allpars.length }
      match puts w.allpars w.fitIndex (e.unit2Domain w.problem uval w.fitIndex) with
      | none => none
      | some ptry =>
          let Ltry := e.L w.problem ptry
          if lowL ≤ Ltry then
            some (st1.setWalker (st1.target append kw) w.problem ptry Ltry none w.fitIndex,
              w.fitIndex.length)
          else randomLoop e w lowL kw append um ux n st1

/-- `RandomEngine.execute` 80-171. -/
def randomExecute (e : Env π β) (st : St π β) (kw : ℕ) (lowL : β) (append : Bool) :
    Option (St π β × ℕ) :=
  match st.walkers[kw]? with
  | none => none
  | some w =>
      let b := e.box st.phantoms w.problem lowL
      let dr := List.zipWith (fun m x => 10 * (x - m) / (st.walkers.length : ℝ)) b.1 b.2
      let um := (List.zipWith (fun m d => m - d) b.1 dr).map fun x => if x < 0 then 0 else x
      let ux := (List.zipWith (fun m d => m + d) b.2 dr).map fun x => if 1 < x then 1 else x
      randomLoop e w lowL kw append um ux e.nstep st

/-! ## GibbsEngine -/

/-- `GibbsEngine.py` 133-138 (with `scale` = `ur[c]`, or 1) and 161-163 (with `scale` = `step`):
draw until the new place is strictly inside the unit range. Returns ( step, utry, k ). -/
def drawInside (e : Env π β) (usav scale : ℝ) : ℕ → ℕ → Option (ℝ × ℝ × ℕ)
  | 0, _ => none
  | fuel + 1, k =>
      let step := (2 * e.rand k - 1) * scale
      let utry := usav + step
      if 0 < utry ∧ utry < 1 then some (step, utry, k + 1) else drawInside e usav scale fuel (k + 1)

/-- The trial loop `GibbsEngine.py` 140-168 for parameter `c`; `kk` trials have been made before.
Returns the state, the parameters to go on with and the number of steps, 0 or 1. -/
def gibbsTry (e : Env π β) (p : π) (fitIndex : List ℤ) (lowL : β) (kw : ℕ) (append : Bool)
    (param : List ℝ) (c : ℤ) (save usav step : ℝ) :
    ℕ → ℕ → ℝ → St π β → Option (St π β × List ℝ × ℕ)
  | 0, _, _, _ => none
  | fuel + 1, kk, utry, st =>
      match put param c (e.u2d p c utry) with
      | none => none
      | some ptry =>
          let Ltry := e.L p ptry
          if lowL ≤ Ltry then
            some (st.setWalker (st.target append kw) p ptry Ltry none fitIndex, ptry, 1)
          else if kk + 1 < e.maxtrials then
            match drawInside e usav step fuel st.k with
            | none => none
            | some (_, utry', k) =>
                gibbsTry e p fitIndex lowL kw append param c save usav step fuel (kk + 1) utry'
                  { st with k := k }
          else
            match put param c save with
            | none => none
            | some param' => some (st, param', 0)

/-- The loop over the parameters, `GibbsEngine.py` 127-168. -/
def gibbsLoop (e : Env π β) (p : π) (fitIndex : List ℤ) (lowL : β) (kw : ℕ) (append : Bool)
    (ur : List ℝ) (fuel : ℕ) :
    List ℤ → List ℝ → St π β → ℕ → Option (St π β × ℕ)
  | [], _, st, steps => some (st, steps)
  | c :: cs, param, st, steps =>
      match get param c, (if c < (ur.length : ℤ) then get ur c else some 1) with
      | some save, some scale =>
          let usav := e.d2u p c save
          match drawInside e usav scale fuel st.k with
          | none => none
          | some (step, utry, k) =>
              match gibbsTry e p fitIndex lowL kw append param c save usav step fuel 0 utry
                  { st with k := k } with
              | none => none
              | some (st', param', n) =>
                  gibbsLoop e p fitIndex lowL kw append ur fuel cs param' st' (steps + n)
      | _, _ => none

/-- `GibbsEngine.execute` 80-172; `perm` is the random permutation of the fit index (108), which is
repeated `nstep` times (109-112). -/
def gibbsExecute (e : Env π β) (fuel : ℕ) (perm : List ℤ) (st : St π β) (kw : ℕ) (lowL : β)
    (append : Bool) : Option (St π β × ℕ) :=
  match st.walkers[kw]? with
  | none => none
  | some w =>
      let ur := (e.getUnitRange st w.problem lowL).1.map (· * 1.10)
      gibbsLoop e w.problem w.fitIndex lowL kw append ur fuel
        (List.replicate (max 1 e.nstep) perm).flatten w.allpars st 0

/-! ## StepEngine -/

/-- `StepEngine.py` 134-146: redraw the components that leave the unit range at the low side, or else
at the high side. Returns ( step, utry, k ). -/
def stepInside (e : Env π β) (usav urange : List ℝ) : ℕ → ℕ → List ℝ → Option (List ℝ × List ℝ × ℕ)
  | 0, _, _ => none
  | fuel + 1, k, step =>
      let utry := List.zipWith (· + ·) usav step
      let redraw (bad : ℝ → Bool) : List ℝ :=
        (List.zip (List.zip step utry) (List.zip urange (List.range step.length))).map
          fun x => if bad x.1.2 then (e.rand (k + x.2.2) - 0.5) * x.2.1 else x.1.1
      if utry.any (fun u => decide (u < 0)) then
        stepInside e usav urange fuel (k + step.length) (redraw fun u => decide (u < 0))
      else if utry.any (fun u => decide (1 < u)) then
        stepInside e usav urange fuel (k + step.length) (redraw fun u => decide (1 < u))
      else some (step, utry, k)

/-- A new step, `StepEngine.py` 127, 166. -/
def newStep (e : Env π β) (urange : List ℝ) (k : ℕ) : List ℝ :=
  (List.range urange.length).zipWith (fun i r => (e.rand (k + i) - 0.5) * r) urange

/-- The loop `StepEngine.py` 128-180: `ks` steps done, `kt` trials for the present one. -/
def stepLoop (e : Env π β) (p : π) (fitIndex : List ℤ) (lowL : β) (kw : ℕ) (append : Bool)
    (urange : List ℝ) :
    ℕ → St π β → ℕ → ℕ → ℝ → List ℝ → List ℝ → List ℝ → Option (St π β × ℕ)
  | 0, _, _, _, _, _, _, _ => none
  | fuel + 1, st, ks, kt, sz, step, usav, param =>
      if ks < e.nstep then
        match stepInside e usav urange fuel st.k step with
        | none => none
        | some (step, utry, k) =>
            let st : St π β := { st with k := k }
            match puts param fitIndex (e.unit2Domain p utry fitIndex) with
            | none => none
            | some ptry =>
                let Ltry := e.L p ptry
                if lowL ≤ Ltry then
                  let st1 := st.setWalker (st.target append kw) p ptry Ltry none fitIndex
                  stepLoop e p fitIndex lowL kw append urange fuel
                    { st1 with k := k + urange.length } (ks + 1) 0 1 (newStep e urange k) utry ptry
                else if kt ≤ e.maxtrials then
                  let sz := sz * (if kt % 2 = 0 then -1 else e.rand k)
                  stepLoop e p fitIndex lowL kw append urange fuel { st with k := k + 1 } ks (kt + 1)
                    sz (step.map (· * sz)) usav param
                else some (st, fitIndex.length * ks)
      else some (st, fitIndex.length * ks)

/-- `StepEngine.execute` 81-184. -/
def stepExecute (e : Env π β) (fuel : ℕ) (st : St π β) (kw : ℕ) (lowL : β) (append : Bool) :
    Option (St π β × ℕ) :=
  match st.walkers[kw]? with
  | none => none
  | some w =>
      match gets (e.getUnitRange st w.problem lowL).1 w.fitIndex, gets w.allpars w.fitIndex with
      | some ur, some pf =>
          let urange := ur.map fun r => r + 2 * (r / (st.walkers.length : ℝ))
          let usav := e.domain2Unit w.problem pf w.fitIndex
          stepLoop e w.problem w.fitIndex lowL kw append urange fuel
            { st with k := st.k + urange.length } 0 0 1 (newStep e urange st.k) usav w.allpars
      | _, _ => none

/-! ## ChordEngine -/

/-- `numpy.min( numpy.where( tt > 0, tt, +inf ) )`, `ChordEngine.py` 187; `none` is infinity.
A division by zero gives 0 in Lean and ±inf or nan in numpy: neither is ever taken as a finite
minimum. -/
def minPos : List ℝ → Option ℝ
  | [] => none
  | t :: ts => if 0 < t then
      (match minPos ts with | none => some t | some m => some (min t m)) else minPos ts

/-- `numpy.max( numpy.where( tt < 0, tt, -inf ) )`, `ChordEngine.py` 188. -/
def maxNeg : List ℝ → Option ℝ
  | [] => none
  | t :: ts => if t < 0 then
      (match maxNeg ts with | none => some t | some m => some (max t m)) else maxNeg ts

/-- The times at which the line reaches the edges of the box, `ChordEngine.py` 180. -/
def edgeTimes (umin umax usav vel : List ℝ) : List ℝ :=
  List.zipWith (· / ·) (List.zipWith (· - ·) umin usav) vel
    ++ List.zipWith (· / ·) (List.zipWith (· - ·) umax usav) vel

/-- `ChordEngine.py` 149-152 and 245-248: move the box such that it contains the walker, and cut it
to the unit box. -/
def fitBox (umin umax usav : List ℝ) : List ℝ × List ℝ :=
  ((List.zipWith (fun s m => if s < m then 2 * s - m else m) usav umin).map fun m => max m 0,
   (List.zipWith (fun s m => if m < s then 2 * s - m else m) usav umax).map fun m => min m 1)

/-- How the trials along one chord end, `ChordEngine.py` 209-277: a new place with its likelihood, too
many rejections, or a chord that is not finite or has shrunk to nothing. -/
inductive ChordEnd (β : Type*)
  | accept (utry ptry : List ℝ) (Ltry : β)
  | fail
  | stop

/-- The trials along one chord, `ChordEngine.py` 209-277. Returns how it ends, the number of draws and
the list of all places that were tried (which python does not keep). The test for finite times (214)
is made by the caller as the times stay finite. -/
def chordTry (e : Env π β) (p : π) (fitIndex : List ℤ) (lowL : β) (usav vel : List ℝ) :
    ℕ → ℕ → ℕ → ℝ → ℝ → List ℝ → Option (ChordEnd β × ℕ × List (List ℝ))
  | 0, _, _, _, _, _ => none
  | fuel + 1, kk, k, t0, t1, ptry =>
      if t0 < 0 ∧ 0 < t1 then
        let dt := t0 + e.rand k * (t1 - t0)
        let utry := List.zipWith (fun u v => u + v * dt) usav vel
        match puts ptry fitIndex (e.unit2Domain p utry fitIndex) with
        | none => none
        | some ptry =>
            let Ltry := e.L p ptry
            if lowL ≤ Ltry then some (.accept utry ptry Ltry, k + 1, [utry])
            else if e.maxtrials < kk + 1 then some (.fail, k + 1, [utry])
            else
              match (if dt < 0
                then chordTry e p fitIndex lowL usav vel fuel (kk + 1) (k + 1) dt t1 ptry
                else chordTry e p fitIndex lowL usav vel fuel (kk + 1) (k + 1) t0 dt ptry) with
              | none => none
              | some (r, k', tr) => some (r, k', utry :: tr)
      else some (.stop, k, [])

/-- `self.rng.rand( np ) - 0.5`, `ChordEngine.py` 159. -/
def newVel (e : Env π β) (np k : ℕ) : List ℝ := (List.range np).map fun i => e.rand (k + i) - 0.5

/-- The loop `ChordEngine.py` 172-277; `ptry` is the scratch array that is written in each trial: its
places outside `fitIndex` never change. Left out: the branch `self.debug` (191-204), which is off. -/
def chordLoop (e : Env π β) (fuel : ℕ) (p : π) (fitIndex : List ℤ) (lowL : β) (kw : ℕ)
    (append : Bool) :
    ℕ → St π β → Basis → Bool → List ℝ → List ℝ → List ℝ → List ℝ → List ℝ → ℕ →
      Option (St π β × ℕ × List (List ℝ))
  | 0, st, _, _, _, _, _, _, _, step => some (st, step * fitIndex.length, [])
  | n + 1, st, onb, reset, vel, usav, umin, umax, ptry, step =>
      let (vel, onb) := onb.normalise vel reset
      let tt := edgeTimes umin umax usav vel
      match minPos tt, maxNeg tt with
      | some t1, some t0 =>
          match chordTry e p fitIndex lowL usav vel fuel 0 st.k t0 t1 ptry with
          | none => none
          | some (.accept utry ptry Ltry, k, tr) =>
              let st1 := St.setWalker { st with k := k + fitIndex.length }
                (st.target append kw) p ptry Ltry none fitIndex
              let b := fitBox umin umax utry
              (chordLoop e fuel p fitIndex lowL kw append n st1 onb false
                (newVel e fitIndex.length k) utry b.1 b.2 ptry (step + 1)).map
                fun r => (r.1, r.2.1, tr ++ r.2.2)
          | some (.fail, k, tr) =>
              (chordLoop e fuel p fitIndex lowL kw append n { st with k := k + fitIndex.length } onb
                true (newVel e fitIndex.length k) usav umin umax ptry step).map
                fun r => (r.1, r.2.1, tr ++ r.2.2)
          | some (.stop, k, tr) =>
              (chordLoop e fuel p fitIndex lowL kw append n { st with k := k } onb reset vel usav
                umin umax ptry step).map fun r => (r.1, r.2.1, tr ++ r.2.2)
      | _, _ => chordLoop e fuel p fitIndex lowL kw append n st onb reset vel usav umin umax ptry step

/-- The largest element, `numpy.max`; 0 for the empty list (numpy raises). -/
def maxOf : List ℝ → ℝ
  | [] => 0
  | [x] => x
  | x :: xs => max x (maxOf xs)

/-- `ChordEngine.execute` 106-284. `nstep` is the number of steps drawn in 155. -/
def chordExecute (e : Env π β) (fuel nstep : ℕ) (st : St π β) (kw : ℕ) (lowL : β) (append : Bool) :
    Option (St π β × ℕ × List (List ℝ)) :=
  match st.walkers[kw]? with
  | none => none
  | some w =>
      let r := e.getUnitRange st w.problem lowL
      match gets r.1 w.fitIndex, gets r.2 w.fitIndex, gets w.allpars w.fitIndex with
      | some uran, some umin, some pf =>
          let usav := e.domain2Unit w.problem pf w.fitIndex
          let dur := 5 * maxOf uran / (st.walkers.length : ℝ)
          let uran := uran.map (· + 2 * dur)
          let umin := umin.map (· - dur)
          let umax := List.zipWith (· + ·) umin uran
          let b := fitBox umin umax usav
          chordLoop e fuel w.problem w.fitIndex lowL kw append nstep
            { st with k := st.k + w.fitIndex.length } ⟨none⟩ true
            (newVel e w.fitIndex.length st.k) usav b.1 b.2 w.allpars 0
      | _, _, _ => none

/-! ## GalileanEngine -/

/-- `GalileanEngine.quadinterpol` 247-275. -/
def quadinterpol (L0 Lm L1 lowL : ℝ) : ℝ :=
  let c := L0
  let b := 4 * Lm - L1 - 3 * L0
  let a := 2 * L0 - 4 * Lm + 2 * L1
  if a = 0 then (if b = 0 then 1 else (lowL - c) / b)
  else
    let det := b * b - 4 * a * (c - lowL)
    let det := if det < 0 then 0 else Real.sqrt det
    let x1 := (-b - det) / (2 * a)
    let x2 := (-b + det) / (2 * a)
    if a < 0 then (if x2 < x1 then x1 else x2) else (if x1 < x2 then x1 else x2)

/-- `UnitMovements`, 279-299. -/
structure UM where
  upar : List ℝ
  uvel : List ℝ
  uptry : List ℝ
  uvtry : List ℝ
  upran : ℝ

/-- `getVelocity` 347-351. -/
def getVelocity (e : Env π β) (np k : ℕ) (upran size : ℝ) : List ℝ :=
  (List.range np).map fun i => (e.rand (k + i) - 0.5) * upran * size

/-- One coordinate of `trialStep` 318-323: the place and the velocity after mirroring on the edges of
the unit range. -/
def bounce (upar uvel f : ℝ) : ℝ × ℝ :=
  let up := upar + uvel * f
  let (up, uv) := if up ≤ 0 then (-up, -uvel) else (up, uvel)
  if 1 ≤ up then (2 - up, -uv) else (up, uv)

/-- `numpy.copysign`, where zero counts as positive (a negative zero is not modelled). -/
def copysign (x s : ℝ) : ℝ := if s < 0 then -|x| else |x|

/-- `trialStep` 314-330 without the last line; returns the number of draws too. -/
def UM.trialStep (e : Env π β) (um : UM) (k : ℕ) (f size : ℝ) : UM × ℕ :=
  let b := List.zipWith (fun u v => bounce u v f) um.upar um.uvel
  let uvtry := b.map Prod.snd
  if uvtry = um.uvel then ({ um with
                              uptry := b.map Prod.fst
                              uvtry := uvtry }, k)
  else ({ um with
          uptry := b.map Prod.fst
          uvtry := List.zipWith copysign (getVelocity e uvtry.length k um.upran size) uvtry },
        k + uvtry.length)

/-- `acceptTrial` 332-334. -/
def UM.acceptTrial (um : UM) : UM :=
  { um with
    upar := um.uptry
    uvel := um.uvtry }

/-- `mirrorOnLowL` 336-344. -/
def UM.mirrorOnLowL (um : UM) (dLdp : List ℝ) : UM :=
  let inprod := dot dLdp um.uvel
  let sumsq := dot dLdp dLdp
  if sumsq = 0 then um
  else { um with
         uvel := List.zipWith (fun v d => v - 2 * d * inprod / sumsq) um.uvel dLdp }

/-- `reverseVelocity` 353-361, with `ff = 0.1`. -/
def UM.reverseVelocity (e : Env π β) (um : UM) (k : ℕ) (size : ℝ) : UM × ℕ :=
  ({ um with
     uvel := List.zipWith (fun v w => v * (0.1 - 1) + w) um.uvel
       (getVelocity e um.uvel.length k um.upran (0.1 * size)) }, k + um.uvel.length)

/-- The loop `GalileanEngine.py` 151-232. `dL` is `errdis.partialLogL`; `size0` is `self.size`. -/
def galileanLoop (e : Env π ℝ) (dL : π → List ℝ → List ℤ → List ℝ) (w : Wk π ℝ) (lowL : ℝ)
    (kw : ℕ) (append : Bool) (nstep : ℕ) (size0 : ℝ) :
    ℕ → St π ℝ → UM → List ℝ → ℝ → ℝ → ℕ → ℝ → ℕ → ℕ → Option (St π ℝ × ℕ)
  | 0, _, _, _, _, _, _, _, _, _ => none
  | fuel + 1, st, um, allpars, Lhood, Ltry, inside, size, step, trial =>
      let p := w.problem
      let fi := w.fitIndex
      let trial := trial + 1
      match gets allpars fi with
      | none => none
      | some fip =>
        let um := { um with upar := e.domain2Unit p fip fi }
        -- the three ways to find a new trial place: ( um, ptry, size, k )
        let next : Option (UM × List ℝ × ℝ × ℕ) :=
          if inside = 0 then
            let (um, k) := um.trialStep e st.k 1 size
            (puts allpars fi (e.unit2Domain p um.uptry fi)).map fun q => (um, q, size, k)
          else if inside = 1 then
            let (um, k) := um.trialStep e st.k 0.5 size
            match puts allpars fi (e.unit2Domain p um.uptry fi) with
            | none => none
            | some pmid =>
                let f := quadinterpol Lhood (e.L p pmid) Ltry lowL
                let (um, k) := um.trialStep e k f size
                match puts allpars fi (e.unit2Domain p um.uptry fi) with
                | none => none
                | some pedge =>
                    let um := um.acceptTrial.mirrorOnLowL (dL p pedge fi)
                    let (um, k) := um.trialStep e k (1 - f) size
                    (puts allpars fi (e.unit2Domain p um.uptry fi)).map fun q => (um, q, size, k)
          else
            let size := size * 0.7
            let (um, k) := um.reverseVelocity e st.k size
            let (um, k) := um.trialStep e k 1 size
            (puts allpars fi (e.unit2Domain p um.uptry fi)).map fun q => (um, q, size, k)
        match next with
        | none => none
        | some (um, ptry, size, k) =>
            let st := { st with k := k }
            let Ltry := e.L p ptry
            if lowL ≤ Ltry then
              let um := um.acceptTrial
              let st := st.setWalker (st.target append kw) p ptry Ltry (some w) fi
              if step + 1 < nstep ∧ 0 < e.maxtrials then
                galileanLoop e dL w lowL kw append nstep size0 fuel st um ptry Ltry Ltry 0 size0
                  (step + 1) 0
              else some (st, (step + 1) * fi.length)
            else if step < nstep ∧ trial < e.maxtrials then
              galileanLoop e dL w lowL kw append nstep size0 fuel st um allpars Lhood Ltry (inside + 1)
                size step trial
            else some (st, step * fi.length)

/-- `GalileanEngine.execute` 99-245; `nstep` is the number drawn in 133. The adaptation of `self.size`
afterwards (236-241) only concerns later calls: `size` is an argument. -/
def galileanExecute (e : Env π ℝ) (dL : π → List ℝ → List ℤ → List ℝ) (fuel nstep : ℕ) (size : ℝ)
    (st : St π ℝ) (kw : ℕ) (lowL : ℝ) (append : Bool) : Option (St π ℝ × ℕ) :=
  match st.walkers[kw]? with
  | none => none
  | some w =>
      match gets (e.getUnitRange st w.problem lowL).1 w.fitIndex, gets w.allpars w.fitIndex with
      | some ur, some fip =>
          let upran := maxOf ur
          let um : UM := ⟨e.domain2Unit w.problem fip w.fitIndex,
            getVelocity e w.fitIndex.length st.k upran size, [], [], upran⟩
          galileanLoop e dL w lowL kw append nstep size fuel { st with k := st.k + w.fitIndex.length }
            um w.allpars w.logL 0 0 size 0 0
      | _, _ => none

/-! ## BirthEngine, DeathEngine, StructureEngine

They change the model in a copy of the problem (`Walker.copy` copies the problem, and that copies a
dynamic or modifiable model: `Walker.py` 110, `Problem.py` 112). -/

/-- The loop `BirthEngine.py` 146-162: the `t`-th trial; `klst` are the places of the new
parameters. -/
def birthLoop (e : Env π β) (p : π) (ftry : List ℤ) (lowL : β) (kw : ℕ) (append : Bool)
    (klst : List ℤ) : ℕ → List ℝ → St π β → Option (St π β × ℕ)
  | 0, _, st => some (st, 0)
  | n + 1, ptry, st =>
      let Ltry := e.L p ptry
      if lowL ≤ Ltry then
        some (st.setWalker (st.target append kw) p ptry Ltry none ftry, klst.length)
      else
        let uval := (List.range klst.length).map fun i => e.rand (st.k + i)
        match puts ptry klst (e.unit2Domain p uval klst) with
        | none => none
        | some ptry' => birthLoop e p ftry lowL kw append klst n ptry'
            { st with k := st.k + klst.length }

/-- `BirthEngine.execute` 79-168. `grow` stands for the test on `growPrior` (127), `model.grow` and
`alterFitindex` (128-139): it gives the grown problem, all parameters with the new ones inserted, the
new fit index and the place and number of the new parameters; `none` when the model does not grow.
`check` (155) is left out: it raises only. -/
def birthExecute (e : Env π β)
    (grow : Wk π β → ℕ → Option (π × List ℝ × List ℤ × ℕ × ℕ) × ℕ)
    (st : St π β) (kw : ℕ) (lowL : β) (append : Bool) : Option (St π β × ℕ) :=
  match st.walkers[kw]? with
  | none => none
  | some w =>
      match grow w st.k with
      | (none, k) => some ({ st with k := k }, 0)
      | (some (p, ptry, ftry, loc, dnp), k) =>
          birthLoop e p ftry lowL kw append ((List.range dnp).map fun i => ((loc + i : ℕ) : ℤ))
            e.maxtrials ptry { st with k := k }

/-- `DeathEngine.execute` 82-154; `shrink` as `grow` in `birthExecute`, with the number of parameters
that is removed. -/
def deathExecute (e : Env π β) (shrink : Wk π β → ℕ → Option (π × List ℝ × List ℤ × ℕ) × ℕ)
    (st : St π β) (kw : ℕ) (lowL : β) (append : Bool) : Option (St π β × ℕ) :=
  match st.walkers[kw]? with
  | none => none
  | some w =>
      match shrink w st.k with
      | (none, k) => some ({ st with k := k }, 0)
      | (some (p, ptry, ftry, dnp), k) =>
          let st : St π β := { st with k := k }
          let Ltry := e.L p ptry
          if lowL ≤ Ltry then
            some (st.setWalker (st.target append kw) p ptry Ltry none ftry, dnp)
          else some (st, 0)

/-- `StructureEngine.executeOnce` 113-160; `vary` is `model.vary` (139). -/
def structureOnce (e : Env π β) (vary : π → ℕ → ℕ → Option π × ℕ) (st : St π β) (wid : ℕ) (lowL : β)
    (update : ℕ) (location : ℕ) : Option (St π β × ℕ) :=
  match st.walkers[wid]? with
  | none => none
  | some w =>
      match vary w.problem location st.k with
      | (none, k) => some ({ st with k := k }, 0)
      | (some p, k) =>
          let st : St π β := { st with k := k }
          let Ltry := e.L p w.allpars
          if lowL ≤ Ltry then some (st.setWalker update p w.allpars Ltry none w.fitIndex, 1)
          else some (st, 0)

/-- The loop of `StructureEngine.execute` 102-111 over the random permutation. -/
def structureExecute (e : Env π β) (vary : π → ℕ → ℕ → Option π × ℕ) (lowL : β) (append : Bool) :
    List ℕ → St π β → ℕ → ℕ → Option (St π β × ℕ)
  | [], st, _, t => some (st, t)
  | p :: ps, st, kw, t =>
      let update := st.target append kw
      match structureOnce e vary st kw lowL update (p + 1) with
      | none => none
      | some (st', dt) =>
          structureExecute e vary lowL append ps st' (if 0 < dt then update else kw) (t + dt)

end BF.Engines
