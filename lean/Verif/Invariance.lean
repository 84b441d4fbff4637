import Mathlib.MeasureTheory.Measure.Lebesgue.Basic
import Mathlib.MeasureTheory.Constructions.BorelSpace.Real
import Mathlib.MeasureTheory.Constructions.BorelSpace.Order
import Mathlib.MeasureTheory.Integral.Lebesgue.Add

/-!
# What one move of an engine does to the distribution of a walker

`/repo/BayesicFitting/source/ChordEngine.py`, `GibbsEngine.py`, `StepEngine.py` and `RandomEngine.py`.

In `Verif/Engines.lean` the engines are functions of a stream of random numbers. Here the random numbers
are integrated out: every function below returns the mean, over all numbers that the generator may
return, of `out` at the place where the walker is after the move. With `out` the indicator of a set it
is the probability that the walker ends in the set.

Simplifications: places are those in unit space; `lik` stands for `unit2Domain` followed by
`errdis.logLikelihood`; the numbers of `rng.rand()` are independent and uniform over [0,1); the
bookkeeping of the walkers, the counters and the plots are left out.
-/

noncomputable section

namespace BF.Invariance

open MeasureTheory
open scoped ENNReal

/-- The mean over one number of `self.rng.rand()`, which is uniform over [0,1). -/
def rand (f : ℝ → ℝ≥0∞) : ℝ≥0∞ := ∫⁻ r in Set.Ico (0 : ℝ) 1, f r

/-! ## ChordEngine -/

section chord
variable {E : Type*} [AddCommGroup E] [Module ℝ E]

/-- The trials along one chord, `ChordEngine.py` 209-277, when the first argument of type `ℕ` trials may
be made after this one: line 262 gives up when `kk > self.maxtrials`, so there are `maxtrials + 1`
trials. When it gives up, or when the chord has shrunk to nothing (214), the walker stays at `usav`. -/
def chordTry (lik : E → EReal) (lowL : EReal) (usav vel : E) (out : E → ℝ≥0∞) :
    ℕ → ℝ → ℝ → ℝ≥0∞
  | 0, t0, t1 =>
      if t0 < 0 ∧ 0 < t1 then
        rand fun r =>
          if lowL ≤ lik (usav + (t0 + r * (t1 - t0)) • vel)
            then out (usav + (t0 + r * (t1 - t0)) • vel) else out usav
      else out usav
  | k + 1, t0, t1 =>
      if t0 < 0 ∧ 0 < t1 then
        rand fun r =>
          if lowL ≤ lik (usav + (t0 + r * (t1 - t0)) • vel)
            then out (usav + (t0 + r * (t1 - t0)) • vel)
          else if t0 + r * (t1 - t0) < 0
            then chordTry lik lowL usav vel out k (t0 + r * (t1 - t0)) t1
          else chordTry lik lowL usav vel out k t0 (t0 + r * (t1 - t0))
      else out usav

end chord

variable {n : ℕ}

/-- The times at which the line reaches the edges of the box, `ChordEngine.py` 180. A division by zero
gives 0 in Lean and ±inf or nan in numpy: neither is ever taken as a finite minimum below. -/
def edgeTime (umin umax usav vel : Fin n → ℝ) : Fin n ⊕ Fin n → ℝ
  | .inl i => (umin i - usav i) / vel i
  | .inr i => (umax i - usav i) / vel i

/-- `numpy.min( numpy.where( tt > 0, tt, +math.inf ) )`, `ChordEngine.py` 187. -/
def exitTime (umin umax usav vel : Fin n → ℝ) : EReal :=
  ⨅ j, if 0 < edgeTime umin umax usav vel j then (edgeTime umin umax usav vel j : EReal) else ⊤

/-- `numpy.max( numpy.where( tt < 0, tt, -math.inf ) )`, `ChordEngine.py` 188. -/
def entryTime (umin umax usav vel : Fin n → ℝ) : EReal :=
  ⨆ j, if edgeTime umin umax usav vel j < 0 then (edgeTime umin umax usav vel j : EReal) else ⊥

/-- One chord, `ChordEngine.py` 176-277, in the direction `vel`: the walker stays where it is when the
times are not finite (214). The new box of 245-248 is the old one, as an accepted place is inside it. -/
def chordMove (lik : (Fin n → ℝ) → EReal) (lowL : EReal) (maxtrials : ℕ)
    (umin umax vel usav : Fin n → ℝ) (out : (Fin n → ℝ) → ℝ≥0∞) : ℝ≥0∞ :=
  if entryTime umin umax usav vel ≠ ⊥ ∧ exitTime umin umax usav vel ≠ ⊤ then
    chordTry lik lowL usav vel out maxtrials (entryTime umin umax usav vel).toReal
      (exitTime umin umax usav vel).toReal
  else out usav

/-- The loop `ChordEngine.py` 172-277 along given directions. Simplified: in python the directions are
drawn at random, orthogonal to those before (159, 251) as long as no chord has failed (267). -/
def chordMoves (lik : (Fin n → ℝ) → EReal) (lowL : EReal) (maxtrials : ℕ) (umin umax : Fin n → ℝ) :
    List (Fin n → ℝ) → (Fin n → ℝ) → ((Fin n → ℝ) → ℝ≥0∞) → ℝ≥0∞
  | [], usav, out => out usav
  | vel :: vels, usav, out => chordMove lik lowL maxtrials umin umax vel usav fun u =>
      chordMoves lik lowL maxtrials umin umax vels u out

/-! ## RandomEngine -/

/-- `self.rng.uniform( um, ux, nap )`, `RandomEngine.py` 124: each of the parameters is
`um + ( ux - um ) * rand()`. -/
def uniform (um ux : Fin n → ℝ) (f : (Fin n → ℝ) → ℝ≥0∞) : ℝ≥0∞ :=
  ∫⁻ r in Set.univ.pi fun _ => Set.Ico (0 : ℝ) 1, f fun i => um i + (ux i - um i) * r i

/-- The loop `RandomEngine.py` 121-138 and 165-167 with `nstep` trials. -/
def randomMove (lik : (Fin n → ℝ) → EReal) (lowL : EReal) (um ux usav : Fin n → ℝ)
    (out : (Fin n → ℝ) → ℝ≥0∞) : ℕ → ℝ≥0∞
  | 0 => out usav
  | nstep + 1 => uniform um ux fun utry =>
      if lowL ≤ lik utry then out utry else randomMove lik lowL um ux usav out nstep

/-- `um` and `ux` of `RandomEngine.py` 110-117 from the smallest and largest place of the walkers. -/
def randomBox (mlen : ℕ) (um ux : Fin n → ℝ) : (Fin n → ℝ) × (Fin n → ℝ) :=
  (fun i => max (um i - 10 * (ux i - um i) / mlen) 0, fun i => min (ux i + 10 * (ux i - um i) / mlen) 1)

/-! ## GibbsEngine and StepEngine -/

/-- At most `k` rounds of a loop that draws a step until it stays inside, when one round returns the mean
of its argument: 0 when it does not end within `k` rounds. -/
def rounds (round : (ℝ → ℝ≥0∞) → ℝ≥0∞) (inside : ℝ → Prop) [DecidablePred inside]
    (out : ℝ → ℝ≥0∞) : ℕ → ℝ≥0∞
  | 0 => 0
  | k + 1 => round fun utry => if inside utry then out utry else rounds round inside out k

/-- The loop without a bound on the number of rounds. -/
def untilInside (round : (ℝ → ℝ≥0∞) → ℝ≥0∞) (inside : ℝ → Prop) [DecidablePred inside]
    (out : ℝ → ℝ≥0∞) : ℝ≥0∞ :=
  ⨆ k, rounds round inside out k

/-- The trials for one parameter with a given `step`, `GibbsEngine.py` 140-168, when the first argument of
type `ℕ` trials may be made after this one: a trial is repeated when `kk < self.maxtrials` (159), so
there are `maxtrials` trials. -/
def gibbsTry (lik : ℝ → EReal) (lowL : EReal) (usav step : ℝ) (out : ℝ → ℝ≥0∞) : ℕ → ℝ → ℝ≥0∞
  | 0, utry => if lowL ≤ lik utry then out utry else out usav
  | k + 1, utry =>
      if lowL ≤ lik utry then out utry
      else untilInside (fun f => rand fun r => f (usav + step * (2 * r - 1)))
        (fun utry => 0 < utry ∧ utry < 1) (gibbsTry lik lowL usav step out k)

/-- The move of one parameter, `GibbsEngine.py` 128-168; `ur` is the range of the parameter with 10% added
(117-118). -/
def gibbsMove (lik : ℝ → EReal) (lowL : EReal) (maxtrials : ℕ) (ur usav : ℝ) (out : ℝ → ℝ≥0∞) : ℝ≥0∞ :=
  untilInside (fun f => rand fun r => f ((2 * r - 1) * ur))
    (fun step => 0 < usav + step ∧ usav + step < 1)
    fun step => gibbsTry lik lowL usav step out (maxtrials - 1) (usav + step)

/-- `ur` of `GibbsEngine.py` 117-118 from the range of the walkers. -/
def gibbsRange (range : ℝ) : ℝ := range * 1.10

/-- `StepEngine.py` 134-146 for one parameter: draw another step as long as the place is outside. -/
def stepInside (urange usav : ℝ) (out : ℝ → ℝ≥0∞) (step : ℝ) : ℝ≥0∞ :=
  if ¬ (usav + step < 0 ∨ 1 < usav + step) then out step
  else untilInside (fun f => rand fun r => f ((r - 0.5) * urange))
    (fun step => ¬ (usav + step < 0 ∨ 1 < usav + step)) out

/-- The trials of `StepEngine.py` 130-180 for one parameter up to the first success, when the first
argument of type `ℕ` trials may be made after this one; the second is `kt`, then come `sz` and `step`. -/
def stepTry (lik : ℝ → EReal) (lowL : EReal) (urange usav : ℝ) (out : ℝ → ℝ≥0∞) :
    ℕ → ℕ → ℝ → ℝ → ℝ≥0∞
  | 0, _, _, step => stepInside urange usav
      (fun step => if lowL ≤ lik (usav + step) then out (usav + step) else out usav) step
  | left + 1, kt, sz, step => stepInside urange usav
      (fun step =>
        if lowL ≤ lik (usav + step) then out (usav + step)
        else if kt % 2 = 0 then stepTry lik lowL urange usav out left (kt + 1) (sz * -1) (step * (sz * -1))
        else rand fun r => stepTry lik lowL urange usav out left (kt + 1) (sz * r) (step * (sz * r))) step

/-- One step of `StepEngine.py` 126-180 for one parameter; `urange` is the extended range (109-113). A trial
is repeated when `kt <= self.maxtrials` (170), so there are `maxtrials + 2` trials. -/
def stepMove (lik : ℝ → EReal) (lowL : EReal) (maxtrials : ℕ) (urange usav : ℝ) (out : ℝ → ℝ≥0∞) :
    ℝ≥0∞ :=
  rand fun r => stepTry lik lowL urange usav out (maxtrials + 1) 0 1 ((r - 0.5) * urange)

/-- `urange` of `StepEngine.py` 109-113 from the range of the `nw` walkers. -/
def stepRange (range : ℝ) (nw : ℕ) : ℝ := range + 2 * (range / nw)

end BF.Invariance
