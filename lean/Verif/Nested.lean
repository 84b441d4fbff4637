import Verif.Walkers
import Mathlib.Analysis.SpecialFunctions.Log.Basic
import Mathlib.Data.List.Sort

/-!
# NestedSampler: the sampling loop, the evidence and the list of posterior samples

Models `NestedSampler.py` (`sample`, `nextIteration`, `updateEvidence`, `copyWalker`,
`updateWalkers`), `Explorer.py` (`explore`, `exploreWalker`, not threaded) and the weights of
`SampleList.py`. Floats are reals. The random generator is a state of arbitrary type `σ`.
-/

namespace BF
namespace Nested

open Classical

noncomputable section

/-- `Sample.py` 75-110: the attributes set by `Walker.toSample`. Simplified: model reference,
nuisance and hyper parameters are not split off; `allpars` holds all of them. -/
structure Sample (α : Type*) where
  id : ℤ
  parent : ℤ
  start : ℕ
  allpars : List α
  logL : ℝ
  logW : ℝ

/-- `SampleList.py` 106-131: the list and the counter `_count`. -/
structure SampleList (α : Type*) where
  items : List (Sample α)
  count : ℕ

/-- `Walker.py` 121-140: a walker as a posterior sample with the given log weight.
`logPrior` is 0 in every walker (`Walker.py` 106, never assigned elsewhere). -/
def toSample {α : Type*} (w : Walker α ℝ) (logW : ℝ) : Sample α :=
  ⟨w.id, w.parent, w.start, w.allpars, w.logL, logW⟩

/-- `SampleList.py` 226-240: append a sample, renaming it. -/
def SampleList.add {α : Type*} (sl : SampleList α) (s : Sample α) : SampleList α :=
  let t : Sample α := { s with parent := s.id, id := sl.count }
  ⟨sl.items ++ [t], sl.count + 1⟩

/-- The while loop of `SampleList.py` 272-276; each turn removes the first or the last sample,
whichever has the lower weight. -/
def weedLoop {α : Type*} (maxsize : ℕ) : ℕ → List (Sample α) → List (Sample α)
  | 0, l => l
  | n + 1, l =>
      if l.length > maxsize then
        match l.head?, l.getLast? with
        | some a, some b =>
            if a.logW < b.logW then weedLoop maxsize n l.tail else weedLoop maxsize n l.dropLast
        | _, _ => l
      else l

/-- `SampleList.py` 259-277: nothing for `maxsize=None`. Every turn removes one sample, so as many
turns as there are samples suffice. -/
def SampleList.weed {α : Type*} (sl : SampleList α) : Option ℕ → SampleList α
  | none => sl
  | some m => { sl with items := weedLoop m sl.items.length sl.items }

/-- `SampleList.py` 208-223: divide all weights by their sum, in logarithms, with the largest one
taken out first. `none` is numpy's error on the maximum of an empty array. -/
def SampleList.normalize {α : Type*} (sl : SampleList α) : Option (SampleList α) :=
  match sl.items.map Sample.logW with
  | [] => none
  | w :: ws =>
      let lmax := ws.foldl max w
      let lswt := Real.log (((w :: ws).map fun x => Real.exp (x - lmax)).sum)
      let f : Sample α → Sample α := fun s => { s with logW := s.logW - (lmax + lswt) }
      some { sl with items := sl.items.map f }

/-- `SampleList.py` 351-372: weighted average and standard deviation of one attribute. -/
def SampleList.averstd {α : Type*} (sl : SampleList α) (attr : Sample α → ℝ) : ℝ × ℝ :=
  let acc := sl.items.foldl (fun (a : ℝ × ℝ) s =>
    let ws := Real.exp s.logW * attr s
    (a.1 + ws, a.2 + ws * attr s)) (0, 0)
  (acc.1, Real.sqrt (max (acc.2 - acc.1 * acc.1) 0))

/-- Loop of `SampleList.py` 379-386. -/
def medianLoop {α : Type*} : List (Sample α) → ℝ → ℕ → ℕ
  | [], _, k => k
  | s :: l, sum, k =>
      if sum + Real.exp s.logW < 1 / 2 then medianLoop l (sum + Real.exp s.logW) (k + 1) else k

/-- `SampleList.py` 375-388. -/
def SampleList.medianIndex {α : Type*} (sl : SampleList α) : ℕ := medianLoop sl.items 0 0

/-- Options of the sampler, `NestedSampler.py` 338-360. -/
structure Opts where
  ensemble : ℕ
  discard : ℕ
  minimumIterations : ℕ
  maxIterations : Option ℕ
  tolerance : ℝ
  «end» : ℝ
  maxsize : Option ℕ
  /-- `len( allpars ) / rate`, rounded up: `moves` is an integer. -/
  maxmoves : ℕ
  /-- `maxtrials / rate`, rounded up: `trials` is an integer. -/
  maxtrials : ℕ

/-- The attributes of the sampler that the loop of `NestedSampler.sample` changes.
`logZ = none` stands for the start value `-sys.float_info.max`, of which the exponential is 0. -/
structure St (α σ : Type*) where
  walkers : WalkerList α ℝ
  lowLhood : ℝ
  logZ : Option ℝ
  logdZ : ℝ
  info : ℝ
  logWidth : ℝ
  iteration : ℕ
  samples : SampleList α
  rng : σ

variable {α σ : Type*}

/-- `exp( logZ - x )` with the start value read as minus infinity. -/
def expRel (logZ : Option ℝ) (x : ℝ) : ℝ := logZ.elim 0 fun z => Real.exp (z - x)

/-- `numpy.logaddexp( logZ, w )`, `NestedSampler.py` 769. -/
def logaddexp (logZ : Option ℝ) (w : ℝ) : ℝ :=
  logZ.elim w fun z => Real.log (Real.exp z + Real.exp w)

/-- One turn of the loop in `updateEvidence`, `NestedSampler.py` 766-783. -/
def evStep (o : Opts) (kw : ℕ) (w : Walker α ℝ) (s : St α σ) : St α σ :=
  let logWeight := s.logWidth + w.logL
  let logZnew := logaddexp s.logZ logWeight
  { s with
    info := Real.exp (logWeight - logZnew) * s.lowLhood +
      expRel s.logZ logZnew * (s.info + s.logZ.getD 0) - logZnew
    logZ := some logZnew
    samples := s.samples.add (toSample w logWeight)
    logWidth := s.logWidth - 1 / ((o.ensemble : ℝ) - kw)
    logdZ := logWeight - logZnew }

/-- The loop over `kw` in `updateEvidence`, `NestedSampler.py` 765-783, for the walkers still to be
done. Python sets `logdZ` once after the loop, from the last turn (785); here each turn sets it. -/
def evLoop (o : Opts) : ℕ → List (Walker α ℝ) → St α σ → St α σ
  | _, [], s => s
  | kw, w :: ws, s => evLoop o (kw + 1) ws (evStep o kw w s)

/-- `NestedSampler.py` 752-787. `none` is an exception: IndexError when there are fewer walkers
than `worst`, or the unbound `logWeight` (785) when `worst` is 0. -/
def updateEvidence (o : Opts) (worst : ℕ) (s : St α σ) : Option (St α σ) :=
  if worst = 0 ∨ s.walkers.items.length < worst then none
  else some (evLoop o 0 (s.walkers.items.take worst) s)

/-- `NestedSampler.py` 709-721. -/
def nextIteration (o : Opts) (s : St α σ) : Bool :=
  if s.iteration < o.minimumIterations then true
  else if s.logdZ < o.tolerance then false
  else if o.maxIterations.elim False (fun m => s.iteration > m) then false
  else if (s.iteration : ℝ) > o.end * o.ensemble * s.info / o.discard then false
  else true

/-- What the sampler calls outside this model: the random generator, the engines and the
recomputation of a likelihood. -/
structure Env (α σ : Type*) where
  /-- `rng.randint( lo, hi )`; the value is `lo + (draw % (hi - lo))`. -/
  randint : σ → ℕ × σ
  /-- `rng.permutation( engines )`: numbers of engines in some order. -/
  permutation : σ → List ℕ × σ
  /-- `engine.execute( kw, lowLhood )`: the ensemble after the call and the reported number of
  moves; `none` when it raises. -/
  execute : ℕ → σ → WalkerList α ℝ → ℕ → ℝ → Option (WalkerList α ℝ × ℕ × σ)
  /-- `Explorer.logLcheck`, `Explorer.py` 243-279: `true` when it does not raise. -/
  logLcheck : Walker α ℝ → Bool

/-- `NestedSampler.py` 789-800: overwrite the worst by copies of others. `none` is the ValueError
of `randint( worst, ensemble )` for an empty range. First argument: the number of walkers still
to do, they are done in the order 0, 1, ... -/
def copyLoop (e : Env α σ) (o : Opts) (iteration worst : ℕ) :
    List ℕ → WalkerList α ℝ → σ → Option (WalkerList α ℝ × σ)
  | [], wl, r => some (wl, r)
  | k :: ks, wl, r =>
      if worst < o.ensemble then
        let d := e.randint r
        let kcp := worst + d.1 % (o.ensemble - worst)
        match wl.copy kcp k wl.items iteration with
        | none => none
        | some wl' => copyLoop e o iteration worst ks wl' d.2
      else none

def copyWalker (e : Env α σ) (o : Opts) (iteration worst : ℕ) (wl : WalkerList α ℝ) (r : σ) :
    Option (WalkerList α ℝ × σ) :=
  copyLoop e o iteration worst (List.range worst) wl r

/-- `Explorer.py` 178-199: one round of all engines, in the given order; returns the ensemble and
the number of moves. -/
def engineRound (e : Env α σ) (kw : ℕ) (low : ℝ) :
    List ℕ → WalkerList α ℝ → ℕ → σ → Option (WalkerList α ℝ × ℕ × σ)
  | [], wl, moves, r => some (wl, moves, r)
  | g :: gs, wl, moves, r =>
      match e.execute g r wl kw low with
      | none => none
      | some (wl', mv, r') => engineRound e kw low gs wl' (moves + mv) r'

/-- The while loop of `Explorer.py` 176-201. The last component tells whether the body ran for at
least one engine, so that `update` (183) has a value. -/
def trialLoop (e : Env α σ) (o : Opts) (kw : ℕ) (low : ℝ) :
    ℕ → WalkerList α ℝ → ℕ → σ → Bool → Option (WalkerList α ℝ × ℕ × σ × Bool)
  | 0, wl, moves, r, b => some (wl, moves, r, b)
  | n + 1, wl, moves, r, b =>
      if moves < o.maxmoves then
        let p := e.permutation r
        match engineRound e kw low p.1 wl moves p.2 with
        | none => none
        | some (wl', moves', r') => trialLoop e o kw low n wl' moves' r' (b || !p.1.isEmpty)
      else some (wl, moves, r, b)

/-- `Explorer.py` 145-209, without phantoms and reports: explore walker `kw`, then raise when the
walker ended below the level. -/
def exploreWalker (e : Env α σ) (o : Opts) (kw : ℕ) (low : ℝ) (wl : WalkerList α ℝ) (r : σ) :
    Option (WalkerList α ℝ × σ) :=
  match trialLoop e o kw low o.maxtrials wl 0 r false with
  | none => none
  | some (wl', moves, r', b) =>
      match wl'.items[kw]? with
      | none => none
      | some w =>
          if moves = 0 ∧ e.logLcheck w = false then none       -- 203-204
          else if b = false then none                          -- 206: `update` is unbound
          else if w.logL < low then none                       -- 206-207
          else some (wl', r')

/-- `Explorer.py` 98-117 (not threaded): explore the walkers in the list one after the other. -/
def explore (e : Env α σ) (o : Opts) (low : ℝ) :
    List ℕ → WalkerList α ℝ → σ → Option (WalkerList α ℝ × σ)
  | [], wl, r => some (wl, r)
  | kw :: ks, wl, r =>
      match exploreWalker e o kw low wl r with
      | none => none
      | some (wl', r') => explore e o low ks wl' r'

/-- `NestedSampler.py` 856-871. -/
def updateWalkers (e : Env α σ) (o : Opts) (worst : ℕ) (s : St α σ) : Option (St α σ) :=
  match copyWalker e o s.iteration worst s.walkers s.rng with
  | none => none
  | some (wl, r) =>
      match explore e o s.lowLhood (List.range worst) wl r with
      | none => none
      | some (wl', r') => some { s with walkers := wl', rng := r' }

/-- `NestedSampler.py` 448: `self.walkers.sort( key=logL )`; python's sort is stable. -/
def sortWalkers (wl : WalkerList α ℝ) : WalkerList α ℝ :=
  { wl with items := wl.items.insertionSort (fun v w => v.logL ≤ w.logL) }

/-- Body of the while loop, `NestedSampler.py` 448-466, without reports and `histinsert`. -/
def body (e : Env α σ) (o : Opts) (s : St α σ) : Option (St α σ) :=
  let wl := sortWalkers s.walkers
  match (if o.discard = 0 then none else wl.items[o.discard - 1]?) with
  | none => none
  | some w =>
      match updateEvidence o o.discard { s with walkers := wl, lowLhood := w.logL } with
      | none => none
      | some s1 =>
          updateWalkers e o o.discard
            { s1 with samples := s1.samples.weed o.maxsize, iteration := s1.iteration + 1 }

/-- How a bounded piece of the while loop ends. -/
inductive LoopEnd (α σ : Type*)
  | done (s : St α σ)
  | raised
  | running (s : St α σ)

/-- `NestedSampler.py` 446-466: at most `fuel` turns of the while loop. -/
def loop (e : Env α σ) (o : Opts) : ℕ → St α σ → LoopEnd α σ
  | 0, s => if nextIteration o s then .running s else .done s
  | n + 1, s =>
      if nextIteration o s then
        match body e o s with
        | none => .raised
        | some s' => loop e o n s'
      else .done s

/-- `NestedSampler.py` 434-437: the state with which the loop starts, given the walkers that the
initial engine made. -/
def initState (o : Opts) (wl : WalkerList α ℝ) (low : ℝ) (samples : SampleList α) (iteration : ℕ)
    (r : σ) : St α σ where
  walkers := wl
  lowLhood := low
  logZ := none
  logdZ := 0
  info := 0
  logWidth := Real.log (1 - Real.exp (-1 / (o.ensemble : ℝ)))
  iteration := iteration
  samples := samples
  rng := r

/-- `NestedSampler.py` 470-475: after the loop all remaining walkers are stored and the weights
normalised. -/
def finish (o : Opts) (s : St α σ) : Option (St α σ) :=
  match updateEvidence o o.ensemble s with
  | none => none
  | some s' =>
      match s'.samples.normalize with
      | none => none
      | some sl => some { s' with samples := sl }

end

end Nested
end BF
