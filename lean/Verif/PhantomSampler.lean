import Verif.Nested

/-!
# PhantomSampler: nested sampling that fills up the ensemble with intermediate positions

Models `PhantomSampler.py` (the attribute `worst`, `updateWalkers`) and what it inherits from
`NestedSampler.py` (`sample`, `nextIteration`), with `Explorer.py` in its mode `usePhantoms`: the
engines append what they find to the list of walkers. The attribute `ensemble` is not set, so that
it is the present length of the list (`NestedSampler.py` 904-905). `initEnsemble` is
`Opts.ensemble`; `Opts.discard` is not used. `step` is a natural number.
-/

namespace BF
namespace PhantomSampler

open Nested Classical

noncomputable section

variable {α σ : Type*}

/-- `PhantomSampler.py` 206-209: the constructor raises for a step above 10. -/
def accepted (step : ℕ) : Bool := step ≤ 10

/-- `PhantomSampler.py` 226-228: the attribute `worst`, a percentage of the present walkers. -/
def worst (step : ℕ) (wl : WalkerList α ℝ) : ℕ := wl.items.length * step / 100

/-- The options as the inherited methods see them: `ensemble` is the number of walkers and `worst`
the number to discard. -/
def present (o : Opts) (step : ℕ) (s : St α σ) : Opts :=
  { o with
    ensemble := s.walkers.items.length
    discard := worst step s.walkers }

/-- `NestedSampler.py` 709-721 with the attributes of this class; `none` is the ZeroDivisionError
of line 719. -/
def nextIteration (o : Opts) (step : ℕ) (s : St α σ) : Option Bool :=
  if s.iteration < o.minimumIterations then some true
  else if s.logdZ < o.tolerance then some false
  else if o.maxIterations.elim False (fun m => s.iteration > m) then some false
  else if worst step s.walkers = 0 then none
  else if (s.iteration : ℝ) >
      o.end * s.walkers.items.length * s.info / worst step s.walkers then some false
  else some true

/-- `Explorer.py` 145-209 with `usePhantoms`: the check of 206 is on the last walker in the list.
Lines 185-199 are reports. -/
def exploreWalker (e : Env α σ) (o : Opts) (kw : ℕ) (low : ℝ) (wl : WalkerList α ℝ) (r : σ) :
    Option (WalkerList α ℝ × σ) :=
  if kw < wl.items.length then                                 -- 165
    match trialLoop e o kw low o.maxtrials wl 0 r false with
    | none => none
    | some (wl', moves, r', b) =>
        match wl'.items[kw]?, wl'.items.getLast? with
        | some w, some v =>
            if moves = 0 ∧ e.logLcheck w = false then none     -- 203-204
            else if b = false then none                        -- 206: `update` is unbound
            else if v.logL < low then none                     -- 206-207
            else some (wl', r')
        | _, _ => none
  else none

/-- `Explorer.py` 98-117 (not threaded). -/
def explore (e : Env α σ) (o : Opts) (low : ℝ) :
    List ℕ → WalkerList α ℝ → σ → Option (WalkerList α ℝ × σ)
  | [], wl, r => some (wl, r)
  | kw :: ks, wl, r =>
      match exploreWalker e o kw low wl r with
      | none => none
      | some (wl', r') => explore e o low ks wl' r'

/-- `PhantomSampler.py` 253-256: explore random walkers until there are more than `initEnsemble`.
`none` is an exception (also the ValueError of `randint` on an empty range), or `fuel` turns were
not enough. -/
def fill (e : Env α σ) (o : Opts) (wst : ℕ) (low : ℝ) :
    ℕ → WalkerList α ℝ → σ → Option (WalkerList α ℝ × σ)
  | 0, wl, r => if wl.items.length ≤ o.ensemble then none else some (wl, r)
  | n + 1, wl, r =>
      if wl.items.length ≤ o.ensemble then
        if wst < wl.items.length then
          let d := e.randint r
          match explore e o low [wst + d.1 % (wl.items.length - wst)] wl d.2 with
          | none => none
          | some (wl', r') => fill e o wst low n wl' r'
        else none
      else some (wl, r)

/-- Python's `del l[k]`, negative numbers count from the end; `none` is the IndexError. -/
def delAt {β : Type*} (l : List β) (k : ℤ) : Option (List β) :=
  if 0 ≤ k ∧ k < l.length then some (l.eraseIdx k.toNat)
  else if k < 0 ∧ 0 ≤ k + l.length then some (l.eraseIdx (k + l.length).toNat)
  else none

/-- `PhantomSampler.py` 261-265: delete walkers at random places until there are `initEnsemble`.
Every turn deletes one, so as many turns as there are walkers suffice. `none` is an exception of
`randint` or `del`. -/
def trim (e : Env α σ) (N step : ℕ) :
    ℕ → List (Walker α ℝ) → σ → Option (List (Walker α ℝ) × σ)
  | 0, l, r => some (l, r)
  | n + 1, l, r =>
      if l.length > N then
        let ks : ℤ := (N : ℤ) - step
        let m : ℤ := l.length - ks - 1
        if m ≤ 0 then none
        else
          let d := e.randint r
          match delAt l (ks + (d.1 % m.toNat : ℕ)) with
          | none => none
          | some l' => trim e N step n l' d.2
      else some (l, r)

/-- `PhantomSampler.py` 237-265. -/
def updateWalkers (e : Env α σ) (o : Opts) (step fuel wst : ℕ) (s : St α σ) : Option (St α σ) :=
  match fill e o wst s.lowLhood fuel { s.walkers with items := s.walkers.items.drop wst } s.rng with
  | none => none
  | some (wl, r) =>
      match trim e o.ensemble step wl.items.length wl.items r with
      | none => none
      | some (l, r') => some { s with walkers := { wl with items := l }, rng := r' }

/-- Body of the while loop, `NestedSampler.py` 448-466, without reports and `histinsert`. When
`worst` is 0 the level (452) comes from `walkers[-1]`, and 785 raises. -/
def body (e : Env α σ) (o : Opts) (step fuel : ℕ) (s : St α σ) : Option (St α σ) :=
  let wl := sortWalkers s.walkers
  let wst := worst step wl
  match (if wst = 0 then wl.items.getLast? else wl.items[wst - 1]?) with
  | none => none
  | some w =>
      let s0 : St α σ := { s with walkers := wl, lowLhood := w.logL }
      match updateEvidence (present o step s0) wst s0 with
      | none => none
      | some s1 =>
          updateWalkers e o step fuel wst
            { s1 with samples := s1.samples.weed o.maxsize, iteration := s1.iteration + 1 }

/-- `NestedSampler.py` 425-437 after `initSample` made the walkers: the initial exploration, for
models that are not linear, at the level `bottom` (python: `-sys.float_info.max`); then the start
values. -/
def start (e : Env α σ) (o : Opts) (linear : Bool) (bottom : ℝ) (wl : WalkerList α ℝ)
    (samples : SampleList α) (r : σ) : Option (St α σ) :=
  if linear then
    some (initState { o with ensemble := wl.items.length } wl bottom samples 0 r)
  else
    match explore e o bottom (List.range wl.items.length) wl r with
    | none => none
    | some (wl', r') =>
        some (initState { o with ensemble := wl'.items.length } wl' bottom samples 0 r')

/-- `NestedSampler.py` 470-475. -/
def finish (o : Opts) (step : ℕ) (s : St α σ) : Option (St α σ) :=
  Nested.finish (present o step s) s

end

end PhantomSampler
end BF
