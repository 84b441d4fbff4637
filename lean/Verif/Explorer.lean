import Mathlib.Data.Real.Basic

/-!
# The exploration of a walker

Models `Explorer.py` 91-98, 145-236: which engines take part in an iteration, and for how long they move a walker. An
engine is an element of `ε` with its attribute `slow`; the walkers, the phantoms and the random generator together are
the state `σ`. Left out: threads (see `Threads.lean`), messages for `verbose` ≥ 4 and the changes of `errdis.lowLhood`.
-/

noncomputable section

namespace BF.Explorer

open Classical

variable {ε σ : Type*}

/-- `Explorer.selEngines` 210-225; `none` is the ZeroDivisionError for `slow = 0`. -/
def selEngines (slow : ε → Option ℕ) (iteration : ℕ) : List ε → Option (List ε)
  | [] => some []
  | g :: gs =>
      match slow g with
      | none => (selEngines slow iteration gs).map fun r => g :: r
      | some k =>
          if k = 0 then none
          else (selEngines slow iteration gs).map fun r => if iteration % k = 0 then g :: r else r

/-- `self.selectEngines( iteration )` as it is set in 91-98; `Explorer.allEngines` 227-236. -/
def selectEngines (slow : ε → Option ℕ) (engines : List ε) (iteration : ℕ) : Option (List ε) :=
  if engines.any fun g => (slow g).isSome then selEngines slow iteration engines else some engines

/-- The loop over the engines, 178-199: the new state and the number of moves; `none` when an engine raises. -/
def playRound (exec : ε → σ → Option (σ × ℕ)) : List ε → ℕ → σ → Option (σ × ℕ)
  | [], moves, s => some (s, moves)
  | g :: gs, moves, s =>
      match exec g s with
      | none => none
      | some (s', mv) => playRound exec gs (moves + mv) s'

/-- How the exploration ends. -/
inductive Outcome (σ : Type*)
  | done (s : σ)
  | raised
  | busy

/-- What is known after the loop 176-201: the state, `moves`, `trials` and whether `update` has a value. -/
structure Loop (σ : Type*) where
  s : σ
  moves : ℕ
  trials : ℕ
  bound : Bool

/-- The loop 176-201. `perm` is `rng.permutation`. The outer `none` is that the fuel is used up, the inner one that an
engine raises. -/
def exploreLoop (exec : ε → σ → Option (σ × ℕ)) (perm : List ε → σ → List ε × σ) (engines : List ε)
    (maxmoves maxtrials : ℝ) : ℕ → Loop σ → Option (Option (Loop σ))
  | 0, _ => none
  | fuel + 1, l =>
      if (l.moves : ℝ) < maxmoves ∧ (l.trials : ℝ) < maxtrials then
        let p := perm engines l.s
        match playRound exec p.1 l.moves p.2 with
        | none => some none
        | some (s, moves) =>
            exploreLoop exec perm engines maxmoves maxtrials fuel ⟨s, moves, l.trials + 1, l.bound || !p.1.isEmpty⟩
      else some (some l)

/-- `Explorer.exploreWalker` 145-209. `npars` is the number of parameters of the walker at the start, `check` is
`logLcheck`, which raises when it is false, and `logL` the log likelihood of the walker at `update`. -/
def exploreWalker (exec : ε → σ → Option (σ × ℕ)) (perm : List ε → σ → List ε × σ) (check : σ → Bool) (logL : σ → ℝ)
    (npars maxtrials : ℕ) (rate low : ℝ) (engines : List ε) (fuel : ℕ) (s : σ) : Outcome σ :=
  match exploreLoop exec perm engines (npars / rate) (maxtrials / rate) fuel ⟨s, 0, 0, false⟩ with
  | none => .busy
  | some none => .raised
  | some (some l) =>
      if l.moves = 0 ∧ check l.s = false then .raised          -- 203-204
      else if l.bound = false then .raised                     -- 206: `update` is unbound
      else if logL l.s < low then .raised                      -- 206-207
      else .done l.s

end BF.Explorer
