import Verif.Nested

/-!
# Where samples come from

Models what the engines do to the identity of a walker (`Engine.py`, `Walker.py`), the index at which a new walker enters
the ensemble (`NestedSampler.py`), the questions about the history of the samples (`SampleList.py`) and the frames of a
movie (`SampleMovie.py`).
-/

namespace BF.Lineage

open BF BF.Nested

variable {α σ : Type*}

/-- A walker to be stored by an engine: with the argument `walker` (the Galilean engine) or without (all others). -/
structure Store (α : Type*) where
  keep : Bool
  allpars : List α
  logL : ℝ

/-- `Engine.setWalker`, `Engine.py` 153-187, with `Walker.py` 70-119: a new walker has parent -1 and start 0, a copy has
those of the walker that was copied. Simplified: the problem, `fitIndex`, the best walker and the phantoms are left out.
-/
def engineSet (wl : WalkerList α ℝ) (kw : ℕ) (s : Store α) : WalkerList α ℝ :=
  match wl.items[kw]? with
  | none => wl.setWalker ⟨0, -1, 0, 0, s.allpars, s.logL⟩ kw
  | some w =>
      if s.keep then wl.setWalker ⟨w.id, w.parent, w.start, 0, s.allpars, s.logL⟩ kw
      else wl.setWalker ⟨w.id, -1, 0, 0, s.allpars, s.logL⟩ kw

/-- What an engine does to the ensemble: one call of `setWalker` per step, always for the walker that it explores. -/
def engineStores (wl : WalkerList α ℝ) (kw : ℕ) (l : List (Store α)) : WalkerList α ℝ :=
  l.foldl (fun w s => engineSet w kw s) wl

/-- What is appended to `histinsert`, `NestedSampler.py` 462-463. -/
noncomputable def insertIndex (worst : ℕ) (wl : WalkerList α ℝ) : Option ℕ :=
  (wl.items[worst - 1]?).bind fun w => wl.firstIndex w.logL

/-- `SampleList.getGeneration` 488-493. -/
def generation (sl : SampleList α) : List ℤ := sl.items.map Sample.id

/-- `SampleList.getParentEvolution` 474-479. -/
def parentEvolution (sl : SampleList α) : List ℤ := sl.items.map Sample.parent

/-- `SampleList.getStartEvolution` 481-486. -/
def startEvolution (sl : SampleList α) : List ℕ := sl.items.map Sample.start

/-- The points that are shown as the ensemble in frame `i` of a movie, `SampleMovie.py` 137-140. -/
def frame (sl : SampleList α) (i : ℕ) : List (Sample α) := (sl.items.drop i).filter fun x => ¬ x.start > i

end BF.Lineage
