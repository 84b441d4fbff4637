import Verif.Growth
import Verif.Engines

/-!
# The first walkers of a dynamic model

Models `StartEngine.execute` 73-157 for a chain of models with one dynamic model in it. (`Verif.Engines` has it
for static models.)

Simplifications:
* The chain is what `Verif.Dynamic` keeps of it: `off` parameters of other models, then those of the dynamic model,
  then others; the sizes of the components are `first` and `delta`.
* The random numbers are a sequence; the state is the number of draws. The maps of the priors from unit to domain
  are parameters.
* Loops have an argument that limits their turns, `none` when it is not enough.
* Left out: the factor 100 for a constrained distribution, `setWalker` and `check`.
-/

noncomputable section

namespace BF.StartDyn

open Dynamic Growth Priors

/-- What `execute` uses: the prior on the number of components, the sizes of components, the random numbers, the maps
of the priors of new parameters (by place) and of all (by index, negative for hyperparameters), the
likelihood. -/
structure Env (β : Type*) where
  q : Prior
  first : ℕ
  delta : ℕ
  rand : ℕ → ℝ
  newpar : ℕ → ℝ → ℝ
  u2d : ℤ → ℝ → ℝ
  L : Dyn ℝ → List ℝ → β

variable {β : Type*}

/-- The loop of lines 117-124: `Growth.birth` is the condition of 117-118, with one draw for the number of components,
and one for each new parameter when the model grows (`Dynamic.py` 156-158). -/
def growLoop (e : Env β) (off : ℕ) : ℕ → Dyn ℝ → List ℤ → ℕ → Option (Dyn ℝ × List ℤ × ℕ)
  | 0, _, _, _ => none
  | n + 1, s, fi, k =>
      let size := compSize e.first e.delta s.ncomp
      let value := (List.range size).map fun i => e.newpar (off + s.npbase + i) (e.rand (k + 1 + i))
      match birth e.q s off value (e.rand k) with
      | none => none
      | some (_, false) => some (s, fi, k + 1)
      | some (s', true) =>
          growLoop e off n s' (fitBirth fi s.npbase (s'.npchain - s.npchain) off) (k + 1 + size)

/-- The loop of lines 102-144. `npar` and `onp` are the lengths of `allpars` and of the parameters at the start. After
the first turn the variable `model` is the dynamic model itself, so that the search of 110-112 finds it at once,
with offset 0. The list of parameters is new, with zeros (126). -/
def tryLoop (e : Env β) (finite : β → Prop) [DecidablePred finite] (fuel npar onp : ℕ) :
    ℕ → ℕ → Dyn ℝ → List ℤ → ℕ → Option (Dyn ℝ × List ℝ × List ℤ × ℕ)
  | 0, _, _, _, _ => none
  | n + 1, off, s, fi, k =>
      match growLoop e off fuel s fi k with
      | none => none
      | some (s', fi', k') =>
          let allp := List.replicate (npar + s'.npchain - onp) (0 : ℝ)
          let uval := (List.range fi'.length).map fun i => e.rand (k' + i)
          match Engines.puts allp fi' (List.zipWith e.u2d fi' uval) with
          | none => none
          | some a =>
              if finite (e.L s' a) then some (s', a, fi', k' + fi'.length)
              else tryLoop e finite fuel npar onp n 0 s' fi' (k' + fi'.length)

/-- `execute` 73-157: model, parameters, fit index and number of draws. `ktry` runs from 0 while it is at most
`maxtrials + walker.id`. -/
def execute (e : Env β) (finite : β → Prop) [DecidablePred finite] (fuel maxtrials id off : ℕ) (s : Dyn ℝ)
    (allpars : List ℝ) (fi : List ℤ) (k : ℕ) : Option (Dyn ℝ × List ℝ × List ℤ × ℕ) :=
  tryLoop e finite fuel allpars.length s.npchain (maxtrials + id + 2) off s fi k

end BF.StartDyn
