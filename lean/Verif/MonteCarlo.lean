import Mathlib.Data.Matrix.Mul
import Mathlib.Data.Matrix.Diagonal
import Mathlib.Analysis.SpecialFunctions.Sqrt

/-!
# Monte Carlo error bars

Models `MonteCarlo.py` and `BaseFitter.monteCarloError`.

Simplifications: floats are reals; a nan is `none`, so that no list with a nan in some places is made. `numpy.linalg.eigh` is a
parameter. The random numbers of `numpy.random.standard_normal` after `seed( s )` are a given sequence for every `s`; the state of
the global generator is the seed and the number of draws since. The shape of the inputs is left out: the model gives one number per
input.
-/

noncomputable section

namespace BF.MonteCarlo

open Matrix

/-- State of `numpy.random`. -/
structure Gen where
  seed : ℕ
  pos : ℕ
deriving DecidableEq, Repr

/-- `MonteCarlo.py` 94-102: the attributes that are used. There is no generator in it: `self._random` is the module. -/
structure MC (n : ℕ) where
  vec : Matrix (Fin n) (Fin n) ℝ
  sd : Fin n → ℝ
  index : Option (List ℕ)
  mcycles : ℕ

open Classical in
/-- `MonteCarlo.py` 66-107: the global generator is seeded. `none`: the root of a negative eigenvalue is a nan. -/
def construct {n : ℕ} (eigh : Matrix (Fin n) (Fin n) ℝ → (Fin n → ℝ) × Matrix (Fin n) (Fin n) ℝ) (cov : Matrix (Fin n) (Fin n) ℝ)
    (index : Option (List ℕ)) (seed mcycles : ℕ) (_g : Gen) : Option (MC n × Gen) :=
  let e := eigh cov
  if ∃ j, e.1 j < 0 then none
  else some (⟨e.2, fun j => √(e.1 j), index, mcycles⟩, ⟨seed, 0⟩)

/-- `par[index] += err`: the elements are read, added to and written back in the order of the list. `none`: IndexError. -/
def addAt (par : List ℝ) (index : List ℕ) (err : List ℝ) : Option (List ℝ) :=
  match index.mapM (fun i : ℕ => par[i]?) with
  | none => none
  | some old => some ((index.zip (List.zipWith (· + ·) old err)).foldl (fun p a => p.set a.1 a.2) par)

/-- `MonteCarlo.py` 151-158, with the random numbers `z`. `none`: sizes do not match. -/
def variant {n : ℕ} (mc : MC n) (params : List ℝ) (z : Fin n → ℝ) : Option (List ℝ) :=
  let nfit := mc.index.elim params.length List.length
  if nfit = n then
    let err := mc.vec *ᵥ fun j => mc.sd j * z j
    match mc.index with
    | none => some (List.zipWith (· + ·) params (List.ofFn err))
    | some ix => addAt params ix (List.ofFn err)
  else none

variable {X : Type*}

/-- The loop of 130-133: `sm1` and `sm2`, and the generator. -/
def cycles {n : ℕ} (result : X → List ℝ → ℝ) (stream : ℕ → ℕ → ℝ) (mc : MC n) (params : List ℝ) (xs : List X) :
    ℕ → List ℝ → List ℝ → Gen → Option (List ℝ × List ℝ × Gen)
  | 0, sm1, sm2, g => some (sm1, sm2, g)
  | k + 1, sm1, sm2, g =>
      match variant mc params (fun j => stream g.seed (g.pos + j)) with
      | none => none
      | some par =>
          let model := xs.map fun x => result x par
          cycles result stream mc params xs k (List.zipWith (· + ·) sm1 model)
            (List.zipWith (· + ·) sm2 (model.map fun y => y * y)) ⟨g.seed, g.pos + n⟩

/-- `MonteCarlo.py` 110-138. `none`: an exception, or nans because there are no cycles. -/
def getError {n : ℕ} (result : X → List ℝ → ℝ) (stream : ℕ → ℕ → ℝ) (mc : MC n) (params : List ℝ) (xs : List X) (g : Gen) :
    Option (List ℝ × Gen) :=
  match cycles result stream mc params xs mc.mcycles (xs.map fun _ => 0) (xs.map fun _ => 0) g with
  | none => none
  | some (sm1, sm2, g') =>
      if mc.mcycles = 0 then none
      else
        let sm1 := sm1.map fun s : ℝ => s / mc.mcycles
        let sm2 := sm2.map fun s : ℝ => s / mc.mcycles
        some (List.zipWith (fun s2 s1 => √(s2 - s1 * s1)) sm2 sm1, g')

/-- `BaseFitter.py` 777-803 without a ready-made MonteCarlo; `MonteCarlo.py` 66 has the defaults. -/
def monteCarloError {n : ℕ} (eigh : Matrix (Fin n) (Fin n) ℝ → (Fin n → ℝ) × Matrix (Fin n) (Fin n) ℝ)
    (cov : Matrix (Fin n) (Fin n) ℝ) (fitIndex : Option (List ℕ)) (result : X → List ℝ → ℝ) (stream : ℕ → ℕ → ℝ)
    (params : List ℝ) (xs : List X) (g : Gen) : Option (List ℝ × Gen) :=
  match construct eigh cov fitIndex 12345 25 g with
  | none => none
  | some (mc, g) => getError result stream mc params xs g

end BF.MonteCarlo
