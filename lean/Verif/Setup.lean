import Mathlib.Data.List.Basic
import Mathlib.Data.Rat.Defs

/-!
# NestedSampler: how problem, error distribution, engines and phantoms are put together

Models the constructor of `NestedSampler` (`NestedSampler.py` 225-374), `setProblem` (942-994),
`setErrorDistribution` (1000-1053), `setEngines` (1055-1109), `setInitialEngine` (1113-1158), the parts of
`initSample` (486-504) and `initWalkers` (1160-1182) that hand objects to the engines, `__setattr__`
(874-900) for the fitter of `bestBoost`, the choices made by the problems (`myEngines`,
`myDistribution`), and the cached attributes of `Problem` (`Problem.py` 133-168).

Objects that are shared are represented by numbers; two attributes refer to one object when the numbers
are equal. `str.lower` and the random generator are parameters.
-/

namespace BF
namespace Setup

/-- Exceptions. -/
inductive Err
  | value | type | key | attribute
deriving DecidableEq, Repr

/-- The classes of problems. -/
inductive PKind
  | classic | errors | multiple | evidence | order
deriving DecidableEq, Repr

/-- What matters of a model: `isDynamic`, `isModifiable`. -/
structure Mdl where
  dynamic : Bool
  modifiable : Bool
deriving DecidableEq, Repr

/-- How an optional array was passed: not at all, as a number, as a python list, as a numpy array. -/
inductive Arg
  | missing | number | list | array
deriving DecidableEq, Repr

/-- A problem object. `prior` only has a meaning for errors in x and y: whether the prior on the x
parameters has been set. -/
structure Prob where
  kind : PKind
  model : Mdl
  prior : Bool
deriving DecidableEq, Repr

/-- `Problem.py` 350-351. (`OrderProblem.py` 90-91 asks the problem itself; here its flag stands in
`model.dynamic`.) -/
def Prob.isDynamic (p : Prob) : Bool := p.model.dynamic

/-- `ClassicProblem.py` 126-138, `ErrorsInXandYProblem.py` 434-438, `MultipleOutputProblem.py` 155-159,
`EvidenceProblem.py` 91-103, `OrderProblem.py` 94-100. -/
def Prob.myEngines (p : Prob) : List String :=
  match p.kind with
  | .classic => ["galilean", "chord"] ++ (if p.model.dynamic then ["birth", "death"] else [])
      ++ (if p.model.modifiable then ["struct"] else [])
  | .errors => ["galilean", "gibbs", "chord"]
  | .multiple => ["galilean", "chord"]
  | .evidence => (if p.model.dynamic then ["birth", "death"] else [])
      ++ (if p.model.modifiable then ["struct"] else [])
  | .order => ["move", "reverse", "switch", "loop"]
      ++ (if p.model.dynamic then ["birth", "death"] else [])

/-- `ClassicProblem.py` 146-150, `ErrorsInXandYProblem.py` 446-450, `MultipleOutputProblem.py` 167-171,
`EvidenceProblem.py` 105-109, `OrderProblem.py` 105-106. -/
def Prob.myDistribution (p : Prob) : String :=
  match p.kind with
  | .classic => "gauss"
  | .errors => "gauss2d"
  | .multiple => "gauss"
  | .evidence => "model"
  | .order => "distance"

/-- `myStartEngine` of the same classes. -/
def Prob.myStartEngine (p : Prob) : String :=
  match p.kind with
  | .order => "startorder"
  | _ => "start"

/-- The classes of error distributions that the sampler knows by name; `other` are classes of the
user. -/
inductive DKind
  | gauss | laplace | poisson | cauchy | uniform | exponential | gauss2d | model | bernoulli
  | other (n : ℕ)
deriving DecidableEq, Repr

/-- An error distribution object: identity, class, scale and limits. `V` are the numbers, `L` the
limits as they were given. -/
structure Dist (V L : Type) where
  obj : ℕ
  kind : DKind
  scale : Option V
  limits : Option L
deriving DecidableEq, Repr

/-- Classes of engines known by name; `other` are engines of the user. -/
inductive EKind
  | galilean | chord | birth | death | struct | gibbs | random | step | start
  | other (n : ℕ)
deriving DecidableEq, Repr

/-- A fitter class; 0 is `LevenbergMarquardtFitter`. -/
abbrev Fit := ℕ

/-- An engine: class, the error distribution it uses, the collection of phantoms, the list of walkers,
the seed of its own generator (`none` for an engine the user made), and the fitter that it boosts with
(`Engine.py` 108, 145-148; `none` is `noBoost`). -/
structure Eng (V L : Type) where
  kind : EKind
  errdis : Dist V L
  phantoms : Option ℕ
  walkers : Option ℕ
  seed : Option ℕ
  boost : Option Fit
deriving DecidableEq, Repr

/-- Value of the keyword `bestBoost`: a boolean or a fitter class. -/
inductive Boost
  | off | on | fitter (f : Fit)
deriving DecidableEq, Repr

/-- The attributes of the sampler. `NestedSampler.__getattr__` (902-938) answers `None` for an attribute
that does not exist. `draws` counts the calls of `rng.randint`; `next` is the number for the next new
object. -/
structure Sampler (V L : Type) where
  problem : Prob
  dist : Option (Dist V L)
  engines : List (Eng V L)
  phantoms : Option (ℕ × Bool)
  initial : Option (Eng V L)
  walkers : Option ℕ
  bestBoost : Boost
  myFitter : Option Fit
  draws : ℕ
  next : ℕ

variable {V L : Type}

/-! ## setProblem -/

/-- The argument `problem`: a name, with the model and the way in which weights and accuracy are passed,
or an object. Anything else is a ValueError (980-981). -/
inductive PArg
  | name (s : String) (m : Mdl) (weights accuracy : Arg)
  | object (p : Prob)
  | junk

/-- Construction of a problem by `NestedSampler.py` 983-988. "classic": `Problem.py` 186-188 multiplies
the accuracy with itself, which a list does not do. "errors": the prior is not among the arguments.
"multiple": `MultipleOutputProblem.py` 90-102 asks weights and accuracy for their shape, which numbers and
lists do not have. "evidence": `EvidenceProblem.py` 56 does not know the keyword `accuracy`, which is
always passed. An unknown name is a KeyError, raised again (989-990). -/
def makeProblem (lower : String → String) (s : String) (m : Mdl) (weights accuracy : Arg) :
    Except Err Prob :=
  if lower s = "classic" then
    if accuracy = .list then .error .type else .ok ⟨.classic, m, false⟩
  else if lower s = "errors" then .ok ⟨.errors, m, false⟩
  else if lower s = "multiple" then
    if weights = .number ∨ weights = .list ∨ accuracy = .number ∨ accuracy = .list then
      .error .attribute
    else .ok ⟨.multiple, m, false⟩
  else if lower s = "evidence" then .error .type
  else .error .key

/-- `NestedSampler.py` 942-990. Simplified: data, weights and model passed beside an object are not
modelled here. -/
def setProblem (lower : String → String) (a : PArg) (s : Sampler V L) : Sampler V L × Option Err :=
  match a with
  | .object p => ({ s with problem := p }, none)
  | .junk => (s, some .value)
  | .name n m w acc =>
      match makeProblem lower n m w acc with
      | .ok p => ({ s with problem := p }, none)
      | .error e => (s, some e)

/-- `EvidenceProblem.py` 56-78 with a model, or without one (`EvidenceProblem( copy=problem )`: line 74
asks `None` whether it is dynamic). -/
def makeEvidence : Option Mdl → Except Err Prob
  | none => .error .attribute
  | some m => if m.dynamic = false ∧ m.modifiable = false then .error .value
      else .ok ⟨.evidence, m, false⟩

/-! ## setErrorDistribution -/

/-- The argument `distribution`. -/
inductive DArg (V L : Type)
  | missing
  | name (s : String)
  | object (d : Dist V L)
  | junk

/-- `NestedSampler.py` 1031-1053: the class for a name in lower case. -/
def distKind (n : String) : Option DKind :=
  if n = "gauss" then some .gauss
  else if n = "laplace" then some .laplace
  else if n = "poisson" then some .poisson
  else if n = "cauchy" then some .cauchy
  else if n = "uniform" then some .uniform
  else if n = "exponential" then some .exponential
  else if n = "gauss2d" then some .gauss2d
  else if n = "model" then some .model
  else if n = "bernoulli" then some .bernoulli
  else none

/-- Whether scale and limits are handed to the class: not for Poisson and Bernoulli (1036-1037,
1050-1051). -/
def DKind.scaled : DKind → Bool
  | .poisson => false
  | .bernoulli => false
  | _ => true

/-- The second half of `setErrorDistribution`, 1029-1053, with a string. -/
def setDistName (lower : String → String) (n : String) (limits : Option L) (scale : V)
    (s : Sampler V L) : Sampler V L × Option Err :=
  match distKind (lower n) with
  | none => (s, some .value)
  | some k =>
      ({ s with
          dist := some ⟨s.next, k, if k.scaled then some scale else none,
            if k.scaled then limits else none⟩
          next := s.next + 1 }, none)

/-- `NestedSampler.py` 1000-1053. -/
def setErrorDistribution (lower : String → String) (a : DArg V L) (limits : Option L) (scale : V)
    (s : Sampler V L) : Sampler V L × Option Err :=
  match a with
  | .missing => setDistName lower s.problem.myDistribution limits scale s
  | .object d => ({ s with dist := some d }, none)
  | .junk => (s, some .value)
  | .name n => setDistName lower n limits scale s

/-! ## setEngines -/

/-- An item of the list `engines`: a name, an engine, or something else. -/
inductive EArg (V L : Type)
  | name (s : String)
  | object (e : Eng V L)
  | junk

/-- `NestedSampler.py` 1073-1081: the dictionary of engines. The name is not turned into lower case. -/
def engineKind (n : String) : Option EKind :=
  if n = "galilean" then some .galilean
  else if n = "chord" then some .chord
  else if n = "birth" then some .birth
  else if n = "death" then some .death
  else if n = "struct" then some .struct
  else if n = "gibbs" then some .gibbs
  else if n = "random" then some .random
  else if n = "step" then some .step
  else none

/-- The loop of `NestedSampler.py` 1089-1109. `draw k` is the `k`-th `rng.randint( 2^31 )`. An engine of
the user gets walkers, distribution and phantoms (1091-1096); a named one is made with a new seed
(1102-1107). The sampler has a distribution here, `d`: it is made before. -/
def engineLoop (draw : ℕ → ℕ) (d : Dist V L) (ph : ℕ) :
    List (EArg V L) → Sampler V L → Sampler V L × Option Err
  | [], s => (s, none)
  | .object e :: l, s =>
      engineLoop draw d ph l { s with
        engines := s.engines ++ [{ e with
          walkers := s.walkers
          errdis := d
          phantoms := some ph }] }
  | .junk :: _, s => (s, some .value)
  | .name n :: l, s =>
      match engineKind n with
      | none => (s, some .value)
      | some k =>
          engineLoop draw d ph l { s with
            engines := s.engines ++ [⟨k, d, some ph, s.walkers, some (draw s.draws), none⟩]
            draws := s.draws + 1 }

/-- `NestedSampler.py` 1055-1109. `engines = none` asks the problem. Without a distribution the
attribute is `None`, which an engine accepts; that state does not occur after a construction and is
answered with an exception here. -/
def setEngines (draw : ℕ → ℕ) (a : Option (List (EArg V L))) (s : Sampler V L) :
    Sampler V L × Option Err :=
  match s.dist with
  | none => (s, some .attribute)
  | some d =>
      engineLoop draw d s.next (a.getD (s.problem.myEngines.map .name)) { s with
        phantoms := some (s.next, s.problem.isDynamic)
        engines := []
        next := s.next + 1 }

/-! ## The constructor -/

/-- `NestedSampler.py` 225-374, as far as it makes problem, distribution and engines. `one` is the
default scale 1.0; 326-330 (problem), 356 (`bestBoost`, through `__setattr__`, which treats the name
`bestUpdate` only), 364-371. A missing problem is "classic". -/
def construct (lower : String → String) (draw : ℕ → ℕ) (one : V) (problem : PArg) (dist : DArg V L)
    (limits : Option L) (engines : Option (List (EArg V L))) (boost : Boost) :
    Except Err (Sampler V L) :=
  let s0 : Sampler V L := ⟨⟨.classic, ⟨false, false⟩, false⟩, none, [], none, none, none, boost,
    none, 0, 0⟩
  match setProblem lower problem s0 with
  | (_, some e) => .error e
  | (s1, none) =>
      match setErrorDistribution lower dist limits one s1 with
      | (_, some e) => .error e
      | (s2, none) =>
          match setEngines draw engines s2 with
          | (_, some e) => .error e
          | (s3, none) => .ok s3

/-! ## sample -/

/-- `NestedSampler.py` 1113-1158 with `self.initialEngine`: an existing one gets walkers and
distribution, a missing one is made with a new seed when the name is "start", the only one in the
dictionary (1133); both get the phantoms. -/
def setInitialEngine (draw : ℕ → ℕ) (d : Dist V L) (s : Sampler V L) : Sampler V L × Option Err :=
  match s.initial with
  | some e =>
      ({ s with
          initial := some { e with
            walkers := s.walkers
            errdis := d
            phantoms := s.phantoms.map Prod.fst } }, none)
  | none =>
      if s.problem.myStartEngine = "start" then
        ({ s with
            initial := some ⟨.start, d, s.phantoms.map Prod.fst, s.walkers, some (draw s.draws), none⟩
            draws := s.draws + 1 }, none)
      else (s, some .value)

/-- `Engine.py` 133-148: the fitter that `bestBoost` installs. -/
def boostFitter (myFitter : Option Fit) : Fit := myFitter.getD 0

/-- `NestedSampler.py` 486-504 (and 1160-1182): a new list of walkers, the initial engine, and then all
engines get the walkers and, when asked for, a fitter. The making of the walkers by the initial engine is
not part of this model. -/
def initSample (draw : ℕ → ℕ) (s : Sampler V L) : Sampler V L × Option Err :=
  match s.dist with
  | none => (s, some .attribute)
  | some d =>
      match setInitialEngine draw d { s with
          walkers := some s.next
          next := s.next + 1 } with
      | (s1, some e) => (s1, some e)
      | (s1, none) =>
          ({ s1 with
              engines := s1.engines.map fun g => { g with
                walkers := s1.walkers
                boost := if s1.bestBoost = .off then g.boost else some (boostFitter s1.myFitter) } },
            none)

/-! ## Histories -/

/-- What a user does with a sampler. -/
inductive Op (V L : Type)
  | problem (a : PArg)
  | distribution (a : DArg V L) (limits : Option L) (scale : V)
  | engines (a : Option (List (EArg V L)))
  | sample
  /-- `ns.bestBoost = v` -/
  | bestBoost (v : Boost)
  /-- `ns.bestUpdate = v`: `NestedSampler.py` 887-894 -/
  | bestUpdate (v : Boost)

/-- One operation; an exception leaves the state as it is at that point. -/
def step (lower : String → String) (draw : ℕ → ℕ) (s : Sampler V L) : Op V L →
    Sampler V L × Option Err
  | .problem a => setProblem lower a s
  | .distribution a l sc => setErrorDistribution lower a l sc s
  | .engines a => setEngines draw a s
  | .sample => initSample draw s
  | .bestBoost v => ({ s with bestBoost := v }, none)
  | .bestUpdate v =>
      ({ s with
          myFitter := match v with
            | .fitter f => some f
            | _ => none }, none)

/-- A history, with all exceptions caught. -/
def run (lower : String → String) (draw : ℕ → ℕ) (s : Sampler V L) (l : List (Op V L)) :
    Sampler V L :=
  l.foldl (fun s o => (step lower draw s o).1) s

/-! ## Cached attributes of a problem -/

/-- `Problem.py` 99-104: the data of a problem, and the attributes that `__getattr__` stores when they
are first asked for. -/
structure Data where
  ydata : List ℚ
  weights : Option (List ℚ)
  ndata : Option ℕ
  sumweight : Option ℚ

/-- `Problem.py` 99-104: a new problem has nothing stored. -/
def Data.make (y : List ℚ) (w : Option (List ℚ)) : Data := ⟨y, w, none, none⟩

/-- `Problem.py` 166-168: `problem.ndata`. -/
def Data.getNdata (d : Data) : ℕ × Data :=
  match d.ndata with
  | some n => (n, d)
  | none => (d.ydata.length, { d with ndata := some d.ydata.length })

/-- `Problem.py` 160-165: `problem.sumweight`; without weights the number of data, which is not
stored. -/
def Data.getSumweight (d : Data) : ℚ × Data :=
  match d.sumweight with
  | some x => (x, d)
  | none =>
      match d.weights with
      | some w => (w.sum, { d with sumweight := some w.sum })
      | none => ((d.getNdata.1 : ℚ), d.getNdata.2)

/-- `Problem.py` 133-145: assignment of `weights` removes `sumweight`. -/
def Data.setWeights (d : Data) (w : Option (List ℚ)) : Data :=
  { d with
    weights := w
    sumweight := none }

/-- `Problem.py` 133-145: assignment of `ydata` (also by `NestedSampler.setProblem` 974). -/
def Data.setYdata (d : Data) (y : List ℚ) : Data := { d with ydata := y }

/-- Operations on the data of a problem. -/
inductive DOp
  | readNdata | readSumweight
  | weights (w : Option (List ℚ))
  | ydata (y : List ℚ)

def Data.step (d : Data) : DOp → Data
  | .readNdata => d.getNdata.2
  | .readSumweight => d.getSumweight.2
  | .weights w => d.setWeights w
  | .ydata y => d.setYdata y

end Setup
end BF
