import Verif.Nested
import Verif.Orders
import Verif.Salesman

/-!
# The nested solver for ordering problems

Models `NestedSolver.py`: the sampler of `Nested` with the ordering engines of `Orders` on the problem of `Salesman`.

Simplifications: everything random is given beforehand, per call, in `Gen`; the table of nearest neighbours of NearEngine is
whatever it may be at that call. Not threaded. `slow` engines, reports and plots are left out.
-/

noncomputable section

namespace BF.Solver

open Nested

/-- `SalesmanProblem.py` 61-134: the attributes that are used. `xy` are the first two columns of `xdata`. -/
structure Tour where
  cities : ℕ
  dist : ℕ → ℕ → ℝ
  scale : ℝ
  oneway : Bool
  weights : Option (ℕ → ℝ)
  xy : ℕ → ℝ × ℝ

/-- `ErrorDistribution.py` 362-375 for the DistanceCostFunction. -/
def Tour.logL (T : Tour) (pars : List ℕ) : ℝ :=
  Salesman.logLikelihood (Salesman.result T.dist T.scale T.oneway T.weights pars)

/-! ## Construction -/

/-- The argument `distribution` of the constructor. -/
inductive DistArg
  | none
  | name (s : String)
  | object

/-- `NestedSolver.py` 203-237: `limits` tells whether the keyword `limits` is in the call. The method has no such keyword:
TypeError (`none`). The result is the name of the distribution, or the object itself. `OrderProblem.myDistribution`
105-106. `str.lower` is left out. -/
def setErrorDistribution (d : DistArg) (limits : Bool) : Option String :=
  if limits then none
  else match d with
    | .none => some "distance"
    | .object => some "object"
    | .name s => if s = "distance" then some "distance" else none

/-- `NestedSolver.py` 159-167 with `NestedSampler.py` 364-369: a given distribution is set with the keyword `limits`. -/
def construct (d : DistArg) : Option String :=
  let first : Option Unit :=
    match d with
    | .none => (setErrorDistribution (.name "distance") false).map fun _ => ()
    | _ => some ()
  match first with
  | none => none
  | some _ =>
      match d with
      | .none => setErrorDistribution .none false
      | d => setErrorDistribution d true

/-- The ordering engines. -/
inductive Eng
  | move | reverse | loop | near | shuffle | switch
deriving DecidableEq, Repr

/-- The dictionary of `NestedSolver.py` 252-258. -/
def enginedict : String → Option Eng
  | "move" => some .move
  | "reverse" => some .reverse
  | "loop" => some .loop
  | "near" => some .near
  | "shuffle" => some .shuffle
  | "switch" => some .switch
  | _ => none

/-- `NestedSampler.py` 1055-1107 and `OrderProblem.py` 94-100, for names of engines. `none`: the ValueError at an unknown name. -/
def setEngines (names : Option (List String)) : Option (List Eng) :=
  (names.getD ["move", "reverse", "switch", "loop"]).mapM enginedict

/-! ## A run -/

/-- Everything random in a run. The first argument numbers the calls. -/
structure Gen where
  /-- `rng.randint` in `copyWalker` -/
  pick : ℕ → ℕ
  /-- `rng.permutation( engines )` in `Explorer.exploreWalker` -/
  order : ℕ → List ℕ
  /-- draws of an engine: number of the call, of the try, of the draw -/
  draws : ℕ → ℕ → ℕ → ℕ
  /-- table of nearest neighbours of NearEngine: number of the call, of the try -/
  table : ℕ → ℕ → ℕ → Option ℕ
  /-- `numpy.random.permutation` in `StartOrderEngine.py` 93, for each walker -/
  start : ℕ → List ℕ → List ℕ

/-- `executeOnce` of the engines. For ShuffleEngine see `env`. -/
def Eng.once (e : Eng) (T : Tour) (low : ℝ) (draw : ℕ → ℕ) (table : ℕ → Option ℕ) (param : List ℕ) :
    Option (Orders.Outcome ℕ ℝ) :=
  match e with
  | .move => Orders.moveOnce T.logL low param draw
  | .reverse => Orders.reverseOnce T.logL low param draw
  | .switch => Orders.switchOnce T.logL low param draw
  | .loop => Orders.loopOnce T.xy T.logL low param draw
  | .near => (Orders.nearOnce T.dist table T.logL low param draw).map (·.1)
  | .shuffle => none

/-- What the sampler of `Nested` calls.
ShuffleEngine: `Explorer.py` 179 passes `append` and `iteration`, which `ShuffleEngine.py` 78 does not take: TypeError.
`logLcheck` (`Explorer.py` 259, `Walker.py` 185): an ordering problem has no model, `model.npars` is an AttributeError. -/
def env (T : Tour) (engines : List Eng) (maxtrials : ℕ) (G : Gen) : Env ℕ ℕ where
  randint r := (G.pick r, r + 1)
  permutation r := (G.order r, r + 1)
  execute g r wl kw low :=
    match engines[g]? with
    | none => none
    | some .shuffle => none
    | some e =>
        match Orders.execute (fun i => e.once T low (G.draws r i) (G.table r i)) kw maxtrials 0 wl with
        | none => none
        | some (wl', t) => some (wl', t, r + 1)
  logLcheck _ := false

/-- The loop of `NestedSampler.py` 1179-1180 with StartOrderEngine. -/
def startLoop (T : Tour) (G : Gen) : List ℕ → WalkerList ℕ ℝ → Option (WalkerList ℕ ℝ)
  | [], wl => some wl
  | k :: ks, wl =>
      match Orders.startOrder T.logL (G.start k) wl k with
      | none => none
      | some (wl', _) => startLoop T G ks wl'

/-- `NestedSolver.py` 264-287 and `NestedSampler.py` 1175-1180: `allpars` is what `makeFitlist` made, with the values of
`keep` in it; only its length is used. -/
def initWalkers (T : Tour) (G : Gen) (ensemble : ℕ) (allpars : List ℕ) : Option (WalkerList ℕ ℝ) :=
  let walker : Walker ℕ ℝ := ⟨0, -1, 0, 0, List.range allpars.length, 0⟩
  startLoop T G (List.range ensemble) (WalkerList.addWalkers ⟨[], 0⟩ walker ensemble)

/-- `NestedSampler.py` 513-551, the part for the parameters: `keep` overwrites zeros. -/
def makeFitlist (T : Tour) (keep : List (ℕ × ℕ)) : List ℕ :=
  keep.foldl (fun l a => l.set a.1 a.2) (List.replicate T.cities 0)

/-- How a run ends. -/
inductive Ending
  | raised
  | running
  | solved (best : Sample ℕ) (samples : SampleList ℕ)

/-- The state in which the while loop of `NestedSampler.sample` starts (407-437): the walkers have been started and explored
once; `lowest` is `-sys.float_info.max`. `none`: something raises. -/
def prepare (T : Tour) (engines : List Eng) (maxtrials : ℕ) (G : Gen) (o : Opts) (lowest : ℝ) (keep : List (ℕ × ℕ)) :
    Option (St ℕ ℕ) :=
  match initWalkers T G o.ensemble (makeFitlist T keep) with
  | none => none
  | some wl =>
      match explore (env T engines maxtrials G) o lowest (List.range o.ensemble) wl 0 with
      | none => none
      | some (wl', r) => some (initState o wl' lowest ⟨[], 0⟩ 0 r)

/-- `NestedSolver.py` 171-192: `solve` returns the last sample. At most `fuel` turns of the while loop. -/
def solve (T : Tour) (engines : List Eng) (maxtrials : ℕ) (G : Gen) (o : Opts) (lowest : ℝ) (keep : List (ℕ × ℕ))
    (fuel : ℕ) : Ending :=
  match prepare T engines maxtrials G o lowest keep with
  | none => .raised
  | some s =>
      match loop (env T engines maxtrials G) o fuel s with
      | .raised => .raised
      | .running _ => .running
      | .done s =>
          match finish o s with
          | none => .raised
          | some s' =>
              match s'.samples.items.getLast? with
              | none => .raised
              | some x => .solved x s'.samples

end BF.Solver
