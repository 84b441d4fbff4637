import Verif.Attributes

/-!
# Attributes of walkers, samples and error distributions

`Tools.py` 148-251 (`setNoneAttributes`, `setListOfAttributes`, `setSingleAttributes`) and the methods `__setattr__` of
`Walker`, `Sample`, `ErrorDistribution` and `MixedErrorDistribution`. Values, types and objects are those of
`Attributes.lean`, with the simplifications listed there.
-/

namespace BF.Attributes

def clsProblem : ℕ := 8
def clsHyper : ℕ := 9
def clsErrdis : ℕ := 10

/-- What one of the three functions does: `none` is the answer False, `some w` stores `w`. -/
abbrev Step := Except Err (Option Val)

/-- `a or b`. -/
def Step.or (a b : Step) : Step :=
  match a with
  | .ok none => b
  | a => a

/-- `Tools.setNoneAttributes` 148-176. -/
def setNone (names : List String) (name : String) (v : Val) : Step :=
  if name ∈ names ∧ v = .sc .none then .ok (some v) else .ok none

/-- `Tools.setListOfAttributes` 179-218. `wrap` is `[value]`, which is made of scalars only. -/
def setListOf (sub : ℕ → ℕ → Bool) (fresh : ℕ) (d : List (String × Ty)) (name : String) (v : Val) : Step :=
  match d.lookup name with
  | none => .ok none
  | some t => match isList sub t v with
    | .error e => .error e
    | .ok isl =>
      if isl.1 then
        if t ≠ .int ∧ t ≠ .float then .ok (some (if isl.2 then v else wrap v))
        else if isl.2 then .ok (some (asarray t fresh v))
        else .ok (some (asarray t fresh (wrap v)))
      else .error .type

/-- `Tools.setSingleAttributes` 221-251. -/
def setSingle (sub : ℕ → ℕ → Bool) (d : List (String × Ty)) (name : String) (v : Val) : Step :=
  match d.lookup name with
  | none => .ok none
  | some t => if isInstVal sub t v then .ok (some v) else .error .type

/-- What is stored in the end; False is an `AttributeError`. -/
def Step.done : Step → Except Err Val
  | .ok none => .error .attr
  | .ok (some w) => .ok w
  | .error e => .error e

/-- `Walker.__setattr__`, `Walker.py` 161-175. -/
def walkerSet (sub : ℕ → ℕ → Bool) (name : String) (v : Val) : Except Err Val :=
  if name = "allpars" ∨ name = "fitIndex" then .ok v
  else Step.done (setSingle sub [("id", .int), ("parent", .int), ("start", .int), ("problem", .cls clsProblem),
    ("logL", .float), ("logPrior", .float)] name v)

/-- `Sample.__setattr__`, `Sample.py` 148-166. -/
def sampleSet (sub : ℕ → ℕ → Bool) (fresh : ℕ) (name : String) (v : Val) : Except Err Val :=
  if name = "parameters" then .ok v
  else Step.done (Step.or (setNone ["model", "fitIndex"] name v)
    (Step.or (setSingle sub [("id", .int), ("parent", .int), ("start", .int), ("model", .cls clsModel),
      ("logL", .float), ("logW", .float)] name v)
    (setListOf sub fresh [("fitIndex", .int), ("nuisance", .float), ("hyper", .float)] name v)))

/-- `ErrorDistribution.__setattr__`, `ErrorDistribution.py` 129-138, for other names than "constrain". -/
def errdisSet (sub : ℕ → ℕ → Bool) (fresh : ℕ) (name : String) (v : Val) : Except Err Val :=
  Step.done (Step.or (setNone ["hyperpar", "fixed"] name v)
    (Step.or (setListOf sub fresh [("hyperpar", .cls clsHyper)] name v)
    (setSingle sub [("deltaP", .float), ("lowLhood", .float), ("ncalls", .int), ("nparts", .int), ("fixed", .dict)]
      name v)))

/-- `MixedErrorDistribution.__setattr__` 107-118 on top of it. -/
def mixedSet (sub : ℕ → ℕ → Bool) (fresh : ℕ) (name : String) (v : Val) : Except Err Val :=
  match setSingle sub [("errdis1", .cls clsErrdis), ("errdis2", .cls clsErrdis)] name v with
  | .error e => .error e
  | .ok (some w) => .ok w
  | .ok none => errdisSet sub fresh name v

/-- The classes. -/
inductive Rec
  | walker | sample | errdis | mixed

/-- What is stored for a name, other than "constrain" of an error distribution. -/
def Rec.set (sub : ℕ → ℕ → Bool) (fresh : ℕ) : Rec → String → Val → Except Err Val
  | .walker => walkerSet sub
  | .sample => sampleSet sub fresh
  | .errdis => errdisSet sub fresh
  | .mixed => mixedSet sub fresh

/-- The classes that are error distributions. -/
def Rec.isErrdis : Rec → Bool
  | .errdis => true
  | .mixed => true
  | _ => false

/-- The two methods that "logLikelihood" can be bound to. -/
def logLhood : Val := .sc (.obj 200 0)
def logCLhood : Val := .sc (.obj 200 1)

/-- `ErrorDistribution.__setattr__` 116-127, for the name "constrain", in a class that has `logLdata`. -/
def constrainSet (callable : Val → Bool) (o : Obj) (v : Val) : Option Err × Obj :=
  if v = .sc .none then (none, (o.put "logLikelihood" logLhood).put "constrain" v)
  else if callable v then (none, (o.put "logLikelihood" logCLhood).put "constrain" v)
  else (some .value, o)

/-- `obj.name = v`: the exception, if any, and the object afterwards. -/
def Rec.assign (sub : ℕ → ℕ → Bool) (callable : Val → Bool) (c : Rec) (fresh : ℕ) (o : Obj) (name : String) (v : Val) :
    Option Err × Obj :=
  if c.isErrdis ∧ name = "constrain" then constrainSet callable o v
  else match c.set sub fresh name v with
    | .error e => (some e, o)
    | .ok w => (none, o.put name w)

/-- Any number of assignments; exceptions are caught by the caller. -/
def Rec.assigns (sub : ℕ → ℕ → Bool) (callable : Val → Bool) (c : Rec) : Obj → List (String × Val × ℕ) → Obj
  | o, [] => o
  | o, (name, v, fresh) :: h => c.assigns sub callable (c.assign sub callable fresh o name v).2 h

end BF.Attributes
