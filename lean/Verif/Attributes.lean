import Mathlib.Data.Rat.Defs
import Mathlib.Data.List.Basic

/-!
# Assigning attributes

`Tools.py` 116-145 (`setAttribute`), 271-326 (`length`, `isList`, `isInstance`) and the methods `__setattr__` of the
classes of models: which values are accepted for which attribute, and what is stored.

Simplifications:
* A value is a scalar, a list of scalars, a list of lists of scalars, or an array of one or two dimensions. Other lists
  (deeper, or mixed in depth) are left out. Numbers are rationals; no nan, no infinity, no complex numbers, no integers
  that do not fit in 64 bits.
* Arrays carry a reference, the object in memory. The items of an array are of one kind. An empty array counts as having
  the type asked for.
* An object is the map from the names in its dictionary to values.
-/

namespace BF.Attributes

/-- The scalars of python and numpy. `flt` is `float` and `numpy.float64`, which is a subclass of it; `npflt` are the
other floats of numpy. `obj` is an object, with its class and its identity. -/
inductive Sc
  | none
  | bool (b : Bool)
  | npbool (b : Bool)
  | int (z : ℤ)
  | npint (z : ℤ)
  | flt (x : ℚ)
  | npflt (x : ℚ)
  | str (s : String)
  | obj (cls id : ℕ)
  | dict (id n : ℕ)
  deriving DecidableEq

/-- The values. -/
inductive Val
  | sc (a : Sc)
  | list (l : List Sc)
  | grid (l : List (List Sc))
  | arr (ref : ℕ) (l : List Sc)
  | arr2 (ref : ℕ) (l : List (List Sc))
  deriving DecidableEq

/-- The types that are asked for. `cls c` is a class. -/
inductive Ty
  | int
  | float
  | bool
  | str
  | list
  | dict
  | cls (c : ℕ)
  deriving DecidableEq

/-- The kinds of exceptions. -/
inductive Err
  | attr
  | type
  | value
  deriving DecidableEq

/-- `Tools.isInstance`, `Tools.py` 314-326, for scalars. `sub` is the relation "is a subclass of". In python a bool is
an int. -/
def isInst (sub : ℕ → ℕ → Bool) : Ty → Sc → Bool
  | .int, .bool _ => true
  | .int, .int _ => true
  | .int, .npint _ => true
  | .float, .flt _ => true
  | .float, .bool _ => true
  | .float, .int _ => true
  | .float, .npint _ => true
  | .bool, .bool _ => true
  | .str, .str _ => true
  | .dict, .dict _ _ => true
  | .cls c, .obj d _ => sub d c
  | _, _ => false

/-- The number in a scalar. -/
def number : Sc → ℚ
  | .bool b => if b then 1 else 0
  | .npbool b => if b then 1 else 0
  | .int z => z
  | .npint z => z
  | .flt x => x
  | .npflt x => x
  | _ => 0

/-- The integer in a scalar. -/
def integer : Sc → ℤ
  | .bool b => if b then 1 else 0
  | .npbool b => if b then 1 else 0
  | .int z => z
  | .npint z => z
  | _ => 0

def isObj : Sc → Bool
  | .none => true
  | .obj _ _ => true
  | .dict _ _ => true
  | _ => false

def isStr : Sc → Bool
  | .str _ => true
  | _ => false

def isFlt : Sc → Bool
  | .flt _ => true
  | _ => false

def isNpflt : Sc → Bool
  | .npflt _ => true
  | _ => false

def isIntg : Sc → Bool
  | .int _ => true
  | .npint _ => true
  | _ => false

/-- The items of `numpy.asarray( item )` for a list, 310: numpy looks for a type that can hold all items. The text of
numbers that are converted into strings is left out. -/
def promote (l : List Sc) : List Sc :=
  if l.any isObj then l
  else if l.any isStr then l.map fun a => match a with
    | .str s => .str s
    | _ => .str "?"
  else if l.any isFlt then l.map fun a => .flt (number a)
  else if l.any isNpflt then
    if l.any isIntg then l.map fun a => .flt (number a) else l.map fun a => .npflt (number a)
  else if l.any isIntg then l.map fun a => .npint (integer a)
  else l.map fun a => .npbool (decide (integer a = 1))

/-- The items over which `isList` loops, 310. Rows of different lengths are a `ValueError` of numpy. -/
def items : Val → Except Err (List Sc)
  | .sc a => .ok [a]
  | .list l => .ok (promote l)
  | .grid l => if ∀ r ∈ l, r.length = (l.headD []).length then .ok (promote l.flatten) else .error .value
  | .arr _ l => .ok l
  | .arr2 _ l => .ok l.flatten

/-- `Tools.isInstance` for any value: the only type of lists and arrays that is asked for is `list`. -/
def isInstVal (sub : ℕ → ℕ → Bool) : Ty → Val → Bool
  | t, .sc a => isInst sub t a
  | .list, .list _ => true
  | .list, .grid _ => true
  | _, _ => false

/-- `Tools.isList`, `Tools.py` 300-312. -/
def isList (sub : ℕ → ℕ → Bool) (t : Ty) (v : Val) : Except Err (Bool × Bool) :=
  if isInstVal sub t v then .ok (true, false)
  else match v with
    | .sc _ => .ok (false, false)
    | v => match items v with
      | .error e => .error e
      | .ok l => .ok (l.all (isInst sub t), l.all (isInst sub t))

/-- A scalar of the type: what `numpy.asarray( ., dtype )` makes of it. -/
def conv (t : Ty) (a : Sc) : Sc := if t = .int then .npint (integer a) else .flt (number a)

/-- `numpy.asarray( value, dtype=type )`, 132 and 133. An array that has the type is returned itself; otherwise there is
a new one, at `fresh`. -/
def asarray (t : Ty) (fresh : ℕ) : Val → Val
  | .sc a => .arr fresh [conv t a]
  | .list l => .arr fresh (l.map (conv t))
  | .grid l => .arr2 fresh (l.map fun r => r.map (conv t))
  | .arr ref l => if ∀ a ∈ l, conv t a = a then .arr ref l else .arr fresh (l.map (conv t))
  | .arr2 ref l =>
      if ∀ r ∈ l, ∀ a ∈ r, conv t a = a then .arr2 ref l else .arr2 fresh (l.map fun r => r.map (conv t))

/-- `[value]`, 131. -/
def wrap : Val → Val
  | .sc a => .list [a]
  | v => v

/-- `Tools.setAttribute`, `Tools.py` 116-145: what is stored, or the exception. -/
def setatt (sub : ℕ → ℕ → Bool) (t : Option Ty) (islist isnone : Bool) (fresh : ℕ) (v : Val) : Except Err Val :=
  match t with
  | none => .ok v
  | some t =>
    if isnone ∧ v = .sc .none then .ok v
    else if islist then
      match isList sub t v with
      | .error e => .error e
      | .ok isl =>
        if isl.1 then
          if t ≠ .int ∧ t ≠ .float then .ok (if isl.2 then v else wrap v)
          else .ok (asarray t fresh v)
        else .error .type
    else if isInstVal sub t v then .ok v
    else .error .type

/-- `Tools.length`, `Tools.py` 271-280. -/
def length : Val → ℕ
  | .sc .none => 0
  | .sc (.str s) => s.length
  | .sc (.dict _ n) => n
  | .sc _ => 1
  | .list l => l.length
  | .grid l => l.length
  | .arr _ l => l.length
  | .arr2 _ l => l.length

/-- How an attribute is assigned: the arguments of `setAttribute`, and whether the length is checked first. -/
structure Rule where
  ty : Option Ty
  islist : Bool := false
  isnone : Bool := false
  sized : Bool := false
  deriving DecidableEq

/-- The classes used as types. -/
def clsPrior : ℕ := 0
def clsUnit : ℕ := 1
def clsModel : ℕ := 2
def clsKernel : ℕ := 3
def clsShape2d : ℕ := 4
def clsPolynomial : ℕ := 5
def clsGauss : ℕ := 6
def clsLorentz : ℕ := 7

/-- A table of names and rules. `none` is an `AttributeError`. -/
abbrev Table := List (String × Option Rule)

/-- `__setattr__` of `BaseModel`, `BaseModel.py` 133-158, `FixedModel` (`FixedModel.py` 159-167) and `Model`
(`Model.py` 209-236), for a model of `ndim` dimensions. -/
def modelTable (ndim : ℕ) : Table :=
  [("parameters", some { ty := some .float, islist := true, isnone := true, sized := true }),
   ("stdevs", some { ty := some .float, islist := true, isnone := true, sized := true }),
   ("xUnit", some { ty := some (.cls clsUnit), islist := decide (1 < ndim), isnone := true }),
   ("yUnit", some { ty := some (.cls clsUnit), isnone := true }),
   ("pipePartial", some { ty := none }),
   ("pipeDeriv", some { ty := none }),
   ("fixed", none),
   ("priors", some { ty := some (.cls clsPrior), islist := true, isnone := true }),
   ("parNames", some { ty := some .str, islist := true }),
   ("deltaP", some { ty := some .float, islist := true }),
   ("tiny", some { ty := some .float }),
   ("posIndex", some { ty := some .int, islist := true }),
   ("nonZero", some { ty := some .int, islist := true })]

/-- The classes of models with attributes of their own that are assigned by `setAttribute` only. -/
inductive Cls
  | model
  | polynomial
  | chebyshev
  | harmonic
  | pade
  | polySineAmp
  | polySurface
  | power
  | product
  | pseudoVoigt
  | sineAmp
  | sineSpline
  | sineSplineDrift
  | splines
  | basicSplines
  | surfaceSplines
  | kernel2d
  | polynomialDynamic
  | harmonicDynamic
  | splinesDynamic
  | repeating
  deriving DecidableEq

/-- `setDynamicAttribute`, `Dynamic.py` 112-128. -/
def dynamicTable : Table :=
  [("ncomp", some { ty := some .int }), ("deltaNpar", some { ty := some .int }),
   ("maxComp", some { ty := some .int, isnone := true }), ("minComp", some { ty := some .int }),
   ("growPrior", some { ty := some (.cls clsPrior) })]

/-- `SplinesModel.py` 167-177. -/
def splinesTable : Table :=
  [("knots", some { ty := some .float, islist := true }), ("order", some { ty := some .int })]

/-- The attributes of the classes themselves: `__setattr__` of `PolynomialModel.py` 98-105,
`ChebyshevPolynomialModel.py` 108-115, `HarmonicModel.py` 113-123, `PadeModel.py` 137-145, `PolySineAmpModel.py` 116-124,
`PolySurfaceModel.py` 116-123, `PowerModel.py` 104-108, `ProductModel.py` 116-125, `PseudoVoigtModel.py` 106-123,
`SineAmpModel.py` 110-114, `SineSplineModel.py` 131-141, `SineSplineDriftModel.py` 129-139, `SplinesModel.py`,
`BasicSplinesModel.py` 185-199, `SurfaceSplinesModel.py` 136-148, `Kernel2dModel.py` 134-144, and of the dynamic models
`PolynomialDynamicModel.py` 149-153, `HarmonicDynamicModel.py` 152-156, `SplinesDynamicModel.py` 162-166 and
`RepeatingModel.py` 319-333. -/
def ownTable : Cls → Table
  | .model => []
  | .polynomial => [("degree", some { ty := some .int })]
  | .chebyshev => [("degree", some { ty := some .int })]
  | .harmonic => [("order", some { ty := some .int }), ("period", some { ty := some .float })]
  | .pade => [("den", some { ty := some .int }), ("num", some { ty := some .int })]
  | .polySineAmp => [("frequency", some { ty := some .float }), ("degree", some { ty := some .int }), ("pm", none)]
  | .polySurface => [("degree", some { ty := some .int })]
  | .power => [("exponent", some { ty := some .float })]
  | .product => [("models", some { ty := some (.cls clsModel), islist := true })]
  | .pseudoVoigt =>
      [("gauss", some { ty := some (.cls clsGauss) }), ("lorentz", some { ty := some (.cls clsLorentz) })]
  | .sineAmp => [("frequency", some { ty := some .float })]
  | .sineSpline => [("frequency", some { ty := some .float })] ++ splinesTable ++ [("cm", none), ("sm", none)]
  | .sineSplineDrift =>
      [("degree", some { ty := some .int })] ++ splinesTable ++ [("cm", none), ("sm", none), ("pm", none)]
  | .splines => splinesTable
  | .basicSplines =>
      [("basis", some { ty := none }), ("border", some { ty := some .int }),
       ("poly", some { ty := some (.cls clsPolynomial) }), ("makeBasis", some { ty := none })] ++ splinesTable
  | .surfaceSplines =>
      [("knots", some { ty := some .list }), ("order", some { ty := some .int, islist := true }),
       ("models", some { ty := some (.cls clsModel), islist := true })]
  | .kernel2d =>
      [("kernel", some { ty := some (.cls clsKernel) }), ("shape2d", some { ty := some (.cls clsShape2d) }),
       ("shape", some { ty := none }), ("npbase", some { ty := none })]
  | .polynomialDynamic => dynamicTable ++ [("degree", some { ty := some .int })]
  | .harmonicDynamic =>
      dynamicTable ++ [("order", some { ty := some .int }), ("period", some { ty := some .float })]
  | .splinesDynamic => dynamicTable ++ splinesTable
  | .repeating =>
      dynamicTable ++ [("isDyna", some { ty := some .bool }), ("model", some { ty := some (.cls clsModel) }),
       ("same", some { ty := some .int, islist := true, isnone := true }),
       ("index", some { ty := some .int, islist := true, isnone := true })]

/-- The rule for a name: first the class itself, then its super classes. -/
def ruleOf (c : Cls) (ndim : ℕ) (name : String) : Option Rule :=
  ((ownTable c ++ modelTable ndim).lookup name).join

/-- The dictionary of an object. -/
abbrev Obj := String → Option Val

/-- The dictionary with `v` for `name`. -/
def Obj.put (o : Obj) (name : String) (v : Val) : Obj := fun n => if n = name then some v else o n

/-- What is stored for `v` by a rule, in a model with `np` parameters: the check of the length, `Model.py` 222-226, and
`setAttribute`. -/
def store (sub : ℕ → ℕ → Bool) (np fresh : ℕ) (r : Rule) (v : Val) : Except Err Val :=
  if r.sized ∧ v ≠ .sc .none ∧ length v ≠ np then .error .value
  else setatt sub r.ty r.islist r.isnone fresh v

/-- `obj.name = v`: the exception, if any, and the object afterwards. -/
def assign (sub : ℕ → ℕ → Bool) (c : Cls) (ndim np fresh : ℕ) (o : Obj) (name : String) (v : Val) :
    Option Err × Obj :=
  match ruleOf c ndim name with
  | none => (some .attr, o)
  | some r => match store sub np fresh r v with
    | .error e => (some e, o)
    | .ok w => (none, o.put name w)

/-- Any number of assignments; exceptions are caught by the caller. -/
def assigns (sub : ℕ → ℕ → Bool) (c : Cls) (ndim np : ℕ) : Obj → List (String × Val × ℕ) → Obj
  | o, [] => o
  | o, (name, v, fresh) :: h => assigns sub c ndim np (assign sub c ndim np fresh o name v).2 h

/-- `value == k`, as it is used in an `if`: `none` when numpy raises a `ValueError`, for an array with more items. -/
def equals (k : ℕ) : Val → Option Bool
  | .sc (.bool b) => some (decide (number (.bool b) = k))
  | .sc (.npbool b) => some (decide (number (.npbool b) = k))
  | .sc (.int z) => some (decide (z = k))
  | .sc (.npint z) => some (decide (z = k))
  | .sc (.flt x) => some (decide (x = k))
  | .sc (.npflt x) => some (decide (x = k))
  | .arr _ [a] => some (decide (number a = k))
  | .arr2 _ [[a]] => some (decide (number a = k))
  | .arr _ _ => none
  | .arr2 _ _ => none
  | _ => some false

/-- The methods `goals1` ... `goals5` and `part1` ... of a `FootballModel`. -/
def goals (k : ℕ) : Val := .sc (.obj 100 k)
def parts (k : ℕ) : Val := .sc (.obj 101 k)

/-- The chain of comparisons `FootballModel.py` 149-163, from `k` downwards. -/
def football (o : Obj) (v : Val) : ℕ → Option Err × Obj
  | 0 => (some .value, o)
  | k + 1 => match equals (k + 1) v with
    | none => (some .value, o)
    | some true => (none, (o.put "goals" (goals (k + 1))).put "parts" (parts (k + 1)))
    | some false => football o v k

/-- `model.complexity = v` for a `FootballModel`, `FootballModel.py` 148-167. -/
def footballSet (o : Obj) (v : Val) : Option Err × Obj :=
  match football o v 5 with
  | (some e, o') => (some e, o')
  | (none, o') => match setatt (fun _ _ => false) (some .int) false false 0 v with
    | .error e => (some e, o')
    | .ok w => (none, o'.put "complexity" w)

/-- `model.value = v` for a `ConstantModel` with a model in it, `ConstantModel.py` 148-150: what is stored for the
parameters of the model within. -/
def constantValue (fresh : ℕ) (v : Val) : Except Err Val := setatt (fun _ _ => false) (some .float) true false fresh v

/-- `model.table = v` for a `ConstantModel`, 144-147. -/
def constantTable (fresh : ℕ) (o : Obj) (v : Val) : Option Err × Obj :=
  match setatt (fun _ _ => false) (some .float) true true fresh v with
  | .error e => (some e, o)
  | .ok w => (none, (o.put "table" w).put "fixedModel" (.sc .none))

end BF.Attributes
