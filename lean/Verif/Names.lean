import Verif.Fixed
import Verif.Combi

/-!
# Names of parameters

`BaseModel.py`, `Model.py`, `FixedModel.py`, `Dynamic.py` and the models that make names of their own: how the
parameters of a model are called, and how their values are read under these names.

Simplifications:
* The number of a parameter is an integer of Python, which may be negative. An exception is `none`.
* `"%d" % ( k / 2 )` is the quotient rounded to zero; rounding in the division of large numbers is not modelled.
* Of a model only what has to do with names: the number of parameters of each link of the chain, the list `parNames`
  and the method `baseParameterName` if it has one of its own.
-/

namespace BF.Names

/-- A list indexed by an integer: negative ones count from the end. -/
def pyGet {β : Type*} (l : List β) (k : ℤ) : Option β :=
  if 0 ≤ k then l[k.toNat]? else if 0 ≤ k + l.length then l[(k + l.length).toNat]? else none

/-- `"parameter_%d" % k` for all `k` in `range( n )`: `BaseModel.py` 121, `FixedModel.py` 135, `Dynamic.py` 217. -/
def numbered (n : ℕ) : List String := (List.range n).map fun k => "parameter_" ++ toString k

/-- A link of a chain: `npbase`, `parNames` and, for the models that have one, their own `baseParameterName`. -/
structure Link where
  npbase : ℕ
  parNames : List String
  own : Option (ℤ → Option String) := none

/-- `baseParameterName`, `BaseModel.py` 399-408, unless the model has its own. -/
def Link.baseName (l : Link) (k : ℤ) : Option String :=
  match l.own with
  | none => pyGet l.parNames k
  | some f => f k

/-- `getParameterName`, `Model.py` 1075-1095. -/
def chainName : List Link → ℤ → Option String
  | [], _ => none
  | l :: rest, k => if k < l.npbase then l.baseName k else chainName rest (k - l.npbase)

/-- The number of parameters of a chain. -/
def npchain (c : List Link) : ℕ := (c.map Link.npbase).sum

/-- The dictionary `fixed`, with converted keys; a value is a number (`none`) or a chain. -/
abbrev Dict := List (ℕ × Option (List Link))

/-- `npar`, the number of parameters with those of the fixed models, `FixedModel.py` 108-121. -/
def npb (nparams : ℕ) (fixed : Dict) : ℕ := nparams + (fixed.map fun kv => (kv.2.map npchain).getD 0).sum

/-- `parlist`, `FixedModel.py` 178-179. -/
def parlist (nparams : ℕ) (fixed : Dict) : List ℕ :=
  BF.Fixed.setxor1d (List.range (npb nparams fixed)) (fixed.map Prod.fst)

/-- The loop 221-226: the names of all links of all fixed models. -/
def modelNames : Dict → List String
  | [] => []
  | (_, none) :: r => modelNames r
  | (_, some c) :: r => (c.flatMap Link.parNames) ++ modelNames r

/-- `[names[k] for k in …]`. -/
def pick (names : List String) (ks : List ℕ) : Option (List String) := ks.mapM fun k => names[k]?

/-- `selectNames`, `FixedModel.py` 205-227. `numpy.intersect1d` of the ordered list with a range is the part of the
list in that range. -/
def selectNames (nparams : ℕ) (names : List String) : Option Dict → Option (List String)
  | none => some names
  | some fixed =>
      if (fixed.filter fun kv => kv.2.isSome) = [] then pick names (parlist nparams fixed)
      else (pick names ((parlist nparams fixed).filter fun k => k < nparams)).map fun n => n ++ modelNames fixed

/-- `npbase`, `FixedModel.py` 130. -/
def npbase (nparams : ℕ) : Option Dict → ℕ
  | none => nparams
  | some fixed => npb nparams fixed - fixed.length

/-- What the constructor of `FixedModel.py` 83-153 makes of the names; `own` is the `baseParameterName` of the class,
if it has one. -/
def construct (nparams : ℕ) (names : Option (List String)) (fixed : Option Dict)
    (own : Option (ℤ → Option String) := none) : Option Link :=
  match names with
  | none => some ⟨npbase nparams fixed, numbered (npbase nparams fixed), own⟩
  | some ns => (selectNames nparams ns fixed).map fun n => ⟨npbase nparams fixed, n, own⟩

/-- `__getattr__`, `BaseModel.py` 161-181, for a name that is no attribute otherwise: the loop over `parNames`. -/
def readName {α : Type*} : List String → List α → String → Option α
  | [], _, _ => none
  | _ :: ns, [], name => readName ns [] name
  | n :: ns, p :: ps, name => if name = n then some p else readName ns ps name

/-- A change of the number of parameters by `dnp` (not zero), `Dynamic.py` 207-221 and 244. `none` when there are fewer
than none left. -/
def alter (l : Link) (dnp : ℤ) : Option Link :=
  let n := (l.npbase : ℤ) + dnp
  if n < 0 then none
  else some { l with
    npbase := n.toNat
    parNames := if 0 < dnp then numbered n.toNat else l.parNames.take n.toNat }

/-- All changes of a history. -/
def alters : Link → List ℤ → Option Link
  | l, [] => some l
  | l, d :: ds => (alter l d).bind fun l' => alters l' ds

/-! ## Models with names of their own -/

/-- `PolynomialModel.py` 168-177. -/
def polyName (k : ℤ) : Option String := some ("polycoeff_" ++ toString k)

/-- `HarmonicModel.py` 81 and 193-202. -/
def harmonicName (k : ℤ) : Option String :=
  (pyGet ["cosamp_", "sinamp_"] (k % 2)).map fun s => s ++ toString (k.tdiv 2)

/-- `FootballModel.py` 96 and 543-552. -/
def footballName (complexity : ℕ) (k : ℤ) : Option String :=
  if complexity = 0 then none
  else (pyGet ["trials", "defense", "midfield", "home", "strategy"] (k % complexity)).map fun s =>
    s ++ "_team_" ++ toString (k.tdiv complexity)

/-- The loop of `SurfaceSplinesModel.py` 198-212; the list has the `npbase` of the models. -/
def surfaceLoop : List ℕ → String → ℤ → Option String
  | [], s, _ => some s
  | nx :: r, s, k => if nx = 0 then none else surfaceLoop r (s ++ "_" ++ toString (k % nx)) (k / nx)

/-- `SurfaceSplinesModel.py` 198-212. -/
def surfaceName (nxs : List ℕ) (k : ℤ) : Option String := surfaceLoop nxs "param" k

/-- The loop of `ProductModel.py` 208-216. -/
def productLoop : List ℕ → ℕ → ℤ → Option String
  | [], _, _ => some "param"
  | nx :: r, m, k => if k < nx then some ("param" ++ toString m ++ "_" ++ toString k) else productLoop r (m + 1) (k - nx)

/-- `ProductModel.py` 199-216; the list has the `npchain` of the models. -/
def productName (nxs : List ℕ) (k : ℤ) : Option String := productLoop nxs 0 k

/-- The names of a `PadeModel`, `PadeModel.py` 116-117. -/
def padeNames (num den : ℕ) : List String :=
  (List.range (num + 1)).map (fun k => "numer_" ++ toString k) ++
    (List.range (den + 1)).map (fun k => "denom_" ++ toString k)

/-- A pair of brackets, `Model.py` 1742 and 1871-1881. -/
def brackets (c : List Link) : Link where
  npbase := npchain c
  parNames := []
  own := some (chainName c)

/-- `par2model`, `RepeatingModel.py` 521-532: the number in the model and that of the repetition. `index` has the
parameters that are not the same in all. -/
def par2model (np : ℕ) (index : List ℕ) (k : ℤ) : Option (ℤ × ℤ) :=
  if k ≥ np then
    if index.length = 0 then none
    else (pyGet index ((k - np) % index.length)).map fun i : ℕ => ((i : ℤ), 1 + (k - np) / index.length)
  else some (k, 0)

/-- `RepeatingModel.py` 491-503. `same` is `None` by default; then `i not in self.same` is a TypeError. -/
def repeatName (c : List Link) (same : Option (List ℕ)) (index : List ℕ) (k : ℤ) : Option String :=
  (par2model (npchain c) index k).bind fun ij => (chainName c ij.1).bind fun s => same.map fun sm =>
    s ++ if 0 ≤ ij.1 ∧ ij.1.toNat ∈ sm then "" else "_" ++ toString ij.2

/-- `index`, `RepeatingModel.py` 191-209, for a model of `np` parameters. -/
def repeatIndex (np : ℕ) : Option (List ℕ) → List ℕ
  | none => List.range np
  | some sm => (List.range np).filter fun k => k ∉ sm

/-- `CombiModel.py` 352-366, for a combi of copies of the chain `c`. -/
def combiName {α : Type*} (c : List Link) (d : BF.Combi.Combined α) (k : ℤ) : Option String :=
  (pyGet d.select k).bind fun s =>
    if npchain c = 0 then none
    else (chainName c ((s % npchain c : ℕ) : ℤ)).map fun name =>
      if s % npchain c ∈ d.addindex ∨ s % npchain c ∈ d.mulindex then name
      else name ++ "_" ++ toString (s / npchain c)

end BF.Names
