import Mathlib.Algebra.Order.Group.Abs
import Mathlib.Data.Real.Basic

/-!
# Parameters that must be positive or not zero

`BaseModel.py` 186-260 (`checkParameter`, `checkPositive`, `checkZeroParameter`), `FixedModel.py` 230-275 (`result`,
`expand`) and `Model.py` 453-530 (`correctParameters`, `result`): what a model makes of parameters in `posIndex` and
`nonZero`, and what is in the array of the caller afterwards. Slices of arrays are views.

Simplifications:
* One dimension for x, one output. An exception is `none`.
* The keys of `fixed` are in the range of the parameters and different. The free parameters come in order, followed by
  those of the models in `fixed`; this order is proved from the indices of the code in `Verif.Fixed`.
* A list of parameters of length one is not broadcast when another length is needed.
* Warnings are left out.
-/

namespace BF.Signs

variable {K : Type} [AddCommGroup K] [LinearOrder K]

/-- A parameter as it is handed to `baseResult`: a number, or an array with one item per data point when a model stands
for it (`FixedModel.py` 262-275). -/
abbrev Arg (K : Type) := K ⊕ List K

/-- `if param[k] == 0 : param[k] = self.tiny`, `BaseModel.py` 255-260. The truth of an array is defined only when it has
one item. -/
def zeroArg (tiny : K) : Arg K → Option (Arg K)
  | .inl v => some (.inl (if v = 0 then tiny else v))
  | .inr [v] => some (if v = 0 then .inl tiny else .inr [v])
  | .inr _ => none

/-- `abs( param[k] )`, `BaseModel.py` 243. -/
def absArg : Arg K → Arg K
  | .inl v => .inl |v|
  | .inr l => .inr (l.map fun v => |v|)

/-- `checkZeroParameter`, `BaseModel.py` 246-260. -/
def checkZero (tiny : K) : List ℕ → List (Arg K) → Option (List (Arg K))
  | [], p => some p
  | k :: ks, p => (p[k]?).bind fun v => (zeroArg tiny v).bind fun w => checkZero tiny ks (p.set k w)

/-- `checkPositive`, `BaseModel.py` 232-243. -/
def checkPositive : List ℕ → List (Arg K) → Option (List (Arg K))
  | [], p => some p
  | k :: ks, p => (p[k]?).bind fun v => checkPositive ks (p.set k (absArg v))

/-- `checkParameter`, `BaseModel.py` 218-230. -/
def check (pos non : List ℕ) (tiny : K) (p : List (Arg K)) : Option (List (Arg K)) :=
  (checkZero tiny non p).bind (checkPositive pos)

/-- The numbers in an array of numbers. -/
def nums (p : List (Arg K)) : List K := p.filterMap Sum.getLeft?

/-- A model as it stands in `fixed`: the number of its parameters, and its method `result`, which returns the result
and what is in the array of parameters afterwards. -/
structure Sub (K : Type) where
  np : ℕ
  run : List K → List K → Option (List K × List K)

/-- A model in a chain. `base` is `baseResult`, `op` the operation with the result so far (`Model.py` 510-524), `pip`
says whether it is a pipe. `fixed` is in the order of the dictionary. -/
structure Link (K : Type) where
  npmax : ℕ
  fixed : Option (List (ℕ × (K ⊕ Sub K)))
  pos : List ℕ
  non : List ℕ
  tiny : K
  pip : Bool
  op : List K → List K → List K
  base : List K → List (Arg K) → List K

/-- The models in `fixed`. -/
def Link.subs (l : Link K) : List (Sub K) := (l.fixed.getD []).filterMap fun kv => kv.2.getRight?

/-- `npbase`, `FixedModel.py` 108-131. -/
def Link.np (l : Link K) : ℕ := l.npmax - (l.fixed.getD []).length + (l.subs.map Sub.np).sum

/-- The loop 264-270 of `FixedModel.expand`: the values for the fixed parameters. The parameters of the models are
views on the array of the caller; they are returned with their contents afterwards. -/
def values (x : List K) : List (ℕ × (K ⊕ Sub K)) → List K → Option (List (ℕ × Arg K) × List K)
  | [], [] => some ([], [])
  | [], _ :: _ => none
  | (k, .inl v) :: d, par => (values x d par).map fun r => ((k, .inl v) :: r.1, r.2)
  | (k, .inr m) :: d, par =>
      (m.run x (par.take m.np)).bind fun rp =>
      (values x d (par.drop m.np)).map fun r => ((k, .inr rp.1) :: r.1, rp.2 ++ r.2)

/-- The free parameters in the places that are not fixed: `pars[self.parlist] = param`, 256, and the places that are,
259 and 264-270. -/
def fill (fix : List (ℕ × Arg K)) : List ℕ → List K → Option (List (Arg K))
  | [], [] => some []
  | [], _ :: _ => none
  | k :: ks, par =>
      match fix.lookup k with
      | some a => (fill fix ks par).map (a :: ·)
      | none => match par with
        | [] => none
        | v :: par' => (fill fix ks par').map (.inl v :: ·)

/-- `FixedModel.result` 230-243 with `BaseModel.result` 186-198: the result and what is in the (view on the) array of
the caller afterwards. Without fixed parameters `expand` returns this very array, with them a new one. -/
def Link.result (l : Link K) (x par : List K) : Option (List K × List K) :=
  match l.fixed with
  | none =>
      if par.length = l.npmax then
        (check l.pos l.non l.tiny (par.map .inl)).map fun e => (l.base x e, nums e)
      else none
  | some d =>
      (values x d (par.drop (l.npmax - d.length))).bind fun vp =>
      (fill vp.1 (List.range l.npmax) (par.take (l.npmax - d.length))).bind fun e =>
      (check l.pos l.non l.tiny e).map fun e' => (l.base x e', par.take (l.npmax - d.length) ++ vp.2)

/-- `Model._recursiveResult` and `operate`, `Model.py` 490-524. The head of the chain is no pipe. -/
def run (x : List K) : List (Link K) → Option (List K) → List K → Option (List K × List K)
  | [], res, par => res.map fun r => (r, par)
  | l :: ls, res, par =>
      (l.result (if l.pip then res.getD x else x) (par.take l.np)).bind fun rp =>
      (run x ls (some (match res with
        | none => rp.1
        | some r => if l.pip then rp.1 else l.op r rp.1)) (par.drop l.np)).map fun rq =>
      (rq.1, rp.2 ++ rq.2)

/-- A chain as a model. `result( x, par )`, `Model.py` 476-492. -/
def model (ls : List (Link K)) : Sub K := ⟨(ls.map Link.np).sum, fun x par => run x ls none par⟩

/-- `Model.correctParameters`, `Model.py` 453-480: what is returned, which is also what is in the array of the caller
afterwards. The indices are those of all parameters, the array has the free ones. -/
def correct : List (Link K) → List K → Option (List K)
  | [], _ => some []
  | l :: ls, par =>
      (check l.pos l.non l.tiny ((par.take l.np).map .inl)).bind fun e =>
      (correct ls (par.drop l.np)).map fun q => nums e ++ q

/-- `FixedModel.partial` 278-290 with `BaseModel.partial` 200-216 of a model without fixed parameters at one point: the
`k`-th partial, for the partials `parts` of the model. -/
def partialOf {R : Type} (pos non : List ℕ) (tiny : K) (parts : List (Arg K) → ℕ → R) (par : List K) (k : ℕ) : Option R :=
  ((check pos non tiny (par.map .inl)).bind (check pos non tiny)).map fun e => parts e k

end BF.Signs
