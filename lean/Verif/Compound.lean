import Mathlib.Algebra.Field.Defs

/-!
# Compound models

Model of the chain of models in `BayesicFitting/source/Model.py`: the linked list made by
`appendModel`, with `Brackets` around operands that are chains themselves, the recursive
calculation of result, parameter derivatives and x derivative, and `copy`.

Simplifications.
* One input dimension and one output (`ndim = ndout = 1`); numpy works element by element, so all
  is written for one data point `x`. The pipes for more dimensions are not modelled.
* Numbers are elements of a field `K`; division by zero gives 0 here and inf/nan in numpy, the
  theorems about division ask for non-zero denominators.
* `none` is either the Python value `None` or an exception; both are no proper answer.
* The chain is a value, not a structure in memory; sharing is the subject of `Verif/Heap.lean`.
* Dynamic models (of which there can be only one) are not in these chains.
* The numerical derivatives (`useNum=True`) are not modelled.
-/

namespace BF.Compound

universe u

/-- `Model.py` 136-141: the operations. -/
inductive Op | nop | add | sub | mul | div | pip
  deriving DecidableEq

/-- A base model, `BaseModel.py` 185-216 and `FixedModel.py` 230-398, seen from the chain: its
number of free parameters, whether it has fixed parameters, its result, its list of partial
derivatives and its derivative to x. `checkParameter` (positivity checks) is left out. -/
structure Base (K : Type u) where
  np : ℕ
  fixed : Bool
  res : List K → K → K
  par : List K → K → List K
  der : List K → K → K

mutual
/-- One model in the chain: a base model, or a `Brackets` object (`Model.py` 1721-1745) around a
chain. The flag tells whether `selectPipe` (692-735) has been called on it, which sets the
attributes `pipePartial` and `pipeDeriv`. -/
inductive Node (K : Type u)
  | base (piped : Bool) (b : Base K)
  | brackets (piped : Bool) (c : Chain K)
/-- The linked list of models: `_operation`, the model and `_next`. -/
inductive Chain (K : Type u)
  | last (op : Op) (m : Node K)
  | cons (op : Op) (m : Node K) (next : Chain K)
end

variable {K : Type u}

mutual
/-- `npbase`; for `Brackets` it is `npchain` of the contents (`Model.py` 1730). -/
def Node.np : Node K → ℕ
  | .base _ b => b.np
  | .brackets _ c => c.np
/-- `npchain`; `Model.py` 436: appending adds the numbers of parameters. -/
def Chain.np : Chain K → ℕ
  | .last _ m => m.np
  | .cons _ m c => m.np + c.np
end

/-- Has `selectPipe` been called on this model. -/
def Node.piped : Node K → Bool
  | .base p _ => p
  | .brackets p _ => p

/-- Result of calling `selectPipe` on this model (`Model.py` 692-735). -/
def Node.selectPipe : Node K → Node K
  | .base _ b => .base true b
  | .brackets _ c => .brackets true c

/-- Can the model be called with a list of `n` parameters, at least as many as it has. A model with
fixed parameters raises a ValueError in `FixedModel.py` 257 when the length differs (a list of 1 is
broadcast); without, the excess is cut off in 242. -/
def Node.accepts : Node K → ℕ → Bool
  | .base _ b, n => !b.fixed || n == b.np || n == 1
  | .brackets _ _, _ => true

variable [Field K]

/-- `Model.operate` 516-529. `next` is the result of this model at x (`None` when the operation is
PIP), `pipe` calculates this model at the previous result. -/
def operate (op : Op) (res next : Option K) (pipe : K → Option K) : Option K :=
  match res, op with
  | none, _ => next
  | _, .nop => next
  | some r, .add => next.map (r + ·)
  | some r, .sub => next.map (r - ·)
  | some r, .mul => next.map (r * ·)
  | some r, .div => next.map (r / ·)
  | some r, .pip => pipe r

mutual
/-- `super().result( x, p )` in the chain: `FixedModel.result` 230-243 which cuts the parameters to
`npmax`, then `baseResult`; for `Brackets` `Model.py` 1752-1764. -/
def Node.result : Node K → K → List K → Option K
  | .base _ b, x, p => some (b.res (p.take b.np) x)
  | .brackets _ c, x, p => c.recResult x (p.take c.np) none

/-- `Model._recursiveResult` 498-514. -/
def Chain.recResult : Chain K → K → List K → Option K → Option K
  | .last op m, x, p, res =>
      operate op res (if op ≠ .pip then m.result x (p.take m.np) else none)
        (fun r => m.result r (p.take m.np))
  | .cons op m c, x, p, res =>
      c.recResult x (p.drop m.np)
        (operate op res (if op ≠ .pip then m.result x (p.take m.np) else none)
          (fun r => m.result r (p.take m.np)))
end

/-- `Model.result` 480-496, with given parameters. -/
def Chain.result (c : Chain K) (x : K) (p : List K) : Option K := c.recResult x p none

/-- `Model.py` 572-596: the x derivative `df` of the previous models, with value `result`, and
`nextdf` of this one, with value `nextres`, are combined. `piped`: the attribute `pipeDeriv` exists;
for one dimension it is `pipe_4` (800-812). -/
def joinDeriv (op : Op) (piped : Bool) (result nextres : Option K) (df nextdf : K) : Option K :=
  match op with
  | .nop => some nextdf
  | .add => some (df + nextdf)
  | .sub => some (df - nextdf)
  | .mul => do
      let n ← nextres
      let r ← result
      some (df * n + nextdf * r)
  | .div => do
      let n ← nextres
      let r ← result
      some ((df * n - nextdf * r) / (n * n))
  | .pip => if piped then some (df * nextdf) else none

mutual
/-- `super().derivative( xd, par )`: `FixedModel.derivative` 376-398; `Brackets` 1784-1796. -/
def Node.derivative : Node K → K → List K → Option K
  | .base _ b, x, p => some (b.der (p.take b.np) x)
  | .brackets _ c, x, p => c.recDerivative x (p.take c.np) none 0

/-- `Model._recursiveDerivative` 551-608. -/
def Chain.recDerivative : Chain K → K → List K → Option K → K → Option K
  | .last op m, x, p, result, df =>
      (if op ≠ .pip then some x else result).bind fun xd =>
      (m.derivative xd (p.take m.np)).bind fun nextdf =>
      joinDeriv op m.piped result (m.result x (p.take m.np)) df nextdf
  | .cons op m c, x, p, result, df =>
      (if op ≠ .pip then some x else result).bind fun xd =>
      (m.derivative xd (p.take m.np)).bind fun nextdf =>
      (joinDeriv op m.piped result (m.result x (p.take m.np)) df nextdf).bind fun df' =>
      c.recDerivative x (p.drop m.np)
        (operate op result (m.result x (p.take m.np)) (fun r => m.result r (p.take m.np))) df'
end

/-- `Model.derivative` 532-549. -/
def Chain.derivative (c : Chain K) (x : K) (p : List K) : Option K := c.recDerivative x p none 0

/-- `Model._recursivePartial` 649-677: the partials of this model are joined to those of the models
before, after adapting both to the operation. `dHdG` is the derivative of this model at the previous
result. For one dimension `pipePartial` is `pipe_0` (755-767). -/
def joinPartial (op : Op) (piped : Bool) (result nextres : Option K) (dHdG : Option K)
    (partials : Option (List K)) (nextpartial : List K) : Option (List K) :=
  match op with
  | .nop => some ((partials.getD []) ++ nextpartial)
  | .add => some ((partials.getD []) ++ nextpartial)
  | .sub => some ((partials.getD []) ++ nextpartial.map (- ·))
  | .mul => do
      let n ← nextres
      let pp ← partials
      let r ← result
      some (pp.map (· * n) ++ nextpartial.map (· * r))
  | .div => do
      let n ← nextres
      let pp ← partials
      let r ← result
      some (pp.map (· / n) ++ nextpartial.map (· * (- r / (n * n))))
  | .pip => do
      let d ← dHdG
      let pp ← partials
      if piped then some (pp.map (· * d) ++ nextpartial) else none

mutual
/-- `super().partial( xd, par )`: `FixedModel.partial` 278-314; `Brackets` 1767-1781. -/
def Node.partials : Node K → K → List K → Option (List K)
  | .base _ b, x, p => some (b.par (p.take b.np) x)
  | .brackets _ c, x, p => c.recPartial x (p.take c.np) 0 none none

/-- `Model._recursivePartial` 631-689. Line 685 hands all remaining parameters to `operate`. -/
def Chain.recPartial : Chain K → K → List K → ℕ → Option K → Option (List K) → Option (List K)
  | .last op m, x, p, at', result, pp =>
      (if op ≠ .pip then some x else result).bind fun xd =>
      (m.partials xd ((p.drop at').take m.np)).bind fun nextpartial =>
      joinPartial op m.piped result (m.result x ((p.drop at').take m.np))
        (result.bind fun r => m.derivative r ((p.drop at').take m.np)) pp nextpartial
  | .cons op m c, x, p, at', result, pp =>
      (if op ≠ .pip then some x else result).bind fun xd =>
      (m.partials xd ((p.drop at').take m.np)).bind fun nextpartial =>
      (joinPartial op m.piped result (m.result x ((p.drop at').take m.np))
        (result.bind fun r => m.derivative r ((p.drop at').take m.np)) pp nextpartial).bind fun pp' =>
      if op = .pip ∧ m.accepts (p.drop at').length = false then none
      else c.recPartial x p (at' + m.np)
        (operate op result (m.result x ((p.drop at').take m.np))
          (fun r => m.result r (p.drop at'))) (some pp')
end

/-- `Model.partial` 611-629. -/
def Chain.partials (c : Chain K) (x : K) (p : List K) : Option (List K) :=
  c.recPartial x p 0 none none

/-- Put a new last model behind the chain (`Model.py` 427-431). -/
def Chain.snoc : Chain K → Op → Node K → Chain K
  | .last o m, op, n => .cons o m (.last op n)
  | .cons o m c, op, n => .cons o m (c.snoc op n)

/-- `Model.appendModel` 397-444: `selectPipe` is called on the model that is offered; when that is
a chain it is then placed in (new) `Brackets`. The head of a chain is called `model` there; the
pipe attributes that it gets are never used inside the brackets, where its operation is NOP. -/
def Chain.append (c : Chain K) (op : Op) : Chain K → Chain K
  | .last _ m => c.snoc op (if op = .pip then m.selectPipe else m)
  | .cons o m d =>
      c.snoc op (.brackets false (.cons o (if op = .pip then m.selectPipe else m) d))

mutual
/-- `copy` of a single model: of a base model by its own copy method; of `Brackets`
`Model.py` 1747-1749. The copy is a new object without pipe attributes. -/
def Node.copy : Node K → Node K
  | .base _ b => .base false b
  | .brackets _ c => .brackets false c.copy

/-- `Model.__init__` 184-191 with `isolateModel( 0 )` 290-305: each next model is copied and appended
again with its operation; it is a single model, so `selectPipe` is called on the model itself. -/
def Chain.copy : Chain K → Chain K
  | .last op m => .last op (if op = .pip then m.copy.selectPipe else m.copy)
  | .cons op m c => .cons op (if op = .pip then m.copy.selectPipe else m.copy) c.copy
end

/-! ## Expressions -/

/-- The Python operators on models, `Model.py` 1343-1488. -/
inductive Bin | add | sub | mul | div | pip
  deriving DecidableEq

/-- The operation index each operator passes to `appendModel` (`Model.py` 318-395). -/
def Bin.op : Bin → Op
  | .add => .add
  | .sub => .sub
  | .mul => .mul
  | .div => .div
  | .pip => .pip

/-- A Python expression in base models and operators. -/
inductive Expr (K : Type u)
  | base (b : Base K)
  | bin (o : Bin) (l r : Expr K)

/-- `l + r` and so on: `self.copy().__iadd__( model.copy() )`, `Model.py` 1358-1488. -/
def Expr.build : Expr K → Chain K
  | .base b => .last .nop (.base false b)
  | .bin o l r => l.build.copy.append o.op r.build.copy

end BF.Compound
