import Mathlib.Data.Real.Basic
import Mathlib.Algebra.BigOperators.Group.Finset.Basic

/-!
# Compound models with more inputs and outputs

Models `Model.py` `appendModel` (396-440, the tests on dimensions), `_recursiveResult`/`operate`
(488-523), `_recursiveDerivative` (545-608), `_recursivePartial` (633-688), `selectPipe` (692-737) and
`pipe_0` ... `pipe_9` (755-930) for models of any number of inputs and outputs, on arrays with the shapes
and the broadcasting of numpy. Brackets and models among fixed parameters are in `Verif/Compound.lean`.
-/

namespace BF
namespace Pipes

open Finset

noncomputable section

/-! ## Arrays -/

/-- A numpy array: its shape and its elements. Shape and indices are written with the last axis first,
so a table of `N` rows and `P` columns has `rshape = [P, N]` and its element in row `n`, column `p` is
`get [p, n]`. Elements outside the shape have no meaning. -/
structure Arr where
  rshape : List ℕ
  get : List ℕ → ℝ

/-- A value that the models return for a derivative: an array, or a python list of arrays. -/
inductive Val
  | arr (a : Arr)
  | list (l : List Arr)

/-- The scalar 0. -/
def Arr.zero : Arr := ⟨[], fun _ => 0⟩

/-- `a.transpose()`. -/
def Arr.T (a : Arr) : Arr := ⟨a.rshape.reverse, fun i => a.get i.reverse⟩

/-- Broadcasting of two shapes, numpy: axes are aligned at the last one; they must be equal or 1. -/
def bshape : List ℕ → List ℕ → Option (List ℕ)
  | [], t => some t
  | s, [] => some s
  | a :: s, b :: t =>
      match bshape s t with
      | none => none
      | some r => if a = b then some (a :: r) else if a = 1 then some (b :: r)
          else if b = 1 then some (a :: r) else none

/-- The element of an array of the given shape that takes part at an index of the broadcast shape. -/
def proj (s i : List ℕ) : List ℕ := List.zipWith (fun d k => if d = 1 then 0 else k) s i

/-- An operation element by element, with broadcasting; `none` is numpy's ValueError. -/
def Arr.op (f : ℝ → ℝ → ℝ) (a b : Arr) : Option Arr :=
  match bshape a.rshape b.rshape with
  | none => none
  | some s => some ⟨s, fun i => f (a.get (proj a.rshape i)) (b.get (proj b.rshape i))⟩

def Arr.mul (a b : Arr) : Option Arr := Arr.op (· * ·) a b
def Arr.add (a b : Arr) : Option Arr := Arr.op (· + ·) a b
def Arr.sub (a b : Arr) : Option Arr := Arr.op (· - ·) a b
def Arr.div (a b : Arr) : Option Arr := Arr.op (· / ·) a b
def Arr.neg (a : Arr) : Arr := ⟨a.rshape, fun i => -a.get i⟩

/-- `a[:,k]` of a table. -/
def Arr.col (a : Arr) (k : ℕ) : Option Arr :=
  match a.rshape with
  | [m, n] => if k < m then some ⟨[n], fun i => a.get (k :: i)⟩ else none
  | _ => none

/-- `numpy.asarray( l )` of a list of arrays of one shape: a new first axis. -/
def stack (l : List Arr) : Option Arr :=
  match l with
  | [] => some ⟨[0], fun _ => 0⟩
  | a :: r =>
      if ∀ b ∈ r, b.rshape = a.rshape then
        some ⟨a.rshape ++ [l.length], fun i =>
          match l[i.getLastD 0]? with
          | some b => b.get i.dropLast
          | none => 0⟩
      else none

/-- `a[:,:,k]` of an array with three axes. -/
def Arr.slice3 (a : Arr) (k : ℕ) : Option Arr :=
  match a.rshape with
  | [p, n, m] => if k < p then some ⟨[n, m], fun i => a.get (k :: i)⟩ else none
  | _ => none

/-- `a[k]` of an array with three axes. -/
def Arr.first3 (a : Arr) (k : ℕ) : Option Arr :=
  match a.rshape with
  | [p, n, m] => if k < m then some ⟨[p, n], fun i => a.get (i ++ [k])⟩ else none
  | _ => none

/-- `numpy.sum( a, axis=0 )` of a table. -/
def Arr.sum0 (a : Arr) : Option Arr :=
  match a.rshape with
  | [m, n] => some ⟨[m], fun i => ∑ k ∈ range n, a.get (i ++ [k])⟩
  | _ => none

/-- `numpy.sum( a, axis=1 )` of a table. -/
def Arr.sum1 (a : Arr) : Option Arr :=
  match a.rshape with
  | [m, n] => some ⟨[n], fun i => ∑ k ∈ range m, a.get (k :: i)⟩
  | _ => none

/-- `numpy.append( a, b, axis=1 )` of two tables. -/
def Arr.append1 (a b : Arr) : Option Arr :=
  match a.rshape, b.rshape with
  | [m, n], [m', n'] =>
      if n = n' then
        some ⟨[m + m', n], fun i =>
          match i with
          | j :: r => if j < m then a.get (j :: r) else b.get ((j - m) :: r)
          | [] => 0⟩
      else none
  | _, _ => none

/-- A table of `n` rows that is filled column by column, `part[:,k] = col k` for `k` in `range( m )`.
Simplified: the columns need to have the right length; numpy would broadcast a column of length 1. -/
def assemble (n m : ℕ) (col : ℕ → Option Arr) : Option Arr :=
  if ∀ k < m, (col k).map Arr.rshape = some [n] then
    some ⟨[m, n], fun i =>
      match i with
      | j :: r => match col j with
          | some c => c.get r
          | none => 0
      | [] => 0⟩
  else none

/-- All of a list, or none when one is missing: a loop that raises. -/
def sequence : List (Option Arr) → Option (List Arr)
  | [] => some []
  | none :: _ => none
  | some a :: l => (sequence l).map (a :: ·)

/-! ## The pipes -/

/-- `Model.py` 755-767. -/
def pipe0 : Val → Val → Option Val
  | .arr g, .arr h => ((Arr.mul g.T h).map Arr.T).map .arr
  | _, _ => none

/-- The inner loop of `pipe_1`, `Model.py` 784-786, from index `k` on. -/
def pipe1Loop (dd : Arr) : List Arr → ℕ → Arr → Option Arr
  | [], _, pp => some pp
  | g :: gs, k, pp =>
      match dd.col k with
      | none => none
      | some c =>
          match Arr.mul g.T c with
          | none => none
          | some q =>
              match Arr.add pp q with
              | none => none
              | some pp' => pipe1Loop dd gs (k + 1) pp'

/-- `Model.py` 769-789. -/
def pipe1 : Val → Val → Option Val
  | .list gs, .list hs =>
      (sequence (hs.map fun dd => (pipe1Loop dd gs 0 Arr.zero).map Arr.T)).map .list
  | _, _ => none

/-- `Model.py` 791-808. -/
def pipe2 : Val → Val → Option Val
  | .list gs, .arr h =>
      match gs, stack gs with
      | g0 :: _, some parr =>
          match g0.rshape with
          | [p, n] =>
              (assemble n p fun k =>
                match parr.slice3 k with
                | none => none
                | some c => match Arr.mul h.T c with
                    | none => none
                    | some q => q.sum0).map .arr
          | _ => none
      | _, _ => none
  | _, _ => none

/-- `Model.py` 810-825; `dHdG.shape[1]` columns. -/
def pipe3 : Val → Val → Option Val
  | .arr g, .arr h =>
      match h.rshape with
      | [m, _] =>
          (sequence ((List.range m).map fun k =>
            match h.col k with
            | none => none
            | some c => (Arr.mul g.T c).map Arr.T)).map .list
      | _ => none
  | _, _ => none

/-- `Model.py` 827-839. -/
def pipe4 : Val → Val → Option Val
  | .arr g, .arr h => (Arr.mul g h).map .arr
  | _, _ => none

/-- `Model.py` 841-859. -/
def pipe5 : Val → Val → Option Val
  | .arr g, .list hs =>
      match stack hs with
      | none => none
      | some darr =>
          match darr.rshape with
          | [_, n, o] =>
              (assemble n o fun k =>
                match darr.first3 k with
                | none => none
                | some c => match Arr.mul c g with
                    | none => none
                    | some q => q.sum1).map .arr
          | _ => none
  | _, _ => none

/-- `Model.py` 861-874. -/
def pipe6 : Val → Val → Option Val
  | .arr g, .arr h =>
      match Arr.mul h g with
      | none => none
      | some q => q.sum1.map .arr
  | _, _ => none

/-- `Model.py` 876-890. -/
def pipe7 : Val → Val → Option Val
  | .arr g, .arr h => ((Arr.mul h.T g.T).map Arr.T).map .arr
  | _, _ => none

/-- `Model.py` 892-909. -/
def pipe8 : Val → Val → Option Val := pipe2

/-- `Model.py` 911-928. -/
def pipe9 : Val → Val → Option Val := pipe3

/-- A pair of functions: `pipePartial`, `pipeDeriv`. -/
structure Pipe where
  part : Val → Val → Option Val
  deriv : Val → Val → Option Val

/-- `Model.py` 692-737: `none` when no case applies, then the attributes are not set. -/
def selectPipe (ndim ninter ndout : ℕ) : Option Pipe :=
  if ndim = 1 ∧ ninter = 1 ∧ ndout = 1 then some ⟨pipe0, pipe4⟩
  else if ndim > 1 ∧ ninter = 1 ∧ ndout = 1 then some ⟨pipe0, pipe0⟩
  else if ndim = 1 ∧ ninter > 1 ∧ ndout > 1 then some ⟨pipe1, pipe5⟩
  else if ndim > 1 ∧ ninter > 1 ∧ ndout > 1 then some ⟨pipe1, pipe1⟩
  else if ndim = 1 ∧ ninter > 1 ∧ ndout = 1 then some ⟨pipe2, pipe6⟩
  else if ndim = 1 ∧ ninter = 1 ∧ ndout > 1 then some ⟨pipe3, pipe7⟩
  else if ndim > 1 ∧ ninter > 1 ∧ ndout = 1 then some ⟨pipe2, pipe8⟩
  else if ndim > 1 ∧ ninter = 1 ∧ ndout > 1 then some ⟨pipe3, pipe9⟩
  else none

/-! ## Chains -/

/-- `Model.py` 135-140. -/
inductive Op
  | nop | add | sub | mul | div | pip
deriving DecidableEq

/-- A single model (`FixedModel`): number of inputs, outputs and parameters, and its methods `result`,
`derivative` and `partial` on an array of inputs and a sequence of parameters. `none` is an exception. -/
structure Mdl where
  ndim : ℕ
  ndout : ℕ
  np : ℕ
  result : Arr → (ℕ → ℝ) → Option Arr
  derivative : Arr → (ℕ → ℝ) → Option Val
  part : Arr → (ℕ → ℝ) → Option Val

/-- A model in a chain: its operation and its pipes. -/
structure Node where
  op : Op
  mdl : Mdl
  pipe : Option Pipe

/-- `Model.py` 411-423: whether a model may be appended to a chain that begins with a model of `ndim`
inputs and ends with one of `lastndout` outputs, and the node that it becomes. `none` is the
ValueError. -/
def appendNode (ndim lastndout : ℕ) (op : Op) (m : Mdl) : Option Node :=
  if op = .pip then
    if lastndout ≠ m.ndim then none else some ⟨op, m, selectPipe ndim m.ndim m.ndout⟩
  else if ndim ≠ m.ndim then none else some ⟨op, m, none⟩

/-- `Model.py` 509-523. `pipe` is the result of this model at the previous result. -/
def operate (op : Op) (res next : Option Arr) (pipe : Arr → Option Arr) : Option Arr :=
  match res, op with
  | none, _ => next
  | some _, .nop => next
  | some r, .add => next.bind (Arr.add r)
  | some r, .sub => next.bind (Arr.sub r)
  | some r, .mul => next.bind (Arr.mul r)
  | some r, .div => next.bind (Arr.div r)
  | some r, .pip => pipe r

/-- The parameters from position `n` on: `param[n:]`. -/
def shift (n : ℕ) (p : ℕ → ℝ) : ℕ → ℝ := fun k => p (n + k)

/-- `Model.py` 490-507. -/
def recResult (x : Arr) : List Node → (ℕ → ℝ) → Option Arr → Option Arr
  | [], _, res => res
  | nd :: l, p, res =>
      match operate nd.op res (if nd.op = .pip then none else nd.mdl.result x p)
          (fun r => nd.mdl.result r p) with
      | none => none
      | some r => recResult x l (shift nd.mdl.np p) (some r)

/-- An array or list as one array, as numpy does with an operand that is a list. -/
def Val.toArr : Val → Option Arr
  | .arr a => some a
  | .list l => stack l

/-- `df * res` for an array or a list times an array. -/
def Val.mulArr (v : Val) (r : Arr) : Option Arr :=
  match v.toArr with
  | none => none
  | some a => Arr.mul a r

/-- The list `[ d + n for d,n in zip( df, nextdf ) ]`. -/
def zipAdd (l k : List Arr) : Option (List Arr) := sequence (List.zipWith Arr.add l k)

/-- Options combined. -/
def lift2 (f : Arr → Arr → Option Arr) (a b : Option Arr) : Option Arr :=
  match a, b with
  | some a, some b => f a b
  | _, _ => none

/-- `Model.py` 574-600: the derivative so far and that of this model. Sums of lists of which the model
has one input or output are not modelled (`none`). -/
def joinDeriv (nd : Node) (df nextdf : Val) (result nextres : Option Arr) : Option Val :=
  match nd.op with
  | .nop => some nextdf
  | .add =>
      if nd.mdl.ndim = 1 ∨ nd.mdl.ndout = 1 then
        match df, nextdf with
        | .arr a, .arr b => (Arr.add a b).map .arr
        | _, _ => none
      else
        match df, nextdf with
        | .list a, .list b => (zipAdd a b).map .list
        | _, _ => none
  | .sub =>
      match df, nextdf with
      | .arr a, .arr b => (Arr.sub a b).map .arr
      | _, _ => none
  | .mul =>
      (lift2 Arr.add (nextres.bind df.mulArr) (result.bind nextdf.mulArr)).map .arr
  | .div =>
      (lift2 Arr.div (lift2 Arr.sub (nextres.bind df.mulArr) (result.bind nextdf.mulArr))
        (nextres.bind fun r => Arr.mul r r)).map .arr
  | .pip =>
      match nd.pipe with
      | none => none
      | some q => q.deriv df nextdf

/-- `Model.py` 545-608. `df` is 0 at the start and replaced by the first model (577). When there is a
next model, `result( xdata )` of this one is calculated (603-604) even when it is piped and the value is
not needed. -/
def recDeriv (x : Arr) : List Node → (ℕ → ℝ) → Option Arr → Val → Option Val
  | [], _, _, df => some df
  | nd :: l, p, res, df =>
      match (if nd.op = .pip then res else some x) with
      | none => none
      | some xd =>
          match nd.mdl.derivative xd p with
          | none => none
          | some nextdf =>
              match joinDeriv nd df nextdf res (nd.mdl.result x p) with
              | none => none
              | some df' =>
                  match l with
                  | [] => some df'
                  | _ :: _ =>
                      match nd.mdl.result x p with
                      | none => none
                      | some nextres =>
                          match operate nd.op res (some nextres) (fun r => nd.mdl.result r p) with
                          | none => none
                          | some r => recDeriv x l (shift nd.mdl.np p) (some r) df'

/-- `numpy.multiply( partial.transpose(), w ).transpose()`; a list has no `transpose`. -/
def scaleP (f : Arr → Arr → Option Arr) : Val → Option Arr → Option Val
  | .arr a, some w => ((f a.T w).map Arr.T).map .arr
  | _, _ => none

/-- `numpy.negative`: a list becomes an array. -/
def Val.neg (v : Val) : Option Val := v.toArr.map fun a => .arr a.neg

/-- `v[k]` of a list, or of an array with three axes. -/
def Val.index : Val → ℕ → Option Arr
  | .list l, k => l[k]?
  | .arr a, k => a.first3 k

/-- `Model.py` 672-677: the columns of this model are appended. -/
def appendP : Option Val → Val → Option Val
  | none, next => some next
  | some (.arr a), .arr b => (Arr.append1 a b).map .arr
  | some (.arr _), .list _ => none
  | some (.list l), next =>
      (sequence (l.mapIdx fun k a => (next.index k).bind (Arr.append1 a))).map .list

/-- `Model.py` 649-677. -/
def joinPartial (nd : Node) (par : Option Val) (nextpartial : Val) (result nextres : Option Arr)
    (dHdG : Option Val) : Option Val :=
  match nd.op with
  | .nop => appendP par nextpartial
  | .add => appendP par nextpartial
  | .sub => nextpartial.neg.bind (appendP par)
  | .mul =>
      match par.bind (scaleP Arr.mul · nextres), scaleP Arr.mul nextpartial result with
      | some a, some b => appendP (some a) b
      | _, _ => none
  | .div =>
      match par.bind (scaleP Arr.div · nextres),
          scaleP Arr.mul nextpartial
            (lift2 Arr.div (result.map Arr.neg) (nextres.bind fun r => Arr.mul r r)) with
      | some a, some b => appendP (some a) b
      | _, _ => none
  | .pip =>
      match nd.pipe, par, dHdG with
      | some q, some a, some d => (q.part a d).bind fun b => appendP (some b) nextpartial
      | _, _, _ => none

/-- `Model.py` 633-688; as with `recDeriv` the result at `xdata` is calculated when there is a next
model. -/
def recPartial (x : Arr) : List Node → (ℕ → ℝ) → Option Arr → Option Val → Option Val
  | [], _, _, par => par
  | nd :: l, p, res, par =>
      match (if nd.op = .pip then res else some x) with
      | none => none
      | some xd =>
          match nd.mdl.part xd p with
          | none => none
          | some nextpartial =>
              match joinPartial nd par nextpartial res (nd.mdl.result x p)
                  (res.bind fun r => nd.mdl.derivative r p) with
              | none => none
              | some par' =>
                  match l with
                  | [] => some par'
                  | _ :: _ =>
                      match nd.mdl.result x p with
                      | none => none
                      | some nextres =>
                          match operate nd.op res (some nextres) (fun r => nd.mdl.result r p) with
                          | none => none
                          | some r => recPartial x l (shift nd.mdl.np p) (some r) (some par')

/-- `Model.py` 469-488, 525-543, 610-631: the methods of the chain. -/
def chainResult (l : List Node) (x : Arr) (p : ℕ → ℝ) : Option Arr := recResult x l p none
def chainDerivative (l : List Node) (x : Arr) (p : ℕ → ℝ) : Option Val :=
  recDeriv x l p none (.arr Arr.zero)
def chainPartial (l : List Node) (x : Arr) (p : ℕ → ℝ) : Option Val := recPartial x l p none none

/-- `Model.py` 396-440, repeated: a chain that starts with one model to which others are appended.
`ndim` is that of the head; `lastndout` (249-252) that of the last model. -/
def buildFrom (ndim : ℕ) : ℕ → List (Op × Mdl) → Option (List Node)
  | _, [] => some []
  | last, (op, m) :: l =>
      match appendNode ndim last op m with
      | none => none
      | some nd => (buildFrom ndim m.ndout l).map (nd :: ·)

def build (m : Mdl) (l : List (Op × Mdl)) : Option (List Node) :=
  (buildFrom m.ndim m.ndout l).map (⟨.nop, m, none⟩ :: ·)

/-- `Model.py` 1721-1794: brackets around a chain with `ndim` inputs and `np` parameters. The number of
outputs is not handed over; `ndout` is then 1 (246-247). -/
def brackets (ndim np : ℕ) (l : List Node) : Mdl :=
  { ndim := ndim, ndout := 1, np := np, result := chainResult l, derivative := chainDerivative l,
    part := chainPartial l }

/-- May a value of the second shape be assigned to a slice of the first? Numpy accepts a value with more
axes only when the surplus ones have length 1; the other axes must be equal or 1. -/
def assignable (target value : List ℕ) : Prop :=
  (∀ d ∈ value.drop target.length, d = 1) ∧
  ∀ i < target.length, ∀ d : ℕ, value[i]? = some d → d = 1 ∨ target[i]? = some d

/-- The table `xdata` with `dx` added to column `i`. -/
def Arr.addCol (a : Arr) (i : ℕ) (dx : ℝ) : Arr :=
  ⟨a.rshape, fun j => if j.head? = some i then a.get j + dx else a.get j⟩

open Classical in
/-- `FixedModel.py` 434-438 and 445-449: one column of the numeric derivative for a model with more
inputs: the difference of two results is assigned to a column of length `n`. `dx` is
`deltaP[0]`. -/
def numCol (m : Mdl) (dx : ℝ) (x : Arr) (p : ℕ → ℝ) (n i : ℕ) : Option Arr :=
  match lift2 Arr.sub (m.result (x.addCol i dx) p) (m.result (x.addCol i (-dx)) p) with
  | none => none
  | some r => if assignable [n] r.rshape then
      some ⟨[n], fun j => r.get (proj r.rshape j) / (2 * dx)⟩ else none

/-- `FixedModel.py` 427-452: more inputs, then one or more outputs. -/
def numDerivative (m : Mdl) (dx : ℝ) (x : Arr) (p : ℕ → ℝ) : Option Val :=
  match x.rshape with
  | [_, n] =>
      if m.ndout = 1 then (assemble n m.ndim (numCol m dx x p n)).map .arr
      else (sequence ((List.range m.ndout).map fun _ =>
        assemble n m.ndim (numCol m dx x p n))).map .list
  | _ => none

end

end Pipes
end BF
