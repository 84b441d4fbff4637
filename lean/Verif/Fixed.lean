import Verif.Arr
import Mathlib.Data.List.Dedup
import Mathlib.Algebra.Ring.Defs
import Mathlib.Data.Int.Notation

/-!
# Models with fixed parameters

`FixedModel.py`: parameters of a model that are fixed at a value or replaced by (the result of) another
model.

Simplifications:
* One data point `x`; the partials are one row.
* The model itself is given by its result and its partials as functions of the full list of parameters;
  `basePartial( x, params, parlist )` returns the columns in `parlist`.
* `checkParameter` (`BaseModel.py` 218-260) is left out: it changes parameters that are zero, or
  negative, for models that do not allow that.
-/

namespace BF.Fixed

open BF.Arr

variable {α : Type*}

/-- The value of an item in the dictionary `fixed`: a number, or a model given by the number of its
parameters, its result and its partials. -/
inductive Fix (α : Type*)
  | val (v : α)
  | mdl (np : ℕ) (res : α → List α → α) (par : α → List α → List α)

/-- `fixed[k].npchain` for models, 121. -/
def Fix.np : Fix α → ℕ
  | .val _ => 0
  | .mdl n _ _ => n

/-- `isinstance( fixed[k], BaseModel )`, 119. -/
def Fix.isModel : Fix α → Bool
  | .val _ => false
  | .mdl _ _ _ => true

/-- `d[k] = v` for a dictionary in order of insertion. -/
def dictSet {κ β : Type*} [DecidableEq κ] : List (κ × β) → κ → β → List (κ × β)
  | [], k, v => [(k, v)]
  | (k', v') :: d, k, v => if k' = k then (k, v) :: d else (k', v') :: dictSet d k v

/-- The conversion of negative keys, 111-117. -/
def normalise (nparams : ℕ) (fixed : List (ℤ × Fix α)) : List (ℤ × Fix α) :=
  fixed.foldl (fun d kv => dictSet d (if kv.1 < 0 then kv.1 + nparams else kv.1) kv.2) []

/-- `numpy.setxor1d` for integers, 179. -/
def setxor1d (a b : List ℕ) : List ℕ :=
  ((a.filter fun k => k ∉ b) ++ (b.filter fun k => k ∉ a)).dedup.mergeSort
    (fun i j => decide (i ≤ j))

/-- The attributes of a constructed model, 83-153: `npmax`, the dictionary `fixed` with converted keys,
`_npb` and `parlist`. -/
structure FM (α : Type*) where
  npmax : ℕ
  fixed : List (ℕ × Fix α)

/-- `mlist`, 118-121. -/
def FM.mlist (f : FM α) : List ℕ := (f.fixed.filter fun kv => kv.2.isModel).map Prod.fst

/-- `_npb`, 121 and 131. -/
def FM.npb (f : FM α) : ℕ := f.npmax + (f.fixed.map fun kv => kv.2.np).sum

/-- `npbase`, 130. -/
def FM.npbase (f : FM α) : ℕ := f.npb - f.fixed.length

/-- `parlist`, 178-179. -/
def FM.parlist (f : FM α) : List ℕ := setxor1d (List.range f.npb) (f.fixed.map Prod.fst)

/-- The loop 264-270; `ns` is the start of the parameters of the next model. -/
def expLoop (x : α) (param : List α) : List (ℕ × Fix α) → ℕ → List α → Option (List α)
  | [], _, par => some par
  | (k, v) :: rest, ns, par =>
      if k < par.length then
        match v with
        | .mdl n res _ => expLoop x param rest (ns + n) (par.set k (res x ((param.drop ns).take n)))
        | .val c => expLoop x param rest ns (par.set k c)
      else none

/-- `list( self.fixed.values() )`, 259, when all are numbers. -/
def values : List (ℕ × Fix α) → List α
  | [] => []
  | (_, .val v) :: r => v :: values r
  | (_, .mdl _ _ _) :: r => values r

/-- `expand` 245-275. -/
def FM.expand [Zero α] (f : FM α) (x : α) (param : List α) : Option (List α) :=
  match scatter (List.replicate f.npb 0) f.parlist param with
  | none => none
  | some pars =>
      if f.mlist = [] then scatter pars (f.fixed.map Prod.fst) (values f.fixed)
      else expLoop x param f.fixed (f.npmax - f.fixed.length) pars

/-- `result` 230-243, for the result `R` of the model. -/
def FM.result [Zero α] (f : FM α) (R : List α → α) (x : α) (param : List α) : Option α :=
  (f.expand x param).map fun e => R (e.take f.npmax)

/-- The loop 305-313: `ms` the models left, `ns` where their partials go, `nf` the next column of `bp`,
`nb` the place of their parameters. -/
def partLoop [Mul α] (x : α) (bp expparam : List α) :
    List (Fix α) → ℕ → ℕ → ℕ → List α → Option (List α)
  | [], _, _, _, part => some part
  | .val _ :: ms, ns, nf, nb, part => partLoop x bp expparam ms ns nf nb part
  | .mdl n _ par :: ms, ns, nf, nb, part =>
      match bp[nf]? with
      | none => none
      | some b =>
          match scatter part ((List.range n).map (ns + ·))
              ((par x ((expparam.drop nb).take n)).map (b * ·)) with
          | none => none
          | some part' => partLoop x bp expparam ms (ns + n) (nf + 1) (nb + n) part'

/-- `partial` 278-314, for the partials `D` of the model. `none` is an exception. -/
def FM.partials [Mul α] [Zero α] (f : FM α) (D : List α → ℕ → α) (x : α) (param : List α) :
    Option (List α) :=
  match f.expand x param with
  | none => none
  | some expparam =>
      if f.mlist = [] then some (f.parlist.map (D expparam))
      else
        let nf := f.npmax - f.fixed.length
        let plist := f.parlist.take nf ++ f.mlist
        let bp := plist.map (D (expparam.take f.npmax))
        match scatter (List.replicate param.length 0) (List.range nf) (bp.take nf) with
        | none => none
        | some part => partLoop x bp expparam
            ((f.fixed.filter fun kv => kv.2.isModel).map Prod.snd) nf nf f.npmax part

/-- `derivative` 376-396 for a model without models among its fixed parameters; `dR` is the derivative
of the model. -/
def FM.derivative [Zero α] (f : FM α) (dR : List α → α) (x : α) (param : List α) : Option α :=
  (f.expand x param).map dR

end BF.Fixed
