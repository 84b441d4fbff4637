import Verif.Arr
import Verif.Compound
import Mathlib.Data.List.Dedup
import Mathlib.Algebra.Ring.Defs

/-!
# Combi models

`CombiModel.py`: a model, repeated a fixed number of times, with some of its parameters tied to those
of the first copy, with an offset (`addCombi`) or a factor (`mulCombi`).

Simplifications:
* Keys of the dictionaries are non-negative. A negative key is accepted by the code (269) and then
  addresses parameters in a way that is not intended.
* One data point: `fulldp` is one row of the array.
* Arrays of reals; no rounding.
-/

namespace BF.Combi

open BF.Arr

variable {α : Type*}

/-- `CombiModel` 127-186. The dictionaries are lists of (key, values); `addCombi=None` is `[]`. -/
structure Combi (α : Type*) where
  nmp : ℕ
  nrepeat : ℕ
  add : List (ℕ × List α)
  mul : List (ℕ × List α)

/-- 171. -/
def Combi.npcmax (c : Combi α) : ℕ := c.nmp * c.nrepeat

/-- `setCombi` 260-277. `none` is the ValueError. -/
def setCombi (c : Combi α) : List (ℕ × List α) → Option (List ℕ × List α)
  | [] => some ([], [])
  | (key, vals) :: rest =>
      if c.nmp ≤ key then none
      else if vals.length ≠ c.nrepeat then none
      else match setCombi c rest with
        | none => none
        | some (index, value) =>
            some ((List.range c.nrepeat).map (fun j => key + j * c.nmp) ++ index, vals ++ value)

/-- `makeExpandIndex` 246-257; `i` counts, `kk` is the variable of the loop. -/
def makeExpandIndex (nrepeat : ℕ) : List ℕ → ℕ → ℕ → List ℕ → Option (List ℕ)
  | [], _, _, e => some e
  | k :: ks, i, kk, e =>
      if i % nrepeat = 0 then makeExpandIndex nrepeat ks (i + 1) k e
      else if k < e.length then makeExpandIndex nrepeat ks (i + 1) kk (e.set k kk)
      else none

/-- The loop 237-241. -/
def renumber : List ℕ → ℕ → List ℕ
  | [], _ => []
  | e :: es, i => if i ≤ e then i :: renumber es (i + 1) else e :: renumber es i

/-- The outcome of `combine` 197-243. -/
structure Combined (α : Type*) where
  addindex : List ℕ
  addvalue : List α
  mulindex : List ℕ
  mulvalue : List α
  expandindex : List ℕ
  select : List ℕ

/-- `combine` 197-243. -/
def Combi.combine (c : Combi α) : Option (Combined α) :=
  match setCombi c c.add, setCombi c c.mul with
  | some (addindex, addvalue), some (mulindex, mulvalue) =>
      match makeExpandIndex c.nrepeat addindex 0 0 (List.range c.npcmax) with
      | none => none
      | some e1 => match makeExpandIndex c.nrepeat mulindex 0 0 e1 with
        | none => none
        | some e2 => some ⟨addindex, addvalue, mulindex, mulvalue, renumber e2 0,
            e2.dedup.mergeSort (fun a b => decide (a ≤ b))⟩
  | _, _ => none

/-- `a[idx] op= vals`, 281-282. -/
def updateAt (op : α → α → α) (a : List α) (idx : List ℕ) (vals : List α) : Option (List α) :=
  match gather a idx with
  | none => none
  | some old => if vals.length = idx.length then scatter a idx (List.zipWith op old vals) else none

/-- `expandParameters` 279-283. -/
def expandParameters [Add α] [Mul α] (d : Combined α) (param : List α) : Option (List α) :=
  match gather param d.expandindex with
  | none => none
  | some e => match updateAt (· + ·) e d.addindex d.addvalue with
    | none => none
    | some e1 => updateAt (· * ·) e1 d.mulindex d.mulvalue

/-- `baseResult` 285-298; `full` is the result of the repeated chain. -/
def baseResult [Add α] [Mul α] (d : Combined α) (full : List α → Option α) (params : List α) :
    Option α :=
  (expandParameters d params).bind full

/-- `a[i] = f( a[i] )`; `none` when out of range. -/
def modifyAt (a : List α) (i : ℕ) (f : α → α) : Option (List α) :=
  match a[i]? with
  | none => none
  | some v => some (a.set i (f v))

/-- The loop 318-322. -/
def addLoop [Add α] (nrepeat : ℕ) (fulldp : List α) :
    List ℕ → ℕ → ℕ → List α → Option (List α)
  | [], _, _, part => some part
  | k :: ks, i, kk, part =>
      if i % nrepeat = 0 then addLoop nrepeat fulldp ks (i + 1) k part
      else match fulldp[k]? with
        | none => none
        | some d => match modifyAt part kk (· + d) with
          | none => none
          | some part' => addLoop nrepeat fulldp ks (i + 1) kk part'

/-- The loop 323-328. -/
def mulLoop [Add α] [Mul α] (nrepeat : ℕ) (fulldp : List α) :
    List (ℕ × α) → ℕ → ℕ → List α → Option (List α)
  | [], _, _, part => some part
  | (k, v) :: ks, i, kk, part =>
      if i % nrepeat = 0 then match modifyAt part k (· * v) with
        | none => none
        | some part' => mulLoop nrepeat fulldp ks (i + 1) k part'
      else match fulldp[k]? with
        | none => none
        | some d => match modifyAt part kk (· + d * v) with
          | none => none
          | some part' => mulLoop nrepeat fulldp ks (i + 1) kk part'

/-- `basePartial` 300-329; `fullp` gives the partials of the repeated chain. The argument `parlist` is
not used by the code. -/
def basePartial [Add α] [Mul α] (c : Combi α) (d : Combined α) (fullp : List α → Option (List α))
    (params : List α) : Option (List α) :=
  match expandParameters d params with
  | none => none
  | some exppar => match fullp exppar with
    | none => none
    | some fulldp => match gather fulldp d.select with
      | none => none
      | some part => match addLoop c.nrepeat fulldp d.addindex 0 0 part with
        | none => none
        | some part1 => mulLoop c.nrepeat fulldp (d.mulindex.zip d.mulvalue) 0 0 part1

/-- The chain of copies that the constructor makes, 158-165; `o` is the operation. -/
def repeated {K : Type*} (o : BF.Compound.Bin) (m : BF.Compound.Expr K) : ℕ → BF.Compound.Expr K
  | 0 => m
  | n + 1 => .bin o (repeated o m n) m

end BF.Combi
