import Verif.Arr
import Mathlib.Algebra.BigOperators.Group.List.Basic

/-!
# Dynamic models

Growing and shrinking of dynamic models (`Dynamic.py`, `RepeatingModel.py`), the list of fitted
parameters (`alterFitindex`) and the repeated model.
-/

namespace BF.Dynamic

open BF.Arr

variable {α : Type*}

/-- `Dynamic.alterParameters` 253-310 for `dnp = value.length > 0`: insertion. The slices do not
match (ValueError) when the location is behind the end. -/
def insertPars (param : List α) (location offset : ℕ) (value : List α) : Option (List α) :=
  if offset + location ≤ param.length then
    some (param.take (offset + location) ++ value ++ param.drop (offset + location))
  else none

/-- `Dynamic.alterParameters` 253-310 for `dnp = -n ≤ 0`: deletion of the `n` parameters before the
location. -/
def deletePars (param : List α) (location n offset : ℕ) : Option (List α) :=
  if location < n then none                                       -- IndexError, 300
  else if offset + location ≤ param.length then
    some (param.take (offset + location - n) ++ param.drop (offset + location))
  else none

/-- What `grow` and `shrink` use and change of a dynamic model in a chain: the numbers of components,
the number of own parameters `npbase`, the parameters of the whole chain, `_head.parameters`, and its
length `_npchain`. -/
structure Dyn (α : Type*) where
  ncomp : ℕ
  minComp : ℕ
  maxComp : Option ℕ
  npbase : ℕ
  npchain : ℕ
  params : List α

/-- `Dynamic.grow` 131-171 and `RepeatingModel.grow` 211-254. `dnp` is the number of parameters of
the new component, `value` their values: zeros or random draws. The renumbering of the parameter
names is left out. `none` is an exception; the flag is the returned bool. -/
def grow (s : Dyn α) (offset : ℕ) (value : List α) : Option (Dyn α × Bool) :=
  if s.maxComp.elim false (fun m => decide (m ≤ s.ncomp)) then some (s, false)
  else
    match insertPars s.params s.npbase offset value with
    | none => none
    | some p => some (⟨s.ncomp + 1, s.minComp, s.maxComp, s.npbase + value.length,
        s.npchain + value.length, p⟩, true)

/-- `Dynamic.shrink` 173-205 and `RepeatingModel.shrink` 256-287; `n` is the number of parameters of
the last component. -/
def shrink (s : Dyn α) (offset n : ℕ) : Option (Dyn α × Bool) :=
  if s.ncomp ≤ s.minComp then some (s, false)
  else
    match deletePars s.params s.npbase n offset with
    | none => none
    | some p => some (⟨s.ncomp - 1, s.minComp, s.maxComp, s.npbase - n, s.npchain - n, p⟩, true)

/-- The number of parameters of component number `i`: `deltaNpar` for all (`Dynamic.py` 150, 195);
for a `RepeatingModel` (234, 276) the first one has all parameters of the repeated model, the others
not the shared ones. -/
def compSize (first delta : ℕ) (i : ℕ) : ℕ := if i = 0 then first else delta

/-- A birth, with the random values of the new parameters, or a death. -/
inductive Act (α : Type*)
  | birth (value : ℕ → α)
  | death

/-- One birth or death of a model with given sizes of its components. -/
def Act.run (first delta offset : ℕ) (s : Dyn α) : Act α → Option (Dyn α)
  | .birth v => (grow s offset ((List.range (compSize first delta s.ncomp)).map v)).map Prod.fst
  | .death => (shrink s offset (compSize first delta (s.ncomp - 1))).map Prod.fst

/-- A history of births and deaths. -/
def runAll (first delta offset : ℕ) : Dyn α → List (Act α) → Option (Dyn α)
  | s, [] => some s
  | s, a :: as => match a.run first delta offset s with
      | none => none
      | some s' => runAll first delta offset s' as

/-! ## The list of fitted parameters -/

/-- `Dynamic.alterFitindex` 313-352 for `dnp = n > 0`. -/
def fitBirth (findex : List ℤ) (location n offset : ℕ) : List ℤ :=
  let kol : ℤ := offset + location
  let pre := findex.takeWhile fun i => decide (0 ≤ i) && decide (i < kol)
  pre ++ (List.range n).map (fun i : ℕ => kol + i)
    ++ (findex.drop pre.length).map fun i : ℤ => if 0 ≤ i then i + (n : ℤ) else i

/-- `Dynamic.alterFitindex` 313-352 for `dnp = -n < 0`. `none`: the IndexError of writing past the
end of `newfi` in 338, or of its negative size in 328. -/
def fitDeath (findex : List ℤ) (location n offset : ℕ) : Option (List ℤ) :=
  let kh : ℤ := (offset : ℤ) + location - n
  let pre := findex.takeWhile fun i => decide (0 ≤ i) && decide (i < kh)
  if pre.length + n ≤ findex.length then
    some (pre ++ (findex.drop (pre.length + n)).map fun i : ℤ => if 0 ≤ i then i - (n : ℤ) else i)
  else none

/-! ## The repeated model -/

/-- `RepeatingModel` 115-209 as far as the calculations need: `m` is `model.npbase`, `index` the
parameters that are not the same (191-209), `f` the result of the repeated model at one x. -/
structure Rep (α : Type*) where
  ncomp : ℕ
  m : ℕ
  same : List ℕ
  f : List α → α

/-- `RepeatingModel.setSame` 191-209. -/
def Rep.index (r : Rep α) : List ℕ := (List.range r.m).filter fun k => k ∉ r.same

/-- `deltaNpar`, 163. -/
def Rep.delta (r : Rep α) : ℕ := r.index.length

/-- The loop of `RepeatingModel.baseResult` 358-369; `n` more components follow. -/
def repLoop [Add α] (r : Rep α) (params : List α) : ℕ → ℕ → List α → α → Option α
  | 0, _, pars, result => some (result + r.f pars)
  | n + 1, ke, pars, result =>
      match scatter pars r.index ((params.drop ke).take r.delta) with
      | none => none
      | some pars' => repLoop r params n (ke + r.delta) pars' (result + r.f pars)

/-- `RepeatingModel.baseResult` 339-371. -/
def Rep.baseResult [Add α] [Zero α] (r : Rep α) (params : List α) : Option α :=
  match r.ncomp with
  | 0 => some 0
  | n + 1 => repLoop r params n r.m (params.take r.m) 0

/-- `partial[:,full] += vals`, 397, for one x. -/
def addAt [Add α] (a : List α) (full : List ℕ) (vals : List α) : Option (List α) :=
  match gather a full with
  | none => none
  | some old => scatter a full (List.zipWith (· + ·) old vals)

/-- The loop of `RepeatingModel.basePartial` 395-405; `n` more components follow, `g` is the list of
partial derivatives of the repeated model at one x. -/
def repPartialLoop [Add α] (r : Rep α) (g : List α → List α) (params : List α) :
    ℕ → ℕ → List α → List ℕ → List α → Option (List α)
  | 0, _, pars, full, part => addAt part full (g pars)
  | n + 1, ke, pars, full, part =>
      match addAt part full (g pars), scatter full r.index ((List.range r.delta).map (ke + ·)),
        scatter pars r.index ((params.drop ke).take r.delta) with
      | some part', some full', some pars' =>
          repPartialLoop r g params n (ke + r.delta) pars' full' part'
      | _, _, _ => none

/-- `RepeatingModel.basePartial` 373-410, without `parlist`; `np` is `self.npbase`. -/
def Rep.basePartial [Add α] [Zero α] (r : Rep α) (g : List α → List α) (np : ℕ) (params : List α) :
    Option (List α) :=
  match r.ncomp with
  | 0 => some (List.replicate np 0)
  | n + 1 => repPartialLoop r g params n r.m (params.take r.m) (List.range r.m)
      (List.replicate np 0)

/-- `RepeatingModel.par2model` 521-532: which parameter of the repeated model, in which component,
the `k`-th parameter is. `none`: the IndexError or ZeroDivisionError. -/
def Rep.par2model (r : Rep α) (k : ℕ) : Option (ℕ × ℕ) :=
  if r.m ≤ k then
    if r.delta = 0 then none
    else (r.index[(k - r.m) % r.delta]?).map fun i => (i, 1 + (k - r.m) / r.delta)
  else some (k, 0)

/-- The loop of `RepeatingModel.shuffle` 310-313 over the indices that are left, `t` of them done.
`src` holds the places of this parameter in components 1, 2, ... and last in component 0. -/
def shuffleLoop (base : List ℕ) (per : List ℕ) (offset : ℕ) : List ℕ → ℕ → List α → Option (List α)
  | [], _, param => some param
  | i :: is, t, param =>
      let src := base.dropLast.map (· + t) ++ [offset + i]
      match gather src per, gather param src with
      | some dst, some vals =>
          match scatter param dst vals with
          | none => none
          | some p => shuffleLoop base per offset is (t + 1) p
      | _, _ => none

/-- `RepeatingModel.shuffle` 289-315; `per` is the random permutation of `range( ncomp )`. -/
def Rep.shuffle (r : Rep α) (param : List α) (offset : ℕ) (per : List ℕ) : Option (List α) :=
  if r.ncomp ≤ 1 then some param
  else
    let off := r.m + offset
    shuffleLoop ((List.range r.ncomp).map fun j => j * r.delta + off) per offset r.index 0 param

end BF.Dynamic
