import Verif.Walkers
import Mathlib.Order.WithBot

/-!
# PhantomCollection, and the list of fitted parameters

Models `PhantomCollection.py` and `NestedSampler.makeFitlist`.
-/

namespace BF
namespace Phantoms

variable {α β : Type*} [LinearOrder α] [Zero α] [LinearOrder β]

/-- `WalkerList.py` 248-252: a row of the array of all parameters, padded with zeros. -/
def padRow (nap : ℕ) (l : List α) : List α := l ++ List.replicate (nap - l.length) 0

/-- `WalkerList.py` 234-254: `allPars`, zero padded rows of equal length. -/
def allPars (ws : List (Walker α β)) : List (List α) :=
  let nap := (ws.map fun w => w.allpars.length).foldr max 0
  ws.map fun w => padRow nap w.allpars

/-- `numpy.nanmin( pars, axis=0 )` / `nanmax`, for arrays without NaN and at least one row:
fold of the rows with an elementwise `f`. `none` for no rows. -/
def colFold (f : α → α → α) : List (List α) → Option (List α)
  | [] => none
  | r :: rs => some (rs.foldl (List.zipWith f) r)

/-- `PhantomCollection.py` 69-92, static: the walkers, the level of the last calculation (minus
infinity at first) and the two bounds. `box = none`: the attributes `paramMin`, `paramMax` do not
exist yet; `box = some none`: they are `None`. -/
structure Coll (α β : Type*) where
  phantoms : WalkerList α β
  low : WithBot β
  box : Option (Option (List α × List α))

/-- `PhantomCollection.py` 69-92 with `dynamic=False`. -/
def empty : Coll α β := ⟨⟨[], 0⟩, ⊥, none⟩

/-- `PhantomCollection.py` 122-132. -/
def store (c : Coll α β) (w : Walker α β) : Coll α β :=
  { c with phantoms := c.phantoms.insertWalker w }

/-- `PhantomCollection.py` 149-155: the bounds of a list of walkers. -/
def bounds (ws : List (Walker α β)) : Option (List α × List α) :=
  match colFold min (allPars ws), colFold max (allPars ws) with
  | some a, some b => some (a, b)
  | _, _ => none

/-- `PhantomCollection.py` 134-155. -/
def calculate (c : Coll α β) (low : β) : Coll α β :=
  let ph := c.phantoms.cropOnLow low
  ⟨ph, low, some (bounds ph.items)⟩

/-- `PhantomCollection.py` 158-173. The second component is the answer; `none` is the
AttributeError when the bounds were never calculated. -/
def getMinmax (c : Coll α β) (low : WithBot β) :
    Coll α β × Option (Option (List α × List α)) :=
  match low with
  | none => (c, c.box)
  | some l =>
      let c' := if (l : WithBot β) > c.low then calculate c l else c
      (c', c'.box)

/-- One call on a collection. -/
inductive Op (α β : Type*)
  | store (w : Walker α β)
  | get (low : WithBot β)

def Op.run (c : Coll α β) : Op α β → Coll α β
  | .store w => Phantoms.store c w
  | .get low => (getMinmax c low).1

/-! ### dynamic collection: one list per number of parameters -/

/-- `PhantomCollection.py` 81-89: dictionaries, as functions of the number of parameters. -/
structure Dyn (α β : Type*) where
  phantoms : ℕ → Option (WalkerList α β)
  low : ℕ → Option (WithBot β)
  box : ℕ → Option (List α × List α)

/-- Assignment in a dictionary. -/
def upd {γ : Type*} (f : ℕ → γ) (k : ℕ) (v : γ) : ℕ → γ := fun j => if j = k then v else f j

def emptyDyn : Dyn α β := ⟨fun _ => none, fun _ => none, fun _ => none⟩

/-- `PhantomCollection.py` 202-218; `np` is `walker.problem.npars`. -/
def storeDyn (c : Dyn α β) (np : ℕ) (w : Walker α β) : Dyn α β :=
  let wl := (c.phantoms np).getD ⟨[], 0⟩
  { c with phantoms := upd c.phantoms np (some (wl.insertWalker w)) }

/-- `PhantomCollection.py` 220-248 with the constant `minpars` (5). -/
def calculateDyn (minpars : ℕ) (c : Dyn α β) (low : β) (np : ℕ) : Dyn α β :=
  let wl := match c.phantoms np with
    | some wl => wl.cropOnLow low
    | none => ⟨[], 0⟩
  let b := if wl.items.length ≤ minpars then none else bounds wl.items
  ⟨upd c.phantoms np (some wl), upd c.low np (some (low : WithBot β)), upd c.box np b⟩

/-- `PhantomCollection.py` 250-264, for a finite level. -/
def getDyn (minpars : ℕ) (c : Dyn α β) (low : β) (np : ℕ) :
    Dyn α β × Option (List α × List α) :=
  let c' := match c.low np with
    | none => calculateDyn minpars c low np
    | some l => if (low : WithBot β) > l ∨ c.box np = none then calculateDyn minpars c low np else c
  (c', c'.box np)

end Phantoms

namespace Fitlist

/-- `HyperParameter.py` 59-100 as far as `makeFitlist` asks: is it fixed, is its prior bound, and
its value. -/
structure Hyper (α : Type*) where
  isFixed : Bool
  isBound : Bool
  hypar : α

/-- The loop of `NestedSampler.py` 528-536 over the hyperparameters from number `nh` (negative):
indices added to the fit list. -/
def hyperFit {α : Type*} : ℤ → List (Hyper α) → List ℤ
  | _, [] => []
  | nh, h :: hs => if !h.isFixed && h.isBound then nh :: hyperFit (nh + 1) hs else hyperFit (nh + 1) hs

/-- The values that the same loop writes at the end of `allpars`; a free one stays 0. The first
one is 0 when the problem has accuracies (531-532). -/
def hyperVals {α : Type*} [Zero α] (hasAccuracy : Bool) : Bool → List (Hyper α) → List α
  | _, [] => []
  | first, h :: hs =>
      (if !h.isFixed && h.isBound then 0 else if hasAccuracy && first then 0 else h.hypar)
        :: hyperVals hasAccuracy false hs

/-- `NestedSampler.py` 526-536: the list before `keep` is looked at. -/
def baseList {α : Type*} (np : ℕ) (hs : List (Hyper α)) : List ℤ :=
  (List.range np).map (fun k : ℕ => (k : ℤ)) ++ hyperFit (-(hs.length : ℤ)) hs

/-- The loop of `NestedSampler.py` 542-548 over `ks`; `keep` is a dictionary. `none` is the
IndexError of `fitlist[k]`. -/
def keepLoop {α : Type*} (fitlist : List ℤ) (keep : ℤ → Option α) :
    List ℕ → List ℤ → List α → Option (List ℤ × List α)
  | [], fitl, allpars => some (fitl, allpars)
  | k :: ks, fitl, allpars =>
      match keep k with
      | some v => keepLoop fitlist keep ks fitl (allpars.set k v)
      | none =>
          match fitlist[k]? with
          | none => none
          | some f =>
              match keep f with
              | some v => keepLoop fitlist keep ks fitl (allpars.set k v)
              | none => keepLoop fitlist keep ks (fitl ++ [f]) allpars

/-- `NestedSampler.py` 513-551. -/
def makeFitlist {α : Type*} [Zero α] (np : ℕ) (hs : List (Hyper α)) (hasAccuracy : Bool)
    (keep : Option (ℤ → Option α)) : Option (List ℤ × List α) :=
  let allpars := List.replicate np 0 ++ hyperVals hasAccuracy true hs
  match keep with
  | none => some (baseList np hs, allpars)
  | some kp => keepLoop (baseList np hs) kp (List.range (np + hs.length)) [] allpars

end Fitlist
end BF
