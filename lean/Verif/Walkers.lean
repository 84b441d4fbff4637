import Mathlib.Order.Basic
import Mathlib.Data.List.Sort

/-!
# WalkerList: the ensemble of walkers and the list of phantoms

Models `WalkerList.py` and the part of `Walker.py` that is stored in the list.
Likelihood values live in an arbitrary linear order `β` (python: floats).
-/

namespace BF

/-- `Walker.py` 70-112: the attributes of a walker that the list operations look at.
Simplified: the `problem` reference and `fitIndex` are left out; python object identity is not
modelled (a walker is a value). -/
structure Walker (α β : Type*) where
  id : ℕ
  parent : ℤ
  start : ℕ
  step : ℕ
  allpars : List α
  logL : β
deriving DecidableEq, Repr

/-- `WalkerList.py` 79-90: a python list of walkers plus the counter `_count` that hands out ids. -/
structure WalkerList (α β : Type*) where
  items : List (Walker α β)
  count : ℕ
deriving DecidableEq, Repr

namespace WalkerList

variable {α β : Type*}

/-- `WalkerList.py` 79-82: `WalkerList( walkerlist=... )`. -/
def ofList (ws : List (Walker α β)) : WalkerList α β := ⟨ws, ws.length⟩

/-- `WalkerList.py` 93-100: append `n` copies of a walker with consecutive ids. -/
def addWalkers (wl : WalkerList α β) (w : Walker α β) : ℕ → WalkerList α β
  | 0 => wl
  | n + 1 => addWalkers ⟨wl.items ++ [{ w with id := wl.count }], wl.count + 1⟩ w n

/-- `WalkerList.py` 103-122: replace the walker at `index`, or append it with a fresh id. -/
def setWalker (wl : WalkerList α β) (w : Walker α β) (index : ℕ) : WalkerList α β :=
  if index < wl.items.length then
    { wl with items := wl.items.set index w }
  else
    ⟨wl.items ++ [{ w with id := wl.count }], wl.count + 1⟩

/-- `WalkerList.py` 124-147: overwrite position `des` by a copy of `wlist[src]`; the id of `des`
stays. `none` is python's IndexError. -/
def copy (wl : WalkerList α β) (src des : ℕ) (wlist : List (Walker α β)) (start : ℕ) :
    Option (WalkerList α β) :=
  match wl.items[des]?, wlist[src]? with
  | some d, some s =>
      let w : Walker α β := { s with id := d.id, parent := src, start := start, step := 0 }
      some { wl with items := wl.items.set des w }
  | _, _ => none

variable [LinearOrder β]

/-- Position of the first walker with `logL > lowL`, or the length when there is none:
the generator expression of `WalkerList.py` 167. -/
def firstAbove (lowL : β) : List (Walker α β) → ℕ
  | [] => 0
  | w :: ws => if w.logL > lowL then 0 else firstAbove lowL ws + 1

/-- `WalkerList.py` 156-168: `None` for an empty list. -/
def firstIndex (wl : WalkerList α β) (lowL : β) : Option ℕ :=
  if wl.items.length = 0 then none else some (firstAbove lowL wl.items)

/-- `WalkerList.py` 171-200: insert a walker before the first one with a higher likelihood.
In the empty list (181-183) `setWalker` renames the walker. -/
def insertWalker (wl : WalkerList α β) (w : Walker α β) : WalkerList α β :=
  match wl.firstIndex w.logL with
  | none => wl.setWalker w 0
  | some klow =>
      -- 187-195: python builds the two parts only when they are non-empty
      let tail := if (wl.items.drop klow).length > 0 then [w] ++ wl.items.drop klow else [w]
      let all := if (wl.items.take klow).length > 0 then wl.items.take klow ++ tail else tail
      ⟨all, wl.count + 1⟩

/-- `WalkerList.py` 202-216: `self[self.firstIndex( lowL ):]`, where `self[None:]` is the list. -/
def cropOnLow (wl : WalkerList α β) (lowL : β) : WalkerList α β :=
  match wl.firstIndex lowL with
  | none => wl
  | some k => { wl with items := wl.items.drop k }

/-- Loop of `WalkerList.py` 292-299: running lowest value `low` at `klo`, next position `k`. -/
def lowLoop : List (Walker α β) → β → ℕ → ℕ → β × ℕ
  | [], low, klo, _ => (low, klo)
  | w :: ws, low, klo, k =>
      if w.logL < low then lowLoop ws w.logL k (k + 1) else lowLoop ws low klo (k + 1)

/-- `WalkerList.py` 288-300: lowest likelihood and its first position. `none` is the IndexError
on an empty list. -/
def getLowLogL (wl : WalkerList α β) : Option (β × ℕ) :=
  match wl.items with
  | [] => none
  | w :: ws => some (lowLoop (w :: ws) w.logL 0 0)

end WalkerList
end BF
