import Verif.Walkers
import Mathlib.Algebra.Order.Field.Basic
import Mathlib.Data.List.Rotate

/-!
# The ordering engines

Models `ReverseEngine.py`, `MoveEngine.py`, `SwitchEngine.py`, `ShuffleEngine.py`,
`LoopEngine.py`, `NearEngine.py`, `StartOrderEngine.py`, `OrderEngine.py` and
`Engine.setWalker`.

Random numbers: `draw k` is the k-th raw draw inside one call; `rng.randint( n )` is
`draw k % n`, so quantifying over `draw : ℕ → ℕ` covers every sequence of results.
`rng.geometric` is `1 + draw k`.
-/

namespace BF
namespace Orders

variable {α β : Type*}

/-- What one call of `executeOnce` does: nothing (with the returned number) or a new ordering with
its likelihood. -/
inductive Outcome (α β : Type*) where
  | reject (t : ℕ)
  | accept (t : ℕ) (ptry : List α) (ltry : β)

/-- python slice `l[a:b]` for non-negative `a`, `b`. -/
def slice (l : List α) (a b : ℕ) : List α := (l.take b).drop a

/-- `numpy.roll( l, k )` for `0 <= k < len`: the last `k` elements come first. -/
def roll (l : List α) (k : ℕ) : List α := l.drop (l.length - k) ++ l.take (l.length - k)

/-- `numpy.roll( l, -k )` for `0 <= k < len`: the first `k` elements go last. -/
def rollBack (l : List α) (k : ℕ) : List α := l.drop k ++ l.take k

/-- `l[:t] = l[t-1::-1]`, used in `ReverseEngine.py` 92 and `LoopEngine.py` 153. numpy clamps the
start of the reversed slice to the end of the list, and so does `take`. -/
def revHead (l : List α) (t : ℕ) : List α := (l.take t).reverse ++ l.drop t

/-! ### ReverseEngine -/

/-- `ReverseEngine.py` 89-92: roll `src` to the front and reverse the first `t`. -/
def reverseTry (param : List α) (src t : ℕ) : List α :=
  revHead (param.drop src ++ param.take src) t

section
variable [LinearOrder β]

/-- `ReverseEngine.py` 87-113: try, and retry with a smaller random `t`. -/
def reverseLoop (L : List α → β) (low : β) (param : List α) (src : ℕ) (draw : ℕ → ℕ)
    (t k : ℕ) : Outcome α β :=
  if h : t > 1 then
    let ptry := reverseTry param src t
    if low ≤ L ptry then .accept t ptry (L ptry)
    else reverseLoop L low param src draw (draw k % t) (k + 1)
  else .reject t
termination_by t
decreasing_by exact Nat.mod_lt _ (by omega)

/-- `ReverseEngine.py` 77-113. `none`: `randint( 0 )` raises. -/
def reverseOnce (L : List α → β) (low : β) (param : List α) (draw : ℕ → ℕ) :
    Option (Outcome α β) :=
  let np := param.length
  if np = 0 then none
  else some (reverseLoop L low param (draw 0 % np) draw (2 + min (1 + draw 1) (np / 2)) 2)

/-! ### MoveEngine -/

/-- `MoveEngine.py` 93-104: take the stretch `[src:src+t]` out and put it before `des`. -/
def moveTry (param : List α) (src des t : ℕ) : List α :=
  let kln := src + t
  if src < des then
    slice param kln des ++ slice param src kln ++ param.drop des ++ param.take src
  else
    param.drop kln ++ param.take des ++ slice param src kln ++ slice param des src

/-- `MoveEngine.py` 92-128. -/
def moveLoop (L : List α → β) (low : β) (param : List α) (src des : ℕ) (draw : ℕ → ℕ)
    (t k : ℕ) : Outcome α β :=
  if h : t > 0 then
    let ptry := moveTry param src des t
    if low ≤ L ptry then .accept t ptry (L ptry)
    else moveLoop L low param src des draw (draw k % t) (k + 1)
  else .reject t
termination_by t
decreasing_by exact Nat.mod_lt _ (by omega)

/-- The loop `while des == src : des = randint( np )` (`MoveEngine.py` 87, `SwitchEngine.py` 104)
ends with any value other than `src`. Simplified: the repetition is replaced by its outcome. -/
def otherThan (src np r : ℕ) : ℕ := (src + 1 + r % (np - 1)) % np

/-- `MoveEngine.py` 79-128. `none`: `randint( 0 )` raises, and with one parameter the search for
another destination never ends. -/
def moveOnce (L : List α → β) (low : β) (param : List α) (draw : ℕ → ℕ) :
    Option (Outcome α β) :=
  let np := param.length
  if np ≤ 1 then none
  else
    let src := draw 0 % np
    let des := otherThan src np (draw 1)
    let mx := if src < des then des - src else np - src
    some (moveLoop L low param src des draw (min (1 + draw 2) mx) 3)

/-! ### SwitchEngine -/

/-- `SwitchEngine.py` 101-107: exchange two elements. -/
def switchTry (param : List α) (src des : ℕ) : List α :=
  match param[src]?, param[des]? with
  | some a, some b => (param.set src b).set des a
  | _, _ => param

/-- `SwitchEngine.py` 79-127. -/
def switchOnce (L : List α → β) (low : β) (param : List α) (draw : ℕ → ℕ) :
    Option (Outcome α β) :=
  let np := param.length
  if np ≤ 1 then none
  else
    let src := draw 0 % np
    let ptry := switchTry param src (otherThan src np (draw 1))
    if low ≤ L ptry then some (.accept 2 ptry (L ptry)) else some (.reject 0)

/-! ### ShuffleEngine -/

/-- `ShuffleEngine.py` 103-105. `σ` is what `rng.permutation` does to the stretch. -/
def shuffleTry (σ : List α → List α) (param : List α) (src t : ℕ) : List α :=
  let ptry := roll param src
  σ (ptry.take (src + t)) ++ ptry.drop (src + t)

/-- `ShuffleEngine.py` 102-126. `σ k` is the k-th permutation drawn. -/
def shuffleLoop (L : List α → β) (low : β) (param : List α) (src : ℕ) (draw : ℕ → ℕ)
    (σ : ℕ → List α → List α) (t k : ℕ) : Outcome α β :=
  if h : t > 1 then
    let ptry := shuffleTry (σ k) param src t
    if low ≤ L ptry then .accept t ptry (L ptry)
    else shuffleLoop L low param src draw σ (draw k % t) (k + 1)
  else .reject 0
termination_by t
decreasing_by exact Nat.mod_lt _ (by omega)

/-- `ShuffleEngine.py` 78-126. -/
def shuffleOnce (L : List α → β) (low : β) (param : List α) (draw : ℕ → ℕ)
    (σ : ℕ → List α → List α) : Option (Outcome α β) :=
  let np := param.length
  if np = 0 then none
  else some (shuffleLoop L low param (draw 0 % np) draw σ (2 + min (1 + draw 1) (np / 2)) 2)

end

/-! ### LoopEngine -/

section
variable {K : Type*} [Field K] [LinearOrder K]

/-- `Tools.py` 103-108. -/
def isBetween (xs x xe : K) : Bool := (xs ≤ x ∧ x ≤ xe) ∨ (xe ≤ x ∧ x ≤ xs)

/-- `LoopEngine.py` 118-126: coordinates of the stretch that closes the tour and its slope.
Python swaps the dimension order when `x1 == x2`, but the already read `x1, y1, x2, y2` are not
swapped; only later reads are. -/
structure Closing (K : Type*) where
  x1 : K
  y1 : K
  x2 : K
  y2 : K
  m1 : K
  swapped : Bool

/-- `LoopEngine.py` 118-126. `xy` gives the two coordinates of a city. -/
def closing (xy : α → K × K) (k1 k2 : α) : Closing K :=
  let (x1, y1) := xy k1
  let (x2, y2) := xy k2
  if x1 = x2 then ⟨x1, y1, x2, y2, 0, true⟩
  else ⟨x1, y1, x2, y2, (y2 - y1) / (x2 - x1), false⟩

/-- `LoopEngine.py` 132-145: does the stretch `k3`-`k4` count as crossing the closing one.
When `m3 == m1` python divides by zero and gets an infinity or NaN, which is not in between. -/
def crosses (xy : α → K × K) (c : Closing K) (k3 k4 : α) : Bool :=
  let (x3, y3) := if c.swapped then (xy k3).swap else xy k3
  let (x4, y4) := if c.swapped then (xy k4).swap else xy k4
  if x3 = x4 then
    let yc := c.y1 + c.m1 * (x3 - c.x1)
    isBetween c.x1 x3 c.x2 && isBetween y3 yc y4
  else
    let m3 := (y4 - y3) / (x4 - x3)
    if m3 = c.m1 then false
    else
      let xc := (y3 - c.y1 + m3 * x3 - c.m1 * c.x1) / (m3 - c.m1)
      isBetween c.x1 xc c.x2 && isBetween x3 xc x4

/-- The `for t in range( 2, np - 1 )` of `LoopEngine.py` 128-149: `k3` is the previous city, the
list holds the cities from position `t` on, `n` counts how many are left to look at. -/
def findLoop (xy : α → K × K) (c : Closing K) : α → List α → ℕ → ℕ → Option ℕ
  | _, _, _, 0 => none
  | _, [], _, _ => none
  | k3, k4 :: rest, t, n + 1 =>
      if crosses xy c k3 k4 then some t else findLoop xy c k4 rest (t + 1) n

variable [LinearOrder β]

/-- `LoopEngine.py` 94-172. `none`: too short a tour for `ptry[1]` (IndexError). -/
def loopOnce (xy : α → K × K) (L : List α → β) (low : β) (param : List α) (draw : ℕ → ℕ) :
    Option (Outcome α β) :=
  let np := param.length
  if np = 0 then none
  else
    let ks := draw 0 % np
    match roll param ks with
    | k2 :: k4 :: rest =>
        let p := k2 :: k4 :: rest
        let k1 := p.getLast (by simp [p])
        match findLoop xy (closing xy k1 k2) k4 rest 2 (np - 1 - 2) with
        | none => some (.reject 0)
        | some t =>
            let ptry := rollBack (revHead p t) ks
            if low ≤ L ptry then some (.accept t ptry (L ptry)) else some (.reject 0)
    | _ => none

/-! ### NearEngine -/

/-- `NearEngine.py` 123-130: position of the nearest of the cities in the list. -/
def nearestPos (dist : α → K) : List α → K → ℕ → ℕ → ℕ
  | [], _, kmin, _ => kmin
  | c :: cs, dmin, kmin, k =>
      if dist c < dmin then nearestPos dist cs (dist c) k (k + 1)
      else nearestPos dist cs dmin kmin (k + 1)

/-- `NearEngine.py` 142-144: move element `kmin` to the end. -/
def toEnd (p : List α) (kmin : ℕ) : List α :=
  match p[kmin]? with
  | some c => p.take kmin ++ p.drop (kmin + 1) ++ [c]
  | none => p

/-- `NearEngine.py` 85-165, `nearest` being the table of stored nearest neighbours
(`none` = not yet calculated). Returns the outcome and the new table. `none`: IndexError. -/
def nearOnce [DecidableEq α] (dist : α → α → K) (nearest : α → Option α) (L : List α → β)
    (low : β) (param : List α) (draw : ℕ → ℕ) : Option (Outcome α β × (α → Option α)) :=
  let np := param.length
  if np = 0 then none
  else
    let ks := draw 0 % np
    match roll param ks with
    | n0 :: c1 :: rest =>
        let p := n0 :: c1 :: rest
        let found : Option (ℕ × (α → Option α)) :=
          match nearest n0 with
          | none =>
              let kmin := nearestPos (dist n0) rest (dist n0 c1) 1 2
              some (kmin, Function.update nearest n0 p[kmin]?)
          | some c => if c ∈ p then some (p.idxOf c, nearest) else none
        match found with
        | none => none
        | some (kmin, nearest') =>
            if kmin = 1 then some (.reject 0, nearest')
            else
              let ptry := rollBack (toEnd p kmin) ks
              if low ≤ L ptry then some (.accept 1 ptry (L ptry), nearest')
              else some (.reject 0, nearest')
    | _ => none

end

/-! ### Storing the result -/

/-- `Engine.py` 153-184 with `walker=None`: a new walker with the id of the walker at `kw`.
Simplified: the bookkeeping of the best walker and of the phantoms is elsewhere. -/
def engineSetWalker (wl : WalkerList α β) (kw : ℕ) (allpars : List α) (logL : β) :
    WalkerList α β :=
  let id := match wl.items[kw]? with
    | none => 0
    | some w => w.id
  wl.setWalker ⟨id, -1, 0, 0, allpars, logL⟩ kw

/-- The tail of each `executeOnce`, e.g. `ReverseEngine.py` 101-105: on success the walker with
*index* `walker.id` is replaced, where `walker = walkers[kw]`. -/
def store (wl : WalkerList α β) (kw : ℕ) : Outcome α β → Option (WalkerList α β × ℕ)
  | .reject t => some (wl, t)
  | .accept t p l =>
      match wl.items[kw]? with
      | none => none
      | some w => some (engineSetWalker wl w.id p l, t)

/-- `OrderEngine.py` 66-93: repeat `executeOnce` until it reports success, at most `maxtrials`
times. `once i` is the i-th try, as a function of the parameters of the walker. -/
def execute (once : ℕ → List α → Option (Outcome α β)) (kw : ℕ) :
    (n i : ℕ) → WalkerList α β → Option (WalkerList α β × ℕ)
  | 0, _, wl => some (wl, 0)
  | n + 1, i, wl =>
      match wl.items[kw]? with
      | none => none
      | some w =>
          match once i w.allpars with
          | none => none
          | some o =>
              match store wl kw o with
              | none => none
              | some (wl', t) => if t = 0 then execute once kw n (i + 1) wl' else some (wl', t)

/-- `StartOrderEngine.py` 72-99. -/
def startOrder (L : List α → β) (σ : List α → List α) (wl : WalkerList α β) (kw : ℕ) :
    Option (WalkerList α β × ℕ) :=
  match wl.items[kw]? with
  | none => none
  | some w =>
      let par := σ w.allpars
      some (engineSetWalker wl w.id par (L par), par.length)

end Orders
end BF
