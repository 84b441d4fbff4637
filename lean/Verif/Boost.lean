import Verif.Walkers

/-!
# Copies from the phantoms, and boosting the best walker

Models `NestedSampler.copyWalkerFromPhantoms`, `copyWalkerFromDynamicPhantoms` (both chosen with
`copymode = 1`), `Engine.doBoost`, and the way the option `bestBoost` reaches the engines.

* Random numbers: a stream of natural numbers and the position in it; `randint( n )` is the next number
  modulo `n`.
* The endless loop `while True` gets an amount of fuel; `running` when that is used up.
-/

namespace BF
namespace Boost

variable {α β : Type*} [LinearOrder β]

/-- How a call ends. -/
inductive Res (γ : Type*)
  | running
  | raises
  | ok (value : γ) (next : ℕ)

/-- `NestedSampler.py` 817-820: draw until the phantom is above the level. `raises` is the ValueError of
`randint( 0 )`. -/
def pick (rnd : ℕ → ℕ) (phantoms : List (Walker α β)) (low : β) : ℕ → ℕ → Res ℕ
  | 0, _ => .running
  | fuel + 1, n =>
      if phantoms.length = 0 then .raises
      else
        let kcp := rnd n % phantoms.length
        match phantoms[kcp]? with
        | none => .raises
        | some p => if p.logL > low then .ok kcp (n + 1) else pick rnd phantoms low fuel (n + 1)

/-- `NestedSampler.py` 816-822: the loop over the worst walkers `ks`. -/
def copyLoop (rnd : ℕ → ℕ) (phantoms : List (Walker α β)) (low : β) (start fuel : ℕ) :
    List ℕ → WalkerList α β → ℕ → Res (WalkerList α β)
  | [], wl, n => .ok wl n
  | k :: ks, wl, n =>
      match pick rnd phantoms low fuel n with
      | .running => .running
      | .raises => .raises
      | .ok kcp n' =>
          match wl.copy kcp k phantoms start with
          | none => .raises
          | some wl' => copyLoop rnd phantoms low start fuel ks wl' n'

/-- `NestedSampler.py` 805-822. -/
def copyWalkerFromPhantoms (rnd : ℕ → ℕ) (phantoms : List (Walker α β)) (low : β) (start fuel worst : ℕ)
    (wl : WalkerList α β) (n : ℕ) : Res (WalkerList α β) :=
  copyLoop rnd phantoms low start fuel (List.range worst) wl n

/-- `NestedSampler.py` 839-843: the group in which number `kcp` falls, and the number in it. When the loop
ends without a break, the last group is used (its key stays in `pk`); `none` when there are no groups
(`pk` is unbound). `groups`: the items of the dictionary, in order. -/
def locate : List (ℕ × List (Walker α β)) → ℕ → Option (ℕ × List (Walker α β) × ℕ)
  | [], _ => none
  | [g], kcp => if kcp < g.2.length then some (g.1, g.2, kcp) else some (g.1, g.2, kcp - g.2.length)
  | g :: g' :: gs, kcp =>
      if kcp < g.2.length then some (g.1, g.2, kcp) else locate (g' :: gs) (kcp - g.2.length)

/-- `PhantomCollection.py` 186-187: `lengthDynamic( )`, of all groups. -/
def total (groups : List (ℕ × List (Walker α β))) : ℕ := (groups.map fun g => g.2.length).sum

/-- `NestedSampler.py` 836-846: draw until the phantom is above the level; its group and its number. -/
def pickDyn (rnd : ℕ → ℕ) (groups : List (ℕ × List (Walker α β))) (low : β) :
    ℕ → ℕ → Res (List (Walker α β) × ℕ)
  | 0, _ => .running
  | fuel + 1, n =>
      if total groups = 0 then .raises
      else
        match locate groups (rnd n % total groups) with
        | none => .raises
        | some (_, g, i) =>
            match g[i]? with
            | none => .raises
            | some p => if p.logL > low then .ok (g, i) (n + 1) else pickDyn rnd groups low fuel (n + 1)

/-- `NestedSampler.py` 835-849. -/
def copyLoopDyn (rnd : ℕ → ℕ) (groups : List (ℕ × List (Walker α β))) (low : β) (start fuel : ℕ) :
    List ℕ → WalkerList α β → ℕ → Res (WalkerList α β)
  | [], wl, n => .ok wl n
  | k :: ks, wl, n =>
      match pickDyn rnd groups low fuel n with
      | .running => .running
      | .raises => .raises
      | .ok (g, i) n' =>
          match wl.copy i k g start with
          | none => .raises
          | some wl' => copyLoopDyn rnd groups low start fuel ks wl' n'

/-- `NestedSampler.py` 826-849. -/
def copyWalkerFromDynamicPhantoms (rnd : ℕ → ℕ) (groups : List (ℕ × List (Walker α β))) (low : β)
    (start fuel worst : ℕ) (wl : WalkerList α β) (n : ℕ) : Res (WalkerList α β) :=
  copyLoopDyn rnd groups low start fuel (List.range worst) wl n

/-! ### options -/

/-- A value given for `bestBoost`: a truth value or a class of fitters. -/
inductive Value (F : Type*)
  | bool (b : Bool)
  | fitter (f : F)

/-- Python's truth of it. -/
def Value.truth {F : Type*} : Value F → Bool
  | .bool b => b
  | .fitter _ => true

/-- The attributes of a sampler that matter here. `myFitter = none`: `None`, or never set, in which case
`__getattr__` (`NestedSampler.py` 902-937) falls through and returns `None`. -/
structure Conf (F : Type*) where
  bestBoost : Value F
  bestUpdate : Option (Value F)
  myFitter : Option F
  fromPhantoms : Bool

/-- An assignment to an attribute. -/
inductive Assign (F : Type*)
  | bestBoost (v : Value F)
  | bestUpdate (v : Value F)
  | copymode (m : ℕ)

/-- `NestedSampler.py` 876-899: `__setattr__`. With `bestUpdate` the value of `myFitter` is set; all other
names, `bestBoost` too, are plain attributes. `copymode` only does something when it becomes 1. -/
def Conf.set {F : Type*} (c : Conf F) : Assign F → Conf F
  | .bestBoost v => { c with bestBoost := v }
  | .bestUpdate (.bool b) => { c with bestUpdate := some (.bool b), myFitter := none }
  | .bestUpdate (.fitter f) => { c with bestUpdate := some (.bool true), myFitter := some f }
  | .copymode m => if m = 1 then { c with fromPhantoms := true } else c

/-- `NestedSampler.py` 356: the constructor. -/
def Conf.make {F : Type*} (bestBoost : Value F) : Conf F :=
  Conf.set ⟨.bool false, none, none, false⟩ (.bestBoost bestBoost)

/-- `NestedSampler.py` 499-500 and `Engine.py` 133-147: the fitter that the engines use; `none` when there is
no boost. `lm` is LevenbergMarquardtFitter. -/
def Conf.engineFitter {F : Type*} (c : Conf F) (lm : F) : Option F :=
  if c.bestBoost.truth then some (c.myFitter.getD lm) else none

/-! ### boost -/

/-- A walker, as far as `doBoost` uses it. -/
structure Wlk (α β : Type*) where
  allpars : List α
  logL : β
  fitIndex : List ℤ
deriving DecidableEq

/-- `Engine.py` 204: `allpars[:-nh]`; with `nh = 0` that is `allpars[:0]`. -/
def start (nh : ℕ) (allpars : List α) : List α :=
  if nh = 0 then [] else allpars.take (allpars.length - nh)

/-- `Engine.py` 211-216: the list to be tried, with the last index of the fit list as it is compared.
`none` is an IndexError. -/
def trial (nh : ℕ) (w : Wlk α β) (pars : List α) (scale : α) : Option (List α) :=
  if nh = 0 then some pars
  else
    match w.fitIndex.getLast? with
    | none => none
    | some k =>
        if k = -1 then some (pars ++ [scale])
        else
          match w.allpars.getLast? with
          | none => none
          | some a => some (pars ++ [a])

/-- `Engine.py` 192-234. `phantoms`: the likelihoods in the list of phantoms, or `None`. `fit`: the parameters
that the fitter finds from a start, and its scale; `none` when it raises. `logLik`: the likelihood, `none` when
it raises. Result: the walker and whether it is counted as best; `none` when the call raises. Left out: what the
fitter leaves in the model. -/
def doBoost (nh : ℕ) (logLik : List α → Option β) (fit : List α → Option (List α × α))
    (phantoms : Option (List β)) (w : Wlk α β) : Option (Wlk α β × Bool) :=
  match phantoms with
  | none => some (w, false)
  | some l =>
      match l.getLast? with
      | none => none
      | some best =>
          if best ≥ w.logL then some (w, false)
          else
            match fit (start nh w.allpars) with
            | none => some (w, false)
            | some (pars, scale) =>
                match trial nh w pars scale with
                | none => none
                | some ptry =>
                    match logLik ptry with
                    | none => none
                    | some ltry =>
                        if ltry > w.logL then some ({ w with allpars := ptry, logL := ltry }, true)
                        else some (w, true)

end Boost
end BF
