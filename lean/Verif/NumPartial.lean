import Verif.Fixed
import Mathlib.Data.Real.Basic

/-!
# Numeric derivatives, and the models that use them

`FixedModel.py` 230-451, `BaseModel.py` 186-260, `Model.py` 1619-1700, `ErrorDistribution.py` 378-460,
`UserModel.py` and `AstropyModel.py`.

Simplifications:
* Numbers are real: rounding, which makes a very small step useless, is not modelled.
* One data point `x` with one dimension, one output: numpy works on all points in parallel. (The rows of
  `UserModel.basePartial` are written for more points.)
* The indices in `posIndex` and `nonZero` are those of parameters of the model; others are ignored, where
  the code raises an IndexError.
* Warnings are left out.
-/

namespace BF.NumPartial

open BF.Arr BF.Fixed

noncomputable section

/-- The numbers that come out of `Tools.makeNext( deltaP, 0 )`, `Tools.py` 253-268: the items of the
list, then the last one for ever. `deltaP` is never empty. -/
def makeNext (delta : List ℝ) (i : ℕ) : ℝ := delta.getD i (delta.getLastD 0)

/-- A model without partials of its own: the method `baseResult`, the attributes of `BaseModel`
(`posIndex`, `nonZero`, `tiny`, `deltaP`, `BaseModel.py` 112-120) and of `FixedModel` (`npmax` and
`fixed`; an empty list stands for `fixed=None`). -/
structure Mdl where
  base : ℝ → List ℝ → ℝ
  fm : FM ℝ
  pos : List ℕ
  nonZero : List ℕ
  tiny : ℝ
  delta : List ℝ

/-- `checkZeroParameter`, `BaseModel.py` 247-260. -/
def Mdl.checkZero (m : Mdl) (par : List ℝ) : List ℝ :=
  m.nonZero.foldl (fun p k => p.modify k fun v => if v = 0 then m.tiny else v) par

/-- `checkPositive`, `BaseModel.py` 234-245. -/
def Mdl.checkPositive (m : Mdl) (par : List ℝ) : List ℝ :=
  m.pos.foldl (fun p k => p.modify k fun v => |v|) par

/-- `checkParameter`, `BaseModel.py` 218-232. The array itself is changed. -/
def Mdl.check (m : Mdl) (par : List ℝ) : List ℝ := m.checkPositive (m.checkZero par)

/-- `expand`, `FixedModel.py` 245-275; without fixed parameters it returns the very same array. -/
def Mdl.expand (m : Mdl) (x : ℝ) (par : List ℝ) : Option (List ℝ) :=
  if m.fm.fixed = [] then some par else m.fm.expand x par

/-- `FixedModel.result` 230-243 and `BaseModel.result` 186-199: the result, and what the array of
parameters holds afterwards. A slice is a view, so `checkParameter` changes the array of the caller when
no parameters are fixed; with fixed parameters it works on a new array. -/
def Mdl.result (m : Mdl) (x : ℝ) (par : List ℝ) : Option (ℝ × List ℝ) :=
  (m.expand x par).map fun e =>
    (m.base x (m.check (e.take m.fm.npmax)),
      if m.fm.fixed = [] then m.check (par.take m.fm.npmax) ++ par.drop m.fm.npmax else par)

/-- The loop 338-345 of `FixedModel.numPartial` over the parameters `k` in `parlist`; `i` counts them,
`par` is the working copy of `params`. -/
def numLoop (m : Mdl) (x : ℝ) (params : List ℝ) : List ℕ → ℕ → List ℝ → Option (List ℝ)
  | [], _, _ => some []
  | k :: ks, i, par =>
      match m.result x (par.modify k (· + 0.5 * makeNext m.delta i)) with
      | none => none
      | some (r1, p1) =>
          match m.result x (p1.modify k (· - makeNext m.delta i)) with
          | none => none
          | some (r2, p2) =>
              match params[k]? with
              | none => none
              | some v => (numLoop m x params ks (i + 1) (p2.set k v)).map
                  ((r1 - r2) / makeNext m.delta i :: ·)

/-- `npbase`: the number of free parameters, `FixedModel.py` 130. -/
def Mdl.npbase (m : Mdl) : ℕ := m.fm.npbase

/-- `FixedModel.numPartial` 316-350: a row of zeros of length `npbase` is filled from the left. -/
def Mdl.numPartial (m : Mdl) (x : ℝ) (params : List ℝ) (parlist : Option (List ℕ)) :
    Option (List ℝ) :=
  match numLoop m x params (parlist.getD (List.range m.npbase)) 0 params with
  | none => none
  | some c => if c.length ≤ m.npbase then some (c ++ List.replicate (m.npbase - c.length) 0) else none

/-- `FixedModel.basePartial` 352-374, for models that have no partials of their own. -/
def Mdl.basePartial (m : Mdl) (x : ℝ) (param : List ℝ) (parlist : Option (List ℕ)) :
    Option (List ℝ) :=
  match parlist with
  | none => m.numPartial x param none
  | some pl =>
      match gather param pl with
      | none => none
      | some par => m.numPartial x par (some (List.range par.length))

/-- `FixedModel.partial` 278-314 and `BaseModel.partial` 202-216 of such a model. -/
def Mdl.partials (m : Mdl) (x : ℝ) (param : List ℝ) : Option (List ℝ) :=
  match m.expand x param with
  | none => none
  | some e =>
      let e' := m.check e
      if m.fm.mlist = [] then
        m.basePartial x e' (if m.fm.fixed = [] then none else some m.fm.parlist)
      else
        let nf := m.fm.npmax - m.fm.fixed.length
        match m.basePartial x (e'.take m.fm.npmax) (some (m.fm.parlist.take nf ++ m.fm.mlist)) with
        | none => none
        | some bp =>
            match scatter (List.replicate param.length 0) (List.range nf) (bp.take nf) with
            | none => none
            | some part => partLoop x bp e'
                ((m.fm.fixed.filter fun kv => kv.2.isModel).map Prod.snd) nf nf m.fm.npmax part

/-- `FixedModel.numDerivative` 400-425, one dimension. The calls change only the array of parameters. -/
def Mdl.numDerivative (m : Mdl) (x : ℝ) (param : List ℝ) : Option ℝ :=
  match m.delta[0]? with
  | none => none
  | some dx =>
      match m.result (x + dx) param with
      | none => none
      | some (r1, p1) =>
          match m.result (x - dx) p1 with
          | none => none
          | some (r2, _) => some ((r1 - r2) / (2 * dx))

/-- `Model.strictNumericPartial` 1619-1657 for a (compound) model with `np` parameters and one output:
`res` is the method `result` at the data point, returning also what is in the array afterwards. -/
def strictLoop (res : List ℝ → Option (ℝ × List ℝ)) (delta : List ℝ) (params : List ℝ) :
    List ℕ → ℕ → List ℝ → Option (List ℝ)
  | [], _, _ => some []
  | k :: ks, i, par =>
      match res (par.modify k (· + 0.5 * makeNext delta i)) with
      | none => none
      | some (r1, p1) =>
          match res (p1.modify k (· - makeNext delta i)) with
          | none => none
          | some (r2, p2) =>
              match params[k]? with
              | none => none
              | some v => (strictLoop res delta params ks (i + 1) (p2.set k v)).map
                  ((r1 - r2) / makeNext delta i :: ·)

/-- `ErrorDistribution.numPartialLogL` 432-460; `logL` is `logLikelihood( problem, . )`. -/
def numLogLoop (logL : List ℝ → ℝ) (delta : ℝ) (allpars : List ℝ) :
    List ℕ → List ℝ → Option (List ℝ)
  | [], _ => some []
  | k :: ks, p =>
      match allpars[k]? with
      | none => none
      | some v =>
          let lm := logL (p.set k (v - delta))
          let lp := logL ((p.set k (v - delta)).set k (v + delta))
          (numLogLoop logL delta allpars ks (((p.set k (v - delta)).set k (v + delta)).set k v)).map
            (0.5 * (lp - lm) / delta :: ·)

/-- `ErrorDistribution.numPartialLogL` 432-460: the working copy starts as `allpars`. -/
def numPartialLogL (logL : List ℝ → ℝ) (delta : ℝ) (allpars : List ℝ) (fitIndex : List ℕ) :
    Option (List ℝ) := numLogLoop logL delta allpars fitIndex allpars

/-- `ErrorDistribution.partialLogL` 378-411: `exact` is what the exact calculation makes of it, `none`
when it raises any exception. -/
def partialLogL (exact : Option (List ℝ)) (logL : List ℝ → ℝ) (delta : ℝ) (allpars : List ℝ)
    (fitIndex : List ℕ) : Option (List ℝ) :=
  match exact with
  | some d => some d
  | none => numPartialLogL logL delta allpars fitIndex

/-! ## UserModel -/

/-- `UserModel.basePartial` 140-157 with partials of the user: a table with a row for each data point and
a column for each parameter. `[parlist]` takes rows of the table. -/
def userBasePartial (userPartial : List ℝ → List ℝ → List (List ℝ)) (xs : List ℝ) (params : List ℝ)
    (parlist : Option (List ℕ)) : Option (List (List ℝ)) :=
  match parlist with
  | none => some (userPartial xs params)
  | some pl => gather (userPartial xs params) pl

/-- `FixedModel.partial` 278-293 (without models among the fixed parameters) of a `UserModel` with
partials of the user, which has `nonZero` and `posIndex` empty. -/
def userPartials (fm : FM ℝ) (userPartial : List ℝ → List ℝ → List (List ℝ)) (xs : List ℝ)
    (param : List ℝ) : Option (List (List ℝ)) :=
  if fm.fixed = [] then userBasePartial userPartial xs param none
  else
    match fm.expand 0 param with
    | none => none
    | some e => userBasePartial userPartial xs e (some fm.parlist)

/-- The table with a row for each data point, where a calculation can raise. -/
def rows (f : ℝ → Option (List ℝ)) : List ℝ → Option (List (List ℝ))
  | [] => some []
  | x :: xs =>
      match f x, rows f xs with
      | some r, some rs => some (r :: rs)
      | _, _ => none

/-- `FixedModel.partial` of a `UserModel` without partials of the user and without models among its fixed
parameters: `userPartial` is the method `numPartial` of the object (`UserModel.py` 119), which is
`Model.numPartial` (`Model.py` 981-994): it hands the first `npbase` of its parameters to
`FixedModel.numPartial` (640-648). These are the expanded parameters here. -/
def userNumPartials (m : Mdl) (xs : List ℝ) (param : List ℝ) : Option (List (List ℝ)) :=
  if m.fm.fixed = [] then rows (fun x => m.numPartial x ((m.check param).take m.npbase) none) xs
  else
    match m.expand 0 param with
    | none => none
    | some e =>
        match rows (fun x => m.numPartial x ((m.check e).take m.npbase) none) xs with
        | none => none
        | some t => gather t m.fm.parlist

/-- `FixedModel.derivative` 376-396 of a `UserModel` without derivative of the user (and without models
among its fixed parameters): `userDerivative` is `numDerivative` of the object, `UserModel.py` 120,
159-171, which is `Model.numDerivative` (`Model.py` 966-978, 560-567). -/
def userNumDerivative (m : Mdl) (x : ℝ) (param : List ℝ) : Option ℝ :=
  match m.expand x param with
  | none => none
  | some e => m.numDerivative x (e.take m.npbase)

/-- `Model.partial` 611-689 with `useNum=True` for a chain of sums: the numeric partials of each model at
its own part of the parameters. -/
def chainNumPartial (x : ℝ) : List Mdl → List ℝ → Option (List ℝ)
  | [], _ => some []
  | m :: ms, p =>
      match m.numPartial x (p.take m.npbase) none with
      | none => none
      | some c => (chainNumPartial x ms (p.drop m.npbase)).map (c ++ ·)

/-- `Model.partial` of `user + rest` where `user` is a `UserModel` without partials, which has been
extended in place (`addModel`, `Model.py` 322-345) with `rest`: `basePartial` calls `numPartial` of the
object, that is of the whole chain, with the parameters of the first model. -/
def userChainPartial (x : ℝ) (user : Mdl) (rest : List Mdl) (p : List ℝ) : Option (List ℝ) :=
  match chainNumPartial x (user :: rest) (user.check (p.take user.npbase)) with
  | none => none
  | some c => (chainNumPartial x rest (p.drop user.npbase)).map (c ++ ·)

/-! ## AstropyModel -/

/-- `AstropyModel.basePartial` 123-155: `fitDeriv` is the list of partials of the astropy model at the
data point. `junk` is what is in a new array; columns beyond `npbase` raise an IndexError. -/
def astroBasePartial (npbase : ℕ) (fitDeriv : List ℝ → List ℝ) (junk : ℝ) (params : List ℝ)
    (parlist : Option (List ℕ)) : Option (List ℝ) :=
  match parlist with
  | none => some (fitDeriv params)
  | some pl =>
      match gather (fitDeriv params) pl with
      | none => none
      | some c => if c.length ≤ npbase then some (c ++ List.replicate (npbase - c.length) junk) else none

/-- `FixedModel.partial` of an `AstropyModel`, whose fixed parameters are numbers. -/
def astroPartials (fm : FM ℝ) (fitDeriv : List ℝ → List ℝ) (junk : ℝ) (x : ℝ) (param : List ℝ) :
    Option (List ℝ) :=
  if fm.fixed = [] then astroBasePartial fm.npbase fitDeriv junk param none
  else
    match fm.expand x param with
    | none => none
    | some e => astroBasePartial fm.npbase fitDeriv junk e (some fm.parlist)

/-- `AstropyModel.baseDerivative` 157-169: the value of `numDerivative` is not returned. The outer option
is the exception, the inner one `None`. -/
def astroDerivative (m : Mdl) (x : ℝ) (param : List ℝ) : Option (Option ℝ) :=
  match m.expand x param with
  | none => none
  | some e => (m.numDerivative x (e.take m.npbase)).map fun _ => none

end

end BF.NumPartial
