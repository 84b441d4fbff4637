import Verif.Erf
import Mathlib.Data.EReal.Basic
import Mathlib.Analysis.SpecialFunctions.Trigonometric.Arctan
import Mathlib.Analysis.SpecialFunctions.Log.Basic

/-!
# Priors

Model of `Prior.py`, `UniformPrior.py`, `JeffreysPrior.py`, `LaplacePrior.py`, `ExponentialPrior.py`,
`CauchyPrior.py`, `GaussPrior.py` and `CircularUniformPrior.py`.

Numbers are real numbers; limits may be infinite (`EReal`). `none` stands for an exception, an infinity or
nan. Arguments are single numbers: the branches for arrays compute the same per element.
-/

namespace BF.Priors

open Real

/-- The prior classes with a map of their own. `ExponentialPrior` derives from `LaplacePrior`,
`CircularUniformPrior` from `UniformPrior`. -/
inductive Kind
  | uniform | jeffreys | laplace | cauchy | gauss
  deriving DecidableEq

/-- Whether objects of the class have the attributes center, scale and limint. -/
def Kind.hasCenter : Kind → Bool
  | .uniform => false
  | .jeffreys => false
  | _ => true

/-- `domain2Unit` of the class at a number: UniformPrior.py 106, JeffreysPrior.py 107-110,
LaplacePrior.py 128-135, CauchyPrior.py 120, GaussPrior.py 127. -/
noncomputable def Kind.cum (k : Kind) (center scale d : ℝ) : Option ℝ :=
  match k with
  | .uniform => some d
  | .jeffreys => if d ≤ 0 then none else some (log d)
  | .laplace =>
      let dv := (d - center) / scale
      some (if dv < 0 then 0.5 * exp dv else 1 - 0.5 * exp (-dv))
  | .cauchy => some (arctan ((d - center) / scale) / π + 0.5)
  | .gauss => some (0.5 * (erf ((d - center) / (√2 * scale)) + 1))

/-- `domain2Unit` of the class, at a number or an infinity. The identity and the logarithm are infinite
(or an exception) there; the others tend to 0 and 1. -/
noncomputable def Kind.cumE (k : Kind) (center scale : ℝ) : EReal → Option ℝ
  | ⊥ => if k.hasCenter then some 0 else none
  | ⊤ => if k.hasCenter then some 1 else none
  | (d : ℝ) => k.cum center scale d

/-- `unit2Domain` of the class: UniformPrior.py 120, JeffreysPrior.py 124, LaplacePrior.py 151-168,
CauchyPrior.py 135, GaussPrior.py 143-146. -/
noncomputable def Kind.inv (k : Kind) (center scale u : ℝ) : Option ℝ :=
  match k with
  | .uniform => some u
  | .jeffreys => some (exp u)
  | .laplace =>
      let uv := 2 * u
      if uv < 0 ∨ uv > 2 then none
      else some (center + (if uv = 0 then -40 else if uv = 2 then 40
        else if uv ≤ 1 then log uv else -log (2 - uv)) * scale)
  | .cauchy =>
      if cos ((u - 0.5) * π) = 0 then none else some (tan ((u - 0.5) * π) * scale + center)
  | .gauss =>
      if -1 < 2 * u - 1 ∧ 2 * u - 1 < 1 then some (erfinv (2 * u - 1) * scale * √2 + center)
      else some ((if u < 0.5 then -8.5 else 8.5) * scale + center)

/-- What is bound to the names `unit2Domain` and `domain2Unit` of the object. -/
inductive Maps
  | base | limited | circular
  deriving DecidableEq

/-- The argument `circular`: False, True or a period. -/
inductive Circ
  | no | yes
  | period (p : ℝ)

/-- A prior object. -/
structure Prior where
  kind : Kind
  /-- `center`, `scale` -/
  center : ℝ
  scale : ℝ
  /-- `_lowDomain`, `_highDomain` -/
  lowDomain : EReal
  highDomain : EReal
  /-- `lowLimit`, `highLimit` -/
  low : EReal
  high : EReal
  /-- `_umin`; `_urng`, `none` when infinite -/
  umin : ℝ
  urng : Option ℝ
  /-- the maps in use, and whether `baseUnit2Domain` exists -/
  maps : Maps
  hasBase : Bool
  /-- `circular` -/
  circ : Circ
  /-- `limint` -/
  limint : Option ℝ

/-- `limitedDomain2Unit` Prior.py 255-259, given the value of the class map. -/
noncomputable def Prior.limitD (q : Prior) (u : Option ℝ) : Option ℝ :=
  if q.hasBase then
    match u, q.urng with
    | some u, some r => some ((u - q.umin) / r)
    | _, _ => none
  else none

/-- `domain2Unit` of the object, given the value of the class map: Prior.py 209-213, 255-271. -/
noncomputable def Prior.applyD (q : Prior) (u : Option ℝ) : Option ℝ :=
  match q.maps with
  | .base => u
  | .limited => q.limitD u
  | .circular => (q.limitD u).map fun v => (v + 1) / 3

/-- `domain2Unit` of the object. -/
noncomputable def Prior.domain2Unit (q : Prior) (d : ℝ) : Option ℝ :=
  q.applyD (q.kind.cum q.center q.scale d)

/-- `domain2Unit` of the object at a limit, which may be infinite. -/
noncomputable def Prior.domain2UnitE (q : Prior) (d : EReal) : Option ℝ :=
  q.applyD (q.kind.cumE q.center q.scale d)

/-- `limitedUnit2Domain` Prior.py 261-265. -/
noncomputable def Prior.limitU (q : Prior) (u : ℝ) : Option ℝ :=
  if q.hasBase then
    match q.urng with
    | some r => q.kind.inv q.center q.scale (u * r + q.umin)
    | none => none
  else none

/-- `unit2Domain` of the object: Prior.py 209-213, 261-277. -/
noncomputable def Prior.unit2Domain (q : Prior) (u : ℝ) : Option ℝ :=
  match q.maps with
  | .base => q.kind.inv q.center q.scale u
  | .limited => q.limitU u
  | .circular => q.limitU (Int.fract (u * 3))

/-- The argument `limits` of `setLimits`: `None`, or a pair of which each may be `None`. -/
abbrev Lims := Option (Option EReal × Option EReal)

/-- 191-200: the images of the limits, computed with the map in use while `_umin` is 0 and `_urng` is 1. -/
noncomputable def Prior.setRange (q : Prior) : Prior :=
  let t := { q with umin := 0, urng := some 1 }
  match t.domain2UnitE q.high with
  | none => { t with urng := none }
  | some umax =>
      match t.domain2UnitE q.low with
      | none => { t with urng := none }
      | some umin => { t with umin := umin, urng := some (umax - umin) }

/-- `setLimits` Prior.py 160-213. The flag says whether an exception was raised; the limits have then been
overwritten already. -/
noncomputable def Prior.setLimits (q : Prior) (limits : Lims) : Prior × Bool :=
  let lo := (limits.bind Prod.fst).getD q.lowDomain
  let hi := (limits.bind Prod.snd).getD q.highDomain
  let reset := (limits.bind Prod.fst).isSome || (limits.bind Prod.snd).isSome
  let q1 := { q with low := lo, high := hi }
  open Classical in
  if q.lowDomain ≤ lo ∧ lo < hi ∧ hi ≤ q.highDomain then
    let q2 := q1.setRange
    if q2.urng = none then (q2, false)
    else if q2.hasBase then (q2, false)
    else if reset then ({ q2 with maps := .limited, hasBase := true }, false)
    else (q2, false)
  else (q1, true)

/-- `setPriorAttributes` 215-246. `none`: an exception. With `circular` True the difference of the limits
is computed (231) but not used; it is an exception when one is `None`. With an infinite limit the prior
cannot be used (no base map, or nan); it is `none` here. -/
noncomputable def Prior.setPriorAttributes (q : Prior) (limits : Lims) (circular : Circ) :
    Option Prior :=
  match circular with
  | .no => let r := q.setLimits limits
           if r.2 then none else some r.1
  | .yes =>
      match limits with
      | none =>
          let r := q.setLimits none
          if r.2 then none else some r.1
      | some (some (a : ℝ), some (b : ℝ)) =>
          let r := q.setLimits (some (some (a : EReal), some (b : EReal)))
          if r.2 then none else some { r.1 with circ := .yes, maps := .circular }
      | _ => none
  | .period p =>
      let r := q.setLimits (some (if q.kind.hasCenter
        then (some ((q.center - p / 2 : ℝ) : EReal), some ((q.center + p / 2 : ℝ) : EReal))
        else (some (0 : EReal), some (p : EReal))))
      if r.2 then none else some { r.1 with circ := .period p, maps := .circular }

/-- `limitedIntegral` Prior.py 128-158, called before the maps are replaced. -/
noncomputable def limitedIntegral (k : Kind) (scale center0 center : ℝ) (limits : Lims)
    (circular : Circ) : Option ℝ :=
  let lims : Lims := match limits, circular with
    | none, .yes => some (some ((center0 - 1 / 2 : ℝ) : EReal), some ((center0 + 1 / 2 : ℝ) : EReal))
    | none, .period p =>
        some (some ((center0 - p / 2 : ℝ) : EReal), some ((center0 + p / 2 : ℝ) : EReal))
    | l, _ => l
  match lims.bind Prod.fst, lims.bind Prod.snd with
  | none, none => some 1
  | some a, none => (k.cumE center scale a).map fun v => 1 - v
  | none, some b => (k.cumE center scale b).map fun v => v - 0
  | some a, some b =>
      match k.cumE center scale a, k.cumE center scale b with
      | some v, some w => some (w - v)
      | _, _ => none

/-- The object before `setPriorAttributes`: Prior.py 114-117; JeffreysPrior.py 85 for the domain. -/
noncomputable def start (k : Kind) (center scale : ℝ) (limint : Option ℝ) : Prior where
  kind := k
  center := center
  scale := scale
  lowDomain := if k = .jeffreys then 0 else ⊥
  highDomain := ⊤
  low := if k = .jeffreys then 0 else ⊥
  high := ⊤
  umin := 0
  urng := none
  maps := .base
  hasBase := false
  circ := .no
  limint := limint

/-- `0.5 * ( limits[0] + limits[1] )` LaplacePrior.py 101-102 (same in CauchyPrior.py 95-96 and
GaussPrior.py 100-101). Other limits than two numbers are an exception (or nan) in
`setPriorAttributes`. -/
noncomputable def recenter (center : ℝ) (limits : Lims) (circular : Circ) : ℝ :=
  match circular, limits with
  | .yes, some (some (a : ℝ), some (b : ℝ)) => if center = 0 then 0.5 * (a + b) else center
  | _, _ => center

/-- The constructors. UniformPrior.py 82; JeffreysPrior.py 85 (not circular); LaplacePrior.py 98-107;
CauchyPrior.py 92-101; GaussPrior.py 97-106. `none`: an exception; `scale` must be positive
(Prior.py 289-290). -/
noncomputable def construct (k : Kind) (center scale : ℝ) (limits : Lims) (circular : Circ) :
    Option Prior :=
  if k.hasCenter then
    if scale ≤ 0 then none
    else
      let c := recenter center limits circular
      match limitedIntegral k scale center c limits circular with
      | none => none
      | some li => (start k c scale (some li)).setPriorAttributes limits circular
  else (start k 0 1 none).setPriorAttributes limits circular

/-- `ExponentialPrior` 81-83. -/
noncomputable def exponential (scale : ℝ) (hilimit : EReal) : Option Prior :=
  (construct .laplace 0 scale (some (some 0, some hilimit)) .no).map fun q =>
    { q with lowDomain := 0 }

/-- `copy`, for all but the exponential prior: UniformPrior.py 86, JeffreysPrior.py 88, LaplacePrior.py
111-112, CauchyPrior.py 104-105, GaussPrior.py 111-112. -/
noncomputable def Prior.copy (q : Prior) : Option Prior :=
  construct q.kind q.center q.scale (some (some q.low, some q.high)) q.circ

/-- `isOutOfLimits` 348. -/
def Prior.isOut (q : Prior) (x : ℝ) : Prop := (x : EReal) < q.low ∨ q.high < (x : EReal)

/-- `stayInLimits` 378-382. -/
noncomputable def Prior.stayInLimits (q : Prior) (x : ℝ) : EReal :=
  open Classical in
  if (x : EReal) < q.low then q.low else if q.high < (x : EReal) then q.high else x

/-- `prior.scale = value` 279-293. `none`: an exception. -/
noncomputable def Prior.setScale (q : Prior) (value : ℝ) : Option Prior :=
  if value ≤ 0 then none else some { q with scale := value }

/-- `unsetLimits` 319-320. -/
def Prior.unsetLimits (q : Prior) : Prior := { q with low := q.lowDomain, high := q.highDomain }

/-- The density: UniformPrior.py 132-138, JeffreysPrior.py 136-144, LaplacePrior.py 180-182,
CauchyPrior.py 147-150, GaussPrior.py 159-162. -/
noncomputable def Prior.result (q : Prior) (x : ℝ) : Option ℝ :=
  open Classical in
  match q.kind with
  | .uniform => match q.urng with
      | none => none
      | some r => some (if q.isOut x then 0 else 1 / r)
  | .jeffreys => match q.urng with
      | none => if q.isOut x then some 0 else if x = 0 then none else some 0
      | some r => some (if q.isOut x then 0 else 1 / (x * r))
  | .laplace => q.limint.map fun li =>
      let xs := (x - q.center) / q.scale
      if q.isOut x then 0 else 0.5 * exp (-|xs|) / (q.scale * li)
  | .cauchy => q.limint.map fun li =>
      let xc := x - q.center
      if q.isOut x then 0 else q.scale / ((q.scale * q.scale + xc * xc) * π * li)
  | .gauss => q.limint.map fun li =>
      let xs := (x - q.center) / q.scale
      if q.isOut x then 0 else 1 / √(2 * π) / (q.scale * li) * exp (-0.5 * xs * xs)

/-- `logResult` within the limits: Prior.py 475-478 (uniform, Jeffreys, Cauchy), LaplacePrior.py 194-196,
GaussPrior.py 174-178. Out of the limits it is minus infinity (`none`). -/
noncomputable def Prior.logResult (q : Prior) (x : ℝ) : Option ℝ :=
  open Classical in
  match q.kind with
  | .laplace => q.limint.bind fun li =>
      let xs := (x - q.center) / q.scale
      if q.isOut x then none else some (-log (2 * q.scale * li) - |xs|)
  | .gauss => q.limint.bind fun li =>
      let xs := (x - q.center) / q.scale
      if q.isOut x then none
      else some (log (1 / √(2 * π)) - log (q.scale * li) - 0.5 * xs * xs)
  | _ => (q.result x).bind fun v => if v = 0 then none else some (log v)

/-- `partialLog`: UniformPrior.py 154, JeffreysPrior.py 160, LaplacePrior.py 208-211, CauchyPrior.py
165-166, GaussPrior.py 191. `none` is nan. -/
noncomputable def Prior.partialLog (q : Prior) (x : ℝ) : Option ℝ :=
  open Classical in
  match q.kind with
  | .uniform => if q.isOut x then none else some 0
  | .jeffreys => if q.isOut x then none else some (-1 / x)
  | .laplace =>
      if x = q.center then some 0
      else if q.isOut x then none
      else some (if x > q.center then -1 / q.scale else 1 / q.scale)
  | .cauchy =>
      let xc := x - q.center
      some (-2 * xc / (q.scale * q.scale + xc * xc))
  | .gauss => some (-(x - q.center) / (q.scale * q.scale))

end BF.Priors
