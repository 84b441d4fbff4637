import Verif.Fixed
import Verif.Combi
import Verif.Names

/-!
# Copies of models

The constructors of the model classes with the keyword `copy`, and their methods `copy`: which attributes of a model
arrive in its copy, and when the copy fails.

Simplifications:
* One model, not a chain: chains, brackets and `isolateModel` are in `Verif.Heap`, decision trees in `Verif.Tree`.
* An exception is `none`. The checks on the types of attributes are left out.
* The keys of `fixed` are converted, as in `Verif.Names`. A model as fixed value is of type `M`; its number of
  parameters, its parameters, its names and its copy are parameters of the development (`Fixer`).
* Kernels, shapes and functions are of type `F`, priors of type `P`, units of type `U`. Attributes that are computed
  from the others and never change are left out (`_bspline`, `poly`, `keppler`, `raster`, …).
* Knots are given, not made from `nrknots`.
* `deltaP`, `posIndex`, `nonZero`, `xUnit`, `knots`, kernels and shapes are the same object in the copy. Here they are
  values. The lists of priors are treated as objects in memory, in the second part.
-/

namespace BF.Copies

open BF.Names (numbered)

/-- What is used of the models that stand for fixed parameters. -/
structure Fixer (K M : Type) where
  np : M → ℕ
  pars : M → List K
  names : M → List String
  copy : M → M

/-- Default values that the classes have. -/
structure Consts (K P U F : Type) where
  invPi : K
  twoInvPi : K
  minusOne : K
  half : K
  unit : U
  deltaP : List K
  tiny : K
  /-- `1 / kernel.integral` -/
  kernelAmp : F → K
  /-- `2 / ( kernel.integral * π )` -/
  kernelAmp2d : F → K
  two : K
  /-- the default kernel `Gauss()` -/
  gauss : F
  sinc : F
  /-- `ExponentialPrior( scale=2 )` and `UniformPrior( limits=[min,max+1] )` -/
  expPrior : P
  uniPrior : ℕ → ℕ → P

abbrev Dict (K M : Type) := List (ℕ × (K ⊕ M))

/-- The attributes of `BaseModel.py` 114-134, `FixedModel.py` 126-153, `Model.py` 169-203 and `_linear` of
`NonLinearModel.py` 82-85 (for the other classes it is empty). -/
structure Common (K P U M : Type) where
  npbase : ℕ
  ndim : ℕ
  npmax : ℕ
  mlist : List ℕ
  /-- `_npb` and `fixed`; the former is set only if the latter is not None -/
  fixed : Option (ℕ × Dict K M)
  parlist : Option (List ℕ)
  parNames : List String
  priors : Option (List P)
  posIndex : List ℕ
  nonZero : List ℕ
  deltaP : List K
  tiny : K
  parameters : Option (List K)
  stdevs : Option (List K)
  xUnit : List U
  yUnit : U
  npchain : ℕ
  linear : List ℕ

/-- The keywords of the common constructors. -/
structure Kw (K M : Type) where
  fixed : Option (Dict K M) := none
  posIndex : List ℕ := []
  nonZero : List ℕ := []

variable {K P U F M : Type} [Zero K] [One K]

/-- `params[index]` for an array; an index out of range is an exception. -/
def gather (params : List K) (idx : List ℕ) : Option (List K) := idx.mapM fun k => params[k]?

/-- `mlist`, `FixedModel.py` 117-121. -/
def mlistOf (d : Dict K M) : List ℕ := (d.filter fun kv => kv.2.isRight).map Prod.fst

/-- `npar`, `FixedModel.py` 108-121. -/
def nparOf (fx : Fixer K M) (nparams : ℕ) (d : Dict K M) : ℕ :=
  nparams + (d.map fun kv => match kv.2 with
    | .inl _ => 0
    | .inr m => fx.np m).sum

/-- `parlist`, `FixedModel.py` 178-180. -/
def parlistOf (npb : ℕ) (d : Dict K M) : List ℕ := BF.Fixed.setxor1d (List.range npb) (d.map Prod.fst)

/-- The parameters (`FixedModel.py` 201-202) of the models in the dictionary. -/
def modelPars (fx : Fixer K M) (d : Dict K M) : List K :=
  d.flatMap fun kv => match kv.2 with
    | .inl _ => []
    | .inr m => fx.pars m

/-- The names (`FixedModel.py` 222-226) of the models in the dictionary. -/
def modelNames (fx : Fixer K M) (d : Dict K M) : List String :=
  d.flatMap fun kv => match kv.2 with
    | .inl _ => []
    | .inr m => fx.names m

/-- `select`, `FixedModel.py` 182-203. -/
def select (fx : Fixer K M) (npmax : ℕ) (mlist : List ℕ) (parlist : Option (List ℕ)) (fixed : Option (ℕ × Dict K M))
    (params : List K) : Option (List K) :=
  match fixed with
  | none => some params
  | some nd =>
      if mlist = [] then gather params (parlist.getD [])
      else (gather params ((parlist.getD []).filter fun k => k < npmax)).map fun p => p ++ modelPars fx nd.2

/-- `selectNames`, `FixedModel.py` 205-227, for a new model. -/
def selectNames (fx : Fixer K M) (npmax : ℕ) (fixed : Option (ℕ × Dict K M)) (names : List String) :
    Option (List String) :=
  match fixed with
  | none => some names
  | some nd =>
      if mlistOf nd.2 = [] then (parlistOf nd.1 nd.2).mapM fun k => names[k]?
      else (((parlistOf nd.1 nd.2).filter fun k => k < npmax).mapM fun k => names[k]?).map fun n =>
        n ++ modelNames fx nd.2

/-- Copies of the models in the dictionary, `FixedModel.py` 145-149. -/
def copyFixed (fx : Fixer K M) (d : Dict K M) : Dict K M :=
  d.map fun kv => (kv.1, match kv.2 with
    | .inl v => .inl v
    | .inr m => .inr (fx.copy m))

/-- `FixedModel.__init__` 83-153 with `BaseModel.__init__` 91-134 for a new model; what `Model.__init__` sets
afterwards is still empty. -/
def fixedNew (cs : Consts K P U F) (fx : Fixer K M) (nparams ndim : ℕ) (names : Option (List String)) (kw : Kw K M) :
    Option (Common K P U M) :=
  let fixed := kw.fixed.map fun d => (nparOf fx nparams d, d)
  let npbase := match kw.fixed with
    | none => nparams
    | some d => nparOf fx nparams d - d.length
  (match names with
    | none => some (numbered npbase)
    | some ns => selectNames fx nparams fixed ns).map fun pn =>
  { npbase := npbase, ndim := ndim, npmax := nparams
    mlist := (kw.fixed.map mlistOf).getD []
    fixed := fixed
    parlist := fixed.map fun nd : ℕ × Dict K M => parlistOf nd.1 nd.2
    parNames := pn, priors := none, posIndex := kw.posIndex, nonZero := kw.nonZero
    deltaP := cs.deltaP, tiny := cs.tiny
    parameters := none, stdevs := none, xUnit := [], yUnit := cs.unit, npchain := 0, linear := [] }

/-- The same with `copy`. -/
def fixedCopy (cs : Consts K P U F) (fx : Fixer K M) (o : Common K P U M) : Common K P U M :=
  let fixed := o.fixed.map fun nd => (nd.1, copyFixed fx nd.2)
  { npbase := o.npbase, ndim := o.ndim, npmax := o.npmax
    mlist := o.mlist
    fixed := fixed
    parlist := fixed.map fun nd : ℕ × Dict K M => parlistOf nd.1 nd.2
    parNames := o.parNames, priors := o.priors, posIndex := o.posIndex, nonZero := o.nonZero
    deltaP := o.deltaP, tiny := o.tiny
    parameters := none, stdevs := none, xUnit := [], yUnit := cs.unit, npchain := 0, linear := o.linear }

/-- `Model.__init__`, `Model.py` 144-203, for one model; with `NonLinearModel.__init__`. -/
def modelInit (cs : Consts K P U F) (fx : Fixer K M) (nparams ndim : ℕ) (params : Option (List K))
    (names : Option (List String)) (kw : Kw K M) (copy : Option (Common K P U M)) : Option (Common K P U M) :=
  (match copy with
    | none => fixedNew cs fx nparams ndim names kw
    | some o => some (fixedCopy cs fx o)).bind fun c =>
  (select fx c.npmax c.mlist c.parlist c.fixed (params.getD (List.replicate nparams 0))).map fun p =>
  match copy with
  | none => { c with
      parameters := some p
      npchain := c.npbase
      xUnit := List.replicate ndim cs.unit }
  | some o => { c with
      parameters := match o.parameters with
        | none => some p
        | some q => some q
      npchain := o.npchain
      stdevs := o.stdevs
      xUnit := o.xUnit
      yUnit := o.yUnit }

/-- What a class hands to the common constructor, and the `posIndex`, `nonZero` and `npbase` that it sets in a new
model. -/
structure Spec (K : Type) where
  nparams : ℕ
  ndim : ℕ := 1
  params : Option (List K) := none
  names : Option (List String) := none
  pos : Option (List ℕ) := none
  non : Option (List ℕ) := none
  npbase : Option ℕ := none

/-- The common part of all constructors. -/
def make (cs : Consts K P U F) (fx : Fixer K M) (s : Spec K) (kw : Kw K M) (copy : Option (Common K P U M)) :
    Option (Common K P U M) :=
  (modelInit cs fx s.nparams s.ndim s.params s.names kw copy).map fun c =>
  match copy with
  | some _ => c
  | none => { c with
      npbase := s.npbase.getD c.npbase
      posIndex := s.pos.getD c.posIndex
      nonZero := s.non.getD c.nonZero }

/-- The classes with the attributes of their own. -/
inductive Cls (K P F : Type)
  | arctan
  | bsplines (knots : List K) (order : ℕ) (eps : K)
  /-- the basis is that of some knots, order and border -/
  | basicSplines (knots : List K) (order border : ℕ) (basis : List K × ℕ × ℕ)
  | chebyshev (degree : ℕ)
  | constant (content : F)
  | etalon
  | etalonDrift
  | exp (decay : Bool)
  | football (nteams complexity : ℕ)
  | freeShape (shape : F) (xlo : K) (xhi : Option K) (center : K)
  | gauss
  | harmonic (order : ℕ) (period : K)
  | harmonicDynamic (order : ℕ) (period : K) (minOrder : ℕ) (maxOrder : Option ℕ) (grow : P)
  | kernel (kernel : F)
  | kernel2d (kernel : F) (shape : ℕ)
  | logistic
  | lorentz
  | pade (num den : ℕ)
  | polynomial (degree : ℕ)
  | polynomialDynamic (degree minDegree : ℕ) (maxDegree : Option ℕ) (grow : P)
  | polySineAmp (degree : ℕ) (frequency : K)
  | polySurface (degree : ℕ)
  | power (exponent : K)
  | powerLaw
  | pseudoVoigt
  | radialVelocity
  | sinc (kernel : F)
  | sineAmp (frequency : K)
  | sineDrift
  | sine (phase : Bool)
  | sineSpline (frequency : K) (knots : List K) (order : ℕ)
  | sineSplineDrift (knots : List K) (order degree : ℕ)
  | softMax (ndout : ℕ) (offset normed : Bool)
  | splines (knots : List K) (order : ℕ)
  | splinesDynamic (knots : List K) (order border : ℕ) (basis : List K × ℕ × ℕ) (minKnots : ℕ) (maxKnots : Option ℕ)
      (minDistance : K) (grow : P) (modifiable dynamic : Bool)
  | stellarOrbit (spherical : Bool)
  | surfaceSplines (knots : List (List K)) (orders : List ℕ)
  /-- result, partial and derivative -/
  | user (result partials derivative : F) (name : String)
  | voigt

structure Obj (K P U F M : Type) where
  cls : Cls K P F
  com : Common K P U M

/-- The calls of the constructors; the arguments that are left out have their default values. -/
inductive Call (K P F : Type)
  | arctan
  | bsplines (knots : Option (List K) := none) (order : ℕ := 3)
  | basicSplines (knots : Option (List K) := none) (order : ℕ := 3) (border : ℕ := 0)
  | chebyshev (degree : ℕ)
  | constant (ndim : ℕ := 1) (content : Option F := none)
  | etalon
  | etalonDrift
  | exp (decay : Bool := false)
  | football (nteams : ℕ) (complexity : ℕ := 5)
  | freeShape (npix : ℕ) (shape : Option F := none) (xlo : Option K := none) (xhi : Option K := none)
      (center : Option K := none)
  | gauss
  | harmonic (order : ℕ) (period : K)
  | harmonicDynamic (order : ℕ) (period : K) (minOrder : ℕ := 1) (maxOrder : Option ℕ := none) (grow : Option P := none)
  | kernel (kernel : F)
  | kernel2d (kernel : Option F := none) (shape : ℕ := 1)
  | logistic
  | lorentz
  | pade (num den : ℕ)
  | polynomial (degree : ℕ)
  | polynomialDynamic (degree : ℕ) (minDegree : ℕ := 0) (maxDegree : Option ℕ := none) (grow : Option P := none)
  | polySineAmp (degree : ℕ) (frequency : K)
  | polySurface (degree : ℕ)
  | power (exponent : Option K := none)
  | powerLaw
  | pseudoVoigt
  | radialVelocity
  | sinc
  | sineAmp (frequency : K)
  | sineDrift
  | sine (phase : Bool := false)
  | sineSpline (frequency : K) (knots : List K) (order : ℕ := 3)
  | sineSplineDrift (knots : List K) (order : ℕ := 3) (degree : ℕ := 1)
  | softMax (ndim : ℕ := 1) (ndout : ℕ := 1) (offset : Bool := false) (normed : Bool := true)
  | splines (knots : Option (List K) := none) (order : ℕ := 3)
  | splinesDynamic (knots : Option (List K)) (order : ℕ := 3) (border : ℕ := 0) (minKnots : ℕ := 2)
      (maxKnots : Option ℕ := none) (minDistance : Option K := none) (grow : Option P := none) (modifiable : Bool := true)
      (dynamic : Bool := true)
  | stellarOrbit (spherical : Bool := true)
  | surfaceSplines (knots : List (List K)) (orders : List ℕ)
  | user (npars : ℕ) (result : F) (ndim : ℕ := 1) (partials : Option F := none) (derivative : Option F := none)
      (name : String := "unknown")
  | voigt

/-- The default grow prior, `Dynamic.py` 86-92. -/
def growOf (cs : Consts K P U F) (min : ℕ) (max : Option ℕ) (grow : Option P) : P :=
  match grow with
  | some g => g
  | none => match max with
    | none => cs.expPrior
    | some m => cs.uniPrior min m

/-- Outside the range of [min..max]. -/
def outside (n min : ℕ) (max : Option ℕ) : Prop := n < min ∨ ∃ m, max = some m ∧ m < n

instance (n min : ℕ) (max : Option ℕ) : Decidable (outside n min max) :=
  decidable_of_iff (n < min ∨ (max.any fun m => m < n) = true) (by cases max <;> simp [outside])

/-- The number of parameters of a surface, `SurfaceSplinesModel.py` 124-132. -/
def surfaceNp (knots : List (List K)) (orders : List ℕ) : ℕ :=
  ((knots.zip orders).map fun ko => ko.1.length + ko.2 - 1).prod

/-- `npar` of `BasicSplinesModel.py` 152-153. -/
def basicNp (knots : List K) (order border : ℕ) : ℕ :=
  if border = 0 then knots.length + order - 1 else knots.length - 1

/-- The constructors. The lines of each of them are given with it; `copy` is None or a model. A `copy` of another class
would be an AttributeError. -/
def init (cs : Consts K P U F) (fx : Fixer K M) (call : Call K P F) (kw : Kw K M) (copy : Option (Obj K P U F M)) :
    Option (Obj K P U F M) :=
  let mk (cls : Cls K P F) (s : Spec K) : Option (Obj K P U F M) :=
    (make cs fx s kw (copy.map Obj.com)).map fun c => ⟨cls, c⟩
  let plain (s : Spec K) (kw : Kw K M) (cls : Cls K P F) : Option (Obj K P U F M) :=
    (make cs fx s kw (copy.map Obj.com)).map fun c => ⟨cls, c⟩
  match call with
  -- `ArctanModel.py` 67-87
  | .arctan => mk .arctan { nparams := 3, params := some [cs.twoInvPi, 0, 1], names := some ["amplitude", "center", "slope"] }
  -- `BSplinesModel.py` 116-176
  | .bsplines knots order =>
      if kw.fixed.isSome then none else
      match copy.map Obj.cls with
      | none => knots.bind fun kn => mk (.bsplines kn order 0) { nparams := order + kn.length - 1 }
      | some (.bsplines kn ord _) => mk (.bsplines kn ord 0) { nparams := ord + kn.length - 1 }
      | some _ => none
  -- `BasicSplinesModel.py` 115-180, `SplinesModel.py` 101-162
  | .basicSplines knots order border =>
      knots.bind fun kn =>
      match copy.map Obj.cls with
      | none => mk (.basicSplines kn order border (kn, order, border)) { nparams := basicNp kn order border }
      | some (.basicSplines kn' ord' _ basis) =>
          mk (.basicSplines kn' ord' border basis) { nparams := basicNp kn order border }
      | some _ => none
  -- `ChebyshevPolynomialModel.py` 79-102
  | .chebyshev degree => mk (.chebyshev degree)
      { nparams := degree + 1, names := some ((List.range (degree + 1)).map fun k => "coeff_" ++ toString k) }
  -- `ConstantModel.py` 90-131; the content is a fixed model or a table; without one it is a polynomial, which is
  -- left out
  | .constant ndim content =>
      match copy.map Obj.cls with
      | none => content.bind fun f => plain { nparams := 0, ndim := ndim } {} (.constant f)
      | some (.constant f) => plain { nparams := 0, ndim := ndim } {} (.constant f)
      | some _ => none
  -- `EtalonModel.py` 82-103
  | .etalon => mk .etalon { nparams := 4, params := some [1, 1, 1, 0], names := some ["amplitude", "finesse", "frequency", "phase"] }
  -- `EtalonDriftModel.py` 71-93
  | .etalonDrift => mk .etalonDrift
      { nparams := 5, ndim := 2, params := some [1, 1, 1, 0, 0]
        names := some ["amplitude", "finesse", "period", "phase", "drift"], pos := some [2] }
  -- `ExpModel.py` 81-110
  | .exp decay => mk (.exp decay)
      { nparams := 2, params := some [1, if decay then 1 else cs.minusOne]
        names := some ["amplitude", if decay then "decay" else "slope"] }
  -- `FootballModel.py` 98-126
  | .football nteams complexity =>
      if complexity < 1 ∨ complexity > 5 then none
      else mk (.football nteams complexity) { nparams := complexity * nteams, ndim := 2 }
  -- `FreeShapeModel.py` 98-140: the keywords are not passed on
  | .freeShape npix shape xlo xhi center =>
      match copy.map Obj.cls with
      | none => shape.bind fun sh =>
          plain { nparams := npix } {} (.freeShape sh (xlo.getD 0) xhi (center.getD cs.half))
      | some (.freeShape sh a b c) => plain { nparams := npix } {} (.freeShape sh a b c)
      | some _ => none
  -- `GaussModel.py` 82-106
  | .gauss => mk .gauss
      { nparams := 3, params := some [1, 0, 1], names := some ["amplitude", "center", "width"]
        pos := some [2], non := some [2] }
  -- `HarmonicModel.py` 83-107
  | .harmonic order period => mk (.harmonic order period) { nparams := 2 * order }
  -- `HarmonicDynamicModel.py` 92-140
  | .harmonicDynamic order period minOrder maxOrder grow =>
      if kw.fixed.isSome then none else
      if outside order minOrder maxOrder then none else
      match copy.map Obj.cls with
      | none => mk (.harmonicDynamic order period minOrder maxOrder (growOf cs minOrder maxOrder grow)) { nparams := 2 * order }
      | some (.harmonicDynamic _ _ mn mx g) => mk (.harmonicDynamic order period mn mx g) { nparams := 2 * order }
      | some _ => none
  -- `KernelModel.py` 88-115
  | .kernel kernel => mk (.kernel kernel)
      { nparams := 3, params := some [cs.kernelAmp kernel, 0, 1], names := some ["amplitude", "center", "width"]
        pos := some [2], non := some [2] }
  -- `Kernel2dModel.py` 95-128, with `NPAR`, `parseShape` and `setKernelShape` 153-187
  | .kernel2d kernel shape0 =>
      let shape := if 1 ≤ shape0 ∧ shape0 ≤ 3 then shape0 else 1
      match copy.map Obj.cls with
      | none =>
          let f := kernel.getD cs.gauss
          mk (.kernel2d f shape)
            { nparams := shape + 3, ndim := 2
              params := some (cs.kernelAmp2d f :: 0 :: 0 ::
                (if shape = 1 then [1] else if shape = 2 then [1, 1] else [cs.two, cs.half, 0]))
              names := some ("amplitude" :: "x-center" :: "y-center" ::
                (if shape = 1 then ["width"] else if shape = 2 then ["x-width", "y-width"]
                  else ["x-width", "y-width", "angle"]))
              pos := some (if shape = 1 then [3] else [3, 4])
              non := some (if shape = 1 then [3] else [3, 4])
              npbase := some (shape + 3 - ((kw.fixed.map List.length).getD 0)) }
      | some (.kernel2d f sh) => mk (.kernel2d f sh) { nparams := shape + 3, ndim := 2 }
      | some _ => none
  -- `LogisticModel.py` 74-94
  | .logistic => mk .logistic { nparams := 3, params := some [1, 0, 1], names := some ["amplitude", "center", "slope"] }
  -- `LorentzModel.py` 96-122
  | .lorentz => mk .lorentz
      { nparams := 3, params := some [cs.invPi, 0, 1], names := some ["amplitude", "center", "width"]
        pos := some [2], non := some [2] }
  -- `PadeModel.py` 93-131
  | .pade num den =>
      plain
        { nparams := num + den + 2
          params := some (List.replicate (num + 1) 0 ++ 1 :: List.replicate den 0)
          names := some (BF.Names.padeNames num den) }
        { kw with
          fixed := match kw.fixed with
            | some d => some d
            | none => some [(num + 1, .inl 1)] }
        (.pade num den)
  -- `PolynomialModel.py` 70-92
  | .polynomial degree => mk (.polynomial degree) { nparams := degree + 1 }
  -- `PolynomialDynamicModel.py` 94-137
  | .polynomialDynamic degree minDegree maxDegree grow =>
      if kw.fixed.isSome then none else
      if outside degree minDegree maxDegree then none else
      match copy.map Obj.cls with
      | none => mk (.polynomialDynamic degree minDegree maxDegree (growOf cs minDegree maxDegree grow)) { nparams := degree + 1 }
      | some (.polynomialDynamic _ mn mx g) => mk (.polynomialDynamic degree mn mx g) { nparams := degree + 1 }
      | some _ => none
  -- `PolySineAmpModel.py` 75-110
  | .polySineAmp degree frequency =>
      if kw.fixed.isSome then none else
      match copy.map Obj.cls with
      | none => mk (.polySineAmp degree frequency) { nparams := 2 * degree + 2, ndim := 2 }
      | some (.polySineAmp d f) => mk (.polySineAmp d f) { nparams := 2 * degree + 2, ndim := 2 }
      | some _ => none
  -- `PolySurfaceModel.py` 74-110
  | .polySurface degree => mk (.polySurface degree) { nparams := (degree + 2) * (degree + 1) / 2, ndim := 2 }
  -- `PowerModel.py` 71-98
  | .power exponent =>
      match copy.map Obj.cls with
      | none => mk (.power (exponent.getD 0)) { nparams := 1, params := some [1], names := some ["coefficient"] }
      | some (.power e) => mk (.power e) { nparams := 1, params := some [1], names := some ["coefficient"] }
      | some _ => none
  -- `PowerLawModel.py` 76-96
  | .powerLaw => mk .powerLaw { nparams := 3, params := some [1, 0, 1], names := some ["amplitude", "x-shift", "power"] }
  -- `PseudoVoigtModel.py` 74-100
  | .pseudoVoigt => mk .pseudoVoigt
      { nparams := 4, params := some [1, 0, 1, cs.half], names := some ["amplitude", "center", "width", "balance"]
        pos := some [2] }
  -- `RadialVelocityModel.py` 66-88
  | .radialVelocity => mk .radialVelocity
      { nparams := 5, params := some [0, 1, 1, 0, 0]
        names := some ["eccentricity", "amplitude", "period", "phase", "longitude"] }
  -- `SincModel.py` 78-93
  | .sinc => mk (.sinc cs.sinc)
      { nparams := 3, params := some [cs.kernelAmp cs.sinc, 0, 1], names := some ["amplitude", "center", "width"]
        pos := some [2], non := some [2] }
  -- `SineAmpModel.py` 79-104
  | .sineAmp frequency =>
      match copy.map Obj.cls with
      | none => mk (.sineAmp frequency) { nparams := 2, names := some ["cosamp", "sinamp"] }
      | some (.sineAmp f) => mk (.sineAmp f) { nparams := 2, names := some ["cosamp", "sinamp"] }
      | some _ => none
  -- `SineDriftModel.py` 78-98
  | .sineDrift => mk .sineDrift
      { nparams := 4, params := some [1, 1, 1, 0], names := some ["frequency", "cosamp", "sinamp", "freqslope"] }
  -- `SineModel.py` 101-135
  | .sine phase => mk (.sine phase)
      { nparams := 3, params := some [1, 1, if phase then 0 else 1]
        names := some (if phase then ["amplitude", "frequency", "phase"] else ["frequency", "cosamp", "sinamp"]) }
  -- `SineSplineModel.py` 90-125
  | .sineSpline frequency knots order =>
      if kw.fixed.isSome then none
      else mk (.sineSpline frequency knots order) { nparams := 2 * (knots.length + order - 1) }
  -- `SineSplineDriftModel.py` 81-122
  | .sineSplineDrift knots order degree =>
      if kw.fixed.isSome then none
      else mk (.sineSplineDrift knots order degree) { nparams := 2 * (knots.length + order - 1) + degree + 1 }
  -- `SoftMaxModel.py` 87-138
  | .softMax ndim ndout offset normed => mk (.softMax ndout offset normed)
      { nparams := ndim * ndout + if offset then ndout else 0, ndim := ndim
        params := some (List.replicate (ndim * ndout) 1 ++ List.replicate (if offset then ndout else 0) 0) }
  -- `SplinesModel.py` 101-162
  | .splines knots order =>
      match copy.map Obj.cls with
      | none => knots.bind fun kn => mk (.splines kn order) { nparams := order + kn.length - 1 }
      | some (.splines kn ord) => mk (.splines kn ord) { nparams := ord + kn.length - 1 }
      | some _ => none
  -- `SplinesDynamicModel.py` 94-151; the scaling of `minDistance` by the range of the knots is left out
  | .splinesDynamic knots order border minKnots maxKnots minDistance grow modifiable dynamic =>
      knots.bind fun kn =>
      match copy.map Obj.cls with
      | none =>
          if outside kn.length minKnots maxKnots then none
          else mk (.splinesDynamic kn order border (kn, order, border) minKnots maxKnots (minDistance.getD 0)
            (growOf cs minKnots maxKnots grow) modifiable dynamic) { nparams := basicNp kn order border }
      | some (.splinesDynamic kn' ord' _ basis mn mx md g _ _) =>
          if outside kn'.length minKnots maxKnots then none
          else mk (.splinesDynamic kn' ord' border basis mn mx md g modifiable dynamic)
            { nparams := basicNp kn order border }
      | some _ => none
  -- `StellarOrbitModel.py` 89-121
  | .stellarOrbit spherical => mk (.stellarOrbit spherical)
      { nparams := 7, params := some [0, 1, 1, 0, 0, 0, 0]
        names := some ["eccentricity", "semimajoraxis", "period", "phase since periastron", "inclination",
          "north2nodes", "nodes2periastron"] }
  -- `SurfaceSplinesModel.py` 86-118: the keywords are not passed on
  | .surfaceSplines knots orders =>
      if kw.fixed.isSome then none
      else plain { nparams := surfaceNp knots orders, ndim := knots.length } {} (.surfaceSplines knots orders)
  -- `UserModel.py` 91-132; numeric methods are left out
  | .user npars result ndim partials derivative name =>
      match copy.map Obj.cls with
      | none => partials.bind fun p => derivative.bind fun d => mk (.user result p d name) { nparams := npars, ndim := ndim }
      | some (.user _ p d n) => mk (.user result p d n) { nparams := npars, ndim := ndim }
      | some _ => none
  -- `VoigtModel.py` 76-94
  | .voigt => mk .voigt
      { nparams := 4, params := some [1, 0, 1, 1], names := some ["amplitude", "center", "gausswidth", "lorentzwidth"]
        pos := some [2, 3] }

/-- The call of the constructor in the method `copy` of each class: `ArctanModel.py` 89, `BSplinesModel.py` 178,
`BasicSplinesModel.py` 182, `ChebyshevPolynomialModel.py` 104, `ConstantModel.py` 133, `EtalonModel.py` 105,
`EtalonDriftModel.py` 95, `ExpModel.py` 112, `FootballModel.py` 128, `FreeShapeModel.py` 142, `GaussModel.py` 108,
`HarmonicModel.py` 109, `HarmonicDynamicModel.py` 142, `KernelModel.py` 117, `Kernel2dModel.py` 130,
`LogisticModel.py` 96, `LorentzModel.py` 124, `PadeModel.py` 133, `PolynomialModel.py` 94,
`PolynomialDynamicModel.py` 139, `PolySineAmpModel.py` 112, `PolySurfaceModel.py` 112, `PowerModel.py` 100,
`PowerLawModel.py` 98, `PseudoVoigtModel.py` 102, `RadialVelocityModel.py` 90, `SincModel.py` 95, `SineAmpModel.py` 106,
`SineDriftModel.py` 100, `SineModel.py` 137, `SineSplineModel.py` 127, `SineSplineDriftModel.py` 124,
`SoftMaxModel.py` 140, `SplinesModel.py` 164, `SplinesDynamicModel.py` 153, `StellarOrbitModel.py` 123,
`SurfaceSplinesModel.py` 120, `UserModel.py` 134, `VoigtModel.py` 96. `npars` of one model is `_npchain`
(`Model.py` 247-248). -/
def copyCall (o : Obj K P U F M) : Call K P F :=
  match o.cls with
  | .arctan => .arctan
  | .bsplines _ _ _ => .bsplines
  | .basicSplines knots _ border _ => .basicSplines (some knots) (border := border)
  | .chebyshev degree => .chebyshev degree
  | .constant _ => .constant o.com.ndim
  | .etalon => .etalon
  | .etalonDrift => .etalonDrift
  | .exp decay => .exp decay
  | .football nteams complexity => .football nteams complexity
  | .freeShape _ _ _ _ => .freeShape o.com.npbase
  | .gauss => .gauss
  | .harmonic order period => .harmonic order period
  | .harmonicDynamic order period _ _ _ => .harmonicDynamic order period
  | .kernel kernel => .kernel kernel
  | .kernel2d _ shape => .kernel2d (shape := shape)
  | .logistic => .logistic
  | .lorentz => .lorentz
  | .pade num den => .pade num den
  | .polynomial degree => .polynomial degree
  | .polynomialDynamic degree _ _ _ => .polynomialDynamic degree
  | .polySineAmp degree frequency => .polySineAmp degree frequency
  | .polySurface degree => .polySurface degree
  | .power _ => .power
  | .powerLaw => .powerLaw
  | .pseudoVoigt => .pseudoVoigt
  | .radialVelocity => .radialVelocity
  | .sinc _ => .sinc
  | .sineAmp frequency => .sineAmp frequency
  | .sineDrift => .sineDrift
  | .sine phase => .sine phase
  | .sineSpline frequency knots order => .sineSpline frequency knots order
  | .sineSplineDrift knots order degree => .sineSplineDrift knots order degree
  | .softMax ndout offset normed => .softMax o.com.ndim ndout offset normed
  | .splines _ _ => .splines
  | .splinesDynamic knots _ _ _ _ _ _ _ modifiable dynamic =>
      .splinesDynamic (some knots) (modifiable := modifiable) (dynamic := dynamic)
  | .stellarOrbit spherical => .stellarOrbit spherical
  | .surfaceSplines knots orders => .surfaceSplines knots orders
  | .user result _ _ _ => .user o.com.npchain result o.com.ndim
  | .voigt => .voigt

/-- The method `copy`. -/
def copy (cs : Consts K P U F) (fx : Fixer K M) (o : Obj K P U F M) : Option (Obj K P U F M) :=
  init cs fx (copyCall o) {} (some o)

/-! ## What can happen to a model -/

/-- Attributes that are set after the construction, and growth of the dynamic models. -/
inductive Act (K P U : Type)
  | parameters (p : List K)
  | stdevs (s : Option (List K))
  | priors (p : Option (List P))
  | xUnit (u : List U)
  | yUnit (u : U)
  | posIndex (l : List ℕ)
  | nonZero (l : List ℕ)
  | deltaP (l : List K)
  | mixed (l : List ℕ)
  | eps (e : K)
  | number (v : K)
  /-- another number of components, with the names and parameters that go with it -/
  | resize (n : ℕ) (names : List String) (p : List K)
  /-- other knots, for a dynamic spline -/
  | reknot (knots : List K) (names : List String) (p : List K)

/-- The settings that are a number: `period`, `frequency`, `exponent` (`HarmonicModel.py` 113-123, …). -/
def setNumber (v : K) : Cls K P F → Cls K P F
  | .harmonic o _ => .harmonic o v
  | .harmonicDynamic o _ a b g => .harmonicDynamic o v a b g
  | .sineAmp _ => .sineAmp v
  | .polySineAmp d _ => .polySineAmp d v
  | .sineSpline _ k o => .sineSpline v k o
  | .power _ => .power v
  | c => c

/-- One action. A list of parameters of the wrong length is a ValueError (`Model.py` 222-226). A dynamic model takes
another number of components within its range: `Dynamic.grow` and `Dynamic.shrink`, 101-200, and
`SplinesDynamicModel.py` 180-330 (only without fixed parameters). -/
def act (o : Obj K P U F M) : Act K P U → Option (Obj K P U F M)
  | .parameters p => if p.length = o.com.npchain then some { o with com := { o.com with parameters := some p } } else none
  | .stdevs s =>
      if (s.all fun l => l.length = o.com.npchain) then some { o with com := { o.com with stdevs := s } } else none
  | .priors p => some { o with com := { o.com with priors := p } }
  | .xUnit u => some { o with com := { o.com with xUnit := u } }
  | .yUnit u => some { o with com := { o.com with yUnit := u } }
  | .posIndex l => some { o with com := { o.com with posIndex := l } }
  | .nonZero l => some { o with com := { o.com with nonZero := l } }
  | .deltaP l => some { o with com := { o.com with deltaP := l } }
  | .mixed l => some { o with com := { o.com with linear := l } }
  | .eps e => match o.cls with
      | .bsplines k n _ => some { o with cls := .bsplines k n e }
      | _ => none
  | .number v => some { o with cls := setNumber v o.cls }
  | .resize n names p => match o.cls with
      | .harmonicDynamic _ per mn mx g =>
          if outside n mn mx then none
          else some ⟨.harmonicDynamic n per mn mx g, { o.com with
            npbase := 2 * n
            npmax := 2 * n
            npchain := 2 * n
            parNames := names
            parameters := some p }⟩
      | .polynomialDynamic _ mn mx g =>
          if outside n mn mx then none
          else some ⟨.polynomialDynamic n mn mx g, { o.com with
            npbase := n + 1
            npmax := n + 1
            npchain := n + 1
            parNames := names
            parameters := some p }⟩
      | _ => none
  | .reknot knots names p => match o.cls with
      | .splinesDynamic _ ord bor _ mn mx md g mo dy =>
          if outside knots.length mn mx ∨ dy = false ∨ o.com.fixed.isSome then none
          else some ⟨.splinesDynamic knots ord bor (knots, ord, bor) mn mx md g mo dy, { o.com with
            npbase := basicNp knots ord bor
            npmax := basicNp knots ord bor
            npchain := basicNp knots ord bor
            parNames := names
            parameters := some p }⟩
      | _ => none

/-- A history of actions. -/
def acts (o : Obj K P U F M) : List (Act K P U) → Option (Obj K P U F M)
  | [] => some o
  | a :: as => (act o a).bind fun o' => acts o' as

/-! ## Repeating models -/

/-- The attributes of a `RepeatingModel` (`RepeatingModel.py` 143-182); `growPrior` exists only if it is dynamic; the
repeated model is a number, as it is not copied. -/
structure Rep (P : Type) where
  ncomp : ℕ
  model : ℕ
  minComp : ℕ
  maxComp : Option ℕ
  same : Option (List ℕ)
  isDyna : Bool
  grow : Option P

/-- `RepeatingModel.__init__` 115-182. -/
def repInit (cs : Consts K P U F) (ncomp model : ℕ) (minComp : ℕ := 0) (maxComp : Option ℕ := none)
    (same : Option (List ℕ) := none) (grow : Option P := none) (dynamic : Bool := true) (copy : Option (Rep P) := none) :
    Option (Rep P) :=
  if outside ncomp minComp maxComp then none else
  let isDyna := dynamic && (maxComp.all fun m => minComp < m)
  match copy with
  | none => some { ncomp, model, minComp, maxComp, same, isDyna
                   grow := if isDyna then some (growOf cs minComp maxComp grow) else none }
  | some c => c.grow.map fun g =>
      { ncomp, model, minComp := c.minComp, maxComp := c.maxComp, same := c.same, isDyna
        grow := if isDyna then some g else none }

/-- `RepeatingModel.copy` 184-186: `isDynamic=` is no keyword of the constructor, and ignored. -/
def repCopy (cs : Consts K P U F) (r : Rep P) : Option (Rep P) := repInit cs r.ncomp r.model (copy := some r)

/-! ## Combined models -/

/-- A `CombiModel`: the parameters of each link of the model that is repeated, `nrepeat`, whether they are multiplied,
the connections, the present parameters and the chain behind it. -/
structure Comb (K : Type) where
  links : List (List K)
  nrepeat : ℕ
  mul : Bool
  d : BF.Combi.Combined K
  parameters : List K
  rest : List String

/-- `CombiModel.__init__` 127-186. The connections come from `combine` or from the copy. The common constructor does
not get the copy. -/
def combInit (links : List (List K)) (nrepeat : ℕ) (mul : Bool) (d : BF.Combi.Combined K) : Option (Comb K) :=
  (gather (List.replicate nrepeat links.flatten).flatten d.select).map fun p =>
    { links, nrepeat, mul, d, parameters := p, rest := [] }

/-- `CombiModel.copy` 188-195. The operation is that of the second link of the inner chain, which belongs to the first
model if that is a chain (`inner` has the operations in it, true for a product). -/
def combCopy (inner : Option Bool) (c : Comb K) : Option (Comb K) :=
  combInit (c.links.take 1) c.nrepeat
    (match inner with
      | some b => b
      | none => if c.nrepeat ≤ 1 then false else c.mul) c.d

/-! ## Lists of priors in memory -/

/-- A model with the address of its list of priors, or a `RepeatingModel` around a model. -/
inductive PObj
  | model (priors : Option ℕ)
  | repeating (inner : ℕ)
  deriving DecidableEq

/-- The memory: lists of priors, and models. -/
structure Mem (P : Type) where
  lists : List (List P)
  objs : List PObj

/-- What the user does. `f` makes a new prior: the prior that is given, or a changed copy of the present one. -/
inductive POp (P : Type)
  | new
  | copy (i : ℕ)
  | set (i k : ℕ) (f : P → P)
  | repeating (i : ℕ)

/-- The priors of a model. -/
def Mem.priors (s : Mem P) (i : ℕ) : Option (List P) :=
  match s.objs[i]? with
  | some (.model (some a)) => s.lists[a]?
  | some (.repeating j) => match s.objs[j]? with
    | some (.model (some a)) => s.lists[a]?
    | _ => none
  | _ => none

/-- `BaseModel.setPrior`, `BaseModel.py` 304-344, for the model `i`; `dflt` is `UniformPrior()`. -/
def setPrior (dflt : P) (s : Mem P) (i k : ℕ) (f : P → P) : Option (Mem P) :=
  match s.objs[i]? with
  | some (.model none) =>
      if k > 0 then none
      else some ⟨s.lists ++ [[f dflt]], s.objs.set i (.model (some s.lists.length))⟩
  | some (.model (some a)) => (s.lists[a]?).bind fun l =>
      if k > l.length then none
      else
        let base := if l = [] then dflt else (l[k]?).getD (l.getLast?.getD dflt)
        if k = l.length then some ⟨s.lists ++ [l ++ [f base]], s.objs.set i (.model (some s.lists.length))⟩
        else some ⟨s.lists.set a (l.set k (f base)), s.objs⟩
  | _ => none

/-- One operation. A copy gets a copy of the list, `BaseModel.py` 128; a repeating model points to the list of its
model and passes `setPrior` on to it (`RepeatingModel.py` 155 and 442-461); its copy has the same model (186). -/
def pstep (dflt : P) (s : Mem P) : POp P → Option (Mem P)
  | .new => some ⟨s.lists, s.objs ++ [.model none]⟩
  | .copy i => match s.objs[i]? with
      | none => none
      | some (.model none) => some ⟨s.lists, s.objs ++ [.model none]⟩
      | some (.model (some a)) => (s.lists[a]?).map fun l => ⟨s.lists ++ [l], s.objs ++ [.model (some s.lists.length)]⟩
      | some (.repeating j) => some ⟨s.lists, s.objs ++ [.repeating j]⟩
  | .set i k f => match s.objs[i]? with
      | some (.repeating j) => setPrior dflt s j k f
      | _ => setPrior dflt s i k f
  | .repeating i => match s.objs[i]? with
      | some (.model _) => some ⟨s.lists, s.objs ++ [.repeating i]⟩
      | _ => none

def prun (dflt : P) (s : Mem P) : List (POp P) → Option (Mem P)
  | [] => some s
  | a :: as => (pstep dflt s a).bind fun s' => prun dflt s' as

end BF.Copies
