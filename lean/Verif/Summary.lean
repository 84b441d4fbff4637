import Mathlib.Analysis.SpecialFunctions.Complex.Arg
import Mathlib.Analysis.SpecialFunctions.Log.Basic
import Mathlib.Analysis.SpecialFunctions.Sqrt

/-!
# What is read from the list of posterior samples

`SampleList.py` (attributes, averages, Monte Carlo error), `Tools.py` 502-543 (`average`),
`Walker.py` 121-140 (`toSample`), `NestedSampler.py` 471-480 (the end of a run).

Floats are reals. An exception is `none`; changes made to the object before it are kept. Python calls
`__getattr__` only for a name which is not in the dictionary of the object; the dictionary is a function
from names to values.
-/

namespace Summary

noncomputable section

/-- `Sample.py` 75-110: what the summaries use of a sample. `nuisance` and `hyper` are not there unless they
have been set. Simplified: id, parent, start and fitIndex are left out; the model is in `Obj`. -/
structure Item where
  parameters : List ℝ
  nuisance : Option (List ℝ)
  hyper : Option (List ℝ)
  logL : ℝ
  logW : ℝ

/-- `Walker.py` 121-140: the sample made from all parameters of a walker. `np`: parameters of the problem,
`nm`: parameters of the model. `logPrior` is 0. -/
def toSample (np nm : ℕ) (allpars : List ℝ) (logL logW : ℝ) : Item where
  parameters := allpars.take nm
  hyper := if allpars.length > np then some (allpars.drop np) else none
  nuisance := if np > nm then some ((allpars.take np).drop nm) else none
  logL := logL
  logW := logW

/-- The values of attributes. -/
inductive Val where
  | num (r : ℝ)
  | vec (l : List ℝ)
  | idx (i : ℤ)
  | flag (b : Bool)

/-- `SampleList.py` 88-131: the list, the dictionary of the object and, for every parameter of the model of
the first sample, the limits of its prior when that is circular. Simplified: the model stays the same. -/
structure Obj where
  items : List Item
  circ : List (Option (ℝ × ℝ))
  dict : String → Option Val

/-- The constructor of `SampleList.py` 104-131, with no samples to be made. Left out: `_count`,
`iteration` and `ndata`. -/
def Obj.new (circ : List (Option (ℝ × ℝ))) : Obj where
  items := []
  circ := circ
  dict := fun n =>
    if n = "logZ" then some (.num 0)
    else if n = "info" then some (.num 0)
    else if n = "maxLikelihoodIndex" then some (.idx (-1))
    else if n = "normalized" then some (.flag false)
    else none

/-- Python's `object.__setattr__`: SampleList has none of its own. -/
def Obj.set (o : Obj) (name : String) (v : Val) : Obj :=
  { o with dict := fun n => if n = name then some v else o.dict n }

/-- `SampleList.py` 226-240: append a sample. -/
def Obj.add (o : Obj) (s : Item) : Obj :=
  Obj.set { o with items := o.items ++ [s] } "normalized" (.flag false)

/-- `SampleList.py` 272-276: the while loop. -/
def weedLoop (maxsize : ℕ) : ℕ → List Item → List Item
  | 0, l => l
  | n + 1, l =>
      if l.length > maxsize then
        match l.head?, l.getLast? with
        | some a, some b =>
            if a.logW < b.logW then weedLoop maxsize n l.tail else weedLoop maxsize n l.dropLast
        | _, _ => l
      else l

/-- `SampleList.py` 259-277, with a maximum size. -/
def Obj.weed (o : Obj) (maxsize : ℕ) : Obj :=
  { o with items := weedLoop maxsize o.items.length o.items }

/-- `SampleList.py` 208-223. `none`: the maximum of nothing. -/
def Obj.normalize (o : Obj) : Option Obj :=
  match o.items.map Item.logW with
  | [] => none
  | w :: ws =>
      let lmax := ws.foldl max w
      let lswt := Real.log (((w :: ws).map fun x => Real.exp (x - lmax)).sum)
      let f : Item → Item := fun s => { s with logW := s.logW - (lmax + lswt) }
      some (Obj.set { o with items := o.items.map f } "normalized" (.flag true))

/-- `a += b` on an array in place: `b` has the length of `a` or it has one element. Otherwise numpy raises. -/
def addInto (a b : List ℝ) : Option (List ℝ) :=
  if b.length = a.length then some (List.zipWith (· + ·) a b)
  else match b with
    | [y] => some (a.map (· + y))
    | _ => none

/-- The loop `aver = 0.0; for …: aver += ws`. The first addition, to a number, makes the array. The number 0
which is left for no rows at all is `[]` here. -/
def sumRows : List (List ℝ) → Option (List ℝ)
  | [] => some []
  | r :: rs => rs.foldl (fun acc row => acc.bind fun a => addInto a row) (some r)

/-- The number `math.exp( sample.logW )`. -/
def Item.weight (s : Item) : ℝ := Real.exp s.logW

/-- `SampleList.py` 351-372. `none`: a sample without the attribute, or arrays that cannot be added. -/
def averstd (items : List Item) (attr : Item → Option (List ℝ)) : Option (List ℝ × List ℝ) :=
  if items.all fun s => (attr s).isSome then
    let rows := items.map fun s => (s.weight, (attr s).getD [])
    match sumRows (rows.map fun r => r.2.map (r.1 * ·)),
        sumRows (rows.map fun r => r.2.map fun x => r.1 * x * x) with
    | some aver, some stdv =>
        some (aver, List.zipWith (fun q a => Real.sqrt (max (q - a * a) 0)) stdv aver)
    | _, _ => none
  else none

/-- `numpy.average( xx, weights=… )`. `none`: the sum of the weights is 0. -/
def npAverage (pw : List (ℝ × ℝ)) (f : ℝ → ℝ) : Option ℝ :=
  if (pw.map Prod.snd).sum = 0 then none
  else some ((pw.map fun p => f p.1 * p.2).sum / (pw.map Prod.snd).sum)

/-- Python's `x % m` for floats. -/
def fmod (x m : ℝ) : ℝ := x - m * ⌊x / m⌋

/-- `while averx < low : averx += range`. -/
def upLoop (low range : ℝ) : ℕ → ℝ → Option ℝ
  | 0, _ => none
  | n + 1, a => if a < low then upLoop low range n (a + range) else some a

/-- `while averx > high : averx -= range`. -/
def downLoop (high range : ℝ) : ℕ → ℝ → Option ℝ
  | 0, _ => none
  | n + 1, a => if a > high then downLoop high range n (a - range) else some a

/-- `Tools.py` 502-543, with weights, of the same length as `xx` (numpy would broadcast when one has length
1). `fuel` bounds the turns of the while loops. `none`: division by zero, or out of fuel. -/
def average (fuel : ℕ) (pw : List (ℝ × ℝ)) : Option (ℝ × ℝ) → Option (ℝ × ℝ)
  | none =>
      let sw := (pw.map Prod.snd).sum
      let averx := (pw.map fun p => p.1 * p.2).sum / sw
      (npAverage pw fun x => (x - averx) * (x - averx)).map fun v => (averx, Real.sqrt v)
  | some (low, high) =>
      let range := high - low
      if range = 0 then none
      else
        let d2r := 2 * Real.pi / range
        match npAverage pw fun x => Real.sin ((x - low) * d2r),
            npAverage pw fun x => Real.cos ((x - low) * d2r) with
        | some asx, some acx =>
            let averx := Complex.arg ⟨acx, asx⟩
            let rr : ℝ → ℝ := fun x => fmod ((x - low) * d2r - averx + Real.pi) (2 * Real.pi) - Real.pi
            match npAverage pw fun x => rr x * rr x with
            | none => none
            | some v =>
                ((upLoop low range fuel (averx / d2r + low)).bind (downLoop high range fuel)).map
                  fun a => (a, Real.sqrt v / d2r)
        | _, _ => none

/-- All results, or `none` when one of them is missing. -/
def allSome {β : Type*} : List (Option β) → Option (List β)
  | [] => some []
  | none :: _ => none
  | some b :: l => (allSome l).map (b :: ·)

/-- `SampleList.py` 305-313: the parameters one by one. `none`: the rows have different lengths or are
shorter than the model has parameters. -/
def columns (fuel : ℕ) (items : List Item) (circ : List (Option (ℝ × ℝ))) : Option (List (ℝ × ℝ)) :=
  let np := circ.length
  if items.all fun s => decide (s.parameters.length = (items.headD ⟨[], none, none, 0, 0⟩).parameters.length)
      && decide (np ≤ s.parameters.length) then
    allSome ((List.range np).map fun k =>
      average fuel (items.map fun s => (s.parameters.getD k 0, s.weight)) (circ.getD k none))
  else none

/-- `SampleList.py` 287-317. Without circular priors the parameters are not kept; with them they are. -/
def getParameters (fuel : ℕ) (o : Obj) : Obj × Option (List ℝ) :=
  if o.items = [] then (o, none)
  else if o.circ.all Option.isNone then
    match averstd o.items fun s => some s.parameters with
    | none => (o, none)
    | some (a, s) => (o.set "stdevs" (.vec s), some a)
  else
    match columns fuel o.items o.circ with
    | none => (o, none)
    | some l =>
        ((o.set "parameters" (.vec (l.map Prod.fst))).set "stdevs" (.vec (l.map Prod.snd)),
          some (l.map Prod.fst))

/-- `SampleList.py` 338-341. -/
def getHypars (o : Obj) : Obj × Option (List ℝ) :=
  match averstd o.items Item.hyper with
  | none => (o, none)
  | some (a, s) => ((o.set "stdevHypars" (.vec s)).set "hypars" (.vec a), some a)

/-- `SampleList.py` 343-349. -/
def getNuisance (o : Obj) : Obj × Option (List ℝ) :=
  match averstd o.items Item.nuisance with
  | none => (o, none)
  | some (a, s) => (o.set "stdevNuis" (.vec s), some a)

/-- Loop of `SampleList.py` 379-386. -/
def medianLoop : List Item → ℝ → ℕ → ℕ
  | [], _, k => k
  | s :: l, sum, k => if sum + s.weight < 1 / 2 then medianLoop l (sum + s.weight) (k + 1) else k

/-- `we.index( max( we ) )` in `SampleList.py` 176-177. `none`: the maximum of nothing. -/
def argmax : List ℝ → Option ℕ
  | [] => none
  | w :: ws => some ((w :: ws).findIdx fun x => decide (x = ws.foldl max w))

/-- `self[k]`, with python's negative indices. -/
def item (l : List Item) (k : ℤ) : Option Item :=
  if 0 ≤ k then l[k.toNat]? else if -k ≤ l.length then l[(l.length + k).toNat]? else none

/-- First element, for `…[0]`. -/
def first : Option Val → Option Val
  | some (.vec (x :: _)) => some (.num x)
  | _ => none

/-- The sample with the index found. -/
def atIdx (o : Obj) : Option Val → Option Item
  | some (.idx k) => item o.items k
  | _ => none

/-- Reading an attribute: the dictionary first, otherwise `SampleList.py` 142-188. `fuel` is the depth of
the stack: at 0 python raises a RecursionError. -/
def read (turns : ℕ) : ℕ → Obj → String → Obj × Option Val
  | 0, o, _ => (o, none)
  | n + 1, o, name =>
      match o.dict name with
      | some v => (o, some v)
      | none =>
          if name = "parameters" then
            let (o, r) := getParameters turns o
            (o, r.map .vec)
          else if name = "stdevs" ∨ name = "standardDeviations" then
            match getParameters turns o with
            | (o, none) => (o, none)
            | (o, some _) => read turns n o "stdevs"
          else if name = "hypars" then
            let (o, r) := getHypars o
            (o, r.map .vec)
          else if name = "stdevHypar" then
            match getHypars o with
            | (o, none) => (o, none)
            | (o, some _) => read turns n o "stdevHypar"
          else if name = "nuisance" then
            let (o, r) := getNuisance o
            (o, r.map .vec)
          else if name = "stdevNuis" then
            match getNuisance o with
            | (o, none) => (o, none)
            | (o, some _) => read turns n o "stdevNuis"
          else if name = "scale" then
            let (o, r) := read turns n o "hypars"
            (o, first r)
          else if name = "stdevScale" then
            let (o, r) := read turns n o "stdevHypars"
            (o, first r)
          else if name = "evidence" then
            let (o, r) := read turns n o "logZ"
            (o, match r with
              | some (.num z) => some (.num (z / Real.log 10))
              | _ => none)
          else if name = "maxLikelihoodParameters" then
            let (o, r) := read turns n o "maxLikelihoodIndex"
            (o, (atIdx o r).map fun s => .vec s.parameters)
          else if name = "maxLikelihoodScale" then
            let (o, r) := read turns n o "maxLikelihoodIndex"
            (o, (atIdx o r).bind fun s => first (s.hyper.map .vec))
          else if name = "medianIndex" then
            let k : ℤ := (medianLoop o.items 0 0 : ℕ)
            (o.set "medianIndex" (.idx k), some (.idx k))
          else if name = "medianParameters" then
            let (o, r) := read turns n o "medianIndex"
            (o, (atIdx o r).map fun s => .vec s.parameters)
          else if name = "medianScale" then
            let (o, r) := read turns n o "medianIndex"
            (o, (atIdx o r).bind fun s => first (s.hyper.map .vec))
          else if name = "modusIndex" then
            match argmax (o.items.map Item.logW) with
            | none => (o, none)
            | some k => (o.set "modusIndex" (.idx k), some (.idx k))
          else if name = "modusParameters" then
            let (o, r) := read turns n o "modusIndex"
            (o, (atIdx o r).map fun s => .vec s.parameters)
          else if name = "modusScale" then
            let (o, r) := read turns n o "modusIndex"
            (o, (atIdx o r).bind fun s => first (s.hyper.map .vec))
          else (o, none)

/-- `SampleList.py` 511-539: the average of the model over the samples. `f`: the result of the model. -/
def modelAverage (f : List ℝ → List ℝ → List ℝ) (xdata : List ℝ) (o : Obj) : Obj × Option (List ℝ) :=
  let rows := o.items.map fun s => (s.weight, f xdata s.parameters)
  match sumRows (rows.map fun r => r.2.map fun y => y * r.1),
      sumRows (rows.map fun r => r.2.map fun y => y * r.1 * y) with
  | some result, some error =>
      ((o.set "error" (.vec (List.zipWith (fun e r => Real.sqrt (e - r * r)) error result))).set
        "result" (.vec result), some result)
  | _, _ => (o, none)

/-- `SampleList.py` 542-563. `result` is not known to `__getattr__`: an exception when it is missing. -/
def monteCarloError (f : List ℝ → List ℝ → List ℝ) (xdata : List ℝ) (o : Obj) : Obj × Option (List ℝ) :=
  match o.dict "result" with
  | some (.vec result) =>
      let o' := if xdata.length ≠ result.length then (modelAverage f xdata o).1 else o
      match o'.dict "error" with
      | some (.vec e) => (o', some e)
      | _ => (o', none)
  | _ => (o, none)

/-- `NestedSampler.py` 471-475: the end of a run; the first line has `LogZ` for `logZ`. -/
def finish (logZ info : ℝ) (o : Obj) : Option Obj :=
  ((o.set "LogZ" (.num logZ)).set "info" (.num info)).normalize

/-- `NestedSampler.py` 923-938: attributes of the sampler which are taken from the samples. -/
def samplerRead (turns fuel : ℕ) (o : Obj) (name : String) : Obj × Option Val :=
  if name = "parameters" then
    let (o, r) := getParameters turns o
    (o, r.map .vec)
  else if name = "stdevs" ∨ name = "standardDeviations" then
    match getParameters turns o with
    | (o, none) => (o, none)
    | (o, some _) => read turns fuel o "stdevs"
  else if name = "hypars" then read turns fuel o "hypars"
  else if name = "stdevHypars" then read turns fuel o "stdevHypars"
  else if name = "scale" then
    let (o, r) := read turns fuel o "hypars"
    (o, first r)
  else if name = "stdevScale" then
    let (o, r) := read turns fuel o "stdevHypars"
    (o, first r)
  else (o, none)

/-- `SampleList.py` 495-507: the lowest log likelihood and where it is. `none`: an empty list. -/
def getLowLogL (l : List Item) : Option (ℝ × ℕ) :=
  match l with
  | [] => none
  | s :: _ =>
      let r := l.foldl (fun (a : ℝ × ℕ × ℕ) (s : Item) =>
        if s.logL < a.1 then (s.logL, a.2.2, a.2.2 + 1) else (a.1, a.2.1, a.2.2 + 1)) (s.logL, 0, 0)
      some (r.1, r.2.1)

end

end Summary
