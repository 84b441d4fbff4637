import Mathlib.Data.List.Basic

/-!
# Questions about one parameter of a compound model

Models the parts of `Model.py`, `BaseModel.py` and of the class `Brackets` that look up or change something for one
parameter of a chain of models: priors, names and limits.

Simplifications: the numbers of the parameters are natural numbers (Python also takes negative ones); `priors = None`
is the empty list; `α` is the type of priors, of which copies are equal; `ν` the type of names. `none` is a raised
exception.
-/

namespace BF.Routing


variable {α : Type} {ν : Type}

/-- What a base model has per parameter: `npbase`, `priors` and `parNames` (`BaseModel.py` 113-122). -/
structure Leaf (α : Type) (ν : Type) where
  np : ℕ
  priors : List α
  names : List ν

mutual
/-- One model of the chain: a base model or `Brackets` (`Model.py` 1721-1745), which has no priors itself. -/
inductive Node (α : Type) (ν : Type)
  | base (l : Leaf α ν)
  | brackets (c : Chain α ν)
/-- The linked list of models (`_next`). -/
inductive Chain (α : Type) (ν : Type)
  | last (m : Node α ν)
  | cons (m : Node α ν) (next : Chain α ν)
end

mutual
/-- `npbase`; of `Brackets` it is `npchain` of its contents (`Model.py` 1729). -/
def Node.np : Node α ν → ℕ
  | .base l => l.np
  | .brackets c => c.np
/-- `npchain` (`Model.py` 434). -/
def Chain.np : Chain α ν → ℕ
  | .last m => m.np
  | .cons m c => m.np + c.np
end

/-- `BaseModel.basePrior` 369-385. -/
def Leaf.basePrior (l : Leaf α ν) (k : ℕ) : Option α :=
  if l.priors.length = 0 then none
  else if k < l.priors.length then l.priors[k]?
  else l.priors.getLast?

/-- `BaseModel.py` 333-334: the given prior, or a default one. -/
def Leaf.chosen (deflt : α) (l : Leaf α ν) (k : ℕ) (prior : Option α) : Option α :=
  match prior with
  | some p => some p
  | none => if l.priors.length = 0 then some deflt else l.basePrior k

/-- `BaseModel.setPrior` 304-344. `deflt` is `UniformPrior()`, `att` sets the attributes in the keyword arguments
(`Prior.setAttributes` 322-336, which may raise). -/
def Leaf.setPrior (deflt : α) (l : Leaf α ν) (k : ℕ) (prior : Option α) (att : α → Option α) : Option (Leaf α ν) :=
  if k > l.priors.length then none
  else
    (l.chosen deflt k prior).bind fun p => (att p).bind fun p =>
      if k = l.priors.length then some { l with priors := l.priors ++ [p] }
      else some { l with priors := l.priors.set k p }

mutual
/-- For a parameter of its own: `BaseModel.getPrior` 358-367, `Brackets.getPrior` 1810-1815. -/
def Node.getPrior : Node α ν → ℕ → Option α
  | .base l, k => l.basePrior k
  | .brackets c, k => c.getPrior k
/-- `Model.getPrior` 1023-1044. -/
def Chain.getPrior : Chain α ν → ℕ → Option α
  | .last m, k => if k < m.np then m.getPrior k else none
  | .cons m c, k => if k < m.np then m.getPrior k else c.getPrior (k - m.np)
end

mutual
/-- For a parameter of its own: `BaseModel.setPrior`, `Brackets.setPrior` 1803-1808. -/
def Node.setPrior (deflt : α) : Node α ν → ℕ → Option α → (α → Option α) → Option (Node α ν)
  | .base l, k, p, att => (l.setPrior deflt k p att).map .base
  | .brackets c, k, p, att => (c.setPrior deflt k p att).map .brackets
/-- `Model.setPrior` 1046-1071. -/
def Chain.setPrior (deflt : α) : Chain α ν → ℕ → Option α → (α → Option α) → Option (Chain α ν)
  | .last m, k, p, att => if k < m.np then (m.setPrior deflt k p att).map .last else none
  | .cons m c, k, p, att =>
      if k < m.np then (m.setPrior deflt k p att).map fun m' => .cons m' c
      else (c.setPrior deflt (k - m.np) p att).map fun c' => .cons m c'
end

mutual
/-- `BaseModel.baseParameterName` 399-408, `Brackets.baseParameterName` 1870-1880. -/
def Node.getName : Node α ν → ℕ → Option ν
  | .base l, k => l.names[k]?
  | .brackets c, k => c.getName k
/-- `Model.getParameterName` 1075-1096. -/
def Chain.getName : Chain α ν → ℕ → Option ν
  | .last m, k => if k < m.np then m.getName k else none
  | .cons m c, k => if k < m.np then m.getName k else c.getName (k - m.np)
end

section limits
variable {L : Type}

/-- The loop of `Model.setLimits` 1165-1168, from `k` on, for `n` numbers. -/
def Chain.limitLoop (deflt : α) (setLim : Option L → Option L → α → Option α) (lows highs : List L) :
    ℕ → ℕ → Chain α ν → Option (Chain α ν)
  | 0, _, c => some c
  | n + 1, k, c =>
      (c.setPrior deflt k none (setLim lows[k]? highs[k]?)).bind fun c' =>
        c'.limitLoop deflt setLim lows highs n (k + 1)

/-- `Model.setLimits` 1133-1168. When one of the two is None and the other is not empty, `nl` or `nh` is not there:
an UnboundLocalError. -/
def Chain.setLimits (deflt : α) (setLim : Option L → Option L → α → Option α) (c : Chain α ν)
    (lows highs : Option (List L)) : Option (Chain α ν) :=
  let ml := max ((lows.map List.length).getD 0) ((highs.map List.length).getD 0)
  if ml = 0 then some c
  else
    match lows, highs with
    | some lo, some hi => c.limitLoop deflt setLim lo hi ml 0
    | _, _ => none

/-- `Model.getLimits` 1192-1194. -/
def Chain.getLimits (low high : α → L) (c : Chain α ν) : Option (List L × List L) := do
  let lo ← (List.range c.np).mapM fun k => (c.getPrior k).map low
  let hi ← (List.range c.np).mapM fun k => (c.getPrior k).map high
  some (lo, hi)

/-- `BaseModel.hasLimits` 432-449 for fitindex None, on one model of the chain; `Brackets` have no priors of their
own. -/
def Node.hasLimits (has : α → Bool) : Node α ν → Bool
  | .base l => if l.np = 0 then true else if l.priors.length = 0 then false else l.priors.all has
  | .brackets c => if c.np = 0 then true else false

/-- `Model.hasLimits` 1198-1217 for fitindex None. -/
def Chain.hasLimits (has : α → Bool) : Chain α ν → Bool
  | .last m => m.hasLimits has
  | .cons m c => if m.hasLimits has then c.hasLimits has else false

/-- The loop of `BaseModel.hasLimits` 443-449 over the fitted parameters (not negative). -/
def limitsLoop (has : α → Bool) (priors : List α) : List ℕ → Bool
  | [] => true
  | k :: ks =>
      match priors[k]? with
      | none => true
      | some p => has p && limitsLoop has priors ks

/-- `BaseModel.hasLimits` 432-449 with a list of fitted parameters, on one model of the chain. -/
def Node.hasLimitsOf (has : α → Bool) (fitindex : List ℕ) : Node α ν → Bool
  | .base l => if l.np = 0 then true else if l.priors.length = 0 then false else limitsLoop has l.priors fitindex
  | .brackets c => if c.np = 0 then true else false

/-- `Model.hasLimits` 1200-1219 with an array of fitted parameters. -/
def Chain.hasLimitsOf (has : α → Bool) : Chain α ν → List ℕ → Bool
  | .last m, fi => m.hasLimitsOf has fi
  | .cons m c, fi =>
      if m.hasLimitsOf has fi then c.hasLimitsOf has ((fi.filter fun k => decide (m.np ≤ k)).map fun k => k - m.np)
      else false

mutual
/-- `BaseModel.hasPriors` 346-356, `Brackets.hasPriors` 1858-1867. -/
def Node.hasPriors (bound : α → Bool) : Node α ν → Bool
  | .base l => if l.priors.length = 0 then false else l.priors.all bound
  | .brackets c => c.hasPriors bound
/-- `Model.hasPriors` 1007-1021: in the loop it is always the head that is asked. -/
def Chain.hasPriors (bound : α → Bool) : Chain α ν → Bool
  | .last m => m.hasPriors bound
  | .cons m _ => m.hasPriors bound
end

/-- `Model.py` 1293-1296. -/
def Leaf.next (l : Leaf α ν) (k : ℕ) : Option α :=
  match l.priors[k]? with
  | some p => some p
  | none => l.priors.getLast?

/-- `Model.nextPrior` 1289-1300: what the generator at parameter `k` of the model at the front yields in the next
`n` calls. On `Brackets` it is an exception: they have no priors (or, in front, the generator of the contents is
yielded itself, 1826, which is no prior). -/
def nextPriors : Option (Chain α ν) → ℕ → ℕ → Option (List α)
  | _, _, 0 => some []
  | none, _, _ + 1 => none
  | some (.last m), k, n + 1 =>
      match m with
      | .brackets _ => none
      | .base l =>
          (l.next k).bind fun p =>
            (if k + 1 ≥ l.np then nextPriors none 0 n else nextPriors (some (.last (.base l))) (k + 1) n).bind fun rest =>
              some (p :: rest)
  | some (.cons m c), k, n + 1 =>
      match m with
      | .brackets _ => none
      | .base l =>
          (l.next k).bind fun p =>
            (if k + 1 ≥ l.np then nextPriors (some c) 0 n else nextPriors (some (.cons (.base l) c)) (k + 1) n).bind fun rest =>
              some (p :: rest)

/-- `Model.unit2Domain` 1223-1248, `domain2Unit` 1250-1272 and `partialDomain2Unit` 1274-1287 without `kpar`:
apply the map `f` of each next prior to each next value. -/
def Chain.mapAll {β γ : Type} (f : α → β → γ) (c : Chain α ν) (vals : List β) : Option (List γ) :=
  (nextPriors (some c) 0 vals.length).map fun ps => List.zipWith f ps vals

/-- The same with `kpar`: 1235-1236, 1260-1261. -/
def Chain.mapOne {β γ : Type} (f : α → β → γ) (c : Chain α ν) (k : ℕ) (v : β) : Option γ :=
  (c.getPrior k).map fun p => f p v

end limits

end BF.Routing
