import Verif.Priors

/-!
# The numeric derivatives and the limits of a prior

Models `Prior.py` 350-366, 384-394 (the questions about the limits) and 480-520: what a prior returns for its density and for the slope of the logarithm of its
density when the class does not define them, and what any prior returns when they are asked for by name.
`deltaP` (line 114, 0.0001) is an argument here.
-/

namespace BF.Priors

/-- A float that may be infinite or nan. -/
inductive Slope
  | num (v : ℝ)
  | pinf | minf | nan

noncomputable section

/-- `numPartialDomain2Unit` Prior.py 480-492. -/
def Prior.numPartialDomain2Unit (q : Prior) (deltaP dval : ℝ) : Option ℝ :=
  match q.domain2Unit (dval + deltaP), q.domain2Unit (dval - deltaP) with
  | some up, some um => some ((up - um) / (2 * deltaP))
  | _, _ => none

/-- The difference of two results of `logResult`, where `none` is minus infinity, over a positive number. -/
def slopeOf (rp rm : Option ℝ) (d : ℝ) : Slope :=
  match rp, rm with
  | some rp, some rm => .num ((rp - rm) / d)
  | none, some _ => .minf
  | some _, none => .pinf
  | none, none => .nan

/-- `numPartialLog` Prior.py 507-520, for a positive `deltaP`. -/
def Prior.numPartialLog (q : Prior) (deltaP p : ℝ) : Slope :=
  open Classical in
  if q.isOut p then .nan
  else slopeOf (q.logResult (p + deltaP)) (q.logResult (p - deltaP)) (2 * deltaP)

/-- `checkLimit` Prior.py 350-366: whether there is an exception. -/
def Prior.checkLimit (q : Prior) (par : ℝ) : Bool :=
  open Classical in decide (q.isOut par)

/-- `hasLowLimit` Prior.py 384-386. -/
def Prior.hasLowLimit (q : Prior) : Bool := open Classical in decide (q.lowDomain < q.low)

/-- `hasHighLimit` Prior.py 388-390. -/
def Prior.hasHighLimit (q : Prior) : Bool := open Classical in decide (q.high < q.highDomain)

/-- `hasLimits` Prior.py 392-394. -/
def Prior.hasLimits (q : Prior) : Bool := q.hasLowLimit || q.hasHighLimit

end

end BF.Priors
