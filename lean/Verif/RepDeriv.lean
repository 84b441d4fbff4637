import Verif.Combi
import Verif.Dynamic
import Verif.Compound

/-!
# Derivatives to x of repeating and combi models, and the repetition of a compound model

`RepeatingModel.py` 412-440, `CombiModel.py` 331-344 and `RepeatingModel.py` 151, 191-209, 339-371 when the model to
be repeated is a chain.
-/

namespace BF.RepDeriv

open BF.Arr BF.Dynamic

variable {α : Type*}

/-- The loop of `RepeatingModel.baseDerivative` 428-440; `der` is the derivative of the repeated model at one x, `n` more
components follow. -/
def derLoop [Add α] (r : Rep α) (der : List α → α) (params : List α) : ℕ → ℕ → List α → α → Option α
  | 0, _, pars, dfdx => some (dfdx + der pars)
  | n + 1, ke, pars, dfdx =>
      match scatter pars r.index ((params.drop ke).take r.delta) with
      | none => none
      | some pars' => derLoop r der params n (ke + r.delta) pars' (dfdx + der pars)

/-- `RepeatingModel.baseDerivative` 412-440, at one x. -/
def baseDerivative [Add α] [Zero α] (r : Rep α) (der : List α → α) (params : List α) : Option α :=
  match r.ncomp with
  | 0 => some 0
  | n + 1 => derLoop r der params n r.m (params.take r.m) 0

/-- `CombiModel.baseDerivative` 331-344 and `Model.py` 1784-1796: the derivative of the chain of copies at the full list of
parameters. -/
def combiDerivative [Add α] [Mul α] (d : BF.Combi.Combined α) (fullder : List α → Option α) (params : List α) :
    Option α :=
  match BF.Combi.expandParameters d params with
  | none => none
  | some exppar => fullder exppar

/-- `npbase` of the head of a chain: the attribute `npbase` of a compound model is that of its first model. -/
def headNp {K : Type*} : BF.Compound.Chain K → ℕ
  | .last _ m => m.np
  | .cons _ m _ => m.np

/-- `RepeatingModel.py` 151: the number of parameters of a repeated chain. -/
def chainNp {K : Type*} (c : BF.Compound.Chain K) (ncomp nsame : ℕ) : ℕ := ncomp * c.np - (ncomp - 1) * nsame

/-- `RepeatingModel.py` 191-209 and 339-371 for a chain, without `same`: `setSame` and `baseResult` use `npbase` of the
head.  Simplified: `result` of the chain when it has a value. -/
def chainRep {K : Type*} [Field K] (c : BF.Compound.Chain K) (ncomp : ℕ) (x : K) : Rep K where
  ncomp := ncomp
  m := headNp c
  same := []
  f := fun pars => (c.result x pars).getD 0

end BF.RepDeriv
