import Verif.Nested

/-!
# NestedSampler: calling `sample` again on the same sampler

Models what `NestedSampler.sample` (`NestedSampler.py` 391-484) takes over from an earlier call. The
list of samples is made in the constructor (374) and nowhere else; the iteration number is reset only
for models that are not a `LinearModel` (427-431).
-/

namespace BF
namespace Rerun

open Nested

noncomputable section

variable {α σ : Type*}

/-- `NestedSampler.py` 336, 374: what the constructor leaves for the first call, of the attributes
that a call takes over. `low` and `r` are the start value of the level and the generator; they play no
part. -/
def constructed (o : Opts) (low : ℝ) (r : σ) : St α σ :=
  initState o ⟨[], 0⟩ low ⟨[], 0⟩ 0 r

/-- `NestedSampler.py` 413-437: the state in which the while loop starts, when the sampler was left in
`s`. `wl` are the new walkers of `initSample` (498) after the first exploration (427-430), `low` the
level (429, for a linear model the old one) and `r` the generator. The samples are those of the
sampler; the iteration number is reset (431) unless the model is linear. -/
def restart (o : Opts) (linear : Bool) (s : St α σ) (wl : WalkerList α ℝ) (low : ℝ) (r : σ) :
    St α σ :=
  initState o wl low s.samples (if linear then s.iteration else 0) r

end

end Rerun
end BF
