import Verif.Rerun
import Verif.Props.NestedMore

/-!
# C104: calling `sample` again
-/

namespace BF
namespace Rerun

open Nested

variable {α σ : Type*}

/-! ## Specification -/

/-- One complete call of `sample`, on a sampler left in `s`, which leaves it in `s'`: new walkers, as
many turns of the loop as the stopping rule asks for, and the final bookkeeping. -/
def Call (e : Env α σ) (o : Opts) (linear : Bool) (s s' : St α σ) : Prop :=
  ∃ (wl : WalkerList α ℝ) (low : ℝ) (r : σ) (t : St α σ), wl.items.length = o.ensemble ∧
    Reach e o (restart o linear s wl low r) t ∧ nextIteration o t = false ∧ finish o t = some s'

/-- A number of complete calls, with the evidences they return. -/
inductive Calls (e : Env α σ) (o : Opts) (linear : Bool) (s : St α σ) : List ℝ → St α σ → Prop
  | none : Calls e o linear s [] s
  | call {l : List ℝ} {s1 s2 : St α σ} : Calls e o linear s l s1 → Call e o linear s1 s2 →
      Calls e o linear s (l ++ [evidenceZ s2]) s2

/-! ## Bookkeeping -/

/-- During a call: the evidence is the weight of what was added to the list since its start. -/
def Added (old : List (Sample α)) (s : St α σ) : Prop :=
  ∃ new, s.samples.items = old ++ new ∧ evidenceZ s = totalWeight new

theorem totalWeight_append (l k : List (Sample α)) :
    totalWeight (l ++ k) = totalWeight l + totalWeight k := by
  simp [totalWeight]

theorem evLoop_added (o : Opts) (old : List (Sample α)) :
    ∀ (ws : List (Walker α ℝ)) (kw : ℕ) (s : St α σ), Added old s →
      Added old (evLoop o kw ws s) := by
  intro ws
  induction ws with
  | nil => intro kw s h; exact h
  | cons w ws ih =>
    intro kw s h
    simp only [evLoop]
    apply ih
    obtain ⟨new, h1, h2⟩ := h
    have h3 := weight_step o kw w s
    refine ⟨new ++ [{ toSample w (s.logWidth + w.logL) with
      parent := w.id, id := s.samples.count }], ?_, ?_⟩
    · simp [evStep, SampleList.add, h1, toSample]
    · rw [evidence_step, h2, totalWeight_append]
      simp [totalWeight, toSample]

theorem restart_added (o : Opts) (linear : Bool) (s : St α σ) (wl : WalkerList α ℝ) (low : ℝ)
    (r : σ) : Added s.samples.items (restart o linear s wl low r) :=
  ⟨[], by simp [restart, initState], by simp [restart, initState, evidenceZ, totalWeight]⟩

theorem reach_added (e : Env α σ) (o : Opts) (hmax : o.maxsize = none) (old : List (Sample α))
    (s0 s : St α σ) (h0 : Added old s0) (hr : Reach e o s0 s) : Added old s := by
  induction hr with
  | refl => exact h0
  | step _ _ hb ih =>
    rename_i a b _ _
    obtain ⟨_, _, _, w, _, _, _, _, _, _, _, s1, hs1, hs, hz, _⟩ := body_spec e o a b hb
    obtain ⟨new, h1, h2⟩ : Added old s1 := by
      rw [hs1]
      exact evLoop_added o old _ _ _ ih
    refine ⟨new, ?_, ?_⟩
    · rw [hs, hmax]; exact h1
    · rw [← h2]; simp [evidenceZ, hz]

theorem weight_shift (c : ℝ) (l : List (Sample α)) :
    totalWeight (l.map fun s => { s with logW := s.logW - c }) = totalWeight l / Real.exp c := by
  induction l with
  | nil => simp [totalWeight]
  | cons x l ih =>
    simp only [totalWeight, List.map_cons, List.sum_cons, add_div] at ih ⊢
    rw [ih, Real.exp_sub]

theorem finish_spec (o : Opts) (s s' : St α σ) (h : finish o s = some s') :
    ∃ s1 sl, updateEvidence o o.ensemble s = some s1 ∧ s1.samples.normalize = some sl ∧
      s' = { s1 with samples := sl } := by
  simp only [finish] at h
  split at h
  · exact absurd h (by simp)
  · rename_i s1 h1
    split at h
    · exact absurd h (by simp)
    · rename_i sl hsl
      exact ⟨s1, sl, h1, hsl, (Option.some.inj h).symm⟩

/-- What a call does to the list of samples: it adds its own, of which the weights are `likelihood
times volume` and of which the sum is the evidence returned; then all weights, old and new, are divided
by the sum of all. -/
theorem call_spec (e : Env α σ) (o : Opts) (hmax : o.maxsize = none) (linear : Bool)
    (s s' : St α σ) (h : Call e o linear s s') :
    ∃ (new : List (Sample α)) (c : ℝ), evidenceZ s' = totalWeight new ∧
      Real.exp c = totalWeight s.samples.items + totalWeight new ∧
      s'.samples.items = (s.samples.items ++ new).map fun x => { x with logW := x.logW - c } := by
  obtain ⟨wl, low, r, t, hl, hr, hn, hf⟩ := h
  obtain ⟨s1, sl, h1, h2, rfl⟩ := finish_spec o t s' hf
  have ht := reach_added e o hmax _ _ t (restart_added o linear s wl low r) hr
  obtain ⟨new, h3, h4⟩ : Added s.samples.items s1 := by
    simp only [updateEvidence] at h1
    split at h1
    · exact absurd h1 (by simp)
    · obtain rfl := Option.some.inj h1
      exact evLoop_added o _ _ _ _ ht
  obtain ⟨_, c, h5, h6⟩ := normalize_spec _ _ h2
  refine ⟨new, c, by simpa [evidenceZ] using h4, ?_, ?_⟩
  · rw [h6, h3, totalWeight_append]
  · simp only [h5, h3]

/-- The evidence that any call returns is that of its own samples: it is the sum of the weights of the
samples that this call added, whatever was in the list. Afterwards the list holds the old samples and
then the new ones, with weights that sum to one. -/
theorem C104_evidence (e : Env α σ) (o : Opts) (hmax : o.maxsize = none) (linear : Bool)
    (s s' : St α σ) (h : Call e o linear s s') :
    (∃ (new : List (Sample α)) (c : ℝ), evidenceZ s' = totalWeight new ∧
      s'.samples.items = (s.samples.items ++ new).map fun x => { x with logW := x.logW - c }) ∧
    totalWeight s'.samples.items = 1 := by
  obtain ⟨new, c, h1, h2, h3⟩ := call_spec e o hmax linear s s' h
  refine ⟨⟨new, c, h1, h3⟩, ?_⟩
  rw [h3, weight_shift, totalWeight_append, ← h2, div_self (Real.exp_pos c).ne']

/-- On a sampler as it was constructed all samples in the list are those of the call. -/
theorem C104_first (e : Env α σ) (o : Opts) (hmax : o.maxsize = none) (linear : Bool) (low : ℝ)
    (r : σ) (s' : St α σ) (h : Call e o linear (constructed o low r) s') :
    ∃ (new : List (Sample α)), 0 < evidenceZ s' ∧ evidenceZ s' = totalWeight new ∧
      List.Forall₂ (fun (x y : Sample α) => Real.exp y.logW = Real.exp x.logW / evidenceZ s' ∧
        y = { x with logW := y.logW }) new s'.samples.items := by
  obtain ⟨new, c, h1, h2, h3⟩ := call_spec e o hmax linear _ s' h
  have h0 : (constructed o low r : St α σ).samples.items = [] := rfl
  rw [h0] at h2 h3
  have hc : Real.exp c = evidenceZ s' := by rw [h2, h1]; simp [totalWeight]
  refine ⟨new, by rw [← hc]; exact Real.exp_pos c, h1, ?_⟩
  rw [h3, List.nil_append, ← hc]
  clear h3 h2 h1 hc h0
  induction new with
  | nil => simp
  | cons x l ih =>
    simp only [List.map_cons, List.forall₂_cons]
    exact ⟨⟨by rw [Real.exp_sub], by simp⟩, ih⟩

/-- After the first call on a sampler as it was constructed, linear or not, the list holds exactly the
walkers discarded in the iterations counted and the walkers left at the end. -/
theorem C104_first_count (e : Env α σ) (o : Opts) (hmax : o.maxsize = none) (linear : Bool) (low : ℝ)
    (r : σ) (s' : St α σ) (h : Call e o linear (constructed o low r) s') :
    s'.samples.items.length = o.discard * s'.iteration + o.ensemble := by
  obtain ⟨wl, low', r', t, hl, hr, hn, hf⟩ := h
  have hF : Nested.Fresh o (restart o linear (constructed o low r) wl low' r') := by
    refine ⟨wl, low', r', hl, ?_⟩
    cases linear <;> rfl
  have hit : s'.iteration = t.iteration := by
    obtain ⟨s1, sl, h1, _, rfl⟩ := finish_spec o t s' hf
    simp only [updateEvidence] at h1
    split at h1
    · exact absurd h1 (by simp)
    · obtain rfl := Option.some.inj h1
      exact (evLoop_same o _ _ _).2.2.1
  rw [hit]
  exact C07_sample_count e o hmax _ _ _ hF hr hf

/-- A later call mixes its samples with those of the calls before in a ratio that has no meaning: the
old ones, whose weights had been normalised, come in with weight 1 and the new ones with weight `Z`, the
evidence of the call. So all new samples together have the share `Z / ( 1 + Z )`: next to nothing for
the small `Z` of more than a few data, next to all for a large one. It depends on the units of the
data. -/
theorem C104_counterexample_shares (e : Env α σ) (o : Opts) (hmax : o.maxsize = none)
    (linear : Bool) (s0 s s' : St α σ) (hs : Call e o linear s0 s) (h : Call e o linear s s') :
    ∃ old new, s'.samples.items = old ++ new ∧ old.length = s.samples.items.length ∧
      totalWeight old = 1 / (1 + evidenceZ s') ∧
      totalWeight new = evidenceZ s' / (1 + evidenceZ s') := by
  have h1 := (C104_evidence e o hmax linear s0 s hs).2
  obtain ⟨new, c, h2, h3, h4⟩ := call_spec e o hmax linear s s' h
  rw [List.map_append] at h4
  refine ⟨_, _, h4, by simp, ?_, ?_⟩
  · rw [weight_shift, h1, h3, h1, h2]
  · rw [weight_shift, h3, h1, h2]

theorem sum_shift (c : ℝ) (f : Sample α → ℝ) (hf : ∀ (x : Sample α) (w : ℝ), f { x with logW := w } = f x)
    (l : List (Sample α)) :
    ((l.map fun s => { s with logW := s.logW - c }).map fun x => Real.exp x.logW * f x).sum
      = (l.map fun x => Real.exp x.logW * f x).sum / Real.exp c := by
  induction l with
  | nil => simp
  | cons x l ih =>
    simp only [List.map_cons, List.sum_cons, add_div] at ih ⊢
    rw [ih, Real.exp_sub, hf]
    ring

/-- What the user sees of it: the average of any quantity over the samples, after a further call, is
the average before the call when the evidence of the call is small; precisely it is
`( A + B ) / ( 1 + Z )` with `A` the average before, `Z` the evidence of the call and `B / Z` the average
over the samples of the call. -/
theorem C104_average (e : Env α σ) (o : Opts) (hmax : o.maxsize = none) (linear : Bool)
    (s0 s s' : St α σ) (hs : Call e o linear s0 s) (h : Call e o linear s s') (f : Sample α → ℝ)
    (hf : ∀ (x : Sample α) (w : ℝ), f { x with logW := w } = f x) :
    ∃ new : List (Sample α), totalWeight new = evidenceZ s' ∧
      (s'.samples.averstd f).1 = ((s.samples.averstd f).1
        + (new.map fun x => Real.exp x.logW * f x).sum) / (1 + evidenceZ s') := by
  have h1 := (C104_evidence e o hmax linear s0 s hs).2
  obtain ⟨new, c, h2, h3, h4⟩ := call_spec e o hmax linear s s' h
  refine ⟨new, h2.symm, ?_⟩
  rw [(averstd_fst _ f).1, (averstd_fst _ f).1, h4, sum_shift c f hf, List.map_append, List.sum_append, h3, h1, h2]

/-- Over any number of calls: the samples of the first one keep the share that the product of
`1 / ( 1 + Z )` over the later calls says. -/
theorem C104_history (e : Env α σ) (o : Opts) (hmax : o.maxsize = none) (linear : Bool)
    (s0 s s' : St α σ) (hs : Call e o linear s0 s) (l : List ℝ) (h : Calls e o linear s l s') :
    ∃ old new, s'.samples.items = old ++ new ∧ old.length = s.samples.items.length ∧
      totalWeight old = (l.map fun z => 1 / (1 + z)).prod ∧
      totalWeight s'.samples.items = 1 := by
  induction h with
  | none => 
    have := (C104_evidence e o hmax linear s0 s hs).2
    exact ⟨_, [], by simp, rfl, by simpa using this, this⟩
  | call _ hc ih =>
    rename_i l s1 s2 _
    obtain ⟨old, new, h1, h2, h3, h4⟩ := ih
    obtain ⟨new2, c, h5, h6, h7⟩ := call_spec e o hmax linear s1 s2 hc
    rw [h1, List.append_assoc, List.map_append] at h7
    refine ⟨_, _, h7, by simpa using h2, ?_, (C104_evidence e o hmax linear s1 s2 hc).2⟩
    rw [weight_shift, h3, h6, h4, h5]
    simp [div_eq_mul_inv]

/-- The loop of a call starts afresh for a model that is not linear: at iteration 0 it goes on, with
the tolerance negative as it is by default. -/
theorem C104_restarts (o : Opts) (htol : o.tolerance ≤ 0) (s : St α σ) (wl : WalkerList α ℝ)
    (low : ℝ) (r : σ) : nextIteration o (restart o false s wl low r) = true := by
  have h0 : (restart o false s wl low r).iteration = 0 := rfl
  have h1 : (restart o false s wl low r).logdZ = 0 := rfl
  have h2 : (restart o false s wl low r).info = 0 := rfl
  simp only [nextIteration, h0, h1, h2]
  split
  · rfl
  · rw [if_neg (not_lt.2 htol)]
    cases o.maxIterations <;> simp [h0]

/-- For a linear model it does not: `iteration` keeps the value of the call before, so the test at the
top of the loop, `iteration > end * ensemble * info / worst` with `info` 0, stops it at once. The second
call makes no iteration at all; it stores its walkers, as they were drawn from the prior, and returns
the evidence of these. -/
theorem C104_counterexample_linear (e : Env α σ) (o : Opts) (hmax : o.maxsize = none)
    (s s' : St α σ) (hi : 0 < s.iteration) (hm : o.minimumIterations ≤ s.iteration)
    (h : Call e o true s s') :
    s'.iteration = s.iteration ∧
    s'.samples.items.length = s.samples.items.length + o.ensemble ∧
    ∃ wl : WalkerList α ℝ, s'.walkers = wl ∧ wl.items.length = o.ensemble ∧
      ∃ low r, Reach e o (restart o true s wl low r) (restart o true s wl low r) ∧
        finish o (restart o true s wl low r) = some s' := by
  obtain ⟨wl, low, r, t, hl, hr, hn, hf⟩ := h
  have hstop : nextIteration o (restart o true s wl low r) = false := by
    have h0 : (restart o true s wl low r).iteration = s.iteration := rfl
    have h2 : (restart o true s wl low r).info = 0 := rfl
    simp only [nextIteration, h0, h2]
    rw [if_neg (by omega)]
    have h3 : (s.iteration : ℝ) > o.end * o.ensemble * 0 / o.discard := by simpa using hi
    simp [h3, hi]
  have ht : t = restart o true s wl low r := by
    have : ∀ u, Reach e o (restart o true s wl low r) u → u = restart o true s wl low r := by
      intro u hu
      induction hu with
      | refl => rfl
      | step _ hx _ ih => rw [ih, hstop] at hx; exact absurd hx (by simp)
    exact this t hr
  subst ht
  obtain ⟨s1, sl, h1, h2, h3⟩ := finish_spec o _ s' hf
  simp only [updateEvidence] at h1
  split at h1
  · exact absurd h1 (by simp)
  · obtain rfl := Option.some.inj h1
    obtain ⟨a, _, b, _, d⟩ := evLoop_same o
      ((restart o true s wl low r).walkers.items.take o.ensemble) 0 (restart o true s wl low r)
    obtain ⟨_, c, h5, _⟩ := normalize_spec _ _ h2
    refine ⟨?_, ?_, wl, ?_, hl, low, r, .refl, hf⟩
    · rw [h3]; exact b
    · rw [h3]
      simp only [h5, List.length_map]
      rw [d]
      simp [restart, initState, hl]
    · rw [h3]; exact a

/-! ## The hypotheses are met -/

/-- A sampler with one walker, of which the loop never starts: two calls are possible, one after
the other; and for a linear model, a call when the iteration number is 5. -/
example : ∃ (o : Opts) (e : Env ℕ ℕ) (s1 s2 : St ℕ ℕ), o.maxsize = none ∧
    Call e o false (constructed o 0 0) s1 ∧ Call e o false s1 s2 ∧
    ∃ t s3, t.iteration = 5 ∧ Call e o true t s3 := by
  let o : Opts := ⟨1, 1, 0, none, 1, 2, none, 0, 0⟩
  let e : Env ℕ ℕ := ⟨fun r => (0, r), fun r => ([], r), fun _ _ _ _ _ => none, fun _ => true⟩
  let w : Walker ℕ ℝ := ⟨0, -1, 0, 0, [], 0⟩
  have hstop : ∀ (b : Bool) (s : St ℕ ℕ), nextIteration o (restart o b s ⟨[w], 1⟩ 0 0) = false := by
    intro b s
    simp [nextIteration, restart, initState, o]
  have hfin : ∀ (b : Bool) (s : St ℕ ℕ), ∃ s', finish o (restart o b s ⟨[w], 1⟩ 0 0) = some s' := by
    intro b s
    cases hf : finish o (restart o b s ⟨[w], 1⟩ 0 0) with
    | some s' => exact ⟨s', rfl⟩
    | none =>
      exfalso
      simp only [finish] at hf
      split at hf
      · rename_i hu
        simp [updateEvidence, restart, initState, o] at hu
      · rename_i s1 hu
        split at hf
        · rename_i hn
          rw [C06_normalize_defined] at hn
          simp only [updateEvidence] at hu
          split at hu
          · exact absurd hu (by simp)
          · obtain rfl := Option.some.inj hu
            simp [evLoop, evStep, SampleList.add, restart, initState, o] at hn
        · exact absurd hf (by simp)
  obtain ⟨s1, h1⟩ := hfin false (constructed o 0 0)
  obtain ⟨s2, h2⟩ := hfin false s1
  obtain ⟨s3, h3⟩ := hfin true { (constructed o 0 0 : St ℕ ℕ) with
    iteration := 5 }
  exact ⟨o, e, s1, s2, rfl, ⟨_, _, _, _, rfl, .refl, hstop _ _, h1⟩,
    ⟨_, _, _, _, rfl, .refl, hstop _ _, h2⟩, _, s3, rfl, ⟨_, _, _, _, rfl, .refl, hstop _ _, h3⟩⟩

end Rerun
end BF
