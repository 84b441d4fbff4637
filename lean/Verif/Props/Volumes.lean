import Verif.Props.NestedMore
import Verif.Props.NestedRuns
import Mathlib.Algebra.BigOperators.Intervals
import Mathlib.Algebra.BigOperators.Fin
import Mathlib.Algebra.Order.BigOperators.Group.Finset

/-!
# C49 and C50 for any number of discarded walkers
-/

noncomputable section

namespace BF.Nested

open Finset

variable {α σ : Type*}

/-! ## Specification -/

/-- How much the log of the volume falls on average when the `d` lowest of `N` walkers are taken away one by one:
`1/N + 1/(N-1) + …`, `d` terms. -/
def fall (N d : ℕ) : ℝ := ∑ j ∈ range d, 1 / ((N : ℝ) - j)

/-- The part of the remaining volume that the sampler gives out in one iteration. -/
def given (N d : ℕ) : ℝ := ∑ j ∈ range d, (1 - Real.exp (-(1 / (N : ℝ)))) * Real.exp (-fall N j)

theorem fall_succ (N d : ℕ) : fall N (d + 1) = fall N d + 1 / ((N : ℝ) - d) := by
  simp [fall, sum_range_succ]

theorem given_succ (N d : ℕ) :
    given N (d + 1) = given N d + (1 - Real.exp (-(1 / (N : ℝ)))) * Real.exp (-fall N d) := by
  simp [given, sum_range_succ]

/-! ## One iteration -/

theorem evLoop_volumes (o : Opts) (X : ℝ) (l : List (Walker α ℝ)) : ∀ (kw : ℕ) (s : St α σ) (T : ℝ),
    Real.exp s.logWidth = (1 - Real.exp (-(1 / (o.ensemble : ℝ)))) * (X * Real.exp (-fall o.ensemble kw)) →
    totalShare s.samples.items = T + X * given o.ensemble kw →
    Real.exp (evLoop o kw l s).logWidth
      = (1 - Real.exp (-(1 / (o.ensemble : ℝ)))) * (X * Real.exp (-fall o.ensemble (kw + l.length))) ∧
    totalShare (evLoop o kw l s).samples.items = T + X * given o.ensemble (kw + l.length) := by
  induction l with
  | nil => intro kw s T h1 h2; exact ⟨h1, h2⟩
  | cons w l ih =>
    intro kw s T h1 h2
    have := ih (kw + 1) (evStep o kw w s) T (by
      have : (evStep o kw w s).logWidth = s.logWidth + -(1 / ((o.ensemble : ℝ) - kw)) := by
        simp [evStep, sub_eq_add_neg]
      rw [this, Real.exp_add, h1, fall_succ, neg_add, Real.exp_add]; ring) (by
      rw [share_step, h2, given_succ, h1]; ring)
    simpa only [evLoop, List.length_cons, show kw + (l.length + 1) = kw + 1 + l.length by ring] using this

theorem body_volumes (e : Env α σ) (o : Opts) (hmax : o.maxsize = none) (s s' : St α σ) (h : body e o s = some s')
    (X : ℝ) (hX : Real.exp s.logWidth = (1 - Real.exp (-(1 / (o.ensemble : ℝ)))) * X) :
    Real.exp s'.logWidth = (1 - Real.exp (-(1 / (o.ensemble : ℝ)))) * (X * Real.exp (-fall o.ensemble o.discard)) ∧
    totalShare s'.samples.items = totalShare s.samples.items + X * given o.ensemble o.discard := by
  obtain ⟨h0, hl, hlt, w, wl1, r1, hw, hlow, hit, hc, hx, s1, hs1, hs, hz, hi, hwd, hd⟩ := body_spec e o s s' h
  have hsam : s'.samples = s1.samples := by rw [hs, hmax]; rfl
  have hlen : ((sortWalkers s.walkers).items.take o.discard).length = o.discard := by
    simp [sortWalkers]; omega
  have := evLoop_volumes o X ((sortWalkers s.walkers).items.take o.discard) 0
    { s with walkers := sortWalkers s.walkers, lowLhood := w.logL } (totalShare s.samples.items)
    (by simpa [fall] using hX) (by simp [given])
  rw [hlen, Nat.zero_add] at this
  rw [hwd, hsam, hs1]
  exact this

/-- **The volumes for any number of discarded walkers.** What remains after a number of iterations is the average of
the log volume when that many walkers are taken away one by one; what has been given out is the same part of the volume
in each iteration. -/
theorem C49_any (e : Env α σ) (o : Opts) (hmax : o.maxsize = none) (hN : 0 < o.ensemble) (s0 s : St α σ)
    (h0 : Fresh o s0) (hr : Reach e o s0 s) :
    remaining o s = Real.exp (-(s.iteration * fall o.ensemble o.discard)) ∧
    totalShare s.samples.items * (1 - Real.exp (-fall o.ensemble o.discard))
      = given o.ensemble o.discard * (1 - remaining o s) := by
  have hq := q_lt_one o hN
  have e1 : Real.exp (-1 / (o.ensemble : ℝ)) = Real.exp (-(1 / (o.ensemble : ℝ))) := by rw [neg_div]
  rw [e1] at hq
  suffices h : Real.exp s.logWidth = (1 - Real.exp (-(1 / (o.ensemble : ℝ))))
        * Real.exp (-(s.iteration * fall o.ensemble o.discard)) ∧
      totalShare s.samples.items * (1 - Real.exp (-fall o.ensemble o.discard))
        = given o.ensemble o.discard * (1 - Real.exp (-(s.iteration * fall o.ensemble o.discard))) by
    have hrem : remaining o s = Real.exp (-(s.iteration * fall o.ensemble o.discard)) := by
      rw [remaining, e1, h.1, mul_div_cancel_left₀ _ hq.ne']
    exact ⟨hrem, by rw [hrem]; exact h.2⟩
  induction hr with
  | refl =>
    obtain ⟨wl, low, r, hl, rfl⟩ := h0
    refine ⟨?_, by simp [totalShare, initState]⟩
    simp only [initState]
    rw [e1, Real.exp_log hq]
    simp
  | @step s s' _ _ hb ih =>
    obtain ⟨a, b⟩ := body_volumes e o hmax _ _ hb _ ih.1
    obtain ⟨_, _, _, w, wl1, r1, _, _, hit, _⟩ := body_spec e o _ _ hb
    have hx : Real.exp (-((s.iteration + 1 : ℕ) * fall o.ensemble o.discard))
        = Real.exp (-(s.iteration * fall o.ensemble o.discard)) * Real.exp (-fall o.ensemble o.discard) := by
      rw [← Real.exp_add]; congr 1; push_cast; ring
    rw [hit, hx]
    refine ⟨a, ?_⟩
    rw [b]
    linear_combination ih.2

/-! ## The volume that is lost -/

theorem fall_pos (N d : ℕ) (hd : 0 < d) (hN : d ≤ N) : 0 < fall N d := by
  apply sum_pos
  · intro j hj
    have hj : (j : ℝ) < N := by
      have := mem_range.1 hj
      exact_mod_cast (by omega : j < N)
    exact one_div_pos.2 (by linarith)
  · exact ⟨0, mem_range.2 hd⟩

theorem given_lt (N d : ℕ) (hN : d + 2 ≤ N) : given N (d + 2) < 1 - Real.exp (-fall N (d + 2)) := by
  have hNr : (d : ℝ) + 2 ≤ N := by exact_mod_cast hN
  have key : ∀ k : ℕ, 0 < k → k < N →
      (1 - Real.exp (-(1 / (N : ℝ)))) * Real.exp (-fall N k) < Real.exp (-fall N k) - Real.exp (-fall N (k + 1)) := by
    intro k hk hkN
    have hk' : (0 : ℝ) < k := by exact_mod_cast hk
    have hkN' : (k : ℝ) < N := by exact_mod_cast hkN
    have h1 : 1 / (N : ℝ) < 1 / ((N : ℝ) - k) := one_div_lt_one_div_of_lt (by linarith) (by linarith)
    have h2 : Real.exp (-(1 / ((N : ℝ) - k))) < Real.exp (-(1 / (N : ℝ))) := Real.exp_lt_exp.2 (by linarith)
    rw [fall_succ, neg_add, Real.exp_add]
    have := Real.exp_pos (-fall N k)
    nlinarith
  induction d with
  | zero =>
    rw [given_succ]
    have h0 : given N 1 = 1 - Real.exp (-fall N 1) := by simp [given, fall]
    have := key 1 (by omega) (by omega)
    simp only [Nat.zero_add]
    rw [h0]
    linarith
  | succ d ih =>
    rw [given_succ]
    have h1 := ih (by omega) (by push_cast at hNr; linarith)
    have h2 := key (d + 2) (by omega) (by omega)
    rw [show d + 1 + 2 = d + 2 + 1 from rfl]
    linarith

/-- **The volumes add up to one only when one walker is discarded each time**: with more of them some volume is lost
in every iteration. -/
theorem C49_only_one (e : Env α σ) (o : Opts) (hmax : o.maxsize = none) (hN : 0 < o.ensemble) (s0 s : St α σ)
    (h0 : Fresh o s0) (hr : Reach e o s0 s) (hs : 0 < s.iteration) :
    totalShare s.samples.items + remaining o s = 1 ↔ o.discard = 1 := by
  refine ⟨fun h => ?_, fun h => (C49_tiles_partial e o hmax h hN s0 s h0 hr).1⟩
  have hd : 0 < o.discard ∧ o.discard < o.ensemble := by
    cases hr with
    | refl =>
      obtain ⟨wl, low, r, hl, rfl⟩ := h0
      simp [initState] at hs
    | step _ _ hb =>
      obtain ⟨h1, _, h3, _⟩ := body_spec e o _ _ hb
      exact ⟨h1, h3⟩
  obtain ⟨ha, hb⟩ := C49_any e o hmax hN s0 s h0 hr
  by_contra hne
  obtain ⟨d, hdd⟩ : ∃ d, o.discard = d + 2 := ⟨o.discard - 2, by omega⟩
  have hlt := given_lt o.ensemble d (by omega)
  rw [← hdd] at hlt
  have hrem : remaining o s < 1 := by
    rw [ha, Real.exp_lt_one_iff]
    have := fall_pos o.ensemble o.discard hd.1 hd.2.le
    have : (0 : ℝ) < s.iteration := by exact_mod_cast hs
    have : 0 < (s.iteration : ℝ) * fall o.ensemble o.discard := by positivity
    linarith
  have ht : totalShare s.samples.items = 1 - remaining o s := by linarith
  rw [ht] at hb
  have : 1 - Real.exp (-fall o.ensemble o.discard) = given o.ensemble o.discard := by
    have hp : 1 - remaining o s ≠ 0 := by linarith
    apply mul_left_cancel₀ hp
    linear_combination hb
  linarith

/-! ## C50 for any number of discarded walkers -/

theorem evLoop_info_bounds (o : Opts) (l : List (Walker α ℝ)) : ∀ (kw : ℕ) (s : St α σ),
    ((∀ w ∈ l, w.logL ≤ s.lowLhood) → weightedLogL s.samples.items ≤ evidenceZ s * (s.info + s.logZ.getD 0) →
      weightedLogL (evLoop o kw l s).samples.items
        ≤ evidenceZ (evLoop o kw l s) * ((evLoop o kw l s).info + (evLoop o kw l s).logZ.getD 0)) ∧
    ((∀ w ∈ l, s.lowLhood ≤ w.logL) → evidenceZ s * (s.info + s.logZ.getD 0) ≤ weightedLogL s.samples.items →
      evidenceZ (evLoop o kw l s) * ((evLoop o kw l s).info + (evLoop o kw l s).logZ.getD 0)
        ≤ weightedLogL (evLoop o kw l s).samples.items) := by
  induction l with
  | nil => intro kw s; exact ⟨fun _ h => h, fun _ h => h⟩
  | cons w l ih =>
    intro kw s
    have hw : weightedLogL (evStep o kw w s).samples.items
        = weightedLogL s.samples.items + Real.exp (s.logWidth + w.logL) * w.logL := by
      simp [weightedLogL, evStep, SampleList.add, toSample]
    have hstep := info_step o kw w s
    have hp := Real.exp_pos (s.logWidth + w.logL)
    have hlow : (evStep o kw w s).lowLhood = s.lowLhood := rfl
    obtain ⟨a, b⟩ := ih (kw + 1) (evStep o kw w s)
    constructor
    · intro h1 h2
      refine a (fun v hv => by rw [hlow]; exact h1 v (List.mem_cons_of_mem _ hv)) ?_
      rw [hw, hstep]
      have := mul_le_mul_of_nonneg_left (h1 w (by simp)) hp.le
      linarith
    · intro h1 h2
      refine b (fun v hv => by rw [hlow]; exact h1 v (List.mem_cons_of_mem _ hv)) ?_
      rw [hw, hstep]
      have := mul_le_mul_of_nonneg_left (h1 w (by simp)) hp.le
      linarith

/-- **The information is not too low during the iterations**, however many walkers are discarded each time: it is at
least the posterior average of the log likelihood minus the log evidence. -/
theorem C50_at_least (e : Env α σ) (o : Opts) (hmax : o.maxsize = none) (hN : 0 < o.ensemble) (s0 s : St α σ)
    (h0 : Fresh o s0) (hr : Reach e o s0 s) (z : ℝ) (hz : s.logZ = some z) :
    weightedLogL s.samples.items / totalWeight s.samples.items - z ≤ s.info := by
  have hZ := (C04_evidence_is_sum e o hmax hN s0 s h0 hr).1
  suffices h : weightedLogL s.samples.items ≤ evidenceZ s * (s.info + s.logZ.getD 0) by
    have hez : evidenceZ s = Real.exp z := by simp [evidenceZ, hz]
    rw [hez, hz] at h
    rw [← hZ, hez, sub_le_iff_le_add, div_le_iff₀ (Real.exp_pos z)]
    simp only [Option.getD] at h
    linarith
  clear hz hZ
  induction hr with
  | refl =>
    obtain ⟨wl, low, r, hl, rfl⟩ := h0
    simp [evidenceZ, initState, weightedLogL]
  | @step s s' _ _ hb ih =>
    obtain ⟨h1, hl, hlt, w, wl1, r1, hw, hlow, hit, hc, hx, s1, hs1, hs, hz, hi, hwd, hdz⟩ := body_spec e o _ _ hb
    have hsam : s'.samples = s1.samples := by rw [hs, hmax]; rfl
    have := (evLoop_info_bounds o ((sortWalkers s.walkers).items.take o.discard) 0
      { s with walkers := sortWalkers s.walkers, lowLhood := w.logL }).1 (fun v hv => by
        obtain ⟨i, hi⟩ := List.mem_iff_getElem?.1 hv
        rw [List.getElem?_take] at hi
        by_cases hid : i < o.discard
        · rw [if_pos hid] at hi
          exact sort_above s.walkers i v hi _ w (by omega) hw
        · rw [if_neg hid] at hi; cases hi) ih
    rw [← hs1] at this
    have e1 : evidenceZ s' = evidenceZ s1 := by simp [evidenceZ, hz]
    rw [e1, hsam, hi, hz]
    exact this

/-- **The information at the end is not too high** when one walker is discarded each time: after the remaining walkers
have been added it is at most the posterior average of the log likelihood minus the log evidence. -/
theorem C50_final_at_most (e : Env α σ) (he : OnlyAsked e) (o : Opts) (hmax : o.maxsize = none) (hd : o.discard = 1)
    (hN : 0 < o.ensemble) (s0 s s' : St α σ) (h0 : Fresh o s0) (hr : Reach e o s0 s) (hit : 0 < s.iteration)
    (hf : updateEvidence o o.ensemble s = some s') (z : ℝ) (hz : s'.logZ = some z) :
    s'.info ≤ weightedLogL s'.samples.items / totalWeight s'.samples.items - z := by
  have hab : AllAbove s.lowLhood s.walkers.items := by
    cases hr with
    | refl =>
      obtain ⟨wl, low, r, hl, rfl⟩ := h0
      simp [initState] at hit
    | step _ _ hb => exact (body_above e he o _ _ hb).2.1
  have hZ := (C04_final_evidence_is_sum e o hmax hN s0 s s' h0 hr hf).1
  have hbefore : evidenceZ s * (s.info + s.logZ.getD 0) ≤ weightedLogL s.samples.items := by
    cases hzs : s.logZ with
    | none =>
      have h4 := (C04_evidence_is_sum e o hmax hN s0 s h0 hr).1
      have he0 : evidenceZ s = 0 := by simp [evidenceZ, hzs]
      rw [he0] at h4
      have hnil : s.samples.items = [] := by
        cases hl : s.samples.items with
        | nil => rfl
        | cons x l =>
          rw [hl] at h4
          have h5 : 0 ≤ (l.map fun x => Real.exp x.logW).sum := by
            apply List.sum_nonneg
            intro y hy
            obtain ⟨a, -, rfl⟩ := List.mem_map.1 hy
            exact (Real.exp_pos _).le
          have h6 := Real.exp_pos x.logW
          simp only [totalWeight, List.map_cons, List.sum_cons] at h4
          linarith
      rw [he0, hnil]
      simp [weightedLogL]
    | some y =>
      have h3 := C50_information_partial e o hmax hd hN s0 s h0 hr y hzs
      have h4 := (C04_evidence_is_sum e o hmax hN s0 s h0 hr).1
      have hez : evidenceZ s = Real.exp y := by simp [evidenceZ, hzs]
      rw [h3, ← h4, hez]
      have := Real.exp_pos y
      simp only [Option.getD]
      rw [show weightedLogL s.samples.items / Real.exp y - y + y = weightedLogL s.samples.items / Real.exp y by ring,
        mul_div_cancel₀ _ this.ne']
  simp only [updateEvidence] at hf
  split at hf
  · cases hf
  · obtain rfl := Option.some.inj hf
    have h := (evLoop_info_bounds o (s.walkers.items.take o.ensemble) 0 s).2
      (fun w hw => hab w (List.mem_of_mem_take hw)) hbefore
    have hez : evidenceZ (evLoop o 0 (s.walkers.items.take o.ensemble) s) = Real.exp z := by simp [evidenceZ, hz]
    rw [hez, hz] at h
    rw [← hZ, hez, le_sub_iff_add_le, le_div_iff₀ (Real.exp_pos z)]
    simp only [Option.getD] at h
    linarith

/-- The demonstration run has made an iteration: the hypotheses can be met. -/
example : ∃ s, Reach demoEnv (demoOpts 3 1) demoStart s ∧ 0 < s.iteration ∧ (demoOpts 3 1).maxsize = none := by
  obtain ⟨s, s', hr, hb, _⟩ := demo_run
  obtain ⟨t, ht, _, _, hit, hs⟩ := demo_body
  obtain rfl : s = t := Option.some.inj (hb.symm.trans ht)
  exact ⟨s, hr, by omega, rfl⟩

end BF.Nested
