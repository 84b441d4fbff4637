import Verif.Props.NestedMore

/-!
# C51, C52 and concrete runs of the sampler
-/

namespace BF
namespace Nested

variable {α σ : Type*}

/-! ## C52: order of the stored samples -/

theorem evLoop_logL (o : Opts) : ∀ (ws : List (Walker α ℝ)) (kw : ℕ) (s : St α σ),
    (evLoop o kw ws s).samples.items.map Sample.logL
      = s.samples.items.map Sample.logL ++ ws.map Walker.logL := by
  intro ws
  induction ws with
  | nil => intro kw s; simp [evLoop]
  | cons w ws ih =>
    intro kw s
    simp only [evLoop, ih]
    simp [evStep, SampleList.add, toSample]

theorem sort_pairwise (wl : WalkerList α ℝ) :
    ((sortWalkers wl).items.map Walker.logL).Pairwise (· ≤ ·) := by
  rw [List.pairwise_map]
  have : IsTrans (Walker α ℝ) (fun v w => v.logL ≤ w.logL) := ⟨fun _ _ _ h g => le_trans h g⟩
  have : Std.Total (α := Walker α ℝ) (fun v w => v.logL ≤ w.logL) := ⟨fun _ _ => le_total _ _⟩
  exact List.pairwise_insertionSort _ _

/-- While the iterations run the likelihoods of the stored samples come in ascending order, and
none of them is above any walker that is still alive. -/
theorem C52_samples_ascend_partial (e : Env α σ) (he : OnlyAsked e) (o : Opts)
    (hmax : o.maxsize = none) (s0 s : St α σ) (h0 : Fresh o s0) (hr : Reach e o s0 s) :
    (s.samples.items.map Sample.logL).Pairwise (· ≤ ·) ∧
    ∀ x ∈ s.samples.items, ∀ w ∈ s.walkers.items, x.logL ≤ w.logL := by
  induction hr with
  | refl => obtain ⟨wl, low, r, hl, rfl⟩ := h0; simp [initState]
  | @step s s' _ _ hb ih =>
    obtain ⟨hsort, hbelow⟩ := ih
    obtain ⟨h1, hl, hlt, w, wl1, r1, hw, hlow, hit, hc, hx, s1, hs1, hs, hz, hi, hwd, hdz⟩ :=
      body_spec e o _ _ hb
    obtain ⟨_, habove, _, _⟩ := body_above e he o _ _ hb
    have hsam : s'.samples = s1.samples := by rw [hs, hmax]; rfl
    have hLs : s'.samples.items.map Sample.logL = s.samples.items.map Sample.logL ++
        ((sortWalkers s.walkers).items.take o.discard).map Walker.logL := by
      rw [hsam, hs1, evLoop_logL]
    have hmem : ∀ v, v ∈ (sortWalkers s.walkers).items ↔ v ∈ s.walkers.items := by
      intro v; simp [sortWalkers]
    have htake : ∀ v ∈ (sortWalkers s.walkers).items.take o.discard, v.logL ≤ w.logL := by
      intro v hv
      obtain ⟨i, hi⟩ := List.mem_iff_getElem?.1 hv
      rw [List.getElem?_take] at hi
      split at hi
      · exact sort_above s.walkers i v hi _ _ (by omega) hw
      · exact absurd hi (by simp)
    constructor
    · rw [hLs, List.pairwise_append]
      refine ⟨hsort, ?_, ?_⟩
      · have := sort_pairwise s.walkers
        rw [List.map_take]
        exact this.sublist (List.take_sublist _ _)
      · intro a ha b hb
        obtain ⟨x, hx, rfl⟩ := List.mem_map.1 ha
        obtain ⟨v, hv, rfl⟩ := List.mem_map.1 hb
        exact hbelow x hx v ((hmem v).1 (List.mem_of_mem_take hv))
    · have : ∀ l ∈ s'.samples.items.map Sample.logL, l ≤ w.logL := by
        intro l hl
        rw [hLs] at hl
        rcases List.mem_append.1 hl with h | h
        · obtain ⟨x, hx, rfl⟩ := List.mem_map.1 h
          exact hbelow x hx w ((hmem w).1 (List.mem_of_getElem? hw))
        · obtain ⟨v, hv, rfl⟩ := List.mem_map.1 h
          exact htake v hv
      intro x hx v hv
      refine (this _ (List.mem_map_of_mem hx)).trans ?_
      rw [← hlow]
      exact habove v hv

/-! ## C51: a second call -/

/-- The state at the start of a call of `sample` on a sampler whose sample list holds `old`. -/
def Called (o : Opts) (old : SampleList α) (s : St α σ) : Prop :=
  ∃ wl low it r, wl.items.length = o.ensemble ∧ s = initState o wl low old it r

/-- A second call of `sample` does not start with an empty list of samples: the samples of the
first call stay in front and take part in the normalisation of the weights, while the evidence
only counts the new ones. -/
theorem C51_counterexample (e : Env α σ) (o : Opts) (hmax : o.maxsize = none)
    (old : SampleList α) (s0 s s' : St α σ) (h0 : Called o old s0) (hr : Reach e o s0 s)
    (hf : updateEvidence o o.ensemble s = some s') :
    ∃ new, s'.samples.items = old.items ++ new ∧ evidenceZ s' = totalWeight new ∧
      totalWeight s'.samples.items = totalWeight old.items + evidenceZ s' := by
  have hloop : ∀ (ws : List (Walker α ℝ)) (kw : ℕ) (t : St α σ),
      (∃ new, t.samples.items = old.items ++ new ∧ evidenceZ t = totalWeight new) →
      ∃ new, (evLoop o kw ws t).samples.items = old.items ++ new ∧
        evidenceZ (evLoop o kw ws t) = totalWeight new := by
    intro ws
    induction ws with
    | nil => intro kw t h; exact h
    | cons w ws ih =>
      intro kw t ⟨new, h1, h2⟩
      simp only [evLoop]
      apply ih
      refine ⟨new ++ [{ toSample w (t.logWidth + w.logL) with
        parent := (toSample w (t.logWidth + w.logL)).id, id := t.samples.count }], ?_, ?_⟩
      · simp [evStep, SampleList.add, h1]
      · rw [evidence_step, h2]
        simp [totalWeight, toSample]
  have hreach : ∃ new, s.samples.items = old.items ++ new ∧ evidenceZ s = totalWeight new := by
    clear hf
    induction hr with
    | refl =>
      obtain ⟨wl, low, it, r, hl, rfl⟩ := h0
      exact ⟨[], by simp [initState], by simp [evidenceZ, initState, totalWeight]⟩
    | @step s s' _ _ hb ih =>
      obtain ⟨_, _, _, w, wl1, r1, _, _, _, _, _, s1, hs1, hs, hz, _⟩ := body_spec e o _ _ hb
      obtain ⟨new, h1, h2⟩ := hloop ((sortWalkers s.walkers).items.take o.discard) 0
        { s with walkers := sortWalkers s.walkers, lowLhood := w.logL } ih
      rw [← hs1] at h1 h2
      refine ⟨new, ?_, ?_⟩
      · rw [hs, hmax]; exact h1
      · simpa [evidenceZ, hz] using h2
  simp only [updateEvidence] at hf
  split at hf
  · exact absurd hf (by simp)
  · obtain rfl := Option.some.inj hf
    obtain ⟨new, h1, h2⟩ := hloop (s.walkers.items.take o.ensemble) 0 s hreach
    refine ⟨new, h1, h2, ?_⟩
    rw [h1, h2]
    simp [totalWeight]

/-- Only on a sampler that holds no samples are the weights of the final list those of this call:
their sum is the evidence. -/
theorem C51_first_call_partial (e : Env α σ) (o : Opts) (hmax : o.maxsize = none)
    (s0 s s' : St α σ) (h0 : Called o ⟨[], 0⟩ s0) (hr : Reach e o s0 s)
    (hf : updateEvidence o o.ensemble s = some s') :
    evidenceZ s' = totalWeight s'.samples.items := by
  obtain ⟨new, _, _, h⟩ := C51_counterexample e o hmax ⟨[], 0⟩ s0 s s' h0 hr hf
  simpa [totalWeight] using h.symm

/-! ## C50: the information after the last update -/

theorem evLoop_info (o : Opts) : ∀ (ws : List (Walker α ℝ)) (kw : ℕ) (s : St α σ),
    (∀ w ∈ ws, s.lowLhood ≤ w.logL) →
    evidenceZ (evLoop o kw ws s) * ((evLoop o kw ws s).info + (evLoop o kw ws s).logZ.getD 0)
        - weightedLogL (evLoop o kw ws s).samples.items
      ≤ evidenceZ s * (s.info + s.logZ.getD 0) - weightedLogL s.samples.items ∧
    ((∃ w ∈ ws, s.lowLhood < w.logL) →
      evidenceZ (evLoop o kw ws s) * ((evLoop o kw ws s).info + (evLoop o kw ws s).logZ.getD 0)
          - weightedLogL (evLoop o kw ws s).samples.items
        < evidenceZ s * (s.info + s.logZ.getD 0) - weightedLogL s.samples.items) := by
  intro ws
  induction ws with
  | nil => intro kw s _; simp [evLoop]
  | cons w ws ih =>
    intro kw s hw
    simp only [evLoop]
    obtain ⟨h1, h2⟩ := ih (kw + 1) (evStep o kw w s) fun v hv => hw v (by simp [hv])
    have hstep := info_step o kw w s
    have hwl : weightedLogL (evStep o kw w s).samples.items = weightedLogL s.samples.items
        + Real.exp (s.logWidth + w.logL) * w.logL := by
      simp [weightedLogL, evStep, SampleList.add, toSample]
    have hle := mul_le_mul_of_nonneg_left (hw w (by simp)) (Real.exp_pos (s.logWidth + w.logL)).le
    refine ⟨by linarith, ?_⟩
    rintro ⟨v, hv, hlt⟩
    rcases List.mem_cons.1 hv with rfl | hv
    · have := mul_lt_mul_of_pos_left hlt (Real.exp_pos (s.logWidth + v.logL))
      linarith
    · have := h2 ⟨v, hv, hlt⟩
      linarith

/-- The last update books the remaining walkers with the likelihood floor of the last iteration
instead of their own likelihood, so the information reported at the end is too low as soon as one
of them is above that floor. -/
theorem C50_counterexample (e : Env α σ) (he : OnlyAsked e) (o : Opts) (hmax : o.maxsize = none)
    (hd1 : o.discard = 1) (hN : 0 < o.ensemble) (s0 s1 s s' : St α σ) (h0 : Fresh o s0)
    (hr1 : Reach e o s0 s1) (hn1 : nextIteration o s1 = true) (hb : body e o s1 = some s)
    (habove : ∃ w ∈ s.walkers.items, s.lowLhood < w.logL)
    (hf : updateEvidence o o.ensemble s = some s') (z : ℝ) (hz : s'.logZ = some z) :
    s'.info < weightedLogL s'.samples.items / totalWeight s'.samples.items - z := by
  have hr : Reach e o s0 s := Reach.step hr1 hn1 hb
  have hZ := (C04_final_evidence_is_sum e o hmax hN s0 s s' h0 hr hf).1
  have hlen1 := (body_above e he o s1 s hb).1
  have hab := (body_above e he o s1 s hb).2.1
  have hlen : s.walkers.items.length = o.ensemble := by
    rw [hlen1]
    clear hz hZ hab hf habove hb hn1 hr hlen1
    induction hr1 with
    | refl => obtain ⟨wl, low, r, hl, rfl⟩ := h0; exact hl
    | step _ _ hb ih => exact (body_above e he o _ _ hb).1.trans ih
  simp only [updateEvidence] at hf
  split at hf
  · exact absurd hf (by simp)
  · obtain rfl := Option.some.inj hf
    rw [List.take_of_length_le (by omega)] at hz hZ ⊢
    have hlt := (evLoop_info o s.walkers.items 0 s hab).2 habove
    set t := evLoop o 0 s.walkers.items s with ht
    have hez : evidenceZ t = Real.exp z := by simp [evidenceZ, hz]
    have hbase : evidenceZ s * (s.info + s.logZ.getD 0) = weightedLogL s.samples.items := by
      have hsz : s.logZ ≠ none := by
        obtain ⟨_, hl, _, w, wl1, r1, hw, _, _, _, _, s2, hs2, _, hzz, _⟩ := body_spec e o _ _ hb
        rw [hzz, hs2, hd1]
        cases hcs : (sortWalkers s1.walkers).items with
        | nil => rw [hd1, hcs] at hw; exact absurd hw (by simp)
        | cons v vs => simp [evLoop, evStep]
      obtain ⟨y, hy⟩ := Option.ne_none_iff_exists'.1 hsz
      have hinfo := C50_information_partial e o hmax hd1 hN s0 s h0 hr y hy
      have hZs := (C04_evidence_is_sum e o hmax hN s0 s h0 hr).1
      have hey : evidenceZ s = Real.exp y := by simp [evidenceZ, hy]
      rw [hinfo, ← hZs, hey, hy]
      have := Real.exp_pos y
      simp only [Option.getD]
      field_simp
      ring
    rw [hbase, hz, hez] at hlt
    simp only [Option.getD] at hlt
    rw [← hZ, hez, lt_sub_iff_add_lt, lt_div_iff₀ (Real.exp_pos z)]
    linarith

/-! ## Concrete runs: the hypotheses of the theorems are met -/

/-- An environment with one engine, which lifts the asked walker to 7. -/
noncomputable def demoEnv : Env ℕ Unit where
  randint r := (0, r)
  permutation r := ([0], r)
  execute _ r wl kw _ :=
    match wl.items[kw]? with
    | none => none
    | some w => some ({ wl with items := wl.items.set kw { w with logL := 7 } }, 1, r)
  logLcheck _ := true

noncomputable def demoOpts (n d : ℕ) : Opts where
  ensemble := n
  discard := d
  minimumIterations := 1
  maxIterations := none
  tolerance := -12
  «end» := 2
  maxsize := none
  maxmoves := 1
  maxtrials := 5

noncomputable def demoStart : St ℕ Unit :=
  initState (demoOpts 3 1) ⟨[⟨0, -1, 0, 0, [10], 2⟩, ⟨1, -1, 0, 0, [11], 1⟩, ⟨2, -1, 0, 0, [12], 3⟩], 3⟩
    0 ⟨[], 0⟩ 0 ()

noncomputable def demoStart2 : St ℕ Unit :=
  initState (demoOpts 3 2) ⟨[⟨0, -1, 0, 0, [10], 2⟩, ⟨1, -1, 0, 0, [11], 1⟩, ⟨2, -1, 0, 0, [12], 3⟩], 3⟩
    0 ⟨[], 0⟩ 0 ()

theorem demo_fresh : Fresh (demoOpts 3 1) demoStart := ⟨_, _, _, rfl, rfl⟩

theorem demo_fresh2 : Fresh (demoOpts 3 2) demoStart2 := ⟨_, _, _, rfl, rfl⟩

theorem demo_onlyAsked : OnlyAsked demoEnv := by
  intro g r wl kw low wl' mv r' h
  simp only [demoEnv] at h
  split at h
  · exact absurd h (by simp)
  · simp only [Option.some.injEq, Prod.mk.injEq] at h
    obtain ⟨rfl, _⟩ := h
    refine ⟨by simp, fun i hi => ?_⟩
    rw [List.getElem?_set, if_neg (fun h => hi h.symm)]

theorem demo_bounded : BoundedBy demoEnv 7 := by
  intro g r wl kw low wl' mv r' h hb w hw
  simp only [demoEnv] at h
  split at h
  · exact absurd h (by simp)
  · simp only [Option.some.injEq, Prod.mk.injEq] at h
    obtain ⟨rfl, _⟩ := h
    rcases List.mem_or_eq_of_mem_set hw with h | h
    · exact hb w h
    · rw [h]

theorem demo_next : nextIteration (demoOpts 3 1) demoStart = true := by
  simp [nextIteration, demoOpts, demoStart, initState]

theorem demo_sorted : (sortWalkers demoStart.walkers).items =
    [⟨1, -1, 0, 0, [11], 1⟩, ⟨0, -1, 0, 0, [10], 2⟩, ⟨2, -1, 0, 0, [12], 3⟩] := by
  simp [sortWalkers, demoStart, initState, List.insertionSort, List.orderedInsert]
  norm_num

theorem demo_sorted2 : (sortWalkers demoStart2.walkers).items =
    [⟨1, -1, 0, 0, [11], 1⟩, ⟨0, -1, 0, 0, [10], 2⟩, ⟨2, -1, 0, 0, [12], 3⟩] := demo_sorted

/-- One iteration succeeds; afterwards the replaced walker is at 7 and one sample is stored. -/
theorem demo_body : ∃ s', body demoEnv (demoOpts 3 1) demoStart = some s' ∧
    s'.walkers.items.map Walker.logL = [7, 2, 3] ∧ s'.lowLhood = 1 ∧ s'.iteration = 1 ∧
    s'.samples.items.map Sample.logL = [1] := by
  have h7 : ¬ (7 : ℝ) < 1 := by norm_num
  refine ⟨_, by
    simp only [body, demo_sorted]
    simp [demoOpts, updateEvidence, demo_sorted, updateWalkers, copyWalker, copyLoop, evLoop, evStep,
      demoEnv, WalkerList.copy, explore, exploreWalker, trialLoop, engineRound, SampleList.weed, h7]
    rfl, ?_⟩
  simp [demoStart, initState, SampleList.add, toSample]

theorem demo_body2 : ∃ s', body demoEnv (demoOpts 3 2) demoStart2 = some s' := by
  have h7 : ¬ (7 : ℝ) < 2 := by norm_num
  refine ⟨_, by
    simp only [body, demo_sorted2]
    simp [demoOpts, updateEvidence, demo_sorted2, updateWalkers, copyWalker, copyLoop, evLoop,
      evStep, demoEnv, WalkerList.copy, explore, exploreWalker, trialLoop, engineRound,
      SampleList.weed, h7, List.range_succ]
    rfl⟩

/-- A state is reachable in one iteration, and the run can be finished from there: the hypotheses
of C04, C05, C07, C08, C49, C50 are met together. -/
theorem demo_run : ∃ s s', Reach demoEnv (demoOpts 3 1) demoStart s ∧
    body demoEnv (demoOpts 3 1) demoStart = some s ∧
    finish (demoOpts 3 1) s = some s' ∧ (s.logZ ≠ none) ∧
    s'.samples.items.map Sample.logL = [1, 7, 2, 3] := by
  obtain ⟨s, hb, hw, hl, hi, hs⟩ := demo_body
  have hlen : s.walkers.items.length = 3 := by
    have := congrArg List.length hw
    simpa using this
  have hu : updateEvidence (demoOpts 3 1) 3 s = some (evLoop (demoOpts 3 1) 0 s.walkers.items s) := by
    simp only [updateEvidence, hlen]
    simp [List.take_of_length_le, hlen]
  have hL := evLoop_logL (demoOpts 3 1) s.walkers.items 0 s
  rw [hs, hw] at hL
  have hne : (evLoop (demoOpts 3 1) 0 s.walkers.items s).samples.items ≠ [] := by
    intro h; rw [h] at hL; exact absurd hL (by simp)
  obtain ⟨sl, hsl⟩ := Option.ne_none_iff_exists'.1
    (fun h => hne ((C06_normalize_defined _).1 h) :
      (evLoop (demoOpts 3 1) 0 s.walkers.items s).samples.normalize ≠ none)
  have hn := normalize_logL _ _ hsl
  refine ⟨s, { (evLoop (demoOpts 3 1) 0 s.walkers.items s) with samples := sl },
    Reach.step Reach.refl demo_next hb, hb, ?_, ?_, ?_⟩
  · have : (demoOpts 3 1).ensemble = 3 := rfl
    simp only [finish, this, hu, hsl]
  · obtain ⟨_, _, _, h⟩ := stop_reach demoEnv (demoOpts 3 1) 0 7 demo_bounded demoStart s demo_fresh
      (by simp [demoStart, initState]) (by simp [demoStart, initState]; norm_num)
      (Reach.step Reach.refl demo_next hb)
    exact h (by omega)
  · rw [hn, hL]; rfl

/-- The last sample of a run, which the code takes for the one with the maximum likelihood, need
not have the highest likelihood: the remaining walkers are stored unsorted. -/
theorem C52_counterexample : ∃ s s', Reach demoEnv (demoOpts 3 1) demoStart s ∧
    finish (demoOpts 3 1) s = some s' ∧
    ∃ x ∈ s'.samples.items, ∃ y, s'.samples.items.getLast? = some y ∧ y.logL < x.logL := by
  obtain ⟨s, s', hr, _, hf, _, hL⟩ := demo_run
  refine ⟨s, s', hr, hf, ?_⟩
  have hlast : (s'.samples.items.map Sample.logL).getLast? = some 3 := by rw [hL]; rfl
  have hseven : (7 : ℝ) ∈ s'.samples.items.map Sample.logL := by rw [hL]; simp
  obtain ⟨x, hx, hx7⟩ := List.mem_map.1 hseven
  rw [List.getLast?_map, Option.map_eq_some_iff] at hlast
  obtain ⟨y, hy, hy3⟩ := hlast
  exact ⟨x, hx, y, hy, by rw [hx7, hy3]; norm_num⟩

example : ∃ s, Fresh (demoOpts 3 2) demoStart2 ∧ body demoEnv (demoOpts 3 2) demoStart2 = some s ∧
    totalShare s.samples.items + remaining (demoOpts 3 2) s < 1 := by
  obtain ⟨s, hs⟩ := demo_body2
  exact ⟨s, demo_fresh2, hs, C49_counterexample _ rfl rfl demoEnv _ _ demo_fresh2 hs⟩

/-- The final information of the demonstration run is too low. -/
example : ∃ (s' : St ℕ Unit) (z : ℝ), s'.logZ = some z ∧
    s'.info < weightedLogL s'.samples.items / totalWeight s'.samples.items - z := by
  obtain ⟨s, hb, hw, hl, hi, hs⟩ := demo_body
  have hlen : s.walkers.items.length = 3 := by
    have := congrArg List.length hw
    simpa using this
  have hu : updateEvidence (demoOpts 3 1) 3 s = some (evLoop (demoOpts 3 1) 0 s.walkers.items s) := by
    simp only [updateEvidence, hlen]
    simp [List.take_of_length_le, hlen]
  have hseven : (7 : ℝ) ∈ s.walkers.items.map Walker.logL := by rw [hw]; simp
  obtain ⟨x, hx, hx7⟩ := List.mem_map.1 hseven
  have hsome : ∃ z, (evLoop (demoOpts 3 1) 0 s.walkers.items s).logZ = some z := by
    match hc : s.walkers.items, hlen with
    | [a, b, c], _ => exact ⟨_, rfl⟩
  obtain ⟨z, hz⟩ := hsome
  exact ⟨_, z, hz, C50_counterexample demoEnv demo_onlyAsked _ rfl rfl (by simp [demoOpts]) _ _ _ _
    demo_fresh Reach.refl demo_next hb ⟨x, hx, by rw [hl, hx7]; norm_num⟩ hu z hz⟩

example : ∃ (s s' : St ℕ Unit) (z : ℝ), finish (demoOpts 3 1) s = some s' ∧ s'.logZ = some z ∧ z < 8 := by
  obtain ⟨s, s', hr, _, hf, _, hL⟩ := demo_run
  obtain ⟨z, hz, hM, _⟩ := C05_evidence_bounds demoEnv _ rfl (by simp [demoOpts]) _ _ _ demo_fresh hr hf
  refine ⟨s, s', z, hf, hz, hM 8 ?_⟩
  intro x hx
  have : x.logL ∈ s'.samples.items.map Sample.logL := List.mem_map_of_mem hx
  rw [hL] at this
  simp at this
  rcases this with h | h | h | h <;> rw [h] <;> norm_num

/-- The loop of the demonstration run ends. -/
example : ∃ n, ∀ t, loop demoEnv (demoOpts 3 1) n demoStart ≠ .running t :=
  ⟨_, C08_stops demoEnv _ (by simp [demoOpts]) 0 7 demo_bounded demoStart demo_fresh
    (by simp [demoStart, initState]) (by simp [demoStart, initState]; norm_num) _ (le_refl _)⟩

/-- A second call that starts from one old sample. -/
example : Called (demoOpts 3 1) ⟨[⟨0, 0, 0, [5], 1, 0⟩], 1⟩
    (initState (demoOpts 3 1) demoStart.walkers 0 ⟨[⟨0, 0, 0, [5], 1, 0⟩], 1⟩ 0 ()) :=
  ⟨_, _, _, _, rfl, rfl⟩

/-- A list that can be normalised. -/
example : (⟨[⟨0, 0, 0, [5], 1, 0⟩, ⟨1, 0, 0, [6], 1, 2⟩], 2⟩ : SampleList ℕ).normalize ≠ none := by
  rw [Ne, C06_normalize_defined]; simp

end Nested
end BF
