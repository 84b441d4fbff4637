import Verif.Props.Accuracy
import Verif.Props.PriorLaw

/-!
# The evidence is the integral of likelihood times prior (C123, C124)
-/

namespace BF.Props.EvidencePriors

open MeasureTheory BF.Nested BF.Priors BF.Props.Accuracy BF.Props.Shrink

variable {α σ : Type*}

/-- The points of the unit box that are mapped to parameters with a log likelihood above `l`. -/
def goodUnits {n : ℕ} (q : Fin n → Prior) (L : (Fin n → ℝ) → ℝ) (l : ℝ) : Set (Fin n → ℝ) :=
  {u | (∀ i, 0 ≤ u i ∧ u i < 1) ∧ l < L fun i => value (q i) (u i)}

/-- The distribution of the parameters of which the density is the product of the densities of the priors. -/
noncomputable def priorOf {n : ℕ} (q : Fin n → Prior) : Measure (Fin n → ℝ) :=
  volume.withDensity fun x => ∏ i, ENNReal.ofReal (density (q i) (x i))

theorem measurable_product {n : ℕ} (q : Fin n → Prior) :
    Measurable fun x : Fin n → ℝ => ∏ i, ENNReal.ofReal (density (q i) (x i)) :=
  Finset.measurable_prod _ fun i _ => ((density_measurable (q i)).ennreal_ofReal).comp (measurable_pi_apply i)

theorem priorOf_lintegral {n : ℕ} (q : Fin n → Prior) (h : ∀ i, Ready (q i)) (g : (Fin n → ℝ) → ENNReal)
    (hg : Measurable g) : ∫⁻ x, g x ∂(priorOf q)
      = ∫⁻ u in {u : Fin n → ℝ | ∀ i, 0 ≤ u i ∧ u i < 1}, g fun i => value (q i) (u i) := by
  rw [C124_all_partial q h g hg, priorOf, lintegral_withDensity_eq_lintegral_mul _ (measurable_product q) hg]
  rfl

theorem box_volume (n : ℕ) : volume {u : Fin n → ℝ | ∀ i, 0 ≤ u i ∧ u i < 1} = 1 := by
  have : {u : Fin n → ℝ | ∀ i, 0 ≤ u i ∧ u i < 1} = Set.univ.pi fun _ => Set.Ico (0 : ℝ) 1 := by
    ext u; simp [Set.mem_pi]
  rw [this, Real.volume_pi_Ico]
  simp

theorem priorOf_prob {n : ℕ} (q : Fin n → Prior) (h : ∀ i, Ready (q i)) : IsProbabilityMeasure (priorOf q) := by
  refine ⟨?_⟩
  have := priorOf_lintegral q h (fun _ => 1) measurable_const
  simp only [lintegral_one, Measure.restrict_apply_univ] at this
  rw [this, box_volume]

theorem box_measurable (n : ℕ) : MeasurableSet {u : Fin n → ℝ | ∀ i, 0 ≤ u i ∧ u i < 1} := by
  have : {u : Fin n → ℝ | ∀ i, 0 ≤ u i ∧ u i < 1} = Set.univ.pi fun _ => Set.Ico (0 : ℝ) 1 := by
    ext u; simp [Set.mem_pi]
  rw [this]
  exact MeasurableSet.univ_pi fun _ => measurableSet_Ico

theorem volume_good {n : ℕ} (q : Fin n → Prior) (h : ∀ i, Ready (q i)) (L : (Fin n → ℝ) → ℝ) (hL : Measurable L)
    (l : ℝ) : volumeAbove (priorOf q) L l = (volume (goodUnits q L l)).toReal := by
  have hs : MeasurableSet {θ | l < L θ} := measurableSet_lt measurable_const hL
  rw [volumeAbove, ← lintegral_indicator_one hs, priorOf_lintegral q h _ (measurable_one.indicator hs)]
  congr 1
  have hm : AEMeasurable (fun (u : Fin n → ℝ) (i : Fin n) => value (q i) (u i))
      (volume.restrict {u : Fin n → ℝ | ∀ i, 0 ≤ u i ∧ u i < 1}) := by
    have hbox : {u : Fin n → ℝ | ∀ i, 0 ≤ u i ∧ u i < 1} = Set.univ.pi fun _ => Set.Ico (0 : ℝ) 1 := by
      ext u; simp [Set.mem_pi]
    rw [hbox, volume_pi, Measure.restrict_pi_pi]
    exact aemeasurable_pi_lambda _ fun i =>
      (ready_aemeasurable (q i) (h i)).comp_quasiMeasurePreserving (Measure.quasiMeasurePreserving_eval _ i)
  have hn : NullMeasurableSet {u : Fin n → ℝ | l < L fun i => value (q i) (u i)}
      (volume.restrict {u : Fin n → ℝ | ∀ i, 0 ≤ u i ∧ u i < 1}) := hm.nullMeasurable hs
  have e : (fun u : Fin n → ℝ => Set.indicator {θ | l < L θ} (1 : (Fin n → ℝ) → ENNReal) fun i => value (q i) (u i))
      = Set.indicator {u : Fin n → ℝ | l < L fun i => value (q i) (u i)} 1 := by
    funext u
    rfl
  rw [e, lintegral_indicator_one₀ hn, Measure.restrict_apply₀ hn]
  congr 1
  ext u
  simp only [goodUnits, Set.mem_inter_iff, Set.mem_setOf_eq]
  exact and_comm

theorem product_density {n : ℕ} (q : Fin n → Prior) (h : ∀ i, Ready (q i)) (L : (Fin n → ℝ) → ℝ) (hL : Measurable L) :
    ∫ θ, Real.exp (L θ) ∂(priorOf q) = ∫ x : Fin n → ℝ, (∏ i, density (q i) (x i)) * Real.exp (L x) := by
  have hnn : ∀ᵐ x : Fin n → ℝ, ∀ i, 0 ≤ density (q i) (x i) := by
    rw [ae_all_iff]
    intro i
    exact (Measure.quasiMeasurePreserving_eval (fun _ : Fin n => (volume : Measure ℝ)) i).ae
      (density_nonneg (q i) (h i))
  have e := integral_withDensity_eq_integral_toReal_smul (μ := (volume : Measure (Fin n → ℝ)))
    (measurable_product q) (Filter.Eventually.of_forall fun x => ENNReal.prod_lt_top fun i _ => ENNReal.ofReal_lt_top)
    fun θ => Real.exp (L θ)
  rw [priorOf, e]
  apply integral_congr_ae
  filter_upwards [hnn] with x hx
  rw [ENNReal.toReal_prod, smul_eq_mul]
  congr 1
  exact Finset.prod_congr rfl fun i _ => ENNReal.toReal_ofReal (hx i)

/-- **A complete run with given priors and likelihood.** When the volumes in the unit box are as the sampler
assumes within a factor `exp δ`, the evidence of the run is the integral of likelihood times prior densities, up
to a factor `exp (δ + 1/N)` and the highest likelihood times the volume that was left. -/
theorem C123_priors {n : ℕ} (q : Fin n → Prior) (h : ∀ i, Ready (q i))
    (L : (Fin n → ℝ) → ℝ) (hL : Measurable L) (M : ℝ) (hM : ∀ θ, L θ ≤ M)
    (e : Env α σ) (he : OnlyAsked e) (o : Opts) (hmax : o.maxsize = none) (hd : o.discard = 1)
    (hN : 0 < o.ensemble) (s0 s s' : St α σ) (h0 : Fresh o s0) (hr : Reach e o s0 s) (hf : finish o s = some s')
    (hreal : ∀ x ∈ s.samples.items, ∃ θ, L θ = x.logL) (hleft : ∀ w ∈ s.walkers.items, ∃ θ, L θ = w.logL)
    (δ : ℝ) (hδ : 0 ≤ δ)
    (hvol : ∀ (j : ℕ) (x : Sample α), s.samples.items[j]? = some x →
      Real.exp (-δ) * Real.exp (-((j : ℝ) + 1) / o.ensemble) ≤ (volume (goodUnits q L x.logL)).toReal ∧
      (volume (goodUnits q L x.logL)).toReal ≤ Real.exp δ * Real.exp (-((j : ℝ) + 1) / o.ensemble)) :
    Real.exp (-(δ + 1 / o.ensemble)) * (evidenceZ s' - Real.exp M * Real.exp (-(s.iteration : ℝ) / o.ensemble))
      ≤ ∫ x : Fin n → ℝ, (∏ i, density (q i) (x i)) * Real.exp (L x) ∧
    ∫ x : Fin n → ℝ, (∏ i, density (q i) (x i)) * Real.exp (L x)
      ≤ Real.exp δ * (evidenceZ s' + Real.exp M * Real.exp (-(s.iteration : ℝ) / o.ensemble)) := by
  haveI := priorOf_prob q h
  rw [← product_density q h L hL]
  refine C123_final (priorOf q) L hL M hM e he o hmax hd hN s0 s s' h0 hr hf hreal hleft δ hδ fun j x hx => ?_
  rw [volume_good q h L hL]
  exact hvol j x hx

/-! The hypotheses are met, without error in the volumes, by the demonstration run of three walkers after one
iteration, for one parameter with a uniform prior between 0 and 2. -/

noncomputable def oneUniform : Fin 1 → Prior := fun _ => between .uniform 0 1 none 0 2 0 2

noncomputable def fourLevels (x : Fin 1 → ℝ) : ℝ :=
  if x 0 < 0.1 then 7 else if x 0 < 0.2 then 3 else if x 0 < 2 * Real.exp (-1 / 3) then 2 else 1

theorem exp_third : (1 / 2 : ℝ) < Real.exp (-1 / 3) ∧ Real.exp (-1 / 3) < 1 := by
  constructor
  · have := Real.add_one_le_exp (-1 / 3 : ℝ)
    linarith
  · rw [Real.exp_lt_one_iff]; norm_num

theorem fourLevels_good : volume (goodUnits oneUniform fourLevels 1) = ENNReal.ofReal (Real.exp (-1 / 3)) := by
  obtain ⟨e1, e2⟩ := exp_third
  have hv : ∀ u : ℝ, value (between .uniform 0 1 none 0 2 0 2) u = 2 * u := by
    intro u
    simp only [value, Prior.unit2Domain, between, Prior.limitU, start, Kind.inv, if_true, Option.getD_some]
    ring
  have : goodUnits oneUniform fourLevels 1 = Set.univ.pi fun _ => Set.Ico (0 : ℝ) (Real.exp (-1 / 3)) := by
    ext u
    simp only [goodUnits, oneUniform, fourLevels, hv, Set.mem_setOf_eq, Set.mem_pi, Set.mem_univ, true_implies,
      Set.mem_Ico, Fin.forall_fin_one]
    constructor
    · rintro ⟨⟨h0, h1⟩, h⟩
      refine ⟨h0, ?_⟩
      by_contra hc
      push Not at hc
      rw [if_neg (by linarith), if_neg (by linarith), if_neg (by linarith)] at h
      exact absurd h (lt_irrefl _)
    · rintro ⟨h0, h1⟩
      refine ⟨⟨h0, by linarith⟩, ?_⟩
      split_ifs with a b
      · norm_num
      · norm_num
      · norm_num
      · linarith
  rw [this, Real.volume_pi_Ico]
  simp

example : ∃ s s' : St ℕ Unit, finish (demoOpts 3 1) s = some s' ∧
    Real.exp (-(0 + 1 / (3 : ℝ))) * (evidenceZ s' - Real.exp 7 * Real.exp (-1 / 3))
      ≤ ∫ x : Fin 1 → ℝ, (∏ i, density (oneUniform i) (x i)) * Real.exp (fourLevels x) := by
  obtain ⟨e1, e2⟩ := exp_third
  obtain ⟨s, s', hr, hb, hf, _⟩ := demo_run
  obtain ⟨t, ht, hw, _, hit, hs⟩ := demo_body
  obtain rfl : s = t := Option.some.inj (hb.symm.trans ht)
  have hL : Measurable fourLevels := by
    unfold fourLevels
    refine Measurable.ite ?_ measurable_const (Measurable.ite ?_ measurable_const
      (Measurable.ite ?_ measurable_const measurable_const)) <;>
    exact measurableSet_lt (measurable_pi_apply 0) measurable_const
  have hM : ∀ x, fourLevels x ≤ 7 := by
    intro x
    unfold fourLevels
    split_ifs <;> norm_num
  have hval : fourLevels (fun _ => 0) = 7 ∧ fourLevels (fun _ => 0.1) = 3 ∧ fourLevels (fun _ => 0.5) = 2 ∧
      fourLevels (fun _ => 3) = 1 := by
    refine ⟨?_, ?_, ?_, ?_⟩ <;> simp only [fourLevels]
    · norm_num
    · norm_num
    · rw [if_neg (by norm_num), if_neg (by norm_num), if_pos (by linarith)]
    · rw [if_neg (by norm_num), if_neg (by norm_num), if_neg (by linarith)]
  have hone : ∀ (j : ℕ) (x : Sample ℕ), s.samples.items[j]? = some x → j = 0 ∧ x.logL = 1 := by
    intro j x hx
    have h1 : (s.samples.items.map Sample.logL)[j]? = some x.logL := by rw [List.getElem?_map, hx]; rfl
    rw [hs] at h1
    rcases j with _ | j
    · exact ⟨rfl, (Option.some.inj h1).symm⟩
    · simp at h1
  have key := C123_priors oneUniform (fun _ => ready_uniform) fourLevels hL 7 hM demoEnv demo_onlyAsked (demoOpts 3 1)
    rfl rfl (by simp [demoOpts]) demoStart s s' demo_fresh hr hf
    (fun x hx => by
      obtain ⟨j, hj⟩ := List.mem_iff_getElem?.1 hx
      exact ⟨_, by rw [(hone j x hj).2]; exact hval.2.2.2⟩)
    (fun w hw' => by
      have : w.logL ∈ s.walkers.items.map Walker.logL := List.mem_map_of_mem hw'
      rw [hw] at this
      simp only [List.mem_cons, List.not_mem_nil, or_false] at this
      rcases this with h | h | h <;> rw [h]
      · exact ⟨_, hval.1⟩
      · exact ⟨_, hval.2.2.1⟩
      · exact ⟨_, hval.2.1⟩) 0 (le_refl _)
    (fun j x hx => by
      obtain ⟨rfl, hl⟩ := hone j x hx
      rw [hl, fourLevels_good, ENNReal.toReal_ofReal (Real.exp_pos _).le]
      simp [demoOpts])
  refine ⟨s, s', hf, ?_⟩
  have h3 : ((demoOpts 3 1).ensemble : ℝ) = 3 := by simp [demoOpts]
  rw [hit, h3] at key
  simpa using key.1

end BF.Props.EvidencePriors
