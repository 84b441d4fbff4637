import Verif.PriorSlope
import Verif.Props.PriorsMore
import Verif.Props.PriorsCirc

/-!
# The numeric derivatives of a prior (C149)
-/

namespace BF.Priors

open Real Filter Topology

noncomputable section

/-! ## Specification -/

/-- The whole of `x - d` to `x + d` is between the limits of the prior. -/
def Clear (q : Prior) (x d : ℝ) : Prop :=
  q.low < ((x - d : ℝ) : EReal) ∧ ((x + d : ℝ) : EReal) < q.high

/-! ## The symmetric difference -/

theorem central_tendsto (f : ℝ → ℝ) (g x : ℝ) (h : HasDerivAt f g x) (e : ℝ) (he : 0 < e) :
    ∃ d0 > 0, ∀ d, 0 < d → d < d0 → |(f (x + d) - f (x - d)) / (2 * d) - g| < e := by
  have h1 := hasDerivAt_iff_isLittleO_nhds_zero.1 h
  have h2 := h1.def (show (0 : ℝ) < e / 2 by linarith)
  obtain ⟨r, hr, hb⟩ := Metric.eventually_nhds_iff.1 h2
  refine ⟨r, hr, fun d hd hdr => ?_⟩
  have a := hb (y := d) (by simpa [abs_of_pos hd] using hdr)
  have b := hb (y := -d) (by simpa [abs_of_pos hd] using hdr)
  simp only [Real.norm_eq_abs, smul_eq_mul, abs_neg, abs_of_pos hd] at a b
  have e1 : (f (x + d) - f (x - d)) / (2 * d) - g
      = ((f (x + d) - f x - d * g) - (f (x + -d) - f x - -d * g)) / (2 * d) := by
    rw [← sub_eq_add_neg]
    field_simp
    ring
  rw [e1, abs_div, abs_of_pos (show 0 < 2 * d by linarith), div_lt_iff₀ (by linarith)]
  have := abs_sub (f (x + d) - f x - d * g) (f (x + -d) - f x - -d * g)
  nlinarith

theorem clear_small (q : Prior) (x : ℝ) (h1 : q.low < x) (h2 : (x : EReal) < q.high) :
    ∃ d0 > 0, ∀ d, 0 < d → d < d0 → Clear q x d := by
  obtain ⟨a, ha1, ha2⟩ := EReal.lt_iff_exists_real_btwn.1 h1
  obtain ⟨b, hb1, hb2⟩ := EReal.lt_iff_exists_real_btwn.1 h2
  rw [EReal.coe_lt_coe_iff] at ha2 hb1
  refine ⟨min (x - a) (b - x), lt_min (by linarith) (by linarith), fun d hd hdm => ?_⟩
  rw [lt_min_iff] at hdm
  exact ⟨ha1.trans (EReal.coe_lt_coe_iff.2 (by linarith)),
    (EReal.coe_lt_coe_iff.2 (by linarith)).trans hb2⟩

theorem clear_sides (q : Prior) (x d : ℝ) (hd : 0 < d) (h : Clear q x d) :
    (q.low < ((x - d : ℝ) : EReal) ∧ ((x - d : ℝ) : EReal) < q.high) ∧
    (q.low < (x : EReal) ∧ (x : EReal) < q.high) ∧
    (q.low < ((x + d : ℝ) : EReal) ∧ ((x + d : ℝ) : EReal) < q.high) := by
  have a : ((x - d : ℝ) : EReal) < (x : EReal) := EReal.coe_lt_coe_iff.2 (by linarith)
  have b : (x : EReal) < ((x + d : ℝ) : EReal) := EReal.coe_lt_coe_iff.2 (by linarith)
  exact ⟨⟨h.1, (a.trans b).trans h.2⟩, ⟨h.1.trans a, b.trans h.2⟩, ⟨(h.1.trans a).trans b, h.2⟩⟩

/-! ## C149 -/

/-- C149. The numeric derivative of the map to the unit range comes as close to the density as one likes
when `deltaP` is small, at every point between the limits. -/
theorem C149_density (q : Prior) (h : Fresh q) (hp : Proper q) (x : ℝ) (h1 : q.low < x)
    (h2 : (x : EReal) < q.high) (e : ℝ) (he : 0 < e) :
    ∃ d0 > 0, ∀ d, 0 < d → d < d0 →
      ∃ v r, q.numPartialDomain2Unit d x = some v ∧ q.result x = some r ∧ |v - r| < e := by
  obtain ⟨_, f, hf, hr⟩ := C15_density_partial q h hp
  obtain ⟨r, hr1, _, hr2⟩ := hr x h1 h2
  obtain ⟨d1, hd1, hb⟩ := central_tendsto f r x hr2 e he
  obtain ⟨d2, hd2, hc⟩ := clear_small q x h1 h2
  refine ⟨min d1 d2, lt_min hd1 hd2, fun d hd hdm => ?_⟩
  rw [lt_min_iff] at hdm
  obtain ⟨m, _, p⟩ := clear_sides q x d hd (hc d hd hdm.2)
  refine ⟨_, r, ?_, hr1, hb d hd hdm.1⟩
  unfold Prior.numPartialDomain2Unit
  rw [hf _ p.1 p.2, hf _ m.1 m.2]

/-- C149. Between the limits, and not at the cusp of the Laplace prior, the numeric slope of the logarithm
comes as close to `partialLog` as one likes when `deltaP` is small. -/
theorem C149_slope (q : Prior) (h : Fresh q) (hp : Proper q) (x : ℝ) (h1 : q.low < x)
    (h2 : (x : EReal) < q.high) (hx : q.kind = .laplace → x ≠ q.center) (e : ℝ) (he : 0 < e) :
    ∃ d0 > 0, ∀ d, 0 < d → d < d0 →
      ∃ v g, q.numPartialLog d x = .num v ∧ q.partialLog x = some g ∧ |v - g| < e := by
  obtain ⟨L, hL, hr⟩ := C15_partialLog q h hp
  obtain ⟨g, hg1, hg2⟩ := hr x h1 h2 hx
  obtain ⟨d1, hd1, hb⟩ := central_tendsto L g x hg2 e he
  obtain ⟨d2, hd2, hc⟩ := clear_small q x h1 h2
  refine ⟨min d1 d2, lt_min hd1 hd2, fun d hd hdm => ?_⟩
  rw [lt_min_iff] at hdm
  obtain ⟨m, _, p⟩ := clear_sides q x d hd (hc d hd hdm.2)
  refine ⟨_, g, ?_, hg1, hb d hd hdm.1⟩
  unfold Prior.numPartialLog
  rw [if_neg (not_isOut q x h1 h2), hL _ p.1 p.2, hL _ m.1 m.2]
  rfl

/-- The log of the density of a proper prior between its limits. -/
theorem logResult_form (q : Prior) (h : Fresh q) (hp : Proper q) :
    ∃ c : ℝ, ∀ x : ℝ, q.low < x → (x : EReal) < q.high →
      (q.kind = .uniform → q.logResult x = some c) ∧
      (q.kind = .gauss →
        q.logResult x = some (c - 0.5 * ((x - q.center) / q.scale) * ((x - q.center) / q.scale))) ∧
      (q.kind = .laplace → q.logResult x = some (c - |(x - q.center) / q.scale|)) := by
  have hi := made_inv q h.made
  obtain ⟨a, b, ha, hb, hab, hu, hr⟩ := proper_range q hi hp
  have hli := fresh_limint q h
  have hba : (1 : ℝ) / (b - a) ≠ 0 := by
    have : 0 < b - a := by linarith
    positivity
  refine ⟨match q.kind with
    | .uniform => log (1 / (b - a))
    | .gauss => log (1 / √(2 * π)) - log (q.scale * (b - a))
    | _ => -log (2 * q.scale * (b - a)), fun x h1 h2 => ⟨fun hk => ?_, fun hk => ?_, fun hk => ?_⟩⟩
  · have hno := not_isOut q x h1 h2
    unfold Prior.logResult Prior.result
    simp only [hk, hr, hno, if_false, Option.bind_some, hba]
  · have hno := not_isOut q x h1 h2
    unfold Prior.logResult
    rw [hk] at ha hb
    simp only [hk, hli (by rw [hk]; rfl) a b (by rw [hk]; exact ha) (by rw [hk]; exact hb), hno,
      if_false, Option.bind_some]
  · have hno := not_isOut q x h1 h2
    unfold Prior.logResult
    rw [hk] at ha hb
    simp only [hk, hli (by rw [hk]; rfl) a b (by rw [hk]; exact ha) (by rw [hk]; exact hb), hno,
      if_false, Option.bind_some]

/-- C149. When the whole step is between the limits the numeric slope is exactly `partialLog`, whatever the
size of the step, for the uniform and the Gauss prior, and for the Laplace prior at its center and where the
step does not cross the center. -/
theorem C149_exact (q : Prior) (h : Fresh q) (hp : Proper q) (x d : ℝ) (hd : 0 < d) (hc : Clear q x d)
    (hk : q.kind = .uniform ∨ q.kind = .gauss ∨
      (q.kind = .laplace ∧ (x = q.center ∨ d ≤ |x - q.center|))) :
    ∃ g, q.numPartialLog d x = .num g ∧ q.partialLog x = some g := by
  obtain ⟨m, hx, p⟩ := clear_sides q x d hd hc
  obtain ⟨c, hf⟩ := logResult_form q h hp
  have hs := (made_inv q h.made).scale
  have hno := not_isOut q x hx.1 hx.2
  unfold Prior.numPartialLog
  rw [if_neg hno]
  rcases hk with hk | hk | ⟨hk, hx'⟩
  · rw [(hf _ p.1 p.2).1 hk, (hf _ m.1 m.2).1 hk]
    exact ⟨0, by simp [slopeOf], by simp [Prior.partialLog, hk, hno]⟩
  · rw [(hf _ p.1 p.2).2.1 hk, (hf _ m.1 m.2).2.1 hk]
    refine ⟨-(x - q.center) / (q.scale * q.scale), ?_, by simp [Prior.partialLog, hk]⟩
    simp only [slopeOf, Slope.num.injEq]
    field_simp
    ring
  · rw [(hf _ p.1 p.2).2.2 hk, (hf _ m.1 m.2).2.2 hk]
    simp only [slopeOf, Slope.num.injEq, Prior.partialLog, hk]
    rw [abs_div, abs_div, abs_of_pos hs]
    by_cases e : x = q.center
    · refine ⟨0, ?_, by rw [if_pos e]⟩
      rw [e, show q.center + d - q.center = d by ring, show q.center - d - q.center = -d by ring, abs_neg]
      simp
    · have hx'' := hx'.resolve_left e
      rw [if_neg e, if_neg hno]
      by_cases g : x > q.center
      · rw [abs_of_pos (by linarith : 0 < x - q.center)] at hx''
        refine ⟨-1 / q.scale, ?_, by rw [if_pos g]⟩
        rw [abs_of_nonneg (by linarith : 0 ≤ x + d - q.center),
          abs_of_nonneg (by linarith : 0 ≤ x - d - q.center)]
        field_simp
        ring
      · have g' : x < q.center := lt_of_le_of_ne (not_lt.1 g) e
        rw [abs_of_neg (by linarith : x - q.center < 0)] at hx''
        refine ⟨1 / q.scale, ?_, by rw [if_neg g]⟩
        rw [abs_of_nonpos (by linarith : x + d - q.center ≤ 0),
          abs_of_nonpos (by linarith : x - d - q.center ≤ 0)]
        field_simp
        ring

/-- C149. Outside the limits the numeric slope is nan. -/
theorem C149_out (q : Prior) (x d : ℝ) (hx : q.isOut x) : q.numPartialLog d x = .nan := by
  unfold Prior.numPartialLog
  rw [if_pos hx]

theorem logResult_out (q : Prior) (h : Fresh q) (hp : Proper q) (x : ℝ) (hx : q.isOut x) :
    q.logResult x = none := by
  have hr := (C15_density_partial q h hp).1 x hx
  unfold Prior.logResult
  cases hk : q.kind with
  | laplace => cases q.limint <;> simp [hx]
  | gauss => cases q.limint <;> simp [hx]
  | _ => simp [hr]

/-- At a legal point closer than `deltaP` to a limit `numPartialLog` is not the slope: it tests the
point itself but not the two places where it takes the logarithm. Close to the high limit it is minus
infinity, close to the low limit plus infinity, and nan when the prior is narrower than the step, while
the slope itself (`partialLog`) is finite. -/
theorem C149_counterexample_edge (q : Prior) (h : Fresh q) (hp : Proper q) (x d : ℝ) (hd : 0 < d)
    (h1 : q.low < x) (h2 : (x : EReal) < q.high) :
    (q.low < ((x - d : ℝ) : EReal) → q.high < ((x + d : ℝ) : EReal) → q.numPartialLog d x = .minf) ∧
    (((x - d : ℝ) : EReal) < q.low → ((x + d : ℝ) : EReal) < q.high → q.numPartialLog d x = .pinf) ∧
    (((x - d : ℝ) : EReal) < q.low → q.high < ((x + d : ℝ) : EReal) → q.numPartialLog d x = .nan) ∧
    ∃ g, q.partialLog x = some g := by
  have a : ((x - d : ℝ) : EReal) < (x : EReal) := EReal.coe_lt_coe_iff.2 (by linarith)
  have b : (x : EReal) < ((x + d : ℝ) : EReal) := EReal.coe_lt_coe_iff.2 (by linarith)
  have hno := not_isOut q x h1 h2
  unfold Prior.numPartialLog
  rw [if_neg hno]
  refine ⟨fun l r => ?_, fun l r => ?_, fun l r => ?_, ?_⟩
  · obtain ⟨p, _, hp'⟩ := C15_log q h hp (x - d) l (a.trans h2)
    rw [logResult_out q h hp _ (.inr r), hp']
    rfl
  · obtain ⟨p, _, hp'⟩ := C15_log q h hp (x + d) (h1.trans b) r
    rw [logResult_out q h hp _ (.inl l), hp']
    rfl
  · rw [logResult_out q h hp _ (.inl l), logResult_out q h hp _ (.inr r)]
    rfl
  · unfold Prior.partialLog
    cases hk : q.kind with
    | laplace =>
      by_cases e : x = q.center
      · exact ⟨0, by simp [e]⟩
      · exact ⟨_, by simp only [e, hno, if_false]; rfl⟩
    | uniform => exact ⟨0, by simp [hno]⟩
    | jeffreys => exact ⟨-1 / x, by simp [hno]⟩
    | cauchy => exact ⟨_, rfl⟩
    | gauss => exact ⟨_, rfl⟩

/-! ## C14: the questions about the limits -/

/-- C14. A prior says that it has limits exactly when it refuses some number of its domain (`checkLimit` raises). -/
theorem C14_has_limits (q : Prior) (h : Made q) :
    q.hasLimits = true ↔
      ∃ x : ℝ, q.lowDomain ≤ (x : EReal) ∧ (x : EReal) ≤ q.highDomain ∧ q.checkLimit x = true := by
  obtain ⟨o1, o2, o3⟩ := (made_inv q h).order
  unfold Prior.hasLimits Prior.hasLowLimit Prior.hasHighLimit Prior.checkLimit Prior.isOut
  simp only [Bool.or_eq_true, decide_eq_true_iff]
  constructor
  · rintro (hl | hh)
    · obtain ⟨x, h1, h2⟩ := EReal.lt_iff_exists_real_btwn.1 hl
      exact ⟨x, h1.le, (h2.trans o2).le.trans o3, .inl h2⟩
    · obtain ⟨x, h1, h2⟩ := EReal.lt_iff_exists_real_btwn.1 hh
      exact ⟨x, o1.trans (o2.trans h1).le, h2.le, .inr h1⟩
  · rintro ⟨x, h1, h2, h3 | h3⟩
    · exact .inl (h1.trans_lt h3)
    · exact .inr (h3.trans_le h2)

/-- C14. The two limits are told apart: a prior has a low limit exactly when a number of its domain is refused that is
smaller than some number it accepts, and a high limit when one is refused that is larger. -/
theorem C14_has_low_high (q : Prior) (h : Made q) :
    (q.hasLowLimit = true ↔ ∃ x y : ℝ, q.lowDomain ≤ (x : EReal) ∧ x < y ∧ q.checkLimit x = true ∧
      q.checkLimit y = false) ∧
    (q.hasHighLimit = true ↔ ∃ x y : ℝ, (x : EReal) ≤ q.highDomain ∧ y < x ∧ q.checkLimit x = true ∧
      q.checkLimit y = false) := by
  obtain ⟨o1, o2, o3⟩ := (made_inv q h).order
  obtain ⟨y, y1, y2⟩ := EReal.lt_iff_exists_real_btwn.1 o2
  have hy : q.checkLimit y = false := by
    unfold Prior.checkLimit
    simpa using not_isOut q y y1 y2
  have iff : ∀ z : ℝ, q.checkLimit z = true ↔ q.isOut z := by
    intro z; unfold Prior.checkLimit; simp
  have niff : ∀ z : ℝ, q.checkLimit z = false ↔ ¬ q.isOut z := by
    intro z; unfold Prior.checkLimit; simp
  constructor
  · unfold Prior.hasLowLimit
    rw [decide_eq_true_iff]
    constructor
    · intro hl
      obtain ⟨x, h1, h2⟩ := EReal.lt_iff_exists_real_btwn.1 hl
      exact ⟨x, y, h1.le, EReal.coe_lt_coe_iff.1 (h2.trans y1), (iff x).2 (.inl h2), hy⟩
    · rintro ⟨x, z, h1, h2, h3, h4⟩
      rcases (iff x).1 h3 with h5 | h5
      · exact h1.trans_lt h5
      · exact absurd (.inr (h5.trans (EReal.coe_lt_coe_iff.2 h2))) ((niff z).1 h4)
  · unfold Prior.hasHighLimit
    rw [decide_eq_true_iff]
    constructor
    · intro hl
      obtain ⟨x, h1, h2⟩ := EReal.lt_iff_exists_real_btwn.1 hl
      exact ⟨x, y, h2.le, EReal.coe_lt_coe_iff.1 (y2.trans h1), (iff x).2 (.inr h1), hy⟩
    · rintro ⟨x, z, h1, h2, h3, h4⟩
      rcases (iff x).1 h3 with h5 | h5
      · exact absurd (.inl ((EReal.coe_lt_coe_iff.2 h2).trans h5)) ((niff z).1 h4)
      · exact h5.trans_le h1

/-- C14. `checkLimit` raises exactly when `stayInLimits` would change the number. -/
theorem C14_check (q : Prior) (x : ℝ) :
    q.checkLimit x = true ↔ q.stayInLimits x ≠ (x : EReal) := by
  have iff : q.checkLimit x = true ↔ q.isOut x := by unfold Prior.checkLimit; simp
  rw [iff]
  unfold Prior.stayInLimits Prior.isOut
  by_cases h1 : (x : EReal) < q.low
  · rw [if_pos h1]
    exact ⟨fun _ => h1.ne', fun _ => .inl h1⟩
  · rw [if_neg h1]
    by_cases h2 : q.high < (x : EReal)
    · rw [if_pos h2]
      exact ⟨fun _ => h2.ne, fun _ => .inr h2⟩
    · rw [if_neg h2]
      simp [h1, h2]

/-! Non-vacuity: the Laplace prior between -1 and 1. At 1/2 the numeric slope is right for a step of 1/4
and infinite for a step of 3/4. -/
example : ∃ q, Fresh q ∧ Proper q ∧ Clear q (1 / 2) (1 / 4) ∧
    q.numPartialLog (1 / 4) (1 / 2) = .num (-1) ∧ q.numPartialLog (3 / 4) (1 / 2) = .minf := by
  have hF : Fresh _ := Or.inl ⟨_, _, _, _, laplace1_made⟩
  have lt : ∀ a b : ℝ, a < b → (a : EReal) < (b : EReal) := fun a b h => EReal.coe_lt_coe_iff.2 h
  refine ⟨_, hF, trivial, ⟨lt _ _ (by norm_num), lt _ _ (by norm_num)⟩, ?_, ?_⟩
  · obtain ⟨g, h1, h2⟩ := C149_exact _ hF trivial (1 / 2) (1 / 4) (by norm_num)
      ⟨lt _ _ (by norm_num), lt _ _ (by norm_num)⟩ (.inr (.inr ⟨rfl, .inr (by
        show (1 / 4 : ℝ) ≤ |1 / 2 - 0|
        norm_num [abs_of_pos])⟩))
    rw [h1]
    have hno : ¬ (laplace1 (1 - 0.5 * exp (-1) - 0.5 * exp (-1))).isOut (1 / 2) :=
      not_isOut _ _ (lt _ _ (by norm_num)) (lt _ _ (by norm_num))
    have hl : ∀ (q : Prior) (x : ℝ), q.kind = .laplace → ¬ q.isOut x → q.center < x →
        q.partialLog x = some (-1 / q.scale) := by
      intro q x hk hn hx
      simp [Prior.partialLog, hk, hn, hx, hx.ne']
    rw [hl _ _ rfl hno (show (0 : ℝ) < 1 / 2 by norm_num)] at h2
    rw [← Option.some.inj h2]
    show Slope.num (-1 / 1) = _
    norm_num
  · exact (C149_counterexample_edge _ hF trivial (1 / 2) (3 / 4) (by norm_num)
      (lt _ _ (by norm_num)) (lt _ _ (by norm_num))).1 (lt _ _ (by norm_num)) (lt _ _ (by norm_num))

end

end BF.Priors
