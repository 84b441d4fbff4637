import Verif.Props.PriorsCirc
import Mathlib.MeasureTheory.Function.JacobianOneDim
import Mathlib.MeasureTheory.Integral.Prod
import Mathlib.MeasureTheory.Function.Floor
import Mathlib.MeasureTheory.Constructions.Pi
import Mathlib.MeasureTheory.Measure.Lebesgue.Basic
import Mathlib.MeasureTheory.Measure.Haar.OfBasis

/-!
# Random numbers through the prior (C124)
-/

namespace BF.Priors

open Real MeasureTheory Set

noncomputable section

/-! ## Measurability -/

theorem measurable_isOut (q : Prior) : MeasurableSet {x : ℝ | q.isOut x} := by
  have h1 : MeasurableSet {x : ℝ | (x : EReal) < q.low} :=
    measurableSet_lt measurable_coe_real_ereal measurable_const
  have h2 : MeasurableSet {x : ℝ | q.high < (x : EReal)} :=
    measurableSet_lt measurable_const measurable_coe_real_ereal
  exact h1.union h2

theorem measurable_inside (q : Prior) : MeasurableSet {x : ℝ | q.low < x ∧ (x : EReal) < q.high} := by
  have h1 : MeasurableSet {x : ℝ | (x : EReal) < q.high} :=
    measurableSet_lt measurable_coe_real_ereal measurable_const
  have h2 : MeasurableSet {x : ℝ | q.low < (x : EReal)} :=
    measurableSet_lt measurable_const measurable_coe_real_ereal
  exact h2.inter h1

/-- The density as a number; where it is not defined it is 0. -/
def density (q : Prior) (x : ℝ) : ℝ := (q.result x).getD 0

theorem density_measurable (q : Prior) : Measurable (density q) := by
  classical
  have ho := measurable_isOut q
  unfold density Prior.result
  cases hk : q.kind with
  | uniform =>
    cases hr : q.urng with
    | none => exact measurable_const
    | some r =>
      simp only [Option.getD_some]
      exact Measurable.ite ho measurable_const measurable_const
  | jeffreys =>
    cases hr : q.urng with
    | none =>
      have : (fun x : ℝ => ((if q.isOut x then some 0 else if x = 0 then none else some 0 : Option ℝ)).getD 0)
          = fun _ => 0 := by
        funext x; split_ifs <;> rfl
      simp only
      rw [this]; exact measurable_const
    | some r =>
      simp only [Option.getD_some]
      exact Measurable.ite ho measurable_const (by fun_prop)
  | laplace =>
    cases q.limint with
    | none => exact measurable_const
    | some li =>
      simp only [Option.map_some, Option.getD_some]
      exact Measurable.ite ho measurable_const (by fun_prop)
  | cauchy =>
    cases q.limint with
    | none => exact measurable_const
    | some li =>
      simp only [Option.map_some, Option.getD_some]
      exact Measurable.ite ho measurable_const (by fun_prop)
  | gauss =>
    cases q.limint with
    | none => exact measurable_const
    | some li =>
      simp only [Option.map_some, Option.getD_some]
      exact Measurable.ite ho measurable_const (by fun_prop)

/-! ## One parameter -/

/-- The value in the domain that a unit value is mapped to. -/
def value (q : Prior) (u : ℝ) : ℝ := (q.unit2Domain u).getD 0

/-- For a prior with limits, whatever its history, the mapped random numbers have the density of the class
over that of the part between the limits. -/
theorem core (q : Prior) (hi : Inv q) (hp : Proper q)
    (hj : q.kind = .jeffreys → ∀ x : ℝ, q.low < x → 0 < x) (r : ℝ) (hr : q.urng = some r) (g : ℝ → ENNReal) :
    ∫⁻ u in Ico (0 : ℝ) 1, g (value q u)
      = ∫⁻ x in {x : ℝ | q.low < x ∧ (x : EReal) < q.high},
          ENNReal.ofReal (dens q.kind q.center q.scale x / r) * g x := by
  obtain ⟨a, b, ha, hb, hab, hu, hr'⟩ := proper_range q hi hp
  obtain rfl : r = b - a := by rw [hr] at hr'; exact Option.some.inj hr'
  obtain ⟨_, m2⟩ := maps_eq q hi a b hab hu hr'
  obtain ⟨i1, i2, i3⟩ := inverse_of_inv q hi hp
  have hba : 0 < b - a := by linarith
  set S : Set ℝ := {x : ℝ | q.low < x ∧ (x : EReal) < q.high} with hS
  set f : ℝ → ℝ := fun d => (cumR q.kind q.center q.scale d - a) / (b - a) with hf
  have hfd : ∀ d ∈ S, q.domain2Unit d = some (f d) := by
    intro d hd
    obtain ⟨w, hw⟩ := cum_isSome_between _ _ _ _ _ _ _ d ha hb hd.1
    rw [m2, hw, cum_cumR _ _ _ _ _ hw]; rfl
  have hval : ∀ d ∈ S, value q (f d) = d ∧ 0 < f d ∧ f d < 1 := by
    intro d hd
    obtain ⟨u, u0, u1, e1, e2⟩ := i2 d hd.1 hd.2
    rw [hfd d hd] at e1
    obtain rfl := Option.some.inj e1
    exact ⟨by rw [value, e2]; rfl, u0, u1⟩
  have hinj : InjOn f S := by
    intro x hx y hy hxy
    rw [← (hval x hx).1, ← (hval y hy).1, hxy]
  have himg : f '' S = Ioo 0 1 := by
    ext u
    constructor
    · rintro ⟨d, hd, rfl⟩
      exact (hval d hd).2
    · rintro ⟨u0, u1⟩
      obtain ⟨d, e1, e2⟩ := i1 u u0 u1
      obtain ⟨d', e3, l1, l2⟩ := (limits_of_inv q hi hp).1 u u0 u1
      rw [e1] at e3
      obtain rfl := Option.some.inj e3
      have hd : d ∈ S := ⟨l1, l2⟩
      refine ⟨d, hd, ?_⟩
      rw [hfd d hd] at e2
      exact Option.some.inj e2
  have hder : ∀ x ∈ S, HasDerivWithinAt f (dens q.kind q.center q.scale x / (b - a)) S x := by
    intro x hx
    exact (((cumR_deriv _ _ _ _ hi.scale fun hk => hj hk x hx.1).sub_const a).div_const (b - a)).hasDerivWithinAt
  have := lintegral_image_eq_lintegral_abs_deriv_mul (measurable_inside q) hder hinj fun u => g (value q u)
  rw [himg] at this
  rw [Measure.restrict_congr_set (Ioo_ae_eq_Ico (μ := volume) (a := (0 : ℝ)) (b := 1)).symm, this]
  refine setLIntegral_congr_fun (measurable_inside q) fun x hx => ?_
  have hpos := dens_pos q.kind q.center q.scale x hi.scale fun hk => hj hk x hx.1
  simp only [(hval x hx).1, abs_of_pos (div_pos hpos hba)]

/-- All numbers but two are between the limits or out of them. -/
theorem in_or_out (q : Prior) : ∀ᵐ x : ℝ, (q.low < x ∧ (x : EReal) < q.high) ∨ q.isOut x := by
  filter_upwards [compl_mem_ae_iff.2 (measure_singleton (μ := (volume : Measure ℝ)) q.low.toReal),
    compl_mem_ae_iff.2 (measure_singleton (μ := (volume : Measure ℝ)) q.high.toReal)] with x e1 e2
  by_cases hc : q.isOut x
  · exact Or.inr hc
  left
  unfold Prior.isOut at hc
  push Not at hc
  refine ⟨lt_of_le_of_ne hc.1 fun he => e1 ?_, lt_of_le_of_ne hc.2 fun he => e2 ?_⟩
  · rw [he]; rfl
  · rw [← he]; rfl

theorem inside_ae (q : Prior) (g p : ℝ → ENNReal)
    (h1 : ∀ x : ℝ, q.low < x → (x : EReal) < q.high → ENNReal.ofReal (density q x) = p x)
    (h2 : ∀ x : ℝ, q.isOut x → density q x = 0) :
    ∫⁻ x in {x : ℝ | q.low < x ∧ (x : EReal) < q.high}, p x * g x
      = ∫⁻ x, ENNReal.ofReal (density q x) * g x := by
  rw [← lintegral_indicator (measurable_inside q)]
  apply lintegral_congr_ae
  filter_upwards [in_or_out q] with x hx
  by_cases hin : q.low < x ∧ (x : EReal) < q.high
  · rw [indicator_of_mem (show x ∈ {x : ℝ | q.low < x ∧ (x : EReal) < q.high} from hin), h1 x hin.1 hin.2]
  · rw [indicator_of_notMem (show x ∉ {x : ℝ | q.low < x ∧ (x : EReal) < q.high} from hin),
      h2 x (hx.resolve_left hin)]
    simp

/-- A random number between 0 and 1 is mapped to a random number that has the density of the prior: the
average of anything over the first is the integral of it, times the density, over the domain. -/
theorem C124_one_partial (q : Prior) (h : Fresh q) (hp : Proper q) (g : ℝ → ENNReal) :
    ∫⁻ u in Ico (0 : ℝ) 1, g (value q u) = ∫⁻ x, ENNReal.ofReal (density q x) * g x := by
  have hi := made_inv q h.made
  obtain ⟨a, b, ha, hb, hab, hu, hr⟩ := proper_range q hi hp
  rw [core q hi hp (fun hk => jeffreys_pos q h.made hp hk) (b - a) hr g]
  refine inside_ae q g _ (fun x h1 h2 => ?_) fun x hx => ?_
  · rw [density, result_eq q h hp a b ha hb hr x h1 h2]; rfl
  · rw [density, (C15_density_partial q h hp).1 x hx]; rfl

/-! ## Circular priors -/

/-- One third of the unit range. -/
theorem third (h : ℝ → ENNReal) (j : ℕ) :
    ∫⁻ u in Ico ((j : ℝ) / 3) ((j + 1) / 3), h (Int.fract (u * 3)) = (1 / 3) * ∫⁻ v in Ico (0 : ℝ) 1, h v := by
  have himg : (fun u : ℝ => u * 3 - j) '' Ico ((j : ℝ) / 3) ((j + 1) / 3) = Ico 0 1 := by
    ext v
    constructor
    · rintro ⟨u, ⟨h1, h2⟩, rfl⟩
      exact ⟨by simp only; linarith, by simp only; linarith⟩
    · rintro ⟨h1, h2⟩
      exact ⟨(v + j) / 3, ⟨by linarith, by linarith⟩, by ring⟩
  have hder : ∀ x ∈ Ico ((j : ℝ) / 3) ((j + 1) / 3),
      HasDerivWithinAt (fun u : ℝ => u * 3 - j) 3 (Ico ((j : ℝ) / 3) ((j + 1) / 3)) x := by
    intro x _
    have := ((hasDerivAt_id x).mul_const (3 : ℝ)).sub_const (j : ℝ)
    simp only [id_eq, one_mul] at this
    exact this.hasDerivWithinAt
  have hinj : InjOn (fun u : ℝ => u * 3 - j) (Ico ((j : ℝ) / 3) ((j + 1) / 3)) := by
    intro x _ y _ hxy
    simp only at hxy
    linarith
  have := lintegral_image_eq_lintegral_abs_deriv_mul measurableSet_Ico hder hinj h
  rw [himg] at this
  rw [this, lintegral_const_mul' _ _ (by simp), ← mul_assoc]
  have h3 : (1 / 3 : ENNReal) * ENNReal.ofReal |3| = 1 := by
    rw [abs_of_pos (by norm_num : (0 : ℝ) < 3)]
    simp only [ENNReal.ofReal_ofNat, one_div]
    exact ENNReal.inv_mul_cancel (by simp) (by simp)
  rw [h3, one_mul]
  refine setLIntegral_congr_fun measurableSet_Ico fun u hu => ?_
  have : Int.fract (u * 3) = u * 3 - j := by
    rw [Int.fract_eq_iff]
    refine ⟨by linarith [hu.1], by linarith [hu.2], j, by simp⟩
  simp only [this]

/-- Three times a fair number, folded into the unit range, is fair. -/
theorem fold (h : ℝ → ENNReal) :
    ∫⁻ u in Ico (0 : ℝ) 1, h (Int.fract (u * 3)) = ∫⁻ v in Ico (0 : ℝ) 1, h v := by
  have h0 := third h 0
  have h1 := third h 1
  have h2 := third h 2
  norm_num at h0 h1 h2
  have e : Ico (0 : ℝ) 1 = Ico 0 (1 / 3) ∪ (Ico (1 / 3) (2 / 3) ∪ Ico (2 / 3) 1) := by
    rw [Ico_union_Ico_eq_Ico (by norm_num) (by norm_num), Ico_union_Ico_eq_Ico (by norm_num) (by norm_num)]
  conv_lhs => rw [e]
  rw [lintegral_union (measurableSet_Ico.union measurableSet_Ico), lintegral_union measurableSet_Ico, h0, h1, h2,
    ← add_mul, ← add_mul]
  · have : (3⁻¹ + (3⁻¹ + 3⁻¹) : ENNReal) = 1 := by
      rw [← add_assoc, ENNReal.inv_three_add_inv_three]
    rw [this, one_mul]
  · rw [Set.disjoint_left]; rintro x ⟨_, h⟩ ⟨h', _⟩; linarith
  · rw [Set.disjoint_left]; rintro x ⟨_, h⟩ (⟨h', _⟩ | ⟨h', _⟩) <;> linarith

/-- A circular prior as its constructor makes it: with its limits as period, or with a period. (Limits beside
a period are of no effect; with them only the uniform prior is right.) -/
inductive FreshCircular : Prior → Prop
  | limits (k : Kind) (c s a b : ℝ) (q : Prior) : k ≠ .jeffreys →
      construct k c s (some (some (a : EReal), some (b : EReal))) .yes = some q → FreshCircular q
  | period (k : Kind) (c s : ℝ) (p : ℝ) (q : Prior) : k ≠ .jeffreys →
      construct k c s none (.period p) = some q → FreshCircular q

theorem circular_fresh (q : Prior) (h : FreshCircular q) :
    ∃ k c s li a b ua ub circ, k ≠ .jeffreys ∧ 0 < s ∧ a < b ∧ k.cum c s a = some ua ∧
      k.cum c s b = some ub ∧ (k.hasCenter = true → li = some (ub - ua)) ∧
      q = { between k c s li a b ua ub with circ := circ, maps := .circular } := by
  have key : ∀ (k : Kind), k ≠ .jeffreys → ∀ (c s : ℝ) (li : Option ℝ) (a b : ℝ) (circ : Circ) (q : Prior),
      0 < s → (k.hasCenter = true → ∀ ua ub, k.cum c s a = some ua → k.cum c s b = some ub → li = some (ub - ua)) →
      (if ((start k c s li).setLimits (some (some (a : EReal), some (b : EReal)))).2 then none
        else some { ((start k c s li).setLimits (some (some (a : EReal), some (b : EReal)))).1 with
          circ := circ, maps := Maps.circular }) = some q →
      ∃ k c s li a b ua ub circ, k ≠ .jeffreys ∧ 0 < s ∧ a < b ∧ k.cum c s a = some ua ∧
        k.cum c s b = some ub ∧ (k.hasCenter = true → li = some (ub - ua)) ∧
        q = { between k c s li a b ua ub with circ := circ, maps := .circular } := by
    intro k hk c s li a b circ q hs hli h
    obtain ⟨ua, hua⟩ := cum_total k hk c s a
    obtain ⟨ub, hub⟩ := cum_total k hk c s b
    by_cases hab : a < b
    · rw [start_set k c s li a b ua ub hab (fun hj => absurd hj hk) hua hub] at h
      simp only [Bool.false_eq_true, if_false, Option.some.injEq] at h
      exact ⟨k, c, s, li, a, b, ua, ub, circ, hk, hs, hab, hua, hub, fun hc => hli hc ua ub hua hub, h.symm⟩
    · have hr := (C14_raises (start k c s li) (some (some (a : EReal), some (b : EReal)))).2 (by
        simp only [Option.bind_some, Option.getD_some]
        rintro ⟨_, hc, _⟩
        exact hab (EReal.coe_lt_coe_iff.1 hc))
      rw [hr] at h
      simp at h
  cases h with
  | limits k c s a b q hk h =>
    unfold construct at h
    split at h
    · split at h
      · simp at h
      · rename_i hs
        simp only at h
        split at h
        · simp at h
        · rename_i li hl
          refine key k hk _ s _ a b .yes q (by linarith) (fun _ ua ub h1 h2 => ?_) h
          simp only [limitedIntegral, Option.bind_some, cumE_coe, h1, h2, Option.some.injEq] at hl
          rw [← hl]
    · rename_i hc
      exact key k hk 0 1 none a b .yes q one_pos (fun hc' => absurd hc' hc) h
  | period k c s p q hk h =>
    unfold construct at h
    split at h
    · rename_i hc
      split at h
      · simp at h
      · rename_i hs
        simp only at h
        split at h
        · simp at h
        · rename_i li hl
          have hrc : recenter c none (.period p) = c := by unfold recenter; rfl
          simp only [hrc, Prior.setPriorAttributes, start, hc, if_true] at h
          refine key k hk c s _ _ _ (.period p) q (by linarith) (fun _ ua ub h1 h2 => ?_) h
          simp only [hrc, limitedIntegral, Option.bind_some, cumE_coe, h1, h2, Option.some.injEq] at hl
          rw [← hl]
    · rename_i hc
      simp only [Prior.setPriorAttributes, start, hc] at h
      exact key k hk 0 1 none 0 p (.period p) q one_pos (fun hc' => absurd hc' hc) h

/-- The density of a circular prior. -/
theorem circular_density (k : Kind) (hk : k ≠ .jeffreys) (c s : ℝ) (li : Option ℝ) (a b ua ub : ℝ) (circ : Circ)
    (hu : ua < ub) (hs : 0 < s) (hli : k.hasCenter = true → li = some (ub - ua)) (x : ℝ) :
    ({ between k c s li a b ua ub with circ := circ, maps := .circular } : Prior).result x
      = some (open Classical in
          if (between k c s li a b ua ub).isOut x then 0 else dens k c s x / (ub - ua)) := by
  have hne : ub - ua ≠ 0 := by linarith
  have hpi := pi_pos
  cases k with
  | jeffreys => exact absurd rfl hk
  | uniform => rfl
  | laplace =>
    rw [hli rfl]
    simp only [Prior.result, between, start, Option.map_some, Option.some.injEq, Prior.isOut, dens]
    congr 1
    field_simp
  | cauchy =>
    rw [hli rfl]
    simp only [Prior.result, between, start, Option.map_some, Option.some.injEq, Prior.isOut, dens]
    congr 1
    rw [div_div]
  | gauss =>
    rw [hli rfl]
    simp only [Prior.result, between, start, Option.map_some, Option.some.injEq, Prior.isOut, dens]
    congr 1
    field_simp

/-- It is so too with circular priors. -/
theorem C124_circular_partial (q : Prior) (h : FreshCircular q) (g : ℝ → ENNReal) :
    ∫⁻ u in Ico (0 : ℝ) 1, g (value q u) = ∫⁻ x, ENNReal.ofReal (density q x) * g x := by
  obtain ⟨k, c, s, li, a, b, ua, ub, circ, hk, hs, hab, hua, hub, hli, rfl⟩ := circular_fresh q h
  have hi := between_inv k c s li a b ua ub hs hab (fun hj => absurd hj hk) hua hub
  have hp := between_proper k c s li a b ua ub hua
  have hu : ua < ub := cumE_mono k c s hs a b ua ub (EReal.coe_lt_coe_iff.2 hab) hua hub
  have hd := circular_density k hk c s li a b ua ub circ hu hs hli
  have h1 := core _ hi hp (fun hk' => absurd hk' hk) (ub - ua) rfl g
  have h2 := fold fun v => g (value (between k c s li a b ua ub) v)
  rw [h1] at h2
  refine h2.trans ?_
  refine inside_ae { between k c s li a b ua ub with circ := circ, maps := .circular } g _
    (fun x h1 h2 => ?_) fun x hx => ?_
  · rw [density, hd, if_neg]
    · rfl
    · exact not_isOut (between k c s li a b ua ub) x h1 h2
  · rw [density, hd, if_pos]
    · rfl
    · exact hx

/-! ## The seam of a circular prior -/

theorem set_center (k : Kind) (c s : ℝ) (hs : 0 < s) (li : Option ℝ) (a b : ℝ) (circ : Circ) (q : Prior)
    (h : (if ((start k c s li).setLimits (some (some (a : EReal), some (b : EReal)))).2 then none
        else some { ((start k c s li).setLimits (some (some (a : EReal), some (b : EReal)))).1 with
          circ := circ, maps := Maps.circular }) = some q) : q.center = c ∧ q.low = a ∧ q.high = b := by
  split at h
  · simp at h
  · rename_i hf
    have g := setLimits_spec (start k c s li) (some (some (a : EReal), some (b : EReal))) hs rfl
      (fun _ => (start_dom k c s li).1) (fun _ => (start_dom k c s li).2) (by simpa using hf)
    obtain rfl := Option.some.inj h
    exact ⟨g.2.2.1, g.2.2.2.2.2.2.1, g.2.2.2.2.2.2.2.1⟩

theorem seam_of (q : Prior) (h : FreshCircular q) (hc : q.kind.hasCenter = true → ∀ a b : ℝ, q.low = a → q.high = b →
    q.center = (a + b) / 2) :
    ∃ a b p : ℝ, a < b ∧ q.low = a ∧ q.high = b ∧ q.result a = some p ∧ q.result b = some p := by
  obtain ⟨k, c, s, li, a, b, ua, ub, circ, hk, hs, hab, hua, hub, hli, rfl⟩ := circular_fresh q h
  have hu : ua < ub := cumE_mono k c s hs a b ua ub (EReal.coe_lt_coe_iff.2 hab) hua hub
  have hd := circular_density k hk c s li a b ua ub circ hu hs hli
  have oa : ¬ (between k c s li a b ua ub).isOut a := by
    rintro (h | h)
    · exact absurd h (lt_irrefl _)
    · exact absurd (EReal.coe_lt_coe_iff.1 h) (by linarith)
  have ob : ¬ (between k c s li a b ua ub).isOut b := by
    rintro (h | h)
    · exact absurd (EReal.coe_lt_coe_iff.1 h) (by linarith)
    · exact absurd h (lt_irrefl _)
  refine ⟨a, b, dens k c s a / (ub - ua), hab, rfl, rfl, by rw [hd, if_neg oa], ?_⟩
  rw [hd, if_neg ob]
  congr 2
  have hsym : k.hasCenter = true → b - c = -(a - c) := by
    intro h
    have : c = (a + b) / 2 := hc h a b rfl rfl
    rw [this]; ring
  cases k with
  | jeffreys => exact absurd rfl hk
  | uniform => rfl
  | laplace => simp only [dens]; rw [hsym rfl, neg_div, abs_neg]
  | cauchy => simp only [dens]; rw [hsym rfl]; ring
  | gauss =>
    simp only [dens]
    rw [hsym rfl]
    congr 2
    ring

/-- A circular prior that is made with a period, or with limits and without a center, has the same density at both
ends of the period: the circle has no seam. -/
theorem C16_seam_partial (k : Kind) (hk : k ≠ .jeffreys) (c s : ℝ) :
    (∀ (p : ℝ) (q : Prior), construct k c s none (.period p) = some q →
      ∃ a b d : ℝ, a < b ∧ q.low = a ∧ q.high = b ∧ q.result a = some d ∧ q.result b = some d) ∧
    (∀ (l h : ℝ) (q : Prior), construct k 0 s (some (some (l : EReal), some (h : EReal))) .yes = some q →
      ∃ a b d : ℝ, a < b ∧ q.low = a ∧ q.high = b ∧ q.result a = some d ∧ q.result b = some d) := by
  constructor
  · intro p q h
    refine seam_of q (.period k c s p q hk h) fun hc a b ha hb => ?_
    unfold construct at h
    split at h
    · rename_i hkc
      split at h
      · simp at h
      · rename_i hs
        simp only at h
        split at h
        · simp at h
        · have hrc : recenter c none (.period p) = c := by unfold recenter; rfl
          simp only [hrc, Prior.setPriorAttributes, start, hkc, if_true] at h
          obtain ⟨g1, g2, g3⟩ := set_center k c s (by linarith) _ _ _ (.period p) q h
          rw [g2] at ha
          rw [g3] at hb
          rw [g1, ← EReal.coe_eq_coe_iff.1 ha, ← EReal.coe_eq_coe_iff.1 hb]
          ring
    · rename_i hkc
      exfalso
      apply hkc
      rw [← hc]
      simp only [Prior.setPriorAttributes] at h
      rw [if_neg (show ¬ (start k 0 1 none).kind.hasCenter = true from hkc)] at h
      split at h
      · simp at h
      · rename_i hf
        have g := setLimits_spec (start k 0 1 none) _ one_pos rfl
          (fun _ => (start_dom k 0 1 none).1) (fun _ => (start_dom k 0 1 none).2) (by simpa using hf)
        obtain rfl := Option.some.inj h
        exact (congrArg Kind.hasCenter g.2.1).symm
  · intro l u q h
    refine seam_of q (.limits k 0 s l u q hk h) fun hc a b ha hb => ?_
    unfold construct at h
    split at h
    · rename_i hkc
      split at h
      · simp at h
      · rename_i hs
        simp only at h
        split at h
        · simp at h
        · rename_i li hl
          have hrc : recenter 0 (some (some (l : EReal), some (u : EReal))) .yes = 0.5 * (l + u) := by
            show (if (0 : ℝ) = 0 then 0.5 * (l + u) else 0) = _
            rw [if_pos rfl]
          rw [hrc] at h
          obtain ⟨g1, g2, g3⟩ := set_center k _ s (by linarith) _ l u .yes q h
          rw [g2] at ha
          rw [g3] at hb
          rw [g1, ← EReal.coe_eq_coe_iff.1 ha, ← EReal.coe_eq_coe_iff.1 hb]
          ring
    · rename_i hkc
      exfalso
      apply hkc
      rw [← hc]
      rw [attributes_yes] at h
      split at h
      · simp at h
      · rename_i hf
        have g := setLimits_spec (start k 0 1 none) _ one_pos rfl
          (fun _ => (start_dom k 0 1 none).1) (fun _ => (start_dom k 0 1 none).2) (by simpa using hf)
        obtain rfl := Option.some.inj h
        exact (congrArg Kind.hasCenter g.2.1).symm

/-- With a center that is not in the middle of the limits the density jumps at the seam: a circular Laplace prior
between 0 and 2 with its center at 1/2 is less dense at 2 than at 0, which is the same point of the circle. -/
theorem C16_counterexample_seam : ∃ q, construct .laplace (1 / 2) 1 (some (some ((0 : ℝ) : EReal), some ((2 : ℝ) : EReal))) .yes
      = some q ∧ ∃ x y, q.result 0 = some x ∧ q.result 2 = some y ∧ y < x := by
  obtain ⟨ua, hua⟩ := cum_total .laplace (by simp) (1 / 2) 1 0
  obtain ⟨ub, hub⟩ := cum_total .laplace (by simp) (1 / 2) 1 2
  have hu : ua < ub := cumE_mono .laplace (1 / 2) 1 one_pos (0 : ℝ) (2 : ℝ) ua ub
    (EReal.coe_lt_coe_iff.2 (by norm_num)) hua hub
  have hss := start_set .laplace (1 / 2) 1 (some (ub - ua)) 0 2 ua ub (by norm_num) (by simp) hua hub
  refine ⟨{ between .laplace (1 / 2) 1 (some (ub - ua)) 0 2 ua ub with circ := .yes, maps := .circular }, ?_, ?_⟩
  · have hrc : recenter (1 / 2) (some (some ((0 : ℝ) : EReal), some ((2 : ℝ) : EReal))) .yes = 1 / 2 := by
      show (if (1 / 2 : ℝ) = 0 then _ else _) = _
      rw [if_neg (by norm_num)]
    unfold construct
    rw [if_pos (show Kind.laplace.hasCenter = true from rfl), if_neg (by norm_num)]
    simp only [hrc, limitedIntegral, Option.bind_some, cumE_coe, hua, hub]
    rw [attributes_yes, hss]
    rfl
  · have hd := circular_density .laplace (by simp) (1 / 2) 1 (some (ub - ua)) 0 2 ua ub .yes hu one_pos fun _ => rfl
    refine ⟨dens .laplace (1 / 2) 1 0 / (ub - ua), dens .laplace (1 / 2) 1 2 / (ub - ua), ?_, ?_, ?_⟩
    · rw [hd, if_neg]
      rintro (h | h)
      · exact absurd h (lt_irrefl _)
      · exact absurd (EReal.coe_lt_coe_iff.1 h) (by norm_num)
    · rw [hd, if_neg]
      rintro (h | h)
      · exact absurd (EReal.coe_lt_coe_iff.1 h) (by norm_num)
      · exact absurd h (lt_irrefl _)
    · have hpos : 0 < ub - ua := by linarith
      apply div_lt_div_of_pos_right _ hpos
      simp only [dens, div_one]
      have e1 : |(0 : ℝ) - 1 / 2| = 1 / 2 := by rw [abs_of_neg] <;> norm_num
      have e2 : |(2 : ℝ) - 1 / 2| = 3 / 2 := by rw [abs_of_pos] <;> norm_num
      rw [e1, e2]
      have := exp_lt_exp.2 (show -(3 / 2 : ℝ) < -(1 / 2) by norm_num)
      linarith

/-! ## All parameters -/

theorem value_mono (q : Prior) (hi : Inv q) (hp : Proper q) : MonotoneOn (value q) (Ioo 0 1) := by
  obtain ⟨i1, _, i3⟩ := inverse_of_inv q hi hp
  intro u hu v hv huv
  rcases huv.eq_or_lt with rfl | huv
  · exact le_refl _
  obtain ⟨d, e1, _⟩ := i1 u hu.1 hu.2
  obtain ⟨d', e2, _⟩ := i1 v hv.1 hv.2
  have := i3 u v d d' hu.1 huv hv.2 e1 e2
  rw [value, value, e1, e2]
  exact this.le

theorem value_aemeasurable (q : Prior) (hi : Inv q) (hp : Proper q) :
    AEMeasurable (value q) (volume.restrict (Ico (0 : ℝ) 1)) := by
  rw [Measure.restrict_congr_set (Ioo_ae_eq_Ico (μ := volume) (a := (0 : ℝ)) (b := 1)).symm]
  exact aemeasurable_restrict_of_monotoneOn measurableSet_Ioo (value_mono q hi hp)

theorem fold_preserves : MeasurePreserving (fun u : ℝ => Int.fract (u * 3)) (volume.restrict (Ico (0 : ℝ) 1))
    (volume.restrict (Ico (0 : ℝ) 1)) := by
  have hm : Measurable fun u : ℝ => Int.fract (u * 3) := measurable_fract.comp (measurable_id.mul_const 3)
  refine ⟨hm, ?_⟩
  ext t ht
  rw [Measure.map_apply hm ht, ← lintegral_indicator_one ht, ← fold, ← lintegral_indicator_one (hm ht)]
  rfl

/-- The priors of the parameters of a problem: each as its constructor made it, and proper. -/
def Ready (q : Prior) : Prop := (Fresh q ∧ Proper q) ∨ FreshCircular q

theorem law (q : Prior) (h : Ready q) (g : ℝ → ENNReal) :
    ∫⁻ u in Ico (0 : ℝ) 1, g (value q u) = ∫⁻ x, ENNReal.ofReal (density q x) * g x := by
  rcases h with ⟨h1, h2⟩ | h
  · exact C124_one_partial q h1 h2 g
  · exact C124_circular_partial q h g

theorem ready_aemeasurable (q : Prior) (h : Ready q) : AEMeasurable (value q) (volume.restrict (Ico (0 : ℝ) 1)) := by
  rcases h with ⟨h1, h2⟩ | h
  · exact value_aemeasurable q (made_inv q h1.made) h2
  · obtain ⟨k, c, s, li, a, b, ua, ub, circ, hk, hs, hab, hua, hub, hli, rfl⟩ := circular_fresh q h
    have hi := between_inv k c s li a b ua ub hs hab (fun hj => absurd hj hk) hua hub
    have hp := between_proper k c s li a b ua ub hua
    exact (value_aemeasurable _ hi hp).comp_quasiMeasurePreserving fold_preserves.quasiMeasurePreserving

/-- The distribution of the mapped numbers. -/
theorem map_law (q : Prior) (h : Ready q) :
    (volume.restrict (Ico (0 : ℝ) 1)).map (value q) = volume.withDensity fun x => ENNReal.ofReal (density q x) := by
  have hm := ready_aemeasurable q h
  ext t ht
  have hd : Measurable fun x => ENNReal.ofReal (density q x) := (density_measurable q).ennreal_ofReal
  rw [← lintegral_indicator_one ht, lintegral_map' (measurable_one.indicator ht).aemeasurable hm, law q h,
    withDensity_apply _ ht, ← lintegral_indicator ht]
  refine lintegral_congr fun x => ?_
  by_cases hx : x ∈ t <;> simp [hx]

theorem lintegral_prod_all {n : ℕ} (f : Fin n → ℝ → ENNReal) (hf : ∀ i, Measurable (f i)) :
    ∫⁻ x : Fin n → ℝ, ∏ i, f i (x i) = ∏ i, ∫⁻ x, f i x := by
  induction n with
  | zero =>
    have : (volume : Measure (Fin 0 → ℝ)) univ = 1 := by
      rw [volume_pi, Measure.pi_univ]; simp
    simp [this]
  | succ n ih =>
    have hp := (volume_preserving_piFinSuccAbove (fun _ : Fin (n + 1) => ℝ) 0).symm
    rw [← hp.lintegral_comp_emb (MeasurableEquiv.measurableEmbedding _), Fin.prod_univ_succ, ← ih _ fun i => hf i.succ]
    have e : ∀ y : ℝ × (Fin n → ℝ),
        ∏ i, f i ((MeasurableEquiv.piFinSuccAbove (fun _ : Fin (n + 1) => ℝ) 0).symm y i)
          = f 0 y.1 * ∏ i : Fin n, f i.succ (y.2 i) := by
      intro y
      rw [Fin.prod_univ_succ]
      rfl
    simp only [e]
    exact lintegral_prod_mul (hf 0).aemeasurable
      (Finset.measurable_prod _ fun (i : Fin n) _ => (hf i.succ).comp (measurable_pi_apply i)).aemeasurable

theorem pi_density {n : ℕ} (p : Fin n → ℝ → ENNReal) (hp : ∀ i, Measurable (p i))
    [∀ i, SigmaFinite ((volume : Measure ℝ).withDensity (p i))] :
    Measure.pi (fun i => (volume : Measure ℝ).withDensity (p i))
      = (volume : Measure (Fin n → ℝ)).withDensity fun x => ∏ i, p i (x i) := by
  refine Measure.pi_eq fun s hs => ?_
  rw [withDensity_apply _ (MeasurableSet.univ_pi hs), ← lintegral_indicator (MeasurableSet.univ_pi hs)]
  have e : ∀ x : Fin n → ℝ, (univ.pi s).indicator (fun x => ∏ i, p i (x i)) x
      = ∏ i, (s i).indicator (p i) (x i) := by
    intro x
    by_cases hx : x ∈ univ.pi s
    · rw [indicator_of_mem hx]
      exact Finset.prod_congr rfl fun i _ => by rw [indicator_of_mem (hx i (mem_univ i))]
    · rw [indicator_of_notMem hx]
      have : ∃ i, x i ∉ s i := by
        by_contra hc
        push Not at hc
        exact hx fun i _ => hc i
      obtain ⟨i, hxi⟩ := this
      exact (Finset.prod_eq_zero (Finset.mem_univ i) (by rw [indicator_of_notMem hxi])).symm
  simp only [e]
  rw [lintegral_prod_all _ fun i => (hp i).indicator (hs i)]
  refine Finset.prod_congr rfl fun i _ => ?_
  rw [lintegral_indicator (hs i), withDensity_apply _ (hs i)]

/-- Averaging any function of the parameters over fair numbers, one for each parameter, is integrating it over
the parameters with the product of the prior densities. So the evidence of nested sampling, which is a mean
over the unit box, is the integral of likelihood times prior. -/
theorem C124_all_partial {n : ℕ} (q : Fin n → Prior) (h : ∀ i, Ready (q i)) (L : (Fin n → ℝ) → ENNReal)
    (hL : Measurable L) :
    ∫⁻ u in {u : Fin n → ℝ | ∀ i, 0 ≤ u i ∧ u i < 1}, L (fun i => value (q i) (u i))
      = ∫⁻ x : Fin n → ℝ, (∏ i, ENNReal.ofReal (density (q i) (x i))) * L x := by
  have hm := fun i => ready_aemeasurable (q i) (h i)
  have hd : ∀ i, Measurable fun x => ENNReal.ofReal (density (q i) x) :=
    fun i => (density_measurable (q i)).ennreal_ofReal
  have hbox : {u : Fin n → ℝ | ∀ i, 0 ≤ u i ∧ u i < 1} = univ.pi fun _ => Ico (0 : ℝ) 1 := by
    ext u; simp [Set.mem_pi]
  haveI : ∀ i, IsFiniteMeasure ((volume.restrict (Ico (0 : ℝ) 1)).map (value (q i))) := fun i => inferInstance
  haveI : ∀ i, IsFiniteMeasure ((volume : Measure ℝ).withDensity fun x => ENNReal.ofReal (density (q i) x)) := by
    intro i
    rw [← map_law (q i) (h i)]
    infer_instance
  rw [hbox, volume_pi, Measure.restrict_pi_pi]
  have hmap := Measure.pi_map_pi (f := fun i => value (q i)) hm
  have hae : AEMeasurable (fun (u : Fin n → ℝ) (i : Fin n) => value (q i) (u i))
      (Measure.pi fun _ : Fin n => (volume : Measure ℝ).restrict (Ico 0 1)) :=
    aemeasurable_pi_lambda _ fun i =>
      (hm i).comp_quasiMeasurePreserving (Measure.quasiMeasurePreserving_eval _ i)
  rw [← lintegral_map' hL.aemeasurable hae, hmap]
  simp only [map_law _ (h _)]
  rw [pi_density _ hd, lintegral_withDensity_eq_lintegral_mul _ _ hL]
  · rfl
  · exact Finset.measurable_prod _ fun i _ => (hd i).comp (measurable_pi_apply i)

theorem density_nonneg (q : Prior) (h : Ready q) : ∀ᵐ x, 0 ≤ density q x := by
  filter_upwards [in_or_out q] with x hx
  rcases h with ⟨h1, h2⟩ | h
  · obtain ⟨o, f, _, hf⟩ := C15_density_partial q h1 h2
    rcases hx with hx | hx
    · obtain ⟨p, e, hp, _⟩ := hf x hx.1 hx.2
      rw [density, e]; exact hp.le
    · rw [density, o x hx]; exact le_refl _
  · obtain ⟨k, c, s, li, a, b, ua, ub, circ, hk, hs, hab, hua, hub, hli, rfl⟩ := circular_fresh q h
    have hu : ua < ub := cumE_mono k c s hs a b ua ub (EReal.coe_lt_coe_iff.2 hab) hua hub
    rw [density, circular_density k hk c s li a b ua ub circ hu hs hli]
    simp only [Option.getD_some]
    split
    · exact le_refl _
    · exact (div_pos (dens_pos k c s x hs fun hk' => absurd hk' hk) (by linarith)).le

/-- The density of a proper prior is not negative and adds up to one. -/
theorem C124_normalised_partial (q : Prior) (h : Ready q) :
    (∀ᵐ x, 0 ≤ density q x) ∧ Integrable (density q) ∧ ∫ x, density q x = 1 := by
  have h1 := law q h fun _ => 1
  simp only [mul_one, lintegral_one, Measure.restrict_apply_univ, Real.volume_Ico, sub_zero, ENNReal.ofReal_one] at h1
  have hnn := density_nonneg q h
  have hint : Integrable (density q) :=
    ⟨(density_measurable q).aestronglyMeasurable, by
      rw [hasFiniteIntegral_iff_ofReal hnn, ← h1]; exact ENNReal.one_lt_top⟩
  refine ⟨hnn, hint, ?_⟩
  rw [integral_eq_lintegral_of_nonneg_ae hnn (density_measurable q).aestronglyMeasurable, ← h1]
  rfl

/-- The chance that a fair number is mapped to at most `d` is the unit value of `d`, also after a change of the
limits. -/
theorem C124_chance (q : Prior) (h : Made q) (hp : Proper q) (d : ℝ) (h1 : q.low < d) (h2 : (d : EReal) < q.high) :
    ∃ u, q.domain2Unit d = some u ∧ volume {v : ℝ | (0 ≤ v ∧ v < 1) ∧ value q v ≤ d} = ENNReal.ofReal u := by
  obtain ⟨i1, i2, i3⟩ := C13_inverse q h hp
  obtain ⟨u, u0, u1, e1, e2⟩ := i2 d h1 h2
  refine ⟨u, e1, ?_⟩
  have : {v : ℝ | (0 ≤ v ∧ v < 1) ∧ value q v ≤ d} =ᵐ[volume] Ioc 0 u := by
    filter_upwards [compl_mem_ae_iff.2 (measure_singleton (μ := (volume : Measure ℝ)) 0)] with v hv
    have hv : v ≠ 0 := hv
    refine propext ⟨?_, ?_⟩
    · rintro ⟨⟨v0, v1⟩, hvd⟩
      have v0 : 0 < v := lt_of_le_of_ne v0 hv.symm
      refine ⟨v0, ?_⟩
      by_contra hc
      push Not at hc
      obtain ⟨d', e3, _⟩ := i1 v v0 v1
      have := i3 u v d d' u0 hc v1 e2 e3
      rw [value, e3] at hvd
      exact absurd hvd (not_le.2 this)
    · rintro ⟨v0, vu⟩
      refine ⟨⟨v0.le, by linarith⟩, ?_⟩
      rcases vu.eq_or_lt with rfl | vu
      · rw [value, e2]; exact le_refl _
      · obtain ⟨d', e3, _⟩ := i1 v v0 (by linarith)
        have := i3 v u d' d v0 vu u1 e3 e2
        rw [value, e3]
        exact this.le
  rw [measure_congr this, Real.volume_Ioc, sub_zero]

/-- Limits that are set after the construction: random numbers are mapped between them, but the density that the
prior gives is still that without limits. It does not add up to one, so the mapped numbers do not have it. -/
theorem C124_counterexample_setLimits :
    ∃ q, construct .laplace 0 1 none .no = some q ∧
      (q.setLimits (some (some ((-1 : ℝ) : EReal), some ((1 : ℝ) : EReal)))).2 = false ∧
      ∫⁻ x, ENNReal.ofReal (density (q.setLimits (some (some ((-1 : ℝ) : EReal), some ((1 : ℝ) : EReal)))).1 x)
        = ENNReal.ofReal (1 - exp (-1)) ∧ 1 - exp (-1) < 1 := by
  have h0 : (start .laplace 0 1 (some 1)).setLimits none
      = ({ start .laplace 0 1 (some 1) with umin := 0, urng := some (1 - 0) }, false) := by
    have hord : (⊥ : EReal) ≤ ⊥ ∧ (⊥ : EReal) < ⊤ ∧ (⊤ : EReal) ≤ ⊤ := ⟨le_refl _, bot_lt_top, le_refl _⟩
    simp only [Prior.setLimits, start, Option.bind_none, Option.getD_none, reduceCtorEq, if_false]
    rw [if_pos hord]
    simp only [Prior.setRange, Prior.domain2UnitE, Prior.applyD, cumE_top, cumE_bot, Kind.hasCenter,
      if_true, reduceCtorEq, if_false, Bool.false_eq_true, Option.isSome_none, Bool.false_or]
  have h1 : ({ start .laplace 0 1 (some 1) with umin := 0, urng := some (1 - 0) } : Prior).setLimits
      (some (some ((-1 : ℝ) : EReal), some ((1 : ℝ) : EReal))) = (laplace1 1, false) := by
    exact start_set' .laplace 0 1 (some 1) 0 (some (1 - 0)) (-1) 1 _ _ (by norm_num) (by simp)
      laplace_m1 laplace_p1
  have he : exp (-1) < 1 := by rw [exp_lt_one_iff]; norm_num
  have hpos := exp_pos (-1)
  refine ⟨{ start .laplace 0 1 (some 1) with umin := 0, urng := some (1 - 0) }, ?_, by rw [h1], ?_, by linarith⟩
  · unfold construct
    have hrc : recenter 0 none .no = 0 := rfl
    simp only [Kind.hasCenter, if_true, hrc, limitedIntegral, Option.bind_none,
      Prior.setPriorAttributes, h0]
    rw [if_neg (by norm_num)]
    simp
  · rw [h1]
    have hi : Inv (laplace1 1) := between_inv .laplace 0 1 (some 1) (-1) 1 _ _ one_pos (by norm_num) (by simp)
      laplace_m1 laplace_p1
    have hc := core (laplace1 1) hi trivial (fun hk => by simp [laplace1, between, start] at hk)
      (1 - 0.5 * exp (-1) - 0.5 * exp (-1)) rfl fun _ => 1
    have e1 : (1 - 0.5 * exp (-1) - 0.5 * exp (-1)) = 1 - exp (-1) := by ring
    rw [e1] at hc
    have hd := inside_ae (laplace1 1) (fun _ => 1)
      (fun x => ENNReal.ofReal (1 - exp (-1)) *
        ENNReal.ofReal (dens (laplace1 1).kind (laplace1 1).center (laplace1 1).scale x / (1 - exp (-1)))) ?_ ?_
    · simp only [mul_one] at hd hc
      rw [← hd]
      rw [lintegral_const_mul' _ _ (by simp), ← hc]
      simp
    · intro x l1 l2
      rw [density, result_laplace _ 1 x rfl rfl (not_isOut _ x l1 l2), ← ENNReal.ofReal_mul (by linarith),
        mul_div_cancel₀ _ (by linarith)]
      simp [laplace1, between, start, dens]
    · intro x hx
      have : (laplace1 1).result x = some 0 := by
        have e : (laplace1 1).kind = .laplace := rfl
        have e' : (laplace1 1).limint = some 1 := rfl
        simp only [Prior.result, e, e', Option.map_some, if_pos hx]
      rw [density, this]; rfl

/-! The case of a uniform prior between 0 and 2, one that is circular with period 3, and a Cauchy prior. -/

theorem ready_uniform : Ready (between .uniform 0 1 none 0 2 0 2) := by
  refine Or.inl ⟨Or.inl ⟨.uniform, 0, 1, some (some ((0 : ℝ) : EReal), some ((2 : ℝ) : EReal)), ?_⟩, ?_⟩
  · have hss := start_set .uniform 0 1 none 0 2 0 2 (by norm_num) (by simp) rfl rfl
    simp only [construct, Kind.hasCenter, Bool.false_eq_true, if_false, Prior.setPriorAttributes, hss]
  · exact between_proper .uniform 0 1 none 0 2 0 2 rfl

theorem ready_circular : Ready { between .uniform 0 1 none 0 3 0 3 with circ := .period 3, maps := .circular } := by
  refine Or.inr (.period .uniform 0 1 3 _ (by simp) ?_)
  have hss := start_set .uniform 0 1 none 0 3 0 3 (by norm_num) (by simp) rfl rfl
  simp only [EReal.coe_zero] at hss
  show (start .uniform 0 1 none).setPriorAttributes none (.period 3) = _
  show (if ((start .uniform 0 1 none).setLimits (some (some (0 : EReal), some ((3 : ℝ) : EReal)))).2 then none
    else some { ((start .uniform 0 1 none).setLimits (some (some (0 : EReal), some ((3 : ℝ) : EReal)))).1 with
      circ := .period 3, maps := .circular }) = _
  rw [hss]
  rfl

example : (∫⁻ u in {u : Fin 2 → ℝ | ∀ i, 0 ≤ u i ∧ u i < 1},
      ENNReal.ofReal (exp (value (between .uniform 0 1 none 0 2 0 2) (u 0))))
    = ∫⁻ x : Fin 2 → ℝ, (∏ i, ENNReal.ofReal (density ((![between .uniform 0 1 none 0 2 0 2,
        { between .uniform 0 1 none 0 3 0 3 with circ := .period 3, maps := .circular }] : Fin 2 → Prior) i) (x i)))
        * ENNReal.ofReal (exp (x 0)) :=
  C124_all_partial ![between .uniform 0 1 none 0 2 0 2,
        { between .uniform 0 1 none 0 3 0 3 with circ := .period 3, maps := .circular }]
    (fun i => by
      fin_cases i
      · exact ready_uniform
      · exact ready_circular)
    (fun x => ENNReal.ofReal (exp (x 0))) (by fun_prop)

example : density (between .uniform 0 1 none 0 2 0 2) 1 = 1 / 2 ∧
    value (between .uniform 0 1 none 0 2 0 2) (1 / 4) = 1 / 2 := by
  constructor
  · rw [density, result_uniform _ (2 - 0) 1 rfl rfl]
    · norm_num
    · refine not_isOut _ _ ?_ ?_
      · exact EReal.coe_lt_coe_iff.2 (by norm_num)
      · exact EReal.coe_lt_coe_iff.2 (by norm_num)
  · simp only [value, Prior.unit2Domain, between, Prior.limitU, start, Kind.inv, if_true, Option.getD_some]
    norm_num

end

end BF.Priors
