import Verif.Props.PriorsMore

/-!
# Priors: circular priors, copies, and where the properties fail (C14, C15, C16, C45)
-/

namespace BF.Priors

open Real

/-! ## Setting two numbers as limits -/

/-- A new object with two numbers as limits. -/
noncomputable def between (k : Kind) (c s : ℝ) (li : Option ℝ) (a b ua ub : ℝ) : Prior :=
  { start k c s li with
    low := a, high := b, umin := ua, urng := some (ub - ua), maps := .limited, hasBase := true }

theorem start_set' (k : Kind) (c s : ℝ) (li : Option ℝ) (um : ℝ) (ur : Option ℝ) (a b ua ub : ℝ)
    (hab : a < b) (hj : k = .jeffreys → 0 ≤ a) (ha : k.cum c s a = some ua)
    (hb : k.cum c s b = some ub) :
    ({ start k c s li with umin := um, urng := ur } : Prior).setLimits
        (some (some (a : EReal), some (b : EReal)))
      = (between k c s li a b ua ub, false) := by
  have hord : (start k c s li).lowDomain ≤ (a : EReal) ∧ (a : EReal) < (b : EReal) ∧
      (b : EReal) ≤ (start k c s li).highDomain := by
    refine ⟨?_, EReal.coe_lt_coe_iff.2 hab, ?_⟩
    · by_cases hk : k = .jeffreys
      · simp only [start, hk, if_true]; exact EReal.coe_le_coe_iff.2 (hj hk)
      · simp [start, hk]
    · simp [start]
  have e : ({ start k c s li with umin := um, urng := ur, low := a, high := b } : Prior).setRange
      = { start k c s li with low := a, high := b, umin := ua, urng := some (ub - ua) } := by
    have hmu := map_unit ({ start k c s li with low := a, high := b } : Prior) rfl
    unfold Prior.setRange
    simp only at hmu ⊢
    rw [hmu, hmu]
    simp only [start, cumE_coe, ha, hb]
  unfold Prior.setLimits
  simp only [Option.bind_some, Option.getD_some, Option.isSome_some, Bool.or_true]
  rw [if_pos hord, e]
  simp [start, between]

theorem start_set (k : Kind) (c s : ℝ) (li : Option ℝ) (a b ua ub : ℝ) (hab : a < b)
    (hj : k = .jeffreys → 0 ≤ a) (ha : k.cum c s a = some ua) (hb : k.cum c s b = some ub) :
    (start k c s li).setLimits (some (some (a : EReal), some (b : EReal)))
      = (between k c s li a b ua ub, false) :=
  start_set' k c s li 0 none a b ua ub hab hj ha hb

theorem attributes_yes (q : Prior) (a b : ℝ) :
    q.setPriorAttributes (some (some (a : EReal), some (b : EReal))) .yes
      = if (q.setLimits (some (some (a : EReal), some (b : EReal)))).2 then none
        else some { (q.setLimits (some (some (a : EReal), some (b : EReal)))).1 with
          circ := .yes, maps := .circular } := rfl

theorem result_laplace (q : Prior) (li x : ℝ) (hk : q.kind = .laplace) (hl : q.limint = some li)
    (hx : ¬ q.isOut x) :
    q.result x = some (0.5 * exp (-|(x - q.center) / q.scale|) / (q.scale * li)) := by
  simp [Prior.result, hk, hl, hx]

theorem result_uniform (q : Prior) (r x : ℝ) (hk : q.kind = .uniform) (hl : q.urng = some r)
    (hx : ¬ q.isOut x) : q.result x = some (1 / r) := by
  simp [Prior.result, hk, hl, hx]

theorem between_inv (k : Kind) (c s : ℝ) (li : Option ℝ) (a b ua ub : ℝ) (hs : 0 < s) (hab : a < b)
    (hj : k = .jeffreys → 0 ≤ a) (ha : k.cum c s a = some ua) (hb : k.cum c s b = some ub) :
    Inv (between k c s li a b ua ub) := by
  have h := start_set k c s li a b ua ub hab hj ha hb
  have := (setLimits_spec (start k c s li) (some (some (a : EReal), some (b : EReal))) hs rfl
    (fun _ => (start_dom k c s li).1) (fun _ => (start_dom k c s li).2) (by rw [h])).1
  rw [h] at this
  exact this

theorem between_proper (k : Kind) (c s : ℝ) (li : Option ℝ) (a b ua ub : ℝ)
    (ha : k.cum c s a = some ua) : Proper (between k c s li a b ua ub) := by
  cases k with
  | uniform => simp [Proper, between, start]
  | jeffreys =>
    simp only [Kind.cum] at ha
    split at ha
    · simp at ha
    · rename_i h
      refine ⟨?_, by simp [between]⟩
      simp only [between]
      exact EReal.coe_lt_coe_iff.2 (not_le.1 h)
  | _ => trivial

/-! ## Circular priors -/

/-- The circular priors that can be made: by a class that has the option, with a period, or with the
limits (two numbers) as the period. -/
inductive MadeCircular : Prior → Prop
  | limits (k : Kind) (c s a b : ℝ) (q : Prior) : k ≠ .jeffreys →
      construct k c s (some (some (a : EReal), some (b : EReal))) .yes = some q → MadeCircular q
  | period (k : Kind) (c s : ℝ) (limits : Lims) (p : ℝ) (q : Prior) : k ≠ .jeffreys →
      construct k c s limits (.period p) = some q → MadeCircular q

theorem cum_total (k : Kind) (hk : k ≠ .jeffreys) (c s d : ℝ) : ∃ u, k.cum c s d = some u := by
  cases k with
  | jeffreys => exact absurd rfl hk
  | _ => exact ⟨_, rfl⟩

/-- The object of a circular prior. -/
theorem circular_spec (q : Prior) (h : MadeCircular q) :
    ∃ k c s li a b ua ub circ, k ≠ .jeffreys ∧ 0 < s ∧ a < b ∧ k.cum c s a = some ua ∧
      k.cum c s b = some ub ∧
      q = { between k c s li a b ua ub with circ := circ, maps := .circular } := by
  -- setting the limits
  have key : ∀ (k : Kind), k ≠ .jeffreys → ∀ (c s : ℝ) (li : Option ℝ) (a b : ℝ) (circ : Circ) (q : Prior),
      0 < s → (if ((start k c s li).setLimits (some (some (a : EReal), some (b : EReal)))).2 then none
        else some { ((start k c s li).setLimits (some (some (a : EReal), some (b : EReal)))).1 with
          circ := circ, maps := Maps.circular }) = some q →
      ∃ k c s li a b ua ub circ, k ≠ .jeffreys ∧ 0 < s ∧ a < b ∧ k.cum c s a = some ua ∧
        k.cum c s b = some ub ∧
        q = { between k c s li a b ua ub with circ := circ, maps := .circular } := by
    intro k hk c s li a b circ q hs h
    obtain ⟨ua, hua⟩ := cum_total k hk c s a
    obtain ⟨ub, hub⟩ := cum_total k hk c s b
    by_cases hab : a < b
    · rw [start_set k c s li a b ua ub hab (fun hj => absurd hj hk) hua hub] at h
      simp only [Bool.false_eq_true, if_false, Option.some.injEq] at h
      exact ⟨k, c, s, li, a, b, ua, ub, circ, hk, hs, hab, hua, hub, h.symm⟩
    · have hr := (C14_raises (start k c s li) (some (some (a : EReal), some (b : EReal)))).2 (by
        simp only [Option.bind_some, Option.getD_some]
        rintro ⟨_, hc, _⟩
        exact hab (EReal.coe_lt_coe_iff.1 hc))
      rw [hr] at h
      simp at h
  cases h with
  | limits k c s a b q hk h =>
    unfold construct at h
    split at h
    · split at h
      · simp at h
      · rename_i hs
        simp only at h
        split at h
        · simp at h
        · exact key k hk _ s _ a b .yes q (by linarith) h
    · exact key k hk 0 1 none a b .yes q one_pos h
  | period k c s limits p q hk h =>
    unfold construct at h
    split at h
    · rename_i hc
      split at h
      · simp at h
      · rename_i hs
        simp only at h
        split at h
        · simp at h
        · have hrc : recenter c limits (.period p) = c := by unfold recenter; rfl
          simp only [hrc, Prior.setPriorAttributes, start, hc, if_true] at h
          exact key k hk c s _ _ _ (.period p) q (by linarith) h
    · rename_i hc
      simp only [Prior.setPriorAttributes, start, hc] at h
      exact key k hk 0 1 none 0 p (.period p) q one_pos h

theorem circular_maps (k : Kind) (c s : ℝ) (li : Option ℝ) (a b ua ub : ℝ) (circ : Circ) :
    (∀ u, ({ between k c s li a b ua ub with circ := circ, maps := .circular } : Prior).unit2Domain u
      = (between k c s li a b ua ub).unit2Domain (Int.fract (u * 3))) ∧
    (∀ d, ({ between k c s li a b ua ub with circ := circ, maps := .circular } : Prior).domain2Unit d
      = ((between k c s li a b ua ub).domain2Unit d).map fun v => (v + 1) / 3) := ⟨fun _ => rfl, fun _ => rfl⟩

/-- A circular prior maps any number to a value in its base period, and values in the base period to the
middle third of the unit range and back to themselves. -/
theorem C16_base_period (q : Prior) (h : MadeCircular q) :
    ∃ a b : ℝ, a < b ∧ q.low = a ∧ q.high = b ∧
      (∀ u, ∃ d, q.unit2Domain u = some d ∧ a ≤ d ∧ d < b) ∧
      (∀ d, a ≤ d → d < b → ∃ u, q.domain2Unit d = some u ∧ 1 / 3 ≤ u ∧ u < 2 / 3 ∧
        q.unit2Domain u = some d) := by
  obtain ⟨k, c, s, li, a, b, ua, ub, circ, hk, hs, hab, hua, hub, rfl⟩ := circular_spec q h
  have hi := between_inv k c s li a b ua ub hs hab (fun hj => absurd hj hk) hua hub
  have hp := between_proper k c s li a b ua ub hua
  obtain ⟨m1, m2⟩ := circular_maps k c s li a b ua ub circ
  obtain ⟨l1, l2, _⟩ := limits_of_inv _ hi hp
  obtain ⟨_, i2, _⟩ := inverse_of_inv _ hi hp
  refine ⟨a, b, hab, rfl, rfl, ?_, ?_⟩
  · intro u
    rw [m1]
    rcases (Int.fract_nonneg (u * 3)).eq_or_lt with h0 | h0
    · rw [← h0]
      exact ⟨a, (l2 a rfl).1, le_refl _, hab⟩
    · obtain ⟨d, e1, e2, e3⟩ := l1 _ h0 (Int.fract_lt_one _)
      exact ⟨d, e1, (EReal.coe_lt_coe_iff.1 e2).le, EReal.coe_lt_coe_iff.1 e3⟩
  · intro d had hdb
    have key : ∃ v, 0 ≤ v ∧ v < 1 ∧ (between k c s li a b ua ub).domain2Unit d = some v ∧
        (between k c s li a b ua ub).unit2Domain v = some d := by
      rcases had.eq_or_lt with rfl | had
      · exact ⟨0, le_refl _, one_pos, (l2 a rfl).2, (l2 a rfl).1⟩
      · obtain ⟨v, h0, h1, e1, e2⟩ := i2 d (EReal.coe_lt_coe_iff.2 had) (EReal.coe_lt_coe_iff.2 hdb)
        exact ⟨v, h0.le, h1, e1, e2⟩
    obtain ⟨v, h0, h1, e1, e2⟩ := key
    refine ⟨(v + 1) / 3, by rw [m2, e1]; rfl, by linarith, by linarith, ?_⟩
    rw [m1, show (v + 1) / 3 * 3 = v + 1 by ring, Int.fract_add_one,
      Int.fract_eq_self.2 ⟨h0, h1⟩, e2]

/-- A circular uniform prior folds every number, however far away, by whole periods into the base
period. -/
theorem C16_fold_partial (q : Prior) (h : MadeCircular q) (hk : q.kind = .uniform) :
    ∃ a b : ℝ, a < b ∧ q.low = a ∧ q.high = b ∧
      ∀ d : ℝ, ∃ u d', q.domain2Unit d = some u ∧ q.unit2Domain u = some d' ∧ a ≤ d' ∧ d' < b ∧
        ∃ n : ℤ, d' = d + n * (b - a) := by
  obtain ⟨k, c, s, li, a, b, ua, ub, circ, hkj, hs, hab, hua, hub, rfl⟩ := circular_spec q h
  have hk : k = .uniform := hk
  subst hk
  have hi := between_inv .uniform c s li a b ua ub hs hab (fun hj => absurd hj hkj) hua hub
  have h1 : ua = a := by simpa [Kind.cum, eq_comm] using hua
  have h2 : ub = b := by simpa [Kind.cum, eq_comm] using hub
  subst h1; subst h2
  obtain ⟨m1, m2⟩ := circular_maps .uniform c s li ua ub ua ub circ
  obtain ⟨g1, g2⟩ := maps_eq _ hi ua ub hab rfl rfl
  have hP : 0 < ub - ua := by linarith
  refine ⟨ua, ub, hab, rfl, rfl, fun d => ?_⟩
  refine ⟨((d - ua) / (ub - ua) + 1) / 3, Int.fract ((d - ua) / (ub - ua)) * (ub - ua) + ua, ?_, ?_, ?_, ?_,
    -⌊(d - ua) / (ub - ua)⌋, ?_⟩
  · rw [m2, g2]; rfl
  · rw [m1, show ((d - ua) / (ub - ua) + 1) / 3 * 3 = (d - ua) / (ub - ua) + 1 by ring,
      Int.fract_add_one, g1]
    rfl
  · have := mul_nonneg (Int.fract_nonneg ((d - ua) / (ub - ua))) hP.le
    linarith
  · have := mul_lt_mul_of_pos_right (Int.fract_lt_one ((d - ua) / (ub - ua))) hP
    linarith
  · rw [Int.fract]
    push_cast
    field_simp
    ring

/-- With the other priors numbers outside the base period are not folded: in a Cauchy prior of period 2
about 0, the number 2 is taken to -1/2 and not to 0. -/
theorem C16_counterexample :
    ∃ q, construct .cauchy 0 1 none (.period 2) = some q ∧ q.low = ((-1 : ℝ) : EReal) ∧
      q.high = ((1 : ℝ) : EReal) ∧
      ∃ u, q.domain2Unit 2 = some u ∧ q.unit2Domain u = some (-1 / 2) := by
  have hpi := pi_pos
  have ha : Kind.cauchy.cum 0 1 (-1) = some (1 / 4) := by
    simp only [Kind.cum, sub_zero, div_one, arctan_neg, arctan_one, Option.some.injEq]
    field_simp; norm_num
  have hb : Kind.cauchy.cum 0 1 1 = some (3 / 4) := by
    simp only [Kind.cum, sub_zero, div_one, arctan_one, Option.some.injEq]
    field_simp; norm_num
  set li : ℝ := 3 / 4 - 1 / 4 with hli
  have hint : limitedIntegral .cauchy 1 0 0 none (.period 2) = some li := by
    simp only [limitedIntegral, Option.bind_some, zero_sub, zero_add, cumE_coe]
    rw [show -((2 : ℝ) / 2) = -1 by norm_num,
      show (2 : ℝ) / 2 = 1 by norm_num, ha, hb]
  refine ⟨{ between .cauchy 0 1 (some li) (-1) 1 (1 / 4) (3 / 4) with
    circ := .period 2, maps := .circular }, ?_, rfl, rfl, ?_⟩
  · unfold construct
    have hrc : recenter 0 none (.period 2) = 0 := rfl
    simp only [Kind.hasCenter, if_true, hrc, hint]
    rw [if_neg (by norm_num)]
    have hss := start_set .cauchy 0 1 (some li) (-1) 1 (1 / 4) (3 / 4) (by norm_num) (by simp) ha hb
    simp only [Prior.setPriorAttributes, start, Kind.hasCenter, if_true, zero_sub, zero_add]
    rw [show -((2 : ℝ) / 2) = -1 by norm_num, show (2 : ℝ) / 2 = 1 by norm_num]
    simp only [start] at hss
    rw [hss]
    rfl
  · have hi := between_inv .cauchy 0 1 (some li) (-1) 1 (1 / 4) (3 / 4) one_pos (by norm_num) (by simp)
      ha hb
    obtain ⟨m1, m2⟩ := circular_maps .cauchy 0 1 (some li) (-1) 1 (1 / 4) (3 / 4) (.period 2)
    obtain ⟨g1, g2⟩ := maps_eq _ hi (1 / 4) (3 / 4) (by norm_num) rfl rfl
    refine ⟨((arctan 2 / π + 0.5 - 1 / 4) / (3 / 4 - 1 / 4) + 1) / 3, ?_, ?_⟩
    · rw [m2, g2]
      simp [between, start, Kind.cum]
    · have hA1 : π / 4 < arctan 2 := by rw [← arctan_one]; exact arctan_strictMono (by norm_num)
      have hA2 := arctan_lt_pi_div_two 2
      have hA1' : 1 / 4 < arctan 2 / π := by rw [lt_div_iff₀ hpi]; linarith
      have hA2' : arctan 2 / π < 1 / 2 := by rw [div_lt_iff₀ hpi]; linarith
      rw [m1, show ((arctan 2 / π + 0.5 - 1 / 4) / (3 / 4 - 1 / 4) + 1) / 3 * 3
        = (arctan 2 / π * 2 - 1 / 2) + ((2 : ℤ) : ℝ) by push_cast; ring,
        Int.fract_add_intCast, Int.fract_eq_self.2 ⟨by linarith, by linarith⟩, g1]
      simp only [between, start, Kind.inv, sub_zero]
      have e : ((arctan 2 / π * 2 - 1 / 2) * (3 / 4 - 1 / 4) + 1 / 4 - 0.5) * π
          = -(π / 2 - arctan 2) := by field_simp; ring
      rw [e, if_neg, tan_neg, tan_pi_div_two_sub, tan_arctan]
      · norm_num
      · rw [cos_neg, cos_pi_div_two_sub, sin_arctan]; positivity

/-- A circular prior whose limits are set again later is spoiled: after the limits [0,1] of a circular
uniform prior are changed into [0,2], no unit value gives 3/2 (or anything else outside [1/3,1)). -/
theorem C16_counterexample_setLimits :
    ∃ q, construct .uniform 0 1 (some (some ((0 : ℝ) : EReal), some ((1 : ℝ) : EReal))) .yes = some q ∧
      (q.setLimits (some (some ((0 : ℝ) : EReal), some ((2 : ℝ) : EReal)))).2 = false ∧
      (q.setLimits (some (some ((0 : ℝ) : EReal), some ((2 : ℝ) : EReal)))).1.high = ((2 : ℝ) : EReal) ∧
      ∀ u d, (q.setLimits (some (some ((0 : ℝ) : EReal), some ((2 : ℝ) : EReal)))).1.unit2Domain u
        = some d → 1 / 3 ≤ d ∧ d < 1 := by
  refine ⟨{ between .uniform 0 1 none 0 1 0 1 with circ := .yes, maps := .circular }, ?_, ?_⟩
  · have hss := start_set .uniform 0 1 none 0 1 0 1 (by norm_num) (by simp) rfl rfl
    simp only [construct, Kind.hasCenter, Bool.false_eq_true, if_false]
    rw [attributes_yes, hss]
    rfl
  · have hs : ({ between .uniform 0 1 none 0 1 0 1 with circ := .yes, maps := .circular } : Prior).setLimits
        (some (some ((0 : ℝ) : EReal), some ((2 : ℝ) : EReal)))
        = (({ between .uniform 0 1 none 0 1 0 1 with
              circ := .yes, maps := .circular, low := ((0 : ℝ) : EReal), high := ((2 : ℝ) : EReal)
              umin := 1 / 3, urng := some (2 / 3) } : Prior), false) := by
      have hord : (⊥ : EReal) ≤ ((0 : ℝ) : EReal) ∧ ((0 : ℝ) : EReal) < ((2 : ℝ) : EReal) ∧
          ((2 : ℝ) : EReal) ≤ ⊤ := ⟨bot_le, EReal.coe_lt_coe_iff.2 two_pos, le_top⟩
      simp only [Prior.setLimits, between, start, Option.bind_some, Option.getD_some, reduceCtorEq,
        if_false]
      rw [if_pos hord]
      have h1 : (((2 : ℝ) - 0) / 1 + 1) / 3 = 1 := by norm_num
      have h2 : (((0 : ℝ) - 0) / 1 + 1) / 3 = 1 / 3 := by norm_num
      have h3 : (1 : ℝ) - 1 / 3 = 2 / 3 := by norm_num
      simp only [Prior.setRange, Prior.domain2UnitE, Prior.applyD, Prior.limitD, cumE_coe, Kind.cum,
        if_true, Option.map_some, h1, h2, h3, reduceCtorEq, if_false]
    refine ⟨by rw [hs], by rw [hs], ?_⟩
    intro u d hd
    rw [hs] at hd
    simp only [Prior.unit2Domain, Prior.limitU, between, start, if_true, Kind.inv,
      Option.some.injEq] at hd
    have h0 := Int.fract_nonneg (u * 3)
    have h1 := Int.fract_lt_one (u * 3)
    constructor <;> linarith

/-! ## Where limits and densities fail -/

/-- The Laplace prior with limits -1 and 1. -/
noncomputable def laplace1 (li : ℝ) : Prior :=
  between .laplace 0 1 (some li) (-1) 1 (0.5 * exp (-1)) (1 - 0.5 * exp (-1))

theorem laplace_m1 : Kind.laplace.cum 0 1 (-1) = some (0.5 * exp (-1)) := by
  simp [Kind.cum]

theorem laplace_p1 : Kind.laplace.cum 0 1 1 = some (1 - 0.5 * exp (-1)) := by
  simp [Kind.cum, show ¬ (1 : ℝ) < 0 by norm_num]

theorem laplace1_made :
    construct .laplace 0 1 (some (some ((-1 : ℝ) : EReal), some ((1 : ℝ) : EReal))) .no
      = some (laplace1 (1 - 0.5 * exp (-1) - 0.5 * exp (-1))) := by
  have hss := start_set .laplace 0 1 (some (1 - 0.5 * exp (-1) - 0.5 * exp (-1))) (-1) 1 _ _
    (by norm_num) (by simp) laplace_m1 laplace_p1
  have hrc : recenter 0 (some (some ((-1 : ℝ) : EReal), some ((1 : ℝ) : EReal))) .no = 0 := rfl
  unfold construct
  simp only [Kind.hasCenter, if_true, hrc, limitedIntegral, Option.bind_some, cumE_coe, laplace_m1,
    laplace_p1, Prior.setPriorAttributes]
  rw [if_neg (by norm_num), hss]
  rfl

/-- After a change of the scale (an assignment to the attribute) the limits no longer hold: with scale 2
the Laplace prior with limits -1 and 1 maps 1 to 2. -/
theorem C14_counterexample_scale :
    ∃ q q', construct .laplace 0 1 (some (some ((-1 : ℝ) : EReal), some ((1 : ℝ) : EReal))) .no = some q ∧
      q.setScale 2 = some q' ∧ q'.high = ((1 : ℝ) : EReal) ∧ q'.unit2Domain 1 = some 2 := by
  refine ⟨_, { laplace1 (1 - 0.5 * exp (-1) - 0.5 * exp (-1)) with scale := 2 }, laplace1_made, ?_, rfl, ?_⟩
  · simp [Prior.setScale]
  · have h1 := exp_pos (-1)
    have h2 : exp (-1) < 1 := by rw [exp_lt_one_iff]; norm_num
    show Kind.laplace.inv 0 2 (1 * (1 - 0.5 * exp (-1) - 0.5 * exp (-1)) + 0.5 * exp (-1)) = some 2
    simp only [Kind.inv]
    rw [show (2 : ℝ) * (1 * (1 - 0.5 * exp (-1) - 0.5 * exp (-1)) + 0.5 * exp (-1)) = 2 - exp (-1) by ring]
    rw [if_neg (by push Not; constructor <;> linarith), if_neg (by linarith), if_neg (by linarith),
      if_neg (by linarith), sub_sub_cancel, log_exp]
    norm_num

/-- A call of `setLimits` that raises an exception changes the limits nevertheless. -/
theorem C14_counterexample_raise :
    ∃ q, construct .uniform 0 1 (some (some ((0 : ℝ) : EReal), some ((1 : ℝ) : EReal))) .no = some q ∧
      (q.setLimits (some (some ((5 : ℝ) : EReal), some ((3 : ℝ) : EReal)))).2 = true ∧
      (q.setLimits (some (some ((5 : ℝ) : EReal), some ((3 : ℝ) : EReal)))).1.low = ((5 : ℝ) : EReal) ∧
      (q.setLimits (some (some ((5 : ℝ) : EReal), some ((3 : ℝ) : EReal)))).1.unit2Domain (1 / 2)
        = some (1 / 2) := by
  refine ⟨between .uniform 0 1 none 0 1 0 1, ?_, ?_⟩
  · have hss := start_set .uniform 0 1 none 0 1 0 1 (by norm_num) (by simp) rfl rfl
    simp only [construct, Kind.hasCenter, Bool.false_eq_true, if_false, Prior.setPriorAttributes, hss]
  · have hr : ¬ ((5 : ℝ) : EReal) < ((3 : ℝ) : EReal) := by
      rw [EReal.coe_lt_coe_iff]; norm_num
    have hs : (between .uniform 0 1 none 0 1 0 1).setLimits
        (some (some ((5 : ℝ) : EReal), some ((3 : ℝ) : EReal)))
        = ({ between .uniform 0 1 none 0 1 0 1 with low := ((5 : ℝ) : EReal), high := ((3 : ℝ) : EReal) },
            true) := by
      simp only [Prior.setLimits, Option.bind_some, Option.getD_some]
      rw [if_neg (fun h => hr h.2.1)]
    rw [hs]
    refine ⟨rfl, rfl, ?_⟩
    simp [Prior.unit2Domain, between, Prior.limitU, Kind.inv, start]

/-- After `unsetLimits` the maps still are those with limits: 5 is mapped outside of the unit range. -/
theorem C14_counterexample_unset :
    ∃ q, construct .uniform 0 1 (some (some ((0 : ℝ) : EReal), some ((1 : ℝ) : EReal))) .no = some q ∧
      q.unsetLimits.low = ⊥ ∧ q.unsetLimits.high = ⊤ ∧ q.unsetLimits.domain2Unit 5 = some 5 := by
  refine ⟨between .uniform 0 1 none 0 1 0 1, ?_, ?_⟩
  · have hss := start_set .uniform 0 1 none 0 1 0 1 (by norm_num) (by simp) rfl rfl
    simp only [construct, Kind.hasCenter, Bool.false_eq_true, if_false, Prior.setPriorAttributes, hss]
  · refine ⟨rfl, rfl, ?_⟩
    simp [Prior.unsetLimits, Prior.domain2Unit, Prior.applyD, between, Prior.limitD, Kind.cum, start]

/-- The value at the unit value 0 may be out of the limits when the lower limit is infinite: the Laplace
prior with -50 as highest value maps 0 to -40. -/
theorem C14_counterexample_zero :
    ∃ q, construct .laplace 0 1 (some (none, some ((-50 : ℝ) : EReal))) .no = some q ∧
      q.high = ((-50 : ℝ) : EReal) ∧ q.unit2Domain 0 = some (-40) := by
  have h50 : Kind.laplace.cum 0 1 (-50) = some (0.5 * exp (-50)) := by
    simp [Kind.cum]
  have hrc : recenter 0 (some (none, some ((-50 : ℝ) : EReal))) .no = 0 := rfl
  have hord : (⊥ : EReal) ≤ ⊥ ∧ (⊥ : EReal) < ((-50 : ℝ) : EReal) ∧ ((-50 : ℝ) : EReal) ≤ ⊤ :=
    ⟨le_refl _, EReal.bot_lt_coe _, le_top⟩
  have hs : ∀ li, (start .laplace 0 1 li).setLimits (some (none, some ((-50 : ℝ) : EReal)))
      = (({ start .laplace 0 1 li with
            low := ⊥, high := ((-50 : ℝ) : EReal), umin := 0
            urng := some (0.5 * exp (-50) - 0), maps := .limited, hasBase := true } : Prior), false) := by
    intro li
    simp only [Prior.setLimits, start, Option.bind_some, Option.getD_some, Option.getD_none, reduceCtorEq,
      if_false]
    rw [if_pos hord]
    simp only [Prior.setRange, Prior.domain2UnitE, Prior.applyD, cumE_coe, h50, cumE_bot, Kind.hasCenter,
      if_true, reduceCtorEq, if_false, Bool.false_eq_true, Option.isSome_some, Option.isSome_none,
      Bool.false_or]
  refine ⟨{ start .laplace 0 1 (some (0.5 * exp (-50) - 0)) with
      low := ⊥, high := ((-50 : ℝ) : EReal), umin := 0
      urng := some (0.5 * exp (-50) - 0), maps := .limited, hasBase := true }, ?_, rfl, ?_⟩
  · unfold construct
    simp only [Kind.hasCenter, if_true, hrc, limitedIntegral, Option.bind_some, cumE_coe, h50,
      Option.map_some, Prior.setPriorAttributes, hs]
    rw [if_neg (by norm_num)]
    simp
  · simp [Prior.unit2Domain, Prior.limitU, Kind.inv, start]

/-- When limits are set after the construction, the density is not renewed: of a Laplace prior that is
limited to [-1,1] afterwards the density at 0 is that of the unlimited one, while the map from domain to
unit is steeper. -/
theorem C15_counterexample_setLimits :
    ∃ q, construct .laplace 0 1 none .no = some q ∧
      (q.setLimits (some (some ((-1 : ℝ) : EReal), some ((1 : ℝ) : EReal)))).2 = false ∧
      (q.setLimits (some (some ((-1 : ℝ) : EReal), some ((1 : ℝ) : EReal)))).1.result 0 = some 0.5 ∧
      (∀ d, (q.setLimits (some (some ((-1 : ℝ) : EReal), some ((1 : ℝ) : EReal)))).1.domain2Unit d
        = some ((cumR .laplace 0 1 d - 0.5 * exp (-1)) / (1 - exp (-1)))) ∧
      HasDerivAt (fun d => (cumR .laplace 0 1 d - 0.5 * exp (-1)) / (1 - exp (-1)))
        (0.5 / (1 - exp (-1))) 0 ∧ (0.5 : ℝ) ≠ 0.5 / (1 - exp (-1)) := by
  have h0 : (start .laplace 0 1 (some 1)).setLimits none
      = ({ start .laplace 0 1 (some 1) with umin := 0, urng := some (1 - 0) }, false) := by
    have hord : (⊥ : EReal) ≤ ⊥ ∧ (⊥ : EReal) < ⊤ ∧ (⊤ : EReal) ≤ ⊤ := ⟨le_refl _, bot_lt_top, le_refl _⟩
    simp only [Prior.setLimits, start, Option.bind_none, Option.getD_none, reduceCtorEq, if_false]
    rw [if_pos hord]
    simp only [Prior.setRange, Prior.domain2UnitE, Prior.applyD, cumE_top, cumE_bot, Kind.hasCenter,
      if_true, reduceCtorEq, if_false, Bool.false_eq_true, Option.isSome_none, Bool.false_or]
  have h1 : ({ start .laplace 0 1 (some 1) with umin := 0, urng := some (1 - 0) } : Prior).setLimits
      (some (some ((-1 : ℝ) : EReal), some ((1 : ℝ) : EReal))) = (laplace1 1, false) := by
    exact start_set' .laplace 0 1 (some 1) 0 (some (1 - 0)) (-1) 1 _ _ (by norm_num) (by simp)
      laplace_m1 laplace_p1
  have he : exp (-1) < 1 := by rw [exp_lt_one_iff]; norm_num
  have hp := exp_pos (-1)
  refine ⟨{ start .laplace 0 1 (some 1) with umin := 0, urng := some (1 - 0) }, ?_, by rw [h1], ?_, ?_, ?_, ?_⟩
  · unfold construct
    have hrc : recenter 0 none .no = 0 := rfl
    simp only [Kind.hasCenter, if_true, hrc, limitedIntegral, Option.bind_none,
      Prior.setPriorAttributes, h0]
    rw [if_neg (by norm_num)]
    simp
  · rw [h1]
    have hno : ¬ (laplace1 1).isOut 0 := by
      refine not_isOut _ _ ?_ ?_
      · exact EReal.coe_lt_coe_iff.2 (by norm_num)
      · exact EReal.coe_lt_coe_iff.2 (by norm_num)
    rw [result_laplace _ 1 0 rfl rfl hno]
    simp [laplace1, between, start]
  · intro d
    rw [h1]
    simp only [Prior.domain2Unit, Prior.applyD, laplace1, between, start, Prior.limitD, if_true, Kind.cum]
    congr 1
    rw [show 1 - 0.5 * exp (-1) - 0.5 * exp (-1) = 1 - exp (-1) by ring]
    rfl
  · have := ((cumR_deriv .laplace 0 1 0 one_pos (by simp)).sub_const (0.5 * exp (-1))).div_const
      (1 - exp (-1))
    refine this.congr_deriv ?_
    simp [dens]
  · intro hc
    have h3 : 1 - exp (-1) ≠ 0 := by linarith
    rw [eq_div_iff h3] at hc
    linarith

/-- The domain to unit map of a circular prior is three times less steep than its density. -/
theorem C15_counterexample_circular :
    ∃ q, construct .uniform 0 1 (some (some ((0 : ℝ) : EReal), some ((1 : ℝ) : EReal))) .yes = some q ∧
      q.result (1 / 2) = some 1 ∧ ∀ d, q.domain2Unit d = some ((d + 1) / 3) := by
  refine ⟨{ between .uniform 0 1 none 0 1 0 1 with circ := .yes, maps := .circular }, ?_, ?_, ?_⟩
  · have hss := start_set .uniform 0 1 none 0 1 0 1 (by norm_num) (by simp) rfl rfl
    simp only [construct, Kind.hasCenter, Bool.false_eq_true, if_false]
    rw [attributes_yes, hss]
    rfl
  · have hno : ¬ ({ between .uniform 0 1 none 0 1 0 1 with circ := .yes, maps := .circular } :
        Prior).isOut (1 / 2) := by
      refine not_isOut _ _ ?_ ?_
      · exact EReal.coe_lt_coe_iff.2 (by norm_num)
      · exact EReal.coe_lt_coe_iff.2 (by norm_num)
    rw [result_uniform _ (1 - 0) _ rfl rfl hno]
    norm_num
  · intro d
    simp [Prior.domain2Unit, Prior.applyD, between, start, Prior.limitD, Kind.cum]

/-! Non-vacuity: the prior above is proper. -/
example : ∃ q, Made q ∧ Fresh q ∧ Proper q ∧ q.low = ((-1 : ℝ) : EReal) :=
  ⟨_, .new _ _ _ _ _ laplace1_made, Or.inl ⟨_, _, _, _, laplace1_made⟩, trivial, rfl⟩

end BF.Priors
