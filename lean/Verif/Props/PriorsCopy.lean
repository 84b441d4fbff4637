import Verif.Props.PriorsCirc

/-!
# Copies of priors (C45)

Objects are values in the model. That a copy is independent of the original is in this that `copy` calls
the constructor with numbers only, so that the two share nothing that can be changed.
-/

namespace BF.Priors

open Real

/-- Two priors that cannot be told apart by their limits, maps and densities. -/
structure Same (q q' : Prior) : Prop where
  low : q'.low = q.low
  high : q'.high = q.high
  unit2Domain : ∀ u, q'.unit2Domain u = q.unit2Domain u
  domain2Unit : ∀ d, q'.domain2Unit d = q.domain2Unit d
  result : ∀ x, q'.result x = q.result x
  logResult : ∀ x, q'.logResult x = q.logResult x
  partialLog : ∀ x, q'.partialLog x = q.partialLog x

theorem same_of (q q' : Prior) (hi : Inv q) (hi' : Inv q') (hk : q'.kind = q.kind)
    (hc : q'.center = q.center) (hs : q'.scale = q.scale) (hl : q'.low = q.low) (hh : q'.high = q.high)
    (hli : q'.limint = q.limint) (hb : q.urng = none → q.hasBase = q'.hasBase) : Same q q' := by
  have hr : q'.urng = q.urng ∧ (q.urng ≠ none → q'.umin = q.umin) := by
    have h1 := hi.range
    have h2 := hi'.range
    rw [hk, hc, hs, hl, hh] at h2
    rcases h1 with ⟨e1, h1⟩ | ⟨a, b, h1, h1', h1'', e1⟩
    · rcases h2 with ⟨e2, h2⟩ | ⟨a', b', h2, h2', h2'', e2⟩
      · exact ⟨by rw [e1, e2], fun hn => absurd e1 hn⟩
      · rw [h2, h2'] at h1; simp at h1
    · rcases h2 with ⟨e2, h2⟩ | ⟨a', b', h2, h2', h2'', e2⟩
      · rw [h1, h1'] at h2; simp at h2
      · rw [h1] at h2; rw [h1'] at h2'
        simp only [Option.some.injEq] at h2 h2'
        exact ⟨by rw [e1, e2, h2, h2'], fun _ => by rw [h1'', h2'', h2]⟩
  have hout : ∀ x, q'.isOut x ↔ q.isOut x := by
    intro x; unfold Prior.isOut; rw [hl, hh]
  have hres : ∀ x, q'.result x = q.result x := by
    intro x
    unfold Prior.result
    by_cases ho : q.isOut x
    · have ho' := (hout x).2 ho
      simp only [hk, hr.1, hli, hc, hs, ho, ho', if_true]
    · have ho' : ¬ q'.isOut x := fun h => ho ((hout x).1 h)
      simp only [hk, hr.1, hli, hc, hs, ho, ho', if_false]
  have hmaps : (∀ u, q'.unit2Domain u = q.unit2Domain u) ∧
      (∀ d, q'.domain2Unit d = q.domain2Unit d) := by
    by_cases hn : q.urng = none
    · have hbb := hb hn
      have hm : q'.maps = q.maps := by rw [hi.maps, hi'.maps, hbb]
      constructor
      · intro u
        simp only [Prior.unit2Domain, Prior.limitU, hm, hk, hc, hs, hr.1, hn, hbb]
      · intro d
        simp only [Prior.domain2Unit, Prior.applyD, Prior.limitD, hm, hk, hc, hs, hr.1, hn, hbb]
        cases q.kind.cum q.center q.scale d <;> rfl
    · rcases hi.range with ⟨e1, _⟩ | ⟨a, b, h1, h2, h3, h4⟩
      · exact absurd e1 hn
      · have hab : a < b := cumE_mono _ _ _ hi.scale _ _ _ _ hi.order.2.1 h1 h2
        obtain ⟨m1, m2⟩ := maps_eq q hi a b hab h3 h4
        obtain ⟨m1', m2'⟩ := maps_eq q' hi' a b hab (by rw [hr.2 hn, h3]) (by rw [hr.1, h4])
        exact ⟨fun u => by rw [m1, m1', hk, hc, hs], fun d => by rw [m2, m2', hk, hc, hs]⟩
  refine ⟨hl, hh, hmaps.1, hmaps.2, hres, ?_, ?_⟩
  · intro x
    unfold Prior.logResult
    by_cases ho : q.isOut x
    · have ho' := (hout x).2 ho
      simp only [hk, hli, hc, hs, hres, ho, ho', if_true]
    · have ho' : ¬ q'.isOut x := fun h => ho ((hout x).1 h)
      simp only [hk, hli, hc, hs, hres, ho, ho', if_false]
  · intro x
    unfold Prior.partialLog
    by_cases ho : q.isOut x
    · have ho' := (hout x).2 ho
      simp only [hk, hc, hs, ho, ho', if_true]
    · have ho' : ¬ q'.isOut x := fun h => ho ((hout x).1 h)
      simp only [hk, hc, hs, ho, ho', if_false]

theorem cumE_total (k : Kind) (hk : k.hasCenter = true) (c s : ℝ) (x : EReal) :
    ∃ u, k.cumE c s x = some u := by
  have hj : k ≠ .jeffreys := by rintro rfl; simp [Kind.hasCenter] at hk
  induction x with
  | bot => exact ⟨0, by rw [cumE_bot, if_pos hk]⟩
  | top => exact ⟨1, by rw [cumE_top, if_pos hk]⟩
  | coe x => exact cum_total k hj c s x

/-- The copy of a prior, as it came from its constructor, cannot be told apart from the original. -/
theorem C45_prior_partial (k : Kind) (c s : ℝ) (limits : Lims) (q : Prior)
    (h : construct k c s limits .no = some q) :
    ∃ q', q.copy = some q' ∧ Same q q' := by
  have hmade : Made q := .new k c s limits q h
  have hfresh : Fresh q := Or.inl ⟨k, c, s, limits, h⟩
  have hi := made_inv q hmade
  obtain ⟨s', c', li, h1, h2, h2', h3, hq⟩ := construct_spec k c s limits q h
  obtain ⟨_, g1, g2, g3, g4, g4', g5, g6, g7, g7', g8, g9⟩ := setLimits_spec (start k c' s' li) limits
    h1 rfl (fun _ => (start_dom k c' s' li).1) (fun _ => (start_dom k c' s' li).2) h3
  rw [← hq] at g1 g2 g3 g4 g4' g7 g7' g8 g9
  have hk : q.kind = k := g1
  have hcirc : q.circ = .no := g4'
  have hc : q.center = c' := g2
  have hs : q.scale = s' := g3
  -- the object that copy makes
  have hraise : ∀ li', ((start k c' s' li').setLimits (some (some q.low, some q.high))).2 = false := by
    intro li'
    have : ¬ ((start k c' s' li').setLimits (some (some q.low, some q.high))).2 = true := by
      rw [C14_raises]
      simp only [Option.bind_some, Option.getD_some, not_not]
      have := hi.order
      rw [g7, g7'] at this
      exact this
    simpa using this
  have key : ∀ li', q.limint = li' →
      Same q ((start k c' s' li').setLimits (some (some q.low, some q.high))).1 := by
    intro li' hli'
    obtain ⟨i', e1, e2, e3, e4, e4', e5, e6, e7, e7', e8, e9⟩ := setLimits_spec (start k c' s' li')
      (some (some q.low, some q.high)) h1 rfl (fun _ => (start_dom k c' s' li').1)
      (fun _ => (start_dom k c' s' li').2) (hraise li')
    refine same_of q _ hi i' (by rw [e1, g1]; rfl) (by rw [e2, g2]; rfl) (by rw [e3, g3]; rfl)
      (by rw [e5]; rfl) (by rw [e6]; rfl) (by rw [e4, hli']; rfl) ?_
    intro hn
    rw [g9 hn]
    symm
    have h10 : ((start k c' s' li').setLimits (some (some q.low, some q.high))).1.urng = none := by
      rcases i'.range with ⟨e, _⟩ | ⟨a, b, ea, eb, _, _⟩
      · exact e
      · exfalso
        rw [e1, e2, e3, e5] at ea
        rw [e1, e2, e3, e6] at eb
        rcases hi.range with ⟨_, hx⟩ | ⟨_, _, _, _, _, hx⟩
        · rw [hk, hc, hs] at hx
          simp only [Option.bind_some, Option.getD_some] at ea eb
          rcases hx with hx | hx
          · have ea : k.cumE c' s' q.low = some a := ea
            rw [hx] at ea; simp at ea
          · have eb : k.cumE c' s' q.high = some b := eb
            rw [hx] at eb; simp at eb
        · rw [hn] at hx; simp at hx
    exact e9 h10
  cases hkc : k.hasCenter with
  | true =>
    obtain ⟨rfl, rfl, hli, _⟩ := h2 hkc
    obtain ⟨a, ha⟩ := cumE_total k hkc c' s' q.low
    obtain ⟨b, hb⟩ := cumE_total k hkc c' s' q.high
    have hlim := fresh_limint q hfresh (by rw [hk]; exact hkc) a b (by rw [hk, hc, hs]; exact ha)
      (by rw [hk, hc, hs]; exact hb)
    refine ⟨_, ?_, key (some (b - a)) hlim⟩
    unfold Prior.copy construct
    have hrc : recenter c' (some (some q.low, some q.high)) .no = c' := by unfold recenter; rfl
    rw [hk, hc, hs, hcirc]
    simp only [hkc, if_true]
    rw [if_neg (by linarith), hrc,
      limitedIntegral_eq k hkc s' c' (some (some q.low, some q.high)) a b ha hb]
    simp only [Prior.setPriorAttributes]
    rw [hraise]
    simp
  | false =>
    obtain ⟨rfl, rfl, rfl⟩ := h2' hkc
    refine ⟨_, ?_, key none g4⟩
    unfold Prior.copy construct
    rw [hk, hcirc]
    simp only [hkc, Bool.false_eq_true, if_false, Prior.setPriorAttributes]
    rw [hraise]
    simp

/-- The copy of an exponential prior: `ExponentialPrior` 87-88. -/
noncomputable def Prior.copyExponential (q : Prior) : Option Prior := exponential q.scale q.high

theorem C45_exponential_partial (s : ℝ) (hi : EReal) (q : Prior) (h : exponential s hi = some q) :
    q.copyExponential = some q := by
  have h0 := h
  unfold exponential at h
  obtain ⟨q', hq', rfl⟩ := Option.map_eq_some_iff.1 h
  obtain ⟨s', c', li, h1, h2, h2', h3, rfl⟩ := construct_spec _ _ _ _ _ hq'
  obtain ⟨_, g1, g2, g3, g4, g4', g5, g6, g7⟩ := setLimits_spec _ _ h1 rfl
    (fun _ => (start_dom _ c' s' li).1) (fun _ => (start_dom _ c' s' li).2) h3
  obtain ⟨rfl, rfl, _⟩ := h2 rfl
  unfold Prior.copyExponential
  have e : ∀ x y : Prior, x.scale = y.scale → x.high = hi → exponential y.scale hi = some x →
      exponential x.scale x.high = some x := by
    intro x y e1 e2 e3
    rw [e1, e2, e3]
  exact e _ (start Kind.laplace 0 s' li) g3 g6 h0

/-- The copy of a circular prior is the same object again. -/
theorem C45_circular_partial (k : Kind) (c s a b : ℝ) (q : Prior) (hj : k ≠ .jeffreys)
    (h : construct k c s (some (some (a : EReal), some (b : EReal))) .yes = some q) :
    q.copy = some q := by
  obtain ⟨ua, hua⟩ : ∃ u, k.cum (recenter c (some (some (a : EReal), some (b : EReal))) .yes) s a = some u :=
    cum_total k hj _ _ _
  obtain ⟨ub, hub⟩ : ∃ u, k.cum (recenter c (some (some (a : EReal), some (b : EReal))) .yes) s b = some u :=
    cum_total k hj _ _ _
  have hrr : recenter (recenter c (some (some (a : EReal), some (b : EReal))) .yes)
      (some (some (a : EReal), some (b : EReal))) .yes
      = recenter c (some (some (a : EReal), some (b : EReal))) .yes := by
    have e : ∀ c, recenter c (some (some (a : EReal), some (b : EReal))) .yes
        = if c = 0 then 0.5 * (a + b) else c := fun _ => rfl
    by_cases h0 : c = 0
    · rw [e c, if_pos h0, e]
      split <;> rfl
    · rw [e c, if_neg h0, e, if_neg h0]
  have h' := h
  unfold construct at h
  split at h
  · rename_i hk
    split at h
    · simp at h
    · rename_i hs
      simp only at h
      split at h
      · simp at h
      · rename_i li hli
        rw [attributes_yes] at h
        by_cases hab : a < b
        · rw [start_set k _ s (some li) a b ua ub hab (fun hc => absurd hc hj) hua hub] at h
          simp only [Bool.false_eq_true, if_false, Option.some.injEq] at h
          have hq : q.copy = construct k (recenter c (some (some (a : EReal), some (b : EReal))) .yes) s
              (some (some (a : EReal), some (b : EReal))) .yes := by
            rw [← h]; rfl
          rw [hq, ← h']
          unfold construct
          simp only [hrr]
          congr 1
        · exfalso
          have hr := (C14_raises (start k (recenter c (some (some (a : EReal), some (b : EReal))) .yes) s
            (some li)) (some (some (a : EReal), some (b : EReal)))).2 (by
            simp only [Option.bind_some, Option.getD_some]
            rintro ⟨_, hc, _⟩
            exact hab (EReal.coe_lt_coe_iff.1 hc))
          rw [hr] at h
          simp at h
  · rename_i hk
    rw [attributes_yes] at h
    obtain ⟨ua, hua⟩ := cum_total k hj 0 1 a
    obtain ⟨ub, hub⟩ := cum_total k hj 0 1 b
    by_cases hab : a < b
    · rw [start_set k _ _ none a b ua ub hab (fun hc => absurd hc hj) hua hub] at h
      simp only [Bool.false_eq_true, if_false, Option.some.injEq] at h
      have hq : q.copy = construct k 0 1 (some (some (a : EReal), some (b : EReal))) .yes := by
        rw [← h]; rfl
      rw [hq, ← h']
      unfold construct
      simp only [hk, Bool.false_eq_true, if_false]
    · exfalso
      have hr := (C14_raises (start k 0 1 none) (some (some (a : EReal), some (b : EReal)))).2 (by
        simp only [Option.bind_some, Option.getD_some]
        rintro ⟨_, hc, _⟩
        exact hab (EReal.coe_lt_coe_iff.1 hc))
      rw [hr] at h
      simp at h

/-- After limits are set, the copy of a prior has another density than the prior itself: the copy is
renormalised, the original is not. -/
theorem C45_counterexample_prior :
    ∃ q q', construct .laplace 0 1 none .no = some q ∧
      (q.setLimits (some (some ((-1 : ℝ) : EReal), some ((1 : ℝ) : EReal)))).1.copy = some q' ∧
      q'.result 0 ≠ (q.setLimits (some (some ((-1 : ℝ) : EReal), some ((1 : ℝ) : EReal)))).1.result 0 := by
  obtain ⟨q, h1, h2, h3, h4, _⟩ := C15_counterexample_setLimits
  have hst : ∃ um ur, q = { start .laplace 0 1 (some 1) with umin := um, urng := ur } := by
    obtain ⟨s', c', li, k1, k2, _, k3, rfl⟩ := construct_spec _ _ _ _ _ h1
    obtain ⟨rfl, rfl, k4, _⟩ := k2 rfl
    have : li = some 1 := by rw [← k4]; rfl
    subst this
    refine ⟨0, some (1 - 0), ?_⟩
    have hord : (⊥ : EReal) ≤ ⊥ ∧ (⊥ : EReal) < ⊤ ∧ (⊤ : EReal) ≤ ⊤ := ⟨le_refl _, bot_lt_top, le_refl _⟩
    simp only [Prior.setLimits, start, Option.bind_none, Option.getD_none, reduceCtorEq, if_false]
    rw [if_pos hord]
    simp only [Prior.setRange, Prior.domain2UnitE, Prior.applyD, cumE_top, cumE_bot, Kind.hasCenter,
      if_true, reduceCtorEq, if_false, Bool.false_eq_true, Option.isSome_none, Bool.false_or]
  obtain ⟨um, ur, rfl⟩ := hst
  have hset := start_set' .laplace 0 1 (some 1) um ur (-1) 1 _ _ (by norm_num) (by simp)
    laplace_m1 laplace_p1
  refine ⟨_, laplace1 (1 - 0.5 * exp (-1) - 0.5 * exp (-1)), h1, ?_, ?_⟩
  · rw [hset]
    exact laplace1_made
  · rw [h3]
    have hno : ¬ (laplace1 (1 - 0.5 * exp (-1) - 0.5 * exp (-1))).isOut 0 := by
      refine not_isOut _ _ ?_ ?_
      · exact EReal.coe_lt_coe_iff.2 (by norm_num)
      · exact EReal.coe_lt_coe_iff.2 (by norm_num)
    rw [result_laplace _ _ 0 rfl rfl hno]
    have he : exp (-1) < 1 := by rw [exp_lt_one_iff]; norm_num
    have hp := exp_pos (-1)
    simp only [laplace1, between, start, sub_zero, zero_div, abs_zero, neg_zero, exp_zero, mul_one, one_mul,
      ne_eq, Option.some.injEq]
    intro hc
    have h3 : 1 - 0.5 * exp (-1) - 0.5 * exp (-1) ≠ 0 := by linarith
    rw [div_eq_iff h3] at hc
    linarith

end BF.Priors
