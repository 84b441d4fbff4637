import Verif.Props.Priors
import Mathlib.Analysis.SpecialFunctions.ExpDeriv
import Mathlib.Analysis.SpecialFunctions.Log.Deriv
import Mathlib.Analysis.SpecialFunctions.Pow.Real
import Mathlib.Tactic.LinearCombination

/-!
# Priors: densities, circular priors and copies (C15, C16, C45)
-/

namespace BF.Priors

open Real

/-! ## The derivatives of the maps of the classes -/

/-- The map of the class as a function on the reals. -/
noncomputable def cumR (k : Kind) (c s d : ℝ) : ℝ :=
  match k with
  | .uniform => d
  | .jeffreys => log d
  | .laplace => if (d - c) / s < 0 then 0.5 * exp ((d - c) / s) else 1 - 0.5 * exp (-((d - c) / s))
  | .cauchy => arctan ((d - c) / s) / π + 0.5
  | .gauss => 0.5 * (erf ((d - c) / (√2 * s)) + 1)

theorem cum_cumR (k : Kind) (c s d u : ℝ) (h : k.cum c s d = some u) : u = cumR k c s d := by
  cases k with
  | jeffreys =>
    simp only [Kind.cum] at h
    split at h
    · simp at h
    · simp only [Option.some.injEq] at h; exact h.symm
  | _ => simp only [Kind.cum, Option.some.injEq] at h; exact h.symm

/-- The density of the class without limits. -/
noncomputable def dens (k : Kind) (c s d : ℝ) : ℝ :=
  match k with
  | .uniform => 1
  | .jeffreys => 1 / d
  | .laplace => 0.5 * exp (-|(d - c) / s|) / s
  | .cauchy => s / ((s * s + (d - c) * (d - c)) * π)
  | .gauss => 1 / √(2 * π) / s * exp (-0.5 * ((d - c) / s) * ((d - c) / s))

theorem lin_deriv (c s d : ℝ) : HasDerivAt (fun d : ℝ => (d - c) / s) (1 / s) d :=
  ((hasDerivAt_id d).sub_const c).div_const s

theorem cumR_deriv (k : Kind) (c s d : ℝ) (hs : 0 < s) (hd : k = .jeffreys → 0 < d) :
    HasDerivAt (cumR k c s) (dens k c s d) d := by
  cases k with
  | uniform => exact hasDerivAt_id d
  | jeffreys =>
    have := hasDerivAt_log (hd rfl).ne'
    simp only [dens, one_div]
    exact this
  | laplace =>
    have hl : HasDerivAt (fun d => 0.5 * exp ((d - c) / s)) (0.5 * exp ((d - c) / s) / s) d := by
      refine (((lin_deriv c s d).exp).const_mul 0.5).congr_deriv ?_
      ring
    have hr : HasDerivAt (fun d => 1 - 0.5 * exp (-((d - c) / s)))
        (0.5 * exp (-((d - c) / s)) / s) d := by
      refine ((((lin_deriv c s d).fun_neg.exp).const_mul 0.5).const_sub 1).congr_deriv ?_
      ring
    rcases lt_trichotomy d c with h | h | h
    · have hneg : (d - c) / s < 0 := div_neg_of_neg_of_pos (by linarith) hs
      have e : dens .laplace c s d = 0.5 * exp ((d - c) / s) / s := by
        simp only [dens, abs_of_neg hneg, neg_neg]
      rw [e]
      refine hl.congr_of_eventuallyEq ?_
      filter_upwards [eventually_lt_nhds h] with y hy
      have : (y - c) / s < 0 := div_neg_of_neg_of_pos (by linarith) hs
      simp only [cumR, this, if_true]
    · subst h
      have e : dens .laplace d s d = 0.5 * exp (-((d - d) / s)) / s := by
        simp [dens]
      have e' : dens .laplace d s d = 0.5 * exp ((d - d) / s) / s := by
        simp [dens]
      have w1 : HasDerivWithinAt (cumR .laplace d s) (dens .laplace d s d) (Set.Iic d) d := by
        rw [e']
        refine hl.hasDerivWithinAt.congr ?_ ?_
        · intro y hy
          have hy : y ≤ d := hy
          simp only [cumR]
          rcases hy.lt_or_eq with hy | hy
          · have : (y - d) / s < 0 := div_neg_of_neg_of_pos (by linarith) hs
            simp only [this, if_true]
          · subst hy; norm_num
        · simp only [cumR]; norm_num
      have w2 : HasDerivWithinAt (cumR .laplace d s) (dens .laplace d s d) (Set.Ici d) d := by
        rw [e]
        refine hr.hasDerivWithinAt.congr ?_ ?_
        · intro y hy
          have hy : d ≤ y := hy
          have : ¬ (y - d) / s < 0 := not_lt.2 (div_nonneg (by linarith) hs.le)
          simp only [cumR, this, if_false]
        · simp only [cumR]; norm_num
      have := w1.union w2
      rw [Set.Iic_union_Ici] at this
      exact hasDerivWithinAt_univ.1 this
    · have hpos : 0 < (d - c) / s := div_pos (by linarith) hs
      have e : dens .laplace c s d = 0.5 * exp (-((d - c) / s)) / s := by
        simp only [dens, abs_of_pos hpos]
      rw [e]
      refine hr.congr_of_eventuallyEq ?_
      filter_upwards [eventually_gt_nhds h] with y hy
      have : ¬ (y - c) / s < 0 := not_lt.2 (div_nonneg (by linarith) hs.le)
      simp only [cumR, this, if_false]
  | cauchy =>
    have h := (((hasDerivAt_arctan ((d - c) / s)).comp d (lin_deriv c s d)).div_const π).add_const 0.5
    refine h.congr_deriv ?_
    simp only [dens]
    have hp := pi_pos
    have : s * s + (d - c) * (d - c) ≠ 0 := by nlinarith [mul_pos hs hs, mul_self_nonneg (d - c)]
    have h3 : (1 + ((d - c) / s) ^ 2) = (s * s + (d - c) * (d - c)) / (s * s) := by
      field_simp
    rw [h3]
    field_simp
  | gauss =>
    have h := (((erf_hasDerivAt ((d - c) / (√2 * s))).comp d (lin_deriv c (√2 * s) d)).add_const
      1).const_mul 0.5
    refine h.congr_deriv ?_
    simp only [dens]
    have h2 : √2 * √2 = 2 := mul_self_sqrt (by norm_num)
    have hpos : (0 : ℝ) < √2 := by positivity
    have hpi : 0 < √π := by positivity
    have e1 : -((d - c) / (√2 * s)) ^ 2 = -0.5 * ((d - c) / s) * ((d - c) / s) := by
      have : ((d - c) / (√2 * s)) ^ 2 = ((d - c) / s) ^ 2 / (√2 * √2) := by
        field_simp
      rw [this, h2]; ring
    rw [e1, sqrt_mul (by norm_num)]
    field_simp
    norm_num

/-! ## Densities -/

/-- A prior as it comes from its constructor, not circular. -/
def Fresh (q : Prior) : Prop :=
  (∃ k c s limits, construct k c s limits .no = some q) ∨ (∃ s hi, exponential s hi = some q)

theorem Fresh.made {q : Prior} (h : Fresh q) : Made q := by
  rcases h with ⟨k, c, s, limits, h⟩ | ⟨s, hi, h⟩
  · exact .new k c s limits q h
  · exact .exponential s hi q h

theorem limitedIntegral_eq (k : Kind) (hk : k.hasCenter = true) (s c : ℝ) (limits : Lims) (a b : ℝ)
    (ha : k.cumE c s ((limits.bind Prod.fst).getD ⊥) = some a)
    (hb : k.cumE c s ((limits.bind Prod.snd).getD ⊤) = some b) :
    limitedIntegral k s c c limits .no = some (b - a) := by
  rcases limits with _ | ⟨_ | l, _ | h⟩
  all_goals
    simp only [Option.bind_none, Option.bind_some, Option.getD_none, Option.getD_some, cumE_bot,
      cumE_top, hk, if_true, Option.some.injEq] at ha hb
    simp only [limitedIntegral, Option.bind_none, Option.bind_some]
  · rw [← ha, ← hb]; norm_num
  · rw [← ha, ← hb]; norm_num
  · rw [← ha, hb]; rfl
  · rw [ha, ← hb]; rfl
  · rw [ha, hb]

theorem fresh_limint (q : Prior) (h : Fresh q) (hk : q.kind.hasCenter = true) (a b : ℝ)
    (ha : q.kind.cumE q.center q.scale q.low = some a)
    (hb : q.kind.cumE q.center q.scale q.high = some b) : q.limint = some (b - a) := by
  have key : ∀ k c s limits q, construct k c s limits .no = some q → q.kind.hasCenter = true →
      ∀ a b, q.kind.cumE q.center q.scale q.low = some a →
      q.kind.cumE q.center q.scale q.high = some b → q.limint = some (b - a) := by
    intro k c s limits q h hk a b ha hb
    obtain ⟨s', c', li, h1, h2, _, h3, rfl⟩ := construct_spec k c s limits q h
    obtain ⟨_, g1, g2, g3, g4, _, g5, g6, _⟩ := setLimits_spec (start k c' s' li) limits h1 rfl
      (fun _ => (start_dom k c' s' li).1) (fun _ => (start_dom k c' s' li).2) h3
    rw [g1] at hk
    have hk' : k.hasCenter = true := hk
    obtain ⟨rfl, rfl, h5, _⟩ := h2 hk'
    have hj : k ≠ .jeffreys := by rintro rfl; simp [Kind.hasCenter] at hk'
    rw [g1, g2, g3, g5] at ha
    rw [g1, g2, g3, g6] at hb
    rw [g4, ← limitedIntegral_eq k hk' s' c' limits a b ?_ ?_]
    · exact h5.symm
    · simpa [start, hj] using ha
    · simpa [start] using hb
  rcases h with ⟨k, c, s, limits, h⟩ | ⟨s, hi, h⟩
  · exact key k c s limits q h hk a b ha hb
  · unfold exponential at h
    obtain ⟨q', hq', rfl⟩ := Option.map_eq_some_iff.1 h
    exact key _ _ _ _ q' hq' hk a b ha hb

theorem not_isOut (q : Prior) (x : ℝ) (h1 : q.low < x) (h2 : (x : EReal) < q.high) : ¬ q.isOut x := by
  unfold Prior.isOut
  rintro (h | h)
  · exact absurd h (not_lt.2 h1.le)
  · exact absurd h (not_lt.2 h2.le)

theorem jeffreys_pos (q : Prior) (h : Made q) (hp : Proper q) (hk : q.kind = .jeffreys) (x : ℝ)
    (h1 : q.low < x) : 0 < x := by
  have _ := h
  unfold Proper at hp
  rw [hk] at hp
  have : (0 : EReal) < x := lt_trans hp.1 h1
  exact EReal.coe_lt_coe_iff.1 this

/-- The density of a proper prior, as constructed. -/
theorem result_eq (q : Prior) (h : Fresh q) (hp : Proper q) (a b : ℝ)
    (ha : q.kind.cumE q.center q.scale q.low = some a)
    (hb : q.kind.cumE q.center q.scale q.high = some b) (hr : q.urng = some (b - a)) (x : ℝ)
    (h1 : q.low < x) (h2 : (x : EReal) < q.high) :
    q.result x = some (dens q.kind q.center q.scale x / (b - a)) := by
  have hno := not_isOut q x h1 h2
  have hli := fresh_limint q h
  have hab : a < b := cumE_mono _ _ _ (made_inv q h.made).scale _ _ _ _ (lt_trans h1 h2) ha hb
  have hs := (made_inv q h.made).scale
  unfold Prior.result
  cases hk : q.kind with
  | uniform => simp [hr, hno, dens]
  | jeffreys =>
    simp only [hr, hno, if_false, dens, Option.some.injEq]
    rw [div_div]
  | laplace =>
    rw [hk] at ha hb
    simp only [hli (by rw [hk]; rfl) a b (by rw [hk]; exact ha) (by rw [hk]; exact hb), Option.map_some,
      hno, if_false, dens, Option.some.injEq]
    rw [div_div]
  | cauchy =>
    rw [hk] at ha hb
    simp only [hli (by rw [hk]; rfl) a b (by rw [hk]; exact ha) (by rw [hk]; exact hb), Option.map_some,
      hno, if_false, dens, Option.some.injEq]
    rw [div_div]
  | gauss =>
    rw [hk] at ha hb
    simp only [hli (by rw [hk]; rfl) a b (by rw [hk]; exact ha) (by rw [hk]; exact hb), Option.map_some,
      hno, if_false, dens, Option.some.injEq]
    have : b - a ≠ 0 := by linarith
    field_simp

theorem dens_pos (k : Kind) (c s d : ℝ) (hs : 0 < s) (hd : k = .jeffreys → 0 < d) :
    0 < dens k c s d := by
  cases k with
  | uniform => simp [dens]
  | jeffreys => have := hd rfl; simp only [dens]; positivity
  | laplace => simp only [dens]; positivity
  | cauchy =>
    simp only [dens]
    have := pi_pos
    have : 0 < s * s + (d - c) * (d - c) := by nlinarith [mul_pos hs hs, mul_self_nonneg (d - c)]
    positivity
  | gauss => simp only [dens]; have := pi_pos; positivity

/-- The density that a prior returns is positive between the limits and zero outside, and it is the
derivative of the map from domain to unit. (As the prior comes from its constructor.) -/
theorem C15_density_partial (q : Prior) (h : Fresh q) (hp : Proper q) :
    (∀ x : ℝ, q.isOut x → q.result x = some 0) ∧
    ∃ f : ℝ → ℝ, (∀ d : ℝ, q.low < d → (d : EReal) < q.high → q.domain2Unit d = some (f d)) ∧
      ∀ x : ℝ, q.low < x → (x : EReal) < q.high →
        ∃ p, q.result x = some p ∧ 0 < p ∧ HasDerivAt f p x := by
  have hi := made_inv q h.made
  obtain ⟨a, b, ha, hb, hab, hu, hr⟩ := proper_range q hi hp
  obtain ⟨_, m2⟩ := maps_eq q hi a b hab hu hr
  have hba : 0 < b - a := by linarith
  constructor
  · intro x hx
    have hli := fresh_limint q h
    unfold Prior.result
    cases hk : q.kind with
    | uniform => simp [hr, hx]
    | jeffreys => simp [hr, hx]
    | _ =>
      rw [hk] at ha hb
      simp [hli (by rw [hk]; rfl) a b (by rw [hk]; exact ha) (by rw [hk]; exact hb), hx]
  · refine ⟨fun d => (cumR q.kind q.center q.scale d - a) / (b - a), ?_, ?_⟩
    · intro d h1 h2
      obtain ⟨w, hw⟩ := cum_isSome_between _ _ _ _ _ _ _ d ha hb h1
      rw [m2, hw, cum_cumR _ _ _ _ _ hw]; rfl
    · intro x h1 h2
      have hj := jeffreys_pos q h.made hp
      refine ⟨_, result_eq q h hp a b ha hb hr x h1 h2,
        div_pos (dens_pos _ _ _ _ hi.scale fun hk => hj hk x h1) hba, ?_⟩
      exact ((cumR_deriv _ _ _ _ hi.scale fun hk => hj hk x h1).sub_const a).div_const (b - a)

/-- logResult is the logarithm of the density. -/
theorem C15_log (q : Prior) (h : Fresh q) (hp : Proper q) (x : ℝ) (h1 : q.low < x)
    (h2 : (x : EReal) < q.high) :
    ∃ p, q.result x = some p ∧ q.logResult x = some (log p) := by
  have hi := made_inv q h.made
  obtain ⟨a, b, ha, hb, hab, hu, hr⟩ := proper_range q hi hp
  have hba : 0 < b - a := by linarith
  have hj := jeffreys_pos q h.made hp
  have hpos := div_pos (dens_pos _ q.center _ x hi.scale fun hk => hj hk x h1) hba
  have hres := result_eq q h hp a b ha hb hr x h1 h2
  have hno := not_isOut q x h1 h2
  have hli := fresh_limint q h
  have hs := hi.scale
  refine ⟨_, hres, ?_⟩
  unfold Prior.logResult
  cases hk : q.kind with
  | laplace =>
    rw [hk] at ha hb
    simp only [hli (by rw [hk]; rfl) a b (by rw [hk]; exact ha) (by rw [hk]; exact hb),
      Option.bind_some, hno, if_false, dens, Option.some.injEq]
    rw [show (0.5 * exp (-|(x - q.center) / q.scale|) / q.scale / (b - a))
      = (2 * q.scale * (b - a))⁻¹ * exp (-|(x - q.center) / q.scale|) by field_simp; norm_num,
      log_mul (x := (2 * q.scale * (b - a))⁻¹) (by positivity) (by positivity), log_inv, log_exp]
    ring
  | gauss =>
    rw [hk] at ha hb
    have hpi := pi_pos
    simp only [hli (by rw [hk]; rfl) a b (by rw [hk]; exact ha) (by rw [hk]; exact hb),
      Option.bind_some, hno, if_false, dens, Option.some.injEq]
    rw [show ((1 / √(2 * π) / q.scale *
        exp (-0.5 * ((x - q.center) / q.scale) * ((x - q.center) / q.scale))) / (b - a))
      = (1 / √(2 * π)) * (q.scale * (b - a))⁻¹ *
        exp (-0.5 * ((x - q.center) / q.scale) * ((x - q.center) / q.scale)) by field_simp,
      log_mul (x := (1 / √(2 * π)) * (q.scale * (b - a))⁻¹) (by positivity) (by positivity),
      log_mul (x := 1 / √(2 * π)) (by positivity) (by positivity), log_inv, log_exp]
    ring
  | _ =>
    rw [hk] at hres hpos
    simp [hres, hpos.ne']

/-- partialLog is the derivative of logResult (at the center of the Laplace prior there is none). -/
theorem C15_partialLog (q : Prior) (h : Fresh q) (hp : Proper q) :
    ∃ L : ℝ → ℝ, (∀ d : ℝ, q.low < d → (d : EReal) < q.high → q.logResult d = some (L d)) ∧
      ∀ x : ℝ, q.low < x → (x : EReal) < q.high → (q.kind = .laplace → x ≠ q.center) →
        ∃ g, q.partialLog x = some g ∧ HasDerivAt L g x := by
  have hi := made_inv q h.made
  obtain ⟨a, b, ha, hb, hab, hu, hr⟩ := proper_range q hi hp
  have hba : 0 < b - a := by linarith
  have hj := jeffreys_pos q h.made hp
  have hs := hi.scale
  refine ⟨fun x => log (dens q.kind q.center q.scale x / (b - a)), ?_, ?_⟩
  · intro d h1 h2
    obtain ⟨p, e1, e2⟩ := C15_log q h hp d h1 h2
    rw [result_eq q h hp a b ha hb hr d h1 h2] at e1
    simp only [Option.some.injEq] at e1
    rw [e2, ← e1]
  · intro x h1 h2 hx
    have hno := not_isOut q x h1 h2
    have hpos := div_pos (dens_pos _ q.center _ x hi.scale fun hk => hj hk x h1) hba
    unfold Prior.partialLog
    cases hk : q.kind with
    | uniform =>
      refine ⟨0, by simp [hno], ?_⟩
      simp only [dens]
      exact hasDerivAt_const _ _
    | jeffreys =>
      have hx0 := hj hk x h1
      refine ⟨-1 / x, by simp [hno], ?_⟩
      have e : ∀ y, log (dens .jeffreys q.center q.scale y / (b - a)) = -log (y * (b - a)) := by
        intro y
        simp only [dens, div_div]
        rw [one_div, log_inv]
      simp only [e]
      have := ((hasDerivAt_id x).mul_const (b - a)).log (by simp; constructor <;> linarith)
      refine this.neg.congr_deriv ?_
      simp only [id]
      field_simp
    | laplace =>
      have hxc := hx hk
      have e : ∀ y, log (dens .laplace q.center q.scale y / (b - a))
          = log (0.5 / q.scale / (b - a)) - |(y - q.center) / q.scale| := by
        intro y
        simp only [dens]
        rw [show 0.5 * exp (-|(y - q.center) / q.scale|) / q.scale / (b - a)
          = 0.5 / q.scale / (b - a) * exp (-|(y - q.center) / q.scale|) by ring,
          log_mul (by positivity) (by positivity), log_exp]
        ring
      simp only [e, hxc, if_false, hno]
      refine ⟨_, rfl, ?_⟩
      rcases lt_or_gt_of_ne hxc with hlt | hgt
      · rw [if_neg (by linarith)]
        have hd : HasDerivAt (fun y => log (0.5 / q.scale / (b - a)) - (-((y - q.center) / q.scale)))
            (1 / q.scale) x := by
          refine ((lin_deriv q.center q.scale x).neg.const_sub _).congr_deriv ?_
          ring
        refine hd.congr_of_eventuallyEq ?_
        filter_upwards [eventually_lt_nhds hlt] with y hy
        rw [abs_of_neg (div_neg_of_neg_of_pos (by linarith) hs)]
      · rw [if_pos hgt]
        have hd : HasDerivAt (fun y => log (0.5 / q.scale / (b - a)) - ((y - q.center) / q.scale))
            (-1 / q.scale) x := by
          refine ((lin_deriv q.center q.scale x).const_sub _).congr_deriv ?_
          ring
        refine hd.congr_of_eventuallyEq ?_
        filter_upwards [eventually_gt_nhds hgt] with y hy
        rw [abs_of_pos (div_pos (by linarith) hs)]
    | cauchy =>
      refine ⟨_, rfl, ?_⟩
      have hpi := pi_pos
      have hq : ∀ y : ℝ, 0 < q.scale * q.scale + (y - q.center) * (y - q.center) := fun y => by
        nlinarith [mul_pos hs hs, mul_self_nonneg (y - q.center)]
      have e : ∀ y, log (dens .cauchy q.center q.scale y / (b - a))
          = log (q.scale / π / (b - a))
            - log (q.scale * q.scale + (y - q.center) * (y - q.center)) := by
        intro y
        have := hq y
        simp only [dens]
        rw [← log_div (by positivity) (by positivity)]
        congr 1
        field_simp
      simp only [e]
      have hd1 : HasDerivAt (fun y : ℝ => y - q.center) 1 x := (hasDerivAt_id x).sub_const _
      have hd := ((hd1.fun_mul hd1).const_add (q.scale * q.scale)).log (hq x).ne'
      refine (hd.const_sub _).congr_deriv ?_
      ring
    | gauss =>
      refine ⟨_, rfl, ?_⟩
      have hpi := pi_pos
      have e : ∀ y, log (dens .gauss q.center q.scale y / (b - a))
          = log (1 / √(2 * π) / q.scale / (b - a))
            - 0.5 * (((y - q.center) / q.scale) * ((y - q.center) / q.scale)) := by
        intro y
        simp only [dens]
        rw [show (1 / √(2 * π) / q.scale *
            exp (-0.5 * ((y - q.center) / q.scale) * ((y - q.center) / q.scale))) / (b - a)
          = 1 / √(2 * π) / q.scale / (b - a) *
            exp (-0.5 * ((y - q.center) / q.scale) * ((y - q.center) / q.scale)) by ring,
          log_mul (by positivity) (by positivity), log_exp]
        ring
      simp only [e]
      have hl := lin_deriv q.center q.scale x
      refine (((hl.fun_mul hl).const_mul 0.5).const_sub _).congr_deriv ?_
      field_simp
      ring

end BF.Priors
