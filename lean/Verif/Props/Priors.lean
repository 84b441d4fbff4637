import Verif.Priors
import Mathlib.Tactic.Linarith
import Mathlib.Tactic.FieldSimp
import Mathlib.Tactic.Positivity
import Mathlib.Analysis.SpecialFunctions.Trigonometric.ArctanDeriv

/-!
# Priors: maps and limits (C13, C14)
-/

namespace BF.Priors

open Real

/-! ## The maps of the classes -/

section

variable (k : Kind) (c s : ℝ)

theorem cum_mono (hs : 0 < s) (d d' u v : ℝ) (h : d < d') (hu : k.cum c s d = some u)
    (hv : k.cum c s d' = some v) : u < v := by
  have hdv : (d - c) / s < (d' - c) / s := by gcongr
  cases k with
  | uniform =>
    simp only [Kind.cum, Option.some.injEq] at hu hv
    linarith
  | jeffreys =>
    simp only [Kind.cum] at hu hv
    split at hu
    · simp at hu
    · split at hv
      · simp at hv
      · simp only [Option.some.injEq] at hu hv
        rw [← hu, ← hv]
        exact log_lt_log (by linarith) h
  | laplace =>
    simp only [Kind.cum, Option.some.injEq] at hu hv
    rw [← hu, ← hv]
    split
    · have h1 : exp ((d - c) / s) < exp ((d' - c) / s) := exp_lt_exp.2 hdv
      split
      · linarith
      · rename_i h2 h3
        have h4 : exp ((d - c) / s) < 1 := by rw [exp_lt_one_iff]; exact h2
        have h5 : exp (-((d' - c) / s)) ≤ 1 := by rw [exp_le_one_iff]; linarith
        linarith
    · rename_i h2
      rw [if_neg (by linarith)]
      have h1 : exp (-((d' - c) / s)) < exp (-((d - c) / s)) := exp_lt_exp.2 (by linarith)
      linarith
  | cauchy =>
    simp only [Kind.cum, Option.some.injEq] at hu hv
    rw [← hu, ← hv]
    have := arctan_strictMono hdv
    have hp := pi_pos
    gcongr
  | gauss =>
    simp only [Kind.cum, Option.some.injEq] at hu hv
    rw [← hu, ← hv]
    have h1 : (d - c) / (√2 * s) < (d' - c) / (√2 * s) := by gcongr
    have := erf_strictMono h1
    linarith

theorem cum_range (hk : k.hasCenter = true) (d u : ℝ) (hu : k.cum c s d = some u) :
    0 < u ∧ u < 1 := by
  cases k with
  | uniform => simp [Kind.hasCenter] at hk
  | jeffreys => simp [Kind.hasCenter] at hk
  | laplace =>
    simp only [Kind.cum, Option.some.injEq] at hu
    rw [← hu]
    split
    · rename_i h
      have h1 := exp_pos ((d - c) / s)
      have h2 : exp ((d - c) / s) < 1 := by rw [exp_lt_one_iff]; exact h
      constructor <;> linarith
    · rename_i h
      have h1 := exp_pos (-((d - c) / s))
      have h2 : exp (-((d - c) / s)) ≤ 1 := by rw [exp_le_one_iff]; linarith
      constructor <;> linarith
  | cauchy =>
    simp only [Kind.cum, Option.some.injEq] at hu
    rw [← hu]
    have h1 := arctan_lt_pi_div_two ((d - c) / s)
    have h2 := neg_pi_div_two_lt_arctan ((d - c) / s)
    have hp := pi_pos
    have h3 : arctan ((d - c) / s) / π < 1 / 2 := by
      rw [div_lt_div_iff₀ hp two_pos]; linarith
    have h4 : -1 / 2 < arctan ((d - c) / s) / π := by
      rw [div_lt_div_iff₀ two_pos hp]; linarith
    constructor <;> linarith
  | gauss =>
    simp only [Kind.cum, Option.some.injEq] at hu
    rw [← hu]
    have h1 := erf_lt_one ((d - c) / (√2 * s))
    have h2 := neg_one_lt_erf ((d - c) / (√2 * s))
    constructor <;> linarith

theorem inv_cum (hs : 0 < s) (d u : ℝ) (hu : k.cum c s d = some u) : k.inv c s u = some d := by
  cases k with
  | uniform => simpa [Kind.cum, Kind.inv, eq_comm] using hu
  | jeffreys =>
    simp only [Kind.cum] at hu
    split at hu
    · simp at hu
    · simp only [Option.some.injEq] at hu
      rw [Kind.inv, ← hu, exp_log (by linarith)]
  | laplace =>
    obtain ⟨h0, h1⟩ := cum_range .laplace c s rfl d u hu
    simp only [Kind.cum, Option.some.injEq] at hu
    simp only [Kind.inv]
    rw [if_neg (by push Not; constructor <;> linarith), if_neg (by linarith), if_neg (by linarith)]
    congr 1
    split at hu
    · rename_i h
      have h2 : exp ((d - c) / s) < 1 := by rw [exp_lt_one_iff]; exact h
      rw [if_pos (by linarith), ← hu, show 2 * (0.5 * exp ((d - c) / s)) = exp ((d - c) / s) by ring,
        log_exp]
      field_simp
      ring
    · rename_i h
      have h2 : exp (-((d - c) / s)) ≤ 1 := by rw [exp_le_one_iff]; linarith
      have key : ∀ u' : ℝ, u' = u → -log (2 - 2 * u') = (d - c) / s := by
        intro u' hu'
        rw [hu', ← hu, show 2 - 2 * (1 - 0.5 * exp (-((d - c) / s))) = exp (-((d - c) / s)) by ring,
          log_exp, neg_neg]
      have hk := key u rfl
      split
      · -- only at the center itself
        have h3 : exp (-((d - c) / s)) = 1 := by linarith
        have h4 : (d - c) / s = 0 := by
          rw [exp_eq_one_iff] at h3; linarith
        have h5 : u = 1 / 2 := by rw [← hu, h3]; norm_num
        have h6 : d = c := by
          rw [div_eq_zero_iff] at h4
          rcases h4 with h4 | h4 <;> linarith
        rw [h5, h6]
        norm_num
      · rw [hk]
        field_simp
        ring
  | cauchy =>
    simp only [Kind.cum, Option.some.injEq] at hu
    have hp := pi_pos
    have e : (u - 0.5) * π = arctan ((d - c) / s) := by
      rw [← hu]; field_simp; ring
    simp only [Kind.inv, e]
    rw [if_neg (cos_arctan_pos _).ne', tan_arctan]
    congr 1
    field_simp
    ring
  | gauss =>
    obtain ⟨h0, h1⟩ := cum_range .gauss c s rfl d u hu
    simp only [Kind.cum, Option.some.injEq] at hu
    simp only [Kind.inv]
    rw [if_pos ⟨by linarith, by linarith⟩, ← hu,
      show 2 * (0.5 * (erf ((d - c) / (√2 * s)) + 1)) - 1 = erf ((d - c) / (√2 * s)) by ring,
      erfinv_erf]
    congr 1
    have : √2 ≠ 0 := by positivity
    field_simp
    ring

/-- Every number between 0 and 1 (every number at all for the uniform and the Jeffreys prior) is the
image of a domain value. -/
theorem cum_surj (hs : 0 < s) (u : ℝ) (hu : k.hasCenter = true → 0 < u ∧ u < 1) :
    ∃ d, k.cum c s d = some u := by
  cases k with
  | uniform => exact ⟨u, rfl⟩
  | jeffreys => exact ⟨exp u, by simp [Kind.cum, exp_pos]⟩
  | laplace =>
    obtain ⟨h0, h1⟩ := hu rfl
    by_cases h : u < 1 / 2
    · refine ⟨c + log (2 * u) * s, ?_⟩
      have e : (c + log (2 * u) * s - c) / s = log (2 * u) := by field_simp; ring
      simp only [Kind.cum, e]
      rw [if_pos (log_neg (by linarith) (by linarith)), exp_log (by linarith)]
      congr 1; ring
    · refine ⟨c + -log (2 - 2 * u) * s, ?_⟩
      have e : (c + -log (2 - 2 * u) * s - c) / s = -log (2 - 2 * u) := by field_simp; ring
      have hl : log (2 - 2 * u) ≤ 0 := log_nonpos (by linarith) (by linarith)
      simp only [Kind.cum, e]
      rw [if_neg (by linarith), neg_neg, exp_log (by linarith)]
      congr 1; ring
  | cauchy =>
    obtain ⟨h0, h1⟩ := hu rfl
    have hp := pi_pos
    refine ⟨tan ((u - 0.5) * π) * s + c, ?_⟩
    have e : (tan ((u - 0.5) * π) * s + c - c) / s = tan ((u - 0.5) * π) := by field_simp; ring
    simp only [Kind.cum, e]
    rw [arctan_tan (by nlinarith) (by nlinarith)]
    congr 1
    field_simp
    ring
  | gauss =>
    obtain ⟨h0, h1⟩ := hu rfl
    obtain ⟨x, hx⟩ := exists_erf (2 * u - 1) (by linarith) (by linarith)
    refine ⟨x * (√2 * s) + c, ?_⟩
    have h2 : √2 ≠ 0 := by positivity
    have e : (x * (√2 * s) + c - c) / (√2 * s) = x := by field_simp; ring
    simp only [Kind.cum, e, hx]
    congr 1; ring

theorem cumE_coe (d : ℝ) : k.cumE c s (d : EReal) = k.cum c s d := rfl

theorem cumE_bot : k.cumE c s ⊥ = if k.hasCenter then some 0 else none := rfl

theorem cumE_top : k.cumE c s ⊤ = if k.hasCenter then some 1 else none := rfl

theorem cumE_mono (hs : 0 < s) (a b : EReal) (u v : ℝ) (h : a < b) (hu : k.cumE c s a = some u)
    (hv : k.cumE c s b = some v) : u < v := by
  induction a with
  | bot =>
    simp only [cumE_bot, cumE_top] at hu
    split at hu
    · rename_i hk
      simp only [Option.some.injEq] at hu
      induction b with
      | bot => simp at h
      | top =>
        simp only [cumE_bot, cumE_top, hk, if_true, Option.some.injEq] at hv
        linarith
      | coe b =>
        have := cum_range k c s hk b v hv
        linarith [this.1]
    · simp at hu
  | top => exact absurd h (not_top_lt)
  | coe a =>
    induction b with
    | bot => simp at h
    | top =>
      simp only [cumE_bot, cumE_top] at hv
      split at hv
      · rename_i hk
        simp only [Option.some.injEq] at hv
        have := cum_range k c s hk a u hu
        linarith [this.2]
      · simp at hv
    | coe b => exact cum_mono k c s hs a b u v (EReal.coe_lt_coe_iff.1 h) hu hv

theorem cumE_range (hk : k.hasCenter = true) (a : EReal) (u : ℝ) (hu : k.cumE c s a = some u) :
    0 ≤ u ∧ u ≤ 1 := by
  induction a with
  | bot => simp only [cumE_bot, cumE_top, hk, if_true, Option.some.injEq] at hu; constructor <;> linarith
  | top => simp only [cumE_bot, cumE_top, hk, if_true, Option.some.injEq] at hu; constructor <;> linarith
  | coe a => have := cum_range k c s hk a u hu; exact ⟨this.1.le, this.2.le⟩

theorem cumE_lt_iff (hs : 0 < s) (a b : EReal) (u v : ℝ) (hu : k.cumE c s a = some u)
    (hv : k.cumE c s b = some v) (h : u < v) : a < b := by
  rcases lt_trichotomy a b with h1 | h1 | h1
  · exact h1
  · subst h1; rw [hu] at hv; simp at hv; linarith
  · have := cumE_mono k c s hs b a v u h1 hv hu; linarith

/-- Between the images of two limits every number is the image of a value between the limits. -/
theorem cumE_between (hs : 0 < s) (a b : EReal) (u v w : ℝ) (hu : k.cumE c s a = some u)
    (hv : k.cumE c s b = some v) (h1 : u < w) (h2 : w < v) :
    ∃ d : ℝ, k.cum c s d = some w ∧ a < d ∧ (d : EReal) < b := by
  obtain ⟨d, hd⟩ := cum_surj k c s hs w (fun hk => by
    have := cumE_range k c s hk a u hu
    have := cumE_range k c s hk b v hv
    constructor <;> linarith)
  exact ⟨d, hd, cumE_lt_iff k c s hs a d u w hu hd h1, cumE_lt_iff k c s hs d b w v hd hv h2⟩

theorem cum_isSome_between (a b : EReal) (u v : ℝ) (d : ℝ) (hu : k.cumE c s a = some u)
    (_hv : k.cumE c s b = some v) (h1 : a < d) : ∃ w, k.cum c s d = some w := by
  cases k with
  | uniform => exact ⟨_, rfl⟩
  | laplace => exact ⟨_, rfl⟩
  | cauchy => exact ⟨_, rfl⟩
  | gauss => exact ⟨_, rfl⟩
  | jeffreys =>
    induction a with
    | bot => simp [cumE_bot, cumE_top, Kind.hasCenter] at hu
    | top => exact absurd h1 not_top_lt
    | coe a =>
      have h2 : a < d := EReal.coe_lt_coe_iff.1 h1
      simp only [cumE_coe, Kind.cum] at hu
      split at hu
      · simp at hu
      · exact ⟨log d, by simp only [Kind.cum]; rw [if_neg (by linarith)]⟩

end

/-! ## Specification -/

/-- The prior objects that can be made without the option circular: by a constructor, and from another
one by calls of `setLimits` that do not raise an exception. -/
inductive Made : Prior → Prop
  | new (k : Kind) (c s : ℝ) (limits : Lims) (q : Prior) :
      construct k c s limits .no = some q → Made q
  | exponential (s : ℝ) (hi : EReal) (q : Prior) : exponential s hi = some q → Made q
  | set (q : Prior) (limits : Lims) : Made q → (q.setLimits limits).2 = false →
      Made (q.setLimits limits).1

/-- The prior is proper: always for Laplace, exponential, Cauchy and Gauss; when both limits are numbers
(and positive) for uniform and Jeffreys. -/
def Proper (q : Prior) : Prop :=
  match q.kind with
  | .uniform => q.low ≠ ⊥ ∧ q.high ≠ ⊤
  | .jeffreys => 0 < q.low ∧ q.high ≠ ⊤
  | _ => True

/-! ## The invariant -/

/-- What holds for a prior that is not circular. -/
structure Inv (q : Prior) : Prop where
  scale : 0 < q.scale
  order : q.lowDomain ≤ q.low ∧ q.low < q.high ∧ q.high ≤ q.highDomain
  range : (q.urng = none ∧ (q.kind.cumE q.center q.scale q.low = none ∨
      q.kind.cumE q.center q.scale q.high = none)) ∨
    ∃ a b, q.kind.cumE q.center q.scale q.low = some a ∧
      q.kind.cumE q.center q.scale q.high = some b ∧ q.umin = a ∧ q.urng = some (b - a)
  maps : q.maps = if q.hasBase then .limited else .base
  base : q.hasBase = false → ∀ r, q.urng = some r → q.umin = 0 ∧ r = 1
  domLow : q.hasBase = false → ∀ u, q.kind.cumE q.center q.scale q.lowDomain = some u → u = 0
  domHigh : q.hasBase = false → ∀ u, q.kind.cumE q.center q.scale q.highDomain = some u → u = 1

theorem map_unit (q : Prior) (hm : q.maps = if q.hasBase then .limited else .base) (x : EReal) :
    ({ q with umin := 0, urng := some 1 } : Prior).domain2UnitE x
      = q.kind.cumE q.center q.scale x := by
  unfold Prior.domain2UnitE Prior.applyD
  simp only [hm]
  cases q.hasBase
  · rfl
  · simp only [Prior.limitD, if_true]
    cases q.kind.cumE q.center q.scale x <;> simp

/-- What a call of `setLimits` does to an object that is not circular. -/
theorem setLimits_spec (q : Prior) (limits : Lims) (hs : 0 < q.scale)
    (hm : q.maps = if q.hasBase then .limited else .base)
    (dl : q.hasBase = false → ∀ u, q.kind.cumE q.center q.scale q.lowDomain = some u → u = 0)
    (dh : q.hasBase = false → ∀ u, q.kind.cumE q.center q.scale q.highDomain = some u → u = 1)
    (hr : (q.setLimits limits).2 = false) :
    Inv (q.setLimits limits).1 ∧ (q.setLimits limits).1.kind = q.kind ∧
    (q.setLimits limits).1.center = q.center ∧ (q.setLimits limits).1.scale = q.scale ∧
    (q.setLimits limits).1.limint = q.limint ∧ (q.setLimits limits).1.circ = q.circ ∧
    (q.setLimits limits).1.low = (limits.bind Prod.fst).getD q.lowDomain ∧
    (q.setLimits limits).1.high = (limits.bind Prod.snd).getD q.highDomain ∧
    (q.setLimits limits).1.lowDomain = q.lowDomain ∧
    (q.setLimits limits).1.highDomain = q.highDomain ∧
    ((q.setLimits limits).1.urng ≠ none → (limits.bind Prod.fst).isSome = true →
      (q.setLimits limits).1.hasBase = true) ∧
    ((q.setLimits limits).1.urng = none → (q.setLimits limits).1.hasBase = q.hasBase) := by
  unfold Prior.setLimits at hr ⊢
  simp only at hr ⊢
  split at hr
  case isFalse => simp at hr
  case isTrue hord =>
    rw [if_pos hord]
    set lo := (limits.bind Prod.fst).getD q.lowDomain with hlo
    set hi := (limits.bind Prod.snd).getD q.highDomain with hhi
    have hmu : ∀ x, ({ q with low := lo, high := hi, umin := 0, urng := some 1 } : Prior).domain2UnitE x
        = q.kind.cumE q.center q.scale x := fun x => map_unit { q with low := lo, high := hi } hm x
    cases hh : q.kind.cumE q.center q.scale hi with
    | none =>
      have e : ({ q with low := lo, high := hi } : Prior).setRange
          = { q with low := lo, high := hi, umin := 0, urng := none } := by
        simp only [Prior.setRange, hmu, hh]
      simp only [e, if_true]
      refine ⟨⟨hs, hord, Or.inl ⟨rfl, Or.inr hh⟩, hm, ?_, dl, dh⟩, by trivial, by trivial, by trivial, by trivial, by trivial, by trivial, by trivial, by trivial,
        by trivial, by simp, by simp⟩
      intro _ r h; simp at h
    | some b =>
      cases hl : q.kind.cumE q.center q.scale lo with
      | none =>
        have e : ({ q with low := lo, high := hi } : Prior).setRange
            = { q with low := lo, high := hi, umin := 0, urng := none } := by
          simp only [Prior.setRange, hmu, hh, hl]
        simp only [e, if_true]
        refine ⟨⟨hs, hord, Or.inl ⟨rfl, Or.inl hl⟩, hm, ?_, dl, dh⟩, by trivial, by trivial, by trivial, by trivial, by trivial, by trivial, by trivial,
          by trivial, by trivial, by simp, by simp⟩
        intro _ r h; simp at h
      | some a =>
        have e : ({ q with low := lo, high := hi } : Prior).setRange
            = { q with low := lo, high := hi, umin := a, urng := some (b - a) } := by
          simp only [Prior.setRange, hmu, hh, hl]
        simp only [e, reduceCtorEq, if_false]
        cases hb : q.hasBase with
        | true =>
          simp only [if_true]
          refine ⟨⟨hs, hord, Or.inr ⟨a, b, hl, hh, rfl, rfl⟩, (by simpa [hb] using hm), ?_, ?_, ?_⟩, by trivial, by trivial, by trivial, by trivial, by trivial,
            by trivial, by trivial, by trivial, by trivial, fun _ _ => by trivial, fun h => by simp at h⟩
          · intro h; simp [hb] at h
          · intro h; simp [hb] at h
          · intro h; simp [hb] at h
        | false =>
          simp only [Bool.false_eq_true, if_false]
          cases hres : (limits.bind Prod.fst).isSome || (limits.bind Prod.snd).isSome with
          | true =>
            simp only [if_true]
            refine ⟨⟨hs, hord, Or.inr ⟨a, b, hl, hh, rfl, rfl⟩, rfl, ?_, ?_, ?_⟩, by trivial, by trivial, by trivial, by trivial,
              by trivial, by trivial, by trivial, by trivial, by trivial, fun _ _ => by trivial, fun h => by simp at h⟩
            · intro h; simp at h
            · intro h; simp at h
            · intro h; simp at h
          | false =>
            simp only [Bool.false_eq_true, if_false]
            have h1 : lo = q.lowDomain := by
              simp only [Bool.or_eq_false_iff, Option.isSome_eq_false_iff, Option.isNone_iff_eq_none]
                at hres
              rw [hlo, hres.1]; rfl
            have h2 : hi = q.highDomain := by
              simp only [Bool.or_eq_false_iff, Option.isSome_eq_false_iff, Option.isNone_iff_eq_none]
                at hres
              rw [hhi, hres.2]; rfl
            refine ⟨⟨hs, hord, Or.inr ⟨a, b, hl, hh, rfl, rfl⟩, (by simpa [hb] using hm), ?_, fun _ => dl hb, fun _ => dh hb⟩, by trivial, by trivial, by trivial, by trivial, by trivial,
              by trivial, by trivial, by trivial, by trivial, ?_, fun h => by simp at h⟩
            · intro _ r hr
              simp only [Option.some.injEq] at hr
              have ha : a = 0 := dl hb a (h1 ▸ hl)
              have hb' : b = 1 := dh hb b (h2 ▸ hh)
              exact ⟨ha, by linarith⟩
            · intro _ h
              rw [h] at hres; simp at hres

theorem start_dom (k : Kind) (c s : ℝ) (li : Option ℝ) :
    (∀ u, k.cumE c s (start k c s li).lowDomain = some u → u = 0) ∧
    (∀ u, k.cumE c s (start k c s li).highDomain = some u → u = 1) := by
  have h0 : Kind.jeffreys.cumE c s 0 = none := by
    rw [show (0 : EReal) = ((0 : ℝ) : EReal) from rfl, cumE_coe]; simp [Kind.cum]
  constructor
  · intro u hu
    cases k with
    | jeffreys =>
      simp only [start, if_true] at hu
      rw [h0] at hu; simp at hu
    | _ => simp_all [start, cumE_bot, cumE_top, Kind.hasCenter]
  · intro u hu
    cases k <;> simp_all [start, cumE_bot, cumE_top, Kind.hasCenter]

/-- The constructors, without the option circular. -/
theorem construct_spec (k : Kind) (c s : ℝ) (limits : Lims) (q : Prior)
    (h : construct k c s limits .no = some q) :
    ∃ s' c' li, 0 < s' ∧ (k.hasCenter = true → s' = s ∧ c' = c ∧
        limitedIntegral k s c c limits .no = li ∧ li ≠ none) ∧
      (k.hasCenter = false → s' = 1 ∧ c' = 0 ∧ li = none) ∧
      ((start k c' s' li).setLimits limits).2 = false ∧
      q = ((start k c' s' li).setLimits limits).1 := by
  unfold construct at h
  split at h
  · rename_i hk
    split at h
    · simp at h
    · rename_i hs
      have hrc : recenter c limits .no = c := by unfold recenter; rfl
      simp only [hrc] at h
      split at h
      · simp at h
      · rename_i li hli
        simp only [Prior.setPriorAttributes] at h
        split at h
        · simp at h
        · rename_i hr
          simp only [Option.some.injEq] at h
          exact ⟨s, c, some li, by linarith, fun _ => ⟨rfl, rfl, hli, by simp⟩, fun hc => by simp [hc] at hk,
            by simpa using hr, h.symm⟩
  · rename_i hk
    simp only [Prior.setPriorAttributes] at h
    split at h
    · simp at h
    · rename_i hr
      simp only [Option.some.injEq] at h
      exact ⟨1, 0, none, one_pos, fun hc => absurd hc hk, fun _ => ⟨rfl, rfl, rfl⟩,
        by simpa using hr, h.symm⟩

theorem made_inv (q : Prior) (h : Made q) : Inv q := by
  induction h with
  | new k c s limits q hq =>
    obtain ⟨s', c', li, h1, _, _, h2, rfl⟩ := construct_spec k c s limits q hq
    exact (setLimits_spec _ limits h1 rfl (fun _ => (start_dom k c' s' li).1)
      (fun _ => (start_dom k c' s' li).2) h2).1
  | exponential s hi q hq =>
    unfold BF.Priors.exponential at hq
    obtain ⟨q', hq', rfl⟩ := Option.map_eq_some_iff.1 hq
    obtain ⟨s', c', li, h1, _, _, h2, rfl⟩ := construct_spec _ _ _ _ _ hq'
    obtain ⟨hi', g1, g2, g3, _, _, g4, g5, g6, g7, g8, _⟩ := setLimits_spec _ _ h1 rfl
      (fun _ => (start_dom _ c' s' li).1) (fun _ => (start_dom _ c' s' li).2) h2
    have hlow : ((start .laplace c' s' li).setLimits (some (some 0, some hi))).1.low = 0 := g4
    have hur : ((start .laplace c' s' li).setLimits (some (some 0, some hi))).1.urng ≠ none := by
      intro hc
      rcases hi'.range with ⟨_, h3⟩ | ⟨a, b, _, _, _, h3⟩
      · rw [g1] at h3
        have hsome : ∀ x c s, ∃ u, Kind.laplace.cumE c s x = some u := by
          intro x c s
          induction x with
          | bot => exact ⟨_, rfl⟩
          | top => exact ⟨_, rfl⟩
          | coe x => exact ⟨_, rfl⟩
        rcases h3 with h3 | h3
        · obtain ⟨u, hu⟩ := hsome _ _ _; rw [show (start .laplace c' s' li).kind = .laplace from rfl, hu] at h3
          simp at h3
        · obtain ⟨u, hu⟩ := hsome _ _ _; rw [show (start .laplace c' s' li).kind = .laplace from rfl, hu] at h3
          simp at h3
      · rw [hc] at h3; simp at h3
    have hb := g8 hur rfl
    refine ⟨hi'.scale, ⟨?_, hi'.order.2⟩, hi'.range, hi'.maps, hi'.base, ?_, ?_⟩
    · simp only [hlow, le_refl]
    · intro hc; simp only [hb] at hc; simp at hc
    · intro hc; simp only [hb] at hc; simp at hc
  | set q limits hq hr ih =>
    exact (setLimits_spec q limits ih.scale ih.maps ih.domLow ih.domHigh hr).1

theorem proper_range (q : Prior) (hi : Inv q) (hp : Proper q) :
    ∃ a b, q.kind.cumE q.center q.scale q.low = some a ∧
      q.kind.cumE q.center q.scale q.high = some b ∧ a < b ∧ q.umin = a ∧ q.urng = some (b - a) := by
  rcases hi.range with ⟨_, h⟩ | ⟨a, b, h1, h2, h3, h4⟩
  · exfalso
    have hord := hi.order
    obtain ⟨kind, center, scale, ld, hd, low, high, umin, urng, maps, hb, circ, li⟩ := q
    simp only at *
    cases kind with
    | uniform =>
      simp only [Proper] at hp
      induction low with
      | bot => simp at hp
      | top => exact absurd hord.2.1 not_top_lt
      | coe a =>
        induction high with
        | top => simp at hp
        | bot => exact absurd hord.2.1 not_lt_bot
        | coe b => simp [cumE_coe, Kind.cum] at h
    | jeffreys =>
      simp only [Proper] at hp
      induction low with
      | bot => simp at hp
      | top => exact absurd hord.2.1 not_top_lt
      | coe a =>
        induction high with
        | top => simp at hp
        | bot => exact absurd hord.2.1 not_lt_bot
        | coe b =>
          have h0 : 0 < a := EReal.coe_lt_coe_iff.1 hp.1
          have h1 : a < b := EReal.coe_lt_coe_iff.1 hord.2.1
          simp only [cumE_coe, Kind.cum] at h
          rw [if_neg (by linarith), if_neg (by linarith)] at h
          simp at h
    | laplace =>
      induction low <;> induction high <;>
        simp [cumE_coe, Kind.cum, cumE_bot, cumE_top, Kind.hasCenter] at h
    | cauchy =>
      induction low <;> induction high <;>
        simp [cumE_coe, Kind.cum, cumE_bot, cumE_top, Kind.hasCenter] at h
    | gauss =>
      induction low <;> induction high <;>
        simp [cumE_coe, Kind.cum, cumE_bot, cumE_top, Kind.hasCenter] at h
  · exact ⟨a, b, h1, h2, cumE_mono _ _ _ hi.scale _ _ _ _ hi.order.2.1 h1 h2, h3, h4⟩

/-- The maps of the object in terms of those of the class. -/
theorem maps_eq (q : Prior) (hi : Inv q) (a b : ℝ) (hab : a < b) (hu : q.umin = a)
    (hr : q.urng = some (b - a)) :
    (∀ u, q.unit2Domain u = q.kind.inv q.center q.scale (u * (b - a) + a)) ∧
    (∀ d, q.domain2Unit d = (q.kind.cum q.center q.scale d).map fun v => (v - a) / (b - a)) := by
  have hm := hi.maps
  cases hb : q.hasBase with
  | true =>
    simp only [hb, if_true] at hm
    constructor
    · intro u; simp [Prior.unit2Domain, hm, Prior.limitU, hb, hr, hu]
    · intro d
      simp only [Prior.domain2Unit, Prior.applyD, hm, Prior.limitD, hb, hr, hu, if_true]
      cases q.kind.cum q.center q.scale d <;> rfl
  | false =>
    simp only [hb] at hm
    obtain ⟨h0, h1⟩ := hi.base hb _ hr
    have ha : a = 0 := by rw [← hu, h0]
    subst ha
    have hb1 : b = 1 := by linarith
    subst hb1
    constructor
    · intro u; simp [Prior.unit2Domain, hm]
    · intro d
      simp only [Prior.domain2Unit, Prior.applyD, hm]
      cases q.kind.cum q.center q.scale d <;> simp

/-! ## The properties -/

theorem inverse_of_inv (q : Prior) (hi : Inv q) (hp : Proper q) :
    (∀ u, 0 < u → u < 1 → ∃ d : ℝ, q.unit2Domain u = some d ∧ q.domain2Unit d = some u) ∧
    (∀ d : ℝ, q.low < d → (d : EReal) < q.high →
      ∃ u, 0 < u ∧ u < 1 ∧ q.domain2Unit d = some u ∧ q.unit2Domain u = some d) ∧
    (∀ u u' d d', 0 < u → u < u' → u' < 1 → q.unit2Domain u = some d → q.unit2Domain u' = some d' →
      d < d') := by
  obtain ⟨a, b, h1, h2, hab, h3, h4⟩ := proper_range q hi hp
  obtain ⟨m1, m2⟩ := maps_eq q hi a b hab h3 h4
  have hba : 0 < b - a := by linarith
  have key : ∀ u, 0 < u → u < 1 → ∃ d : ℝ, q.kind.cum q.center q.scale d = some (u * (b - a) + a) ∧
      q.unit2Domain u = some d ∧ q.domain2Unit d = some u := by
    intro u hu0 hu1
    obtain ⟨d, hd, _, _⟩ := cumE_between q.kind q.center q.scale hi.scale _ _ a b (u * (b - a) + a)
      h1 h2 (by nlinarith) (by nlinarith)
    refine ⟨d, hd, ?_, ?_⟩
    · rw [m1]; exact inv_cum _ _ _ hi.scale _ _ hd
    · rw [m2, hd]
      simp only [Option.map_some, Option.some.injEq]
      field_simp
      ring
  refine ⟨fun u hu0 hu1 => ?_, ?_, ?_⟩
  · obtain ⟨d, _, h5, h6⟩ := key u hu0 hu1
    exact ⟨d, h5, h6⟩
  · intro d hd1 hd2
    obtain ⟨w, hw⟩ := cum_isSome_between _ _ _ _ _ _ _ d h1 h2 hd1
    have g1 := cumE_mono _ _ _ hi.scale _ _ _ _ hd1 h1 hw
    have g2 := cumE_mono _ _ _ hi.scale _ _ _ _ hd2 hw h2
    refine ⟨(w - a) / (b - a), by apply div_pos <;> linarith, by rw [div_lt_one hba]; linarith, ?_, ?_⟩
    · rw [m2, hw]; rfl
    · rw [m1, show (w - a) / (b - a) * (b - a) + a = w by field_simp; ring]
      exact inv_cum _ _ _ hi.scale _ _ hw
  · intro u u' d d' hu0 huu hu1 hd hd'
    obtain ⟨e, h5, h6, _⟩ := key u hu0 (by linarith)
    obtain ⟨e', h5', h6', _⟩ := key u' (by linarith) hu1
    rw [hd] at h6; rw [hd'] at h6'
    simp only [Option.some.injEq] at h6 h6'
    subst h6; subst h6'
    have := cumE_lt_iff q.kind q.center q.scale hi.scale d d' _ _ h5 h5' (by nlinarith)
    exact EReal.coe_lt_coe_iff.1 this

theorem limits_of_inv (q : Prior) (hi : Inv q) (hp : Proper q) :
    (∀ u, 0 < u → u < 1 → ∃ d : ℝ, q.unit2Domain u = some d ∧ q.low < d ∧ (d : EReal) < q.high) ∧
    (∀ a : ℝ, q.low = a → q.unit2Domain 0 = some a ∧ q.domain2Unit a = some 0) ∧
    (∀ b : ℝ, q.high = b → q.unit2Domain 1 = some b ∧ q.domain2Unit b = some 1) := by
  obtain ⟨a, b, h1, h2, hab, h3, h4⟩ := proper_range q hi hp
  obtain ⟨m1, m2⟩ := maps_eq q hi a b hab h3 h4
  have hba : 0 < b - a := by linarith
  refine ⟨?_, ?_, ?_⟩
  · intro u hu0 hu1
    obtain ⟨d, hd, l1, l2⟩ := cumE_between q.kind q.center q.scale hi.scale _ _ a b (u * (b - a) + a)
      h1 h2 (by nlinarith) (by nlinarith)
    exact ⟨d, by rw [m1]; exact inv_cum _ _ _ hi.scale _ _ hd, l1, l2⟩
  · intro x hx
    rw [hx, cumE_coe] at h1
    constructor
    · rw [m1, zero_mul, zero_add]; exact inv_cum _ _ _ hi.scale _ _ h1
    · rw [m2, h1]; simp
  · intro x hx
    rw [hx, cumE_coe] at h2
    constructor
    · rw [m1, one_mul, sub_add_cancel]; exact inv_cum _ _ _ hi.scale _ _ h2
    · rw [m2, h2]; simp [hba.ne']

/-- The maps between unit and domain of a proper prior are each other's inverse and increasing, whatever
limits have been set, and however often. -/
theorem C13_inverse (q : Prior) (h : Made q) (hp : Proper q) :
    (∀ u, 0 < u → u < 1 → ∃ d : ℝ, q.unit2Domain u = some d ∧ q.domain2Unit d = some u) ∧
    (∀ d : ℝ, q.low < d → (d : EReal) < q.high →
      ∃ u, 0 < u ∧ u < 1 ∧ q.domain2Unit d = some u ∧ q.unit2Domain u = some d) ∧
    (∀ u u' d d', 0 < u → u < u' → u' < 1 → q.unit2Domain u = some d → q.unit2Domain u' = some d' →
      d < d') :=
  inverse_of_inv q (made_inv q h) hp

/-- Unit values are mapped between the limits. A limit that is a number is the image of 0 or of 1, and is
mapped there. -/
theorem C14_limits_partial (q : Prior) (h : Made q) (hp : Proper q) :
    (∀ u, 0 < u → u < 1 → ∃ d : ℝ, q.unit2Domain u = some d ∧ q.low < d ∧ (d : EReal) < q.high) ∧
    (∀ a : ℝ, q.low = a → q.unit2Domain 0 = some a ∧ q.domain2Unit a = some 0) ∧
    (∀ b : ℝ, q.high = b → q.unit2Domain 1 = some b ∧ q.domain2Unit b = some 1) :=
  limits_of_inv q (made_inv q h) hp

/-- With two numbers as limits this is so for all unit values from 0 up to and including 1. -/
theorem C14_closed (q : Prior) (h : Made q) (hp : Proper q) (a b : ℝ) (ha : q.low = a)
    (hb : q.high = b) (u : ℝ) (h0 : 0 ≤ u) (h1 : u ≤ 1) :
    ∃ d, q.unit2Domain u = some d ∧ a ≤ d ∧ d ≤ b ∧ q.domain2Unit d = some u := by
  obtain ⟨g1, g2, g3⟩ := C14_limits_partial q h hp
  have hab : a < b := by
    have := (made_inv q h).order.2.1
    rw [ha, hb] at this
    exact EReal.coe_lt_coe_iff.1 this
  rcases h0.eq_or_lt with rfl | h0
  · exact ⟨a, (g2 a ha).1, le_refl _, hab.le, (g2 a ha).2⟩
  · rcases h1.eq_or_lt with rfl | h1
    · exact ⟨b, (g3 b hb).1, hab.le, le_refl _, (g3 b hb).2⟩
    · obtain ⟨d, e1, e2, e3⟩ := g1 u h0 h1
      obtain ⟨d', e4, e5⟩ := (C13_inverse q h hp).1 u h0 h1
      rw [e1] at e4
      simp only [Option.some.injEq] at e4
      subst e4
      rw [ha] at e2; rw [hb] at e3
      exact ⟨d, e1, (EReal.coe_lt_coe_iff.1 e2).le, (EReal.coe_lt_coe_iff.1 e3).le, e5⟩

/-- The limits that hold are the ones that were set last; a limit given as `None` is the end of the
domain. -/
theorem C14_last (q : Prior) (h : Made q) (limits : Lims) (hr : (q.setLimits limits).2 = false) :
    (q.setLimits limits).1.low = (limits.bind Prod.fst).getD q.lowDomain ∧
    (q.setLimits limits).1.high = (limits.bind Prod.snd).getD q.highDomain := by
  have hi := made_inv q h
  have := setLimits_spec q limits hi.scale hi.maps hi.domLow hi.domHigh hr
  exact ⟨this.2.2.2.2.2.2.1, this.2.2.2.2.2.2.2.1⟩

/-- `setLimits` raises an exception exactly when the limits are out of order or out of the domain. -/
theorem C14_raises (q : Prior) (limits : Lims) :
    (q.setLimits limits).2 = true ↔
      ¬ (q.lowDomain ≤ (limits.bind Prod.fst).getD q.lowDomain ∧
        (limits.bind Prod.fst).getD q.lowDomain < (limits.bind Prod.snd).getD q.highDomain ∧
        (limits.bind Prod.snd).getD q.highDomain ≤ q.highDomain) := by
  unfold Prior.setLimits
  simp only
  split
  · rename_i hc
    constructor
    · intro h
      split at h
      · simp at h
      · split at h
        · simp at h
        · split at h <;> simp at h
    · intro h; exact absurd hc h
  · rename_i hc
    exact ⟨fun _ => hc, fun _ => rfl⟩

/-- `stayInLimits` gives the nearest value within the limits. -/
theorem C14_stay (q : Prior) (h : q.low < q.high) (x : ℝ) :
    q.low ≤ q.stayInLimits x ∧ q.stayInLimits x ≤ q.high ∧
    (¬ q.isOut x → q.stayInLimits x = x) ∧
    (∀ y : EReal, q.low ≤ y → y ≤ q.high →
      (x ≤ y → q.stayInLimits x ≤ y) ∧ (y ≤ x → y ≤ q.stayInLimits x)) := by
  unfold Prior.stayInLimits Prior.isOut
  split
  · rename_i h1
    refine ⟨le_refl _, h.le, fun hc => absurd (Or.inl h1) hc, fun y h2 h3 => ⟨fun _ => h2, fun h4 => ?_⟩⟩
    exact absurd (lt_of_lt_of_le h1 h2) (not_lt.2 h4)
  · rename_i h1
    split
    · rename_i h2
      refine ⟨h.le, le_refl _, fun hc => absurd (Or.inr h2) hc, fun y h3 h4 => ⟨fun h5 => ?_, fun _ => h4⟩⟩
      exact absurd (lt_of_lt_of_le h2 h5) (not_lt.2 h4)
    · rename_i h2
      exact ⟨not_lt.1 h1, not_lt.1 h2, fun _ => rfl, fun y _ _ => ⟨id, id⟩⟩

end BF.Priors
