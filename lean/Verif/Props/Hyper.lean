import Verif.Hyper
import Verif.Props.Phantoms
import Mathlib.Tactic.Linarith
import Mathlib.Tactic.NormNum

/-!
# C95: hyperparameters are fitted when they have limits, otherwise fixed; copies

What a user sees of the hyperparameters is the list of parameters to be fitted and the values of the
others, which the sampler makes with `makeFitlist` (C42).
-/

namespace BF.HyperPar

open Fitlist

/-- The list of fitted parameters and the array of all parameters, for a model with `np` parameters, without
accuracies. -/
noncomputable def fitted (np : ℕ) (s : Store) (d : Dis) : Option (List ℤ × List ℝ) :=
  makeFitlist np (hypers s d) false none

/-- The numbers of the model parameters. -/
def modelPars (np : ℕ) : List ℤ := (List.range np).map fun k : ℕ => (k : ℤ)

/-! ## Making a distribution -/

theorem jeffreys_limits (lo hi : ℝ) (l h : Option ℝ) (h0 : 0 < lo) (h1 : lo < hi) :
    (⟨.jeffreys, l, h⟩ : Pri).setLimits (some (some lo, some hi)) =
      some ⟨.jeffreys, some lo, some hi⟩ := by
  simp only [Pri.setLimits]
  rw [if_pos]
  · rfl
  · simp [h1, h0.le]

theorem modify_at (s t : Store) (h : HPar) (f : HPar → HPar) :
    (s ++ h :: t).modify s.length f = s ++ f h :: t := by
  induction s with
  | nil => rfl
  | cons g s ih => simpa using ih

theorem newExp_limits (s : Store) (scale power lo hi : ℝ) (h0 : 0 < lo) (h1 : lo < hi) :
    newExponential s scale power (some (some lo, some hi)) none =
      some (s ++ [⟨scale, false, some ⟨.jeffreys, some lo, some hi⟩, false⟩, ⟨power, true, none, false⟩],
        ⟨[s.length, s.length + 1], some [(0, 1)]⟩) := by
  simp only [newExponential, HPar.makeScale, HPar.make, jeffreys_limits lo hi none none h0 h1,
        Option.map_some]

theorem newExp_none (s : Store) (scale power : ℝ) :
    newExponential s scale power none none =
      some (s ++ [⟨scale, true, none, false⟩, ⟨power, true, none, false⟩],
        ⟨[s.length, s.length + 1], some [(0, 1)]⟩) := by
  simp only [newExponential, HPar.makeScale, HPar.make]

theorem newScaled_limits (s : Store) (scale lo hi : ℝ) (h0 : 0 < lo) (h1 : lo < hi) :
    newScaled s scale (some (some lo, some hi)) none =
      some (s ++ [⟨scale, false, some ⟨.jeffreys, some lo, some hi⟩, false⟩], ⟨[s.length], none⟩) := by
  simp [newScaled, keepFixed, HPar.makeScale, HPar.make, jeffreys_limits lo hi none none h0 h1]

theorem newScaled_none (s : Store) (scale : ℝ) :
    newScaled s scale none none =
      some (s ++ [⟨scale, true, none, true⟩], ⟨[s.length], some [(0, scale)]⟩) := by
  simp [newScaled, keepFixed, HPar.makeScale, HPar.make, keepLoop, modify_at]

/-- A noise scale with limits is fitted, besides the model parameters; one without limits has the
given value and is not fitted. The hyperparameters of other distributions are left alone. -/
theorem C95_scale_partial (np : ℕ) (s : Store) (scale : ℝ) :
    (∀ lo hi : ℝ, 0 < lo → lo < hi →
      ∃ s' d, newScaled s scale (some (some lo, some hi)) none = some (s', d) ∧ s <+: s' ∧
        fitted np s' d = some (modelPars np ++ [-1], List.replicate np 0 ++ [0])) ∧
    ∃ s' d, newScaled s scale none none = some (s', d) ∧ s <+: s' ∧
        fitted np s' d = some (modelPars np, List.replicate np 0 ++ [scale]) := by
  refine ⟨fun lo hi h0 h1 => ?_, ?_⟩
  · refine ⟨_, _, newScaled_limits s scale lo hi h0 h1, List.prefix_append _ _, ?_⟩
    simp [fitted, makeFitlist, baseList, modelPars, hypers, HPar.view, Pri.isBound, hyperFit, hyperVals,
      h0]
  · refine ⟨_, _, newScaled_none s scale, List.prefix_append _ _, ?_⟩
    simp [fitted, makeFitlist, baseList, modelPars, hypers, HPar.view, hyperFit, hyperVals]

/-- The exponential distribution with limits on the scale: the scale is fitted and the power has the
given value. Without limits both are fixed.

Partial: limits on the power, see the counterexample. -/
theorem C95_exponential_partial (np : ℕ) (s : Store) (scale power : ℝ) :
    (∀ lo hi : ℝ, 0 < lo → lo < hi →
      ∃ s' d, newExponential s scale power (some (some lo, some hi)) none = some (s', d) ∧ s <+: s' ∧
        fitted np s' d = some (modelPars np ++ [-2], List.replicate np 0 ++ [0, power])) ∧
    ∃ s' d, newExponential s scale power none none = some (s', d) ∧ s <+: s' ∧
        fitted np s' d = some (modelPars np, List.replicate np 0 ++ [scale, power]) := by
  refine ⟨fun lo hi h0 h1 => ?_, ?_⟩
  · refine ⟨_, _, newExp_limits s scale power lo hi h0 h1, List.prefix_append _ _, ?_⟩
    simp [fitted, makeFitlist, baseList, modelPars, hypers, HPar.view, hyperFit, hyperVals, Pri.isBound,
      h0]
  · refine ⟨_, _, newExp_none s scale power, List.prefix_append _ _, ?_⟩
    simp [fitted, makeFitlist, baseList, modelPars, hypers, HPar.view, hyperFit, hyperVals]

/-- ... but limits on the power do not make it fitted, although the documentation says so: it stays fixed at
its given value, whatever the limits. -/
theorem C95_counterexample_power (np : ℕ) (s : Store) (scale power lo hi plo phi : ℝ) (h0 : 0 < lo)
    (h1 : lo < hi) (h2 : 0 < plo) (h3 : plo < phi) :
    ∃ s' d, newExponential s scale power (some (some lo, some hi)) (some (some plo, some phi)) =
        some (s', d) ∧
      fitted np s' d = some (modelPars np ++ [-2], List.replicate np 0 ++ [0, power]) := by
  refine ⟨_, _, by
      simp only [newExponential, HPar.makeScale, HPar.make, jeffreys_limits lo hi none none h0 h1,
        jeffreys_limits plo phi none none h2 h3, Option.map_some]; rfl, ?_⟩
  simp [fitted, makeFitlist, baseList, modelPars, hypers, HPar.view, hyperFit, hyperVals, Pri.isBound, h0]

/-- With 0 for the low limit, which is accepted, the noise scale is not fitted: it stays at its value. -/
theorem C95_counterexample_zero (np : ℕ) (s : Store) (scale hi : ℝ) (h : 0 < hi) :
    ∃ s' d, newScaled s scale (some (some 0, some hi)) none = some (s', d) ∧
      hypers s' d = [⟨false, false, scale⟩] ∧
      fitted np s' d = some (modelPars np, List.replicate np 0 ++ [scale]) := by
  refine ⟨s ++ [⟨scale, false, some ⟨.jeffreys, some 0, some hi⟩, false⟩], ⟨[s.length], none⟩, ?_, ?_, ?_⟩
  · simp [newScaled, keepFixed, HPar.makeScale, HPar.make, Pri.setLimits, h]
  · simp [hypers, HPar.view, Pri.isBound]
  · simp [fitted, makeFitlist, baseList, modelPars, hypers, HPar.view, hyperFit, hyperVals, Pri.isBound]

theorem hypers_append (s t : Store) (d : Dis) (h : ∀ a ∈ d.refs, a < s.length) :
    hypers (s ++ t) d = hypers s d := by
  simp only [hypers]
  apply List.filterMap_congr
  intro a ha
  rw [List.getElem?_append_left (h a ha)]

/-- A mixed distribution has the hyperparameters of the first, those of the second and a fraction, which is
free exactly when it has limits. -/
theorem C95_mixed_partial (s : Store) (d1 d2 : Dis) (h1 : ∀ a ∈ d1.refs, a < s.length)
    (h2 : ∀ a ∈ d2.refs, a < s.length) (fraction : ℝ) :
    (∀ lo hi : ℝ, lo < hi →
      ∃ s' d, newMixed s d1 d2 fraction (some (some lo, some hi)) = some (s', d) ∧
        hypers s' d = hypers s d1 ++ hypers s d2 ++ [⟨false, true, fraction⟩]) ∧
    ∃ s' d, newMixed s d1 d2 fraction none = some (s', d) ∧
        hypers s' d = hypers s d1 ++ hypers s d2 ++ [⟨false, false, fraction⟩] := by
  have key : ∀ (h : HPar), hypers (s ++ [h]) ⟨d1.refs ++ d2.refs ++ [s.length], none⟩ =
      hypers s d1 ++ hypers s d2 ++ [h.view] := by
    intro h
    rw [← hypers_append s [h] d1 h1, ← hypers_append s [h] d2 h2]
    simp [hypers, List.filterMap_append]
  refine ⟨fun lo hi hl => ?_, ?_⟩
  · have : (⟨.uniform, none, none⟩ : Pri).setLimits (some (some lo, some hi)) =
        some ⟨.uniform, some lo, some hi⟩ := by
      simp only [Pri.setLimits]
      rw [if_pos (by simp [hl])]
      rfl
    refine ⟨_, _, by simp only [newMixed, HPar.make, this, Option.map_some]; rfl, ?_⟩
    rw [key]
    rfl
  · have : (⟨.uniform, none, none⟩ : Pri).setLimits none = some ⟨.uniform, none, none⟩ := by
      simp only [Pri.setLimits]
      rw [if_pos (by simp)]
      rfl
    refine ⟨_, _, by simp only [newMixed, HPar.make, this, Option.map_some]; rfl, ?_⟩
    rw [key]
    rfl

/-! ## Setting limits later -/

/-- Limits that are set later make the scale a fitted parameter, whether it had limits or not. -/
theorem C95_set_limits_partial (np : ℕ) (s : Store) (a : ℕ) (ha : a < s.length)
    (f : Option (List (ℕ × ℝ))) (lo hi : ℝ) (h0 : 0 < lo) (h1 : lo < hi)
    (hk : ∀ h ∈ s, ∀ p ∈ h.prior, p.kind = Kind.jeffreys) :
    ∃ s', setLimitsScaled s ⟨[a], f⟩ [(some lo, some hi)] = some s' ∧ s'.length = s.length ∧
      (∀ b, b ≠ a → s'[b]? = s[b]?) ∧ 
      fitted np s' ⟨[a], f⟩ = some (modelPars np ++ [-1], List.replicate np 0 ++ [0]) := by
  obtain ⟨h, hh⟩ : ∃ h, s[a]? = some h := ⟨_, List.getElem?_eq_getElem ha⟩
  have hmem : h ∈ s := List.mem_of_getElem? hh
  obtain ⟨q, hq, hqk⟩ : ∃ q : Pri, (if h.prior.isNone then
      { h with prior := some ⟨.jeffreys, none, none⟩ } else h).prior = some q ∧ q.kind = .jeffreys := by
    cases hp : h.prior with
    | none => exact ⟨⟨.jeffreys, none, none⟩, by simp, rfl⟩
    | some p => exact ⟨p, by simp [hp], hk h hmem p (by simp [hp])⟩
  obtain ⟨h', hh'⟩ : ∃ h', h' = (if h.prior.isNone then
      { h with prior := some ⟨.jeffreys, none, none⟩ } else h) := ⟨_, rfl⟩
  rw [← hh'] at hq
  obtain ⟨k, l, u⟩ := q
  obtain rfl : k = .jeffreys := hqk
  have hset : h'.setLimits (some lo, some hi) = some { h' with
      prior := some ⟨.jeffreys, some lo, some hi⟩
      isFixed := false } := by
    simp only [HPar.setLimits, hq, jeffreys_limits lo hi l u h0 h1, Option.map_some]
  refine ⟨(s.modify a fun h => if h.prior.isNone then
      { h with prior := some ⟨.jeffreys, none, none⟩ } else h).set a { h' with
        prior := some ⟨.jeffreys, some lo, some hi⟩
        isFixed := false }, ?_, by simp, ?_, ?_⟩
  · simp only [setLimitsScaled, setLimitsBase, List.zip_cons_cons, List.zip_nil_right, limitLoop,
      List.getElem?_modify, hh, if_true, Option.map_eq_map, Option.map_some, ← hh', hset]
  · intro b hb
    rw [List.getElem?_set, if_neg (fun h => hb h.symm), List.getElem?_modify]
    simp only [if_neg (fun h : a = b => hb h.symm), Option.map_eq_map]
    cases s[b]? <;> rfl
  · simp [fitted, makeFitlist, baseList, modelPars, hypers, List.getElem?_set, ha, HPar.view, Pri.isBound,
      hyperFit, hyperVals, h0]

/-- The same for the scale and the power of an exponential distribution raises an exception, unless the power
had limits from the start. -/
theorem C95_counterexample_set_limits (s : Store) (scale power : ℝ) (l1 l2 : Limits) :
    ∃ s' d, newExponential s scale power none none = some (s', d) ∧
      setLimitsScaled s' d [l1, l2] = none := by
  refine ⟨_, _, newExp_none s scale power, ?_⟩
  simp only [setLimitsScaled, setLimitsBase, List.zip_cons_cons, List.zip_nil_right, limitLoop]
  split
  · rfl
  · split
    · rfl
    · rename_i h1 _ h2 _
      have : ((s ++ [(⟨scale, true, none, false⟩ : HPar), ⟨power, true, none, false⟩]).modify s.length
          (fun h => if h.prior.isNone then
            { h with prior := some ⟨.jeffreys, none, none⟩ } else h)).set s.length h2 =
          s ++ [h2, ⟨power, true, none, false⟩] := by
        rw [modify_at]
        simp
      rw [this]
      have hg : (s ++ [h2, (⟨power, true, none, false⟩ : HPar)])[s.length + 1]? =
          some ⟨power, true, none, false⟩ := by
        rw [List.getElem?_append_right (by omega)]
        simp
      rw [hg]
      rfl

/-! ## Fixing values -/

/-- `keepFixed` does not fix: a scale with limits that is told to keep a value is still fitted. -/
theorem C95_counterexample_keep (np : ℕ) (s : Store) (scale lo hi v : ℝ) (h0 : 0 < lo) (h1 : lo < hi) :
    ∃ s' d s'', newScaled s scale (some (some lo, some hi)) none = some (s', d) ∧
      keepFixed d.refs (some [(0, v)]) s' = some s'' ∧
      fitted np s'' d = some (modelPars np ++ [-1], List.replicate np 0 ++ [0]) := by
  refine ⟨_, _, s ++ [⟨v, false, some ⟨.jeffreys, some lo, some hi⟩, true⟩],
    newScaled_limits s scale lo hi h0 h1, ?_, ?_⟩
  · simp [keepFixed, keepLoop, modify_at]
  · simp [fitted, makeFitlist, baseList, modelPars, hypers, HPar.view, Pri.isBound, hyperFit, hyperVals,
      h0]

/-- The argument `fixed` of the constructor always raises an exception: it is looked at before there are
hyperparameters. -/
theorem C95_counterexample_fixed (s : Store) (scale : ℝ) (limits : Option Limits) (f : ℕ) (v : ℝ)
    (l : List (ℕ × ℝ)) : newScaled s scale limits (some ((f, v) :: l)) = none := by
  simp [newScaled, keepFixed, keepLoop]

/-! ## Copies -/

/-- A copy of a hyperparameter has the same value, is fitted when the original is and has the same limits. -/
theorem C95_copy_parameter (h : HPar) : h.copy.view = h.view ∧ h.copy.prior = h.prior := ⟨rfl, rfl⟩

/-- A copy of a noise scale has the value of the original, but not its limits: it is not fitted, even when the original
is; and limits cannot be set on it. -/
theorem C95_counterexample_copy_scale (scale lo hi : ℝ) (h0 : 0 < lo) (h1 : lo < hi) :
    ∃ h c, HPar.makeScale scale (some (some lo, some hi)) = some h ∧ h.copyScale = some c ∧
      h.view = ⟨false, true, scale⟩ ∧ c.view = ⟨true, false, scale⟩ ∧ ∀ l, c.setLimits l = none := by
  refine ⟨⟨scale, false, some ⟨.jeffreys, some lo, some hi⟩, false⟩, ⟨scale, true, none, false⟩, ?_, rfl, ?_, rfl,
    fun _ => rfl⟩
  · simp only [HPar.makeScale, HPar.make, jeffreys_limits lo hi none none h0 h1, Option.map_some]
  · simp [HPar.view, Pri.isBound, h0]

theorem unmark_same (refs : List ℕ) : ∀ (s : Store) (b : ℕ),
    (refs.foldl (fun t a => t.modify a fun h => { h with fixed := false }) s)[b]?.map HPar.view =
      s[b]?.map HPar.view ∧
    (refs.foldl (fun t a => t.modify a fun h => { h with fixed := false }) s).length = s.length := by
  induction refs with
  | nil => intro s b; exact ⟨rfl, rfl⟩
  | cons a refs ih =>
    intro s b
    simp only [List.foldl_cons]
    obtain ⟨h1, h2⟩ := ih (s.modify a fun h => { h with fixed := false }) b
    refine ⟨?_, by rw [h2, List.length_modify]⟩
    rw [h1, List.getElem?_modify]
    cases s[b]? with
    | none => rfl
    | some h =>
      simp only [Option.map_eq_map, Option.map_some]
      split <;> rfl

/-- One value at the first hyperparameter. -/
theorem keepFixed_first (a : ℕ) (r : List ℕ) (v : ℝ) (s : Store) :
    ∃ s', keepFixed (a :: r) (some [(0, v)]) s = some s' ∧ s'.length = s.length ∧
      ∀ b, s'[b]?.map HPar.view =
        if b = a then s[b]?.map fun h => { h.view with hypar := v } else s[b]?.map HPar.view := by
  refine ⟨_, rfl, ?_, ?_⟩
  · rw [List.length_modify, (unmark_same (a :: r) s 0).2]
  · intro b
    have := (unmark_same (a :: r) s b).1
    rw [List.getElem?_modify]
    by_cases hb : b = a
    · subst hb
      simp only [if_true, Option.map_eq_map, Option.map_map]
      cases hs : s[b]? with
      | none => rw [hs] at this; simp only [Option.map_none, Option.map_eq_none_iff] at this; rw [this]; rfl
      | some h =>
        rw [hs] at this
        simp only [Option.map_some, Option.map_eq_some_iff] at this
        obtain ⟨g, hg, hv⟩ := this
        rw [hg]
        simp only [Option.map_some, Function.comp]
        rw [← hv]
        rfl
    · rw [if_neg hb, ← this]
      simp only [if_neg (fun h : a = b => hb h.symm), Option.map_eq_map]
      cases (List.foldl (fun t a => t.modify a fun h => { h with fixed := false }) s (a :: r))[b]? <;> rfl

/-- A copy of a scaled distribution has the same hyperparameters, fixed or with the same limits, and the same
values except that of the scale, which becomes 1; and so does the original.

Partial: the scale of copy and original. -/
theorem C95_copy_partial (s : Store) (a : ℕ) (r : List ℕ) (hr : a ∉ r)
    (f : Option (List (ℕ × ℝ))) (hf : f = none ∨ ∃ v, f = some [(0, v)]) :
    ∃ s' d', copyScaled s ⟨a :: r, f⟩ = some (s', d') ∧ hypers s' d' = hypers s' ⟨a :: r, f⟩ ∧
      hypers s' d' = (s[a]?.map fun h => { h.view with hypar := (1 : ℝ) }).toList ++ hypers s ⟨r, f⟩ := by
  obtain ⟨s1, h1, h2⟩ : ∃ s1, keepFixed (a :: r) f s = some s1 ∧
      (∀ b, b ≠ a → s1[b]?.map HPar.view = s[b]?.map HPar.view) ∧
      (s1[a]?.map fun h => { h.view with hypar := (1 : ℝ) }) =
        s[a]?.map fun h => { h.view with hypar := (1 : ℝ) } := by
    rcases hf with rfl | ⟨v, rfl⟩
    · refine ⟨_, rfl, fun b _ => (unmark_same (a :: r) s b).1, ?_⟩
      have := (unmark_same (a :: r) s a).1
      have h2 := congrArg (Option.map fun g : Hyper ℝ => { g with hypar := (1 : ℝ) }) this
      simpa only [Option.map_map, Function.comp_def] using h2
    · obtain ⟨s1, e1, _, e2⟩ := keepFixed_first a r v s
      refine ⟨s1, e1, fun b hb => by rw [e2 b, if_neg hb], ?_⟩
      have := e2 a
      rw [if_pos rfl] at this
      have h2 := congrArg (Option.map fun g : Hyper ℝ => { g with hypar := (1 : ℝ) }) this
      simpa only [Option.map_map, Function.comp_def] using h2
  obtain ⟨s2, e1, _, e2⟩ := keepFixed_first a r 1 s1
  refine ⟨s2, ⟨a :: r, some [(0, 1)]⟩, by simp only [copyScaled, h1, e1, Option.map_some], rfl, ?_⟩
  simp only [hypers, List.filterMap_cons, e2 a, if_true, h2.2]
  have hrest : r.filterMap (fun b => s2[b]?.map HPar.view) =
      r.filterMap (fun b => s[b]?.map HPar.view) := by
    apply List.filterMap_congr
    intro b hb
    have hne : b ≠ a := fun h => hr (h ▸ hb)
    rw [e2 b, if_neg hne, h2.1 b hne]
  rw [hrest]
  cases s[a]? <;> rfl

/-- A copy of a mixed distribution keeps the same hyperparameters fixed and has the same hyperparameters; when none is
fixed they are as they were. -/
theorem C95_copy_mixed (s : Store) (d d' : Dis) (s' : Store) (h : copyMixed s d = some (s', d')) :
    d'.fixed = d.fixed ∧ hypers s' d' = hypers s' d ∧ (d.fixed = none → hypers s' d' = hypers s d) := by
  unfold copyMixed at h
  obtain ⟨s1, h1, h2⟩ := Option.map_eq_some_iff.1 h
  obtain ⟨rfl, rfl⟩ := Prod.mk.inj h2
  refine ⟨rfl, rfl, fun hf => ?_⟩
  rw [hf] at h1
  have h1 := (Option.some.inj h1).symm
  subst h1
  unfold hypers
  refine List.filterMap_congr fun b _ => ?_
  exact (unmark_same _ s b).1

/-- Copying a distribution with a fixed scale changes the original: afterwards original and copy both
have scale 1. -/
theorem C95_counterexample_copy (np : ℕ) (s : Store) (scale : ℝ) :
    ∃ s' d s'' d', newScaled s scale none none = some (s', d) ∧ copyScaled s' d = some (s'', d') ∧
      fitted np s' d = some (modelPars np, List.replicate np 0 ++ [scale]) ∧
      fitted np s'' d = some (modelPars np, List.replicate np 0 ++ [1]) ∧
      fitted np s'' d' = some (modelPars np, List.replicate np 0 ++ [1]) := by
  refine ⟨_, _, s ++ [⟨1, true, none, true⟩], ⟨[s.length], some [(0, 1)]⟩, newScaled_none s scale,
    ?_, ?_, ?_, ?_⟩
  · simp [copyScaled, keepFixed, keepLoop, modify_at]
  all_goals simp [fitted, makeFitlist, baseList, modelPars, hypers, HPar.view, hyperFit, hyperVals]

/-- A copy shares its hyperparameters: setting limits on the copy makes the scale of the original a fitted
parameter too. -/
theorem C95_counterexample_shared (np : ℕ) (s : Store) (scale lo hi : ℝ) (h0 : 0 < lo) (h1 : lo < hi) :
    ∃ s' d s'' d' s''', newScaled s scale none none = some (s', d) ∧
      copyScaled s' d = some (s'', d') ∧ setLimitsScaled s'' d' [(some lo, some hi)] = some s''' ∧
      fitted np s'' d = some (modelPars np, List.replicate np 0 ++ [1]) ∧
      fitted np s''' d = some (modelPars np ++ [-1], List.replicate np 0 ++ [0]) := by
  refine ⟨_, _, s ++ [⟨1, true, none, true⟩], ⟨[s.length], some [(0, 1)]⟩,
    s ++ [⟨1, false, some ⟨.jeffreys, some lo, some hi⟩, true⟩], newScaled_none s scale,
    ?_, ?_, ?_, ?_⟩
  · simp [copyScaled, keepFixed, keepLoop, modify_at]
  · simp [setLimitsScaled, setLimitsBase, limitLoop, modify_at, HPar.setLimits,
      jeffreys_limits lo hi none none h0 h1]
  · simp [fitted, makeFitlist, baseList, modelPars, hypers, HPar.view, hyperFit, hyperVals]
  · simp [fitted, makeFitlist, baseList, modelPars, hypers, HPar.view, Pri.isBound, hyperFit, hyperVals,
      h0]

/-- The hypotheses are met: limits 0.1 and 10, a store with one hyperparameter. -/
example : (0 : ℝ) < 0.1 ∧ (0.1 : ℝ) < 10 ∧ ∃ s d, newScaled [] 2 none none = some (s, d) ∧
    (∀ h ∈ s, ∀ p ∈ h.prior, p.kind = Kind.jeffreys) ∧ 0 < s.length := by
  refine ⟨by norm_num, by norm_num, _, _, newScaled_none [] 2, ?_, by simp⟩
  simp

end BF.HyperPar
