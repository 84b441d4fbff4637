import Verif.Robust
import Verif.Props.Kernels
import Mathlib.Tactic.Linarith
import Mathlib.Tactic.NormNum
import Mathlib.Tactic.FieldSimp
import Mathlib.Tactic.Positivity

/-!
# C43: robust fitting
-/

open BF.Kernels

namespace BF.Robust

variable {σ : Type*}

/-! ## Specification -/

/-- The residuals of the data with respect to a fit. -/
def residual (e : Env σ) (data : List ℝ) (f : Fit) (i : ℕ) : Option ℝ :=
  match data[i]?, (e.yfit f.param)[i]? with
  | some y, some m => some (y - m)
  | _, _ => none

/-- The original weight of a data point: 1 when there are no weights. -/
def origWeight (weights : Option (List ℝ)) (i : ℕ) : Option ℝ :=
  match weights with
  | none => some 1
  | some w => w[i]?

/-- The two sides: with +1 only positive residuals are down-weighted, with -1 only negative ones. -/
def Exempt (onesided : ℤ) (r : ℝ) : Prop := (onesided = 1 ∧ r < 0) ∨ (onesided = -1 ∧ 0 < r)

/-- Each turn with the fit it started from. -/
def pairs (f : Fit) : List Step → List (Fit × Step)
  | [] => []
  | s :: ss => (f, s) :: pairs s.fit ss

theorem loop_spec (e : Env σ) (data : List ℝ) (weights : Option (List ℝ)) (kernel : ℝ → ℝ) (domain : ℝ)
    (onesided : ℤ) (n : ℕ) (s s' : σ) (f : Fit) (steps : List Step)
    (h : loop e data weights kernel domain onesided n s f = some (s', steps)) :
    steps.length ≤ n ∧ (n ≠ 0 → steps ≠ []) ∧
    (∀ p ∈ pairs f steps, p.1.scale * domain ≠ 0 ∧
      p.2.weights = robustWeights kernel domain onesided data (e.yfit p.1.param) p.1.scale weights) ∧
    ∀ (j : ℕ) (p : Fit × Step), (pairs f steps)[j]? = some p →
      ((|p.1.chisq - p.2.fit.chisq| < if p.2.fit.chisq < 1 then e.tolerance else e.tolerance * p.2.fit.chisq) →
        j + 1 = steps.length) ∧
      (j + 1 = steps.length →
        (|p.1.chisq - p.2.fit.chisq| < if p.2.fit.chisq < 1 then e.tolerance else e.tolerance * p.2.fit.chisq) ∨
        steps.length = n) := by
  induction n generalizing s f steps with
  | zero =>
    simp only [loop, Option.some.injEq, Prod.mk.injEq] at h
    obtain ⟨_, rfl⟩ := h
    simp [pairs]
  | succ n ih =>
    simp only [loop] at h
    split at h
    · cases h
    rename_i hsd
    split at h
    · cases h
    rename_i s1 g hg
    by_cases ht : |f.chisq - g.chisq| < if g.chisq < 1 then e.tolerance else e.tolerance * g.chisq
    · rw [if_pos ht] at h
      simp only [Option.some.injEq, Prod.mk.injEq] at h
      obtain ⟨_, rfl⟩ := h
      refine ⟨by simp, by simp, ?_, ?_⟩
      · intro p hp
        simp only [pairs, List.mem_singleton] at hp
        subst hp
        exact ⟨hsd, rfl⟩
      · intro j p hp
        rcases j with _ | j
        · simp only [pairs, List.getElem?_cons_zero, Option.some.injEq] at hp
          subst hp
          exact ⟨fun _ => by simp, fun _ => Or.inl ht⟩
        · simp [pairs] at hp
    · rw [if_neg ht, Option.map_eq_some_iff] at h
      obtain ⟨⟨s2, rest⟩, hr, heq⟩ := h
      simp only [Prod.mk.injEq] at heq
      obtain ⟨rfl, rfl⟩ := heq
      obtain ⟨a, b, c, d⟩ := ih s1 g rest hr
      refine ⟨by simpa using a, by simp, ?_, ?_⟩
      · intro p hp
        rcases List.mem_cons.1 hp with rfl | hp
        · exact ⟨hsd, rfl⟩
        · exact c p hp
      · intro j p hp
        rcases j with _ | j
        · simp only [pairs, List.getElem?_cons_zero, Option.some.injEq] at hp
          subst hp
          refine ⟨fun h => absurd h ht, fun hl => Or.inr ?_⟩
          have h0 : rest = [] := by simpa using hl.symm
          by_contra hne
          have : n ≠ 0 := by
            rintro rfl; apply hne; simp [h0]
          exact b this h0
        · obtain ⟨x, y⟩ := d j p (by simpa [pairs] using hp)
          refine ⟨fun h => by simpa using x h, fun hl => ?_⟩
          rcases y (by simpa using hl) with h | h
          · exact Or.inl h
          · right; simpa using h

/-! ## Theorems -/

/-- C43: a robust fit ends: it fits at least once and at most `maxIter` times more than the plain fit. It stops
at the first turn in which chisq changes less than the tolerance, or else at the limit. What it returns is the
last of the fits. -/
theorem C43_stops (e : Env σ) (s : σ) (data : List ℝ) (weights : Option (List ℝ)) (kernel : ℝ → ℝ)
    (domain : ℝ) (onesided : ℤ) (f : Fit) (steps : List Step) (last : Step)
    (h : fit e s data weights kernel domain onesided = some (f, steps, last)) :
    (∃ s1, e.fit s data weights = some (s1, f)) ∧ 1 ≤ steps.length ∧ steps.length ≤ e.maxIter ∧
    steps.getLast? = some last ∧
    ∀ (j : ℕ) (p : Fit × Step), (pairs f steps)[j]? = some p →
      ((|p.1.chisq - p.2.fit.chisq| < if p.2.fit.chisq < 1 then e.tolerance else e.tolerance * p.2.fit.chisq) →
        j + 1 = steps.length) ∧
      (j + 1 = steps.length →
        (|p.1.chisq - p.2.fit.chisq| < if p.2.fit.chisq < 1 then e.tolerance else e.tolerance * p.2.fit.chisq) ∨
        steps.length = e.maxIter) := by
  simp only [fit] at h
  split at h
  · cases h
  rename_i s1 f1 hf
  split at h
  · cases h
  rename_i s2 st hl
  rw [Option.map_eq_some_iff] at h
  obtain ⟨l, hlast, heq⟩ := h
  simp only [Prod.mk.injEq] at heq
  obtain ⟨rfl, rfl, rfl⟩ := heq
  obtain ⟨a, b, c, d⟩ := loop_spec e data weights kernel domain onesided _ s1 s2 f1 st hl
  refine ⟨⟨s1, hf⟩, ?_, a, hlast, d⟩
  cases st with
  | nil => simp at hlast
  | cons _ _ => simp

/-- C43: what a robust fit does to the weights. In each turn, with the residuals of the fit before, a data point
gets its original weight times the kernel at the scaled residual, or the original weight when its residual is at
the side that is not to be down-weighted. -/
theorem C43_weights (e : Env σ) (s : σ) (data : List ℝ) (weights : Option (List ℝ)) (kernel : ℝ → ℝ)
    (domain : ℝ) (hdom : 0 < domain) (onesided : ℤ) (f : Fit) (steps : List Step) (last : Step)
    (h : fit e s data weights kernel domain onesided = some (f, steps, last))
    (p : Fit × Step) (hp : p ∈ pairs f steps) (hscale : 0 ≤ p.1.scale) (i : ℕ) (r w : ℝ)
    (hr : residual e data p.1 i = some r) (hw : origWeight weights i = some w) :
    (Exempt onesided r → p.2.weights[i]? = some w) ∧
    (¬ Exempt onesided r → p.2.weights[i]? = some (w * kernel (r / (p.1.scale * domain)))) := by
  simp only [fit] at h
  split at h
  · cases h
  rename_i s1 f1 hf
  split at h
  · cases h
  rename_i s2 st hl
  rw [Option.map_eq_some_iff] at h
  obtain ⟨l, hlast, heq⟩ := h
  simp only [Prod.mk.injEq] at heq
  obtain ⟨rfl, rfl, rfl⟩ := heq
  obtain ⟨-, -, c, -⟩ := loop_spec e data weights kernel domain onesided _ s1 s2 f1 st hl
  obtain ⟨hne, hpw⟩ := c p hp
  have hpos : 0 < p.1.scale * domain := lt_of_le_of_ne (by positivity) (Ne.symm hne)
  unfold residual at hr
  rcases hd : data[i]? with _ | y
  · simp [hd] at hr
  rcases hm : (e.yfit p.1.param)[i]? with _ | m
  · simp [hd, hm] at hr
  simp only [hd, hm, Option.some.injEq] at hr
  -- the scaled residual has the sign of the residual
  have hneg : r / (p.1.scale * domain) < 0 ↔ r < 0 := by
    rw [div_lt_iff₀ hpos, zero_mul]
  have hposr : 0 < r / (p.1.scale * domain) ↔ 0 < r := by
    rw [lt_div_iff₀ hpos, zero_mul]
  have hres : ((List.zipWith (· - ·) data (e.yfit p.1.param)).map (· / (p.1.scale * domain)))[i]?
      = some (r / (p.1.scale * domain)) := by
    rw [List.getElem?_map, List.getElem?_zipWith, hd, hm]
    simp [hr]
  rw [hpw]
  unfold robustWeights
  dsimp only
  -- the weight before the original weight is put on
  generalize hR : (List.zipWith (· - ·) data (e.yfit p.1.param)).map (· / (p.1.scale * domain)) = R at hres ⊢
  have hone : (Exempt onesided r → (oneSidedWeights (R.map kernel) R onesided)[i]? = some 1) ∧
      (¬ Exempt onesided r → (oneSidedWeights (R.map kernel) R onesided)[i]?
        = some (kernel (r / (p.1.scale * domain)))) := by
    unfold oneSidedWeights Exempt
    by_cases h0 : onesided = 0
    · subst h0
      simp [hres]
    rw [if_neg h0]
    by_cases h1 : onesided = 1
    · subst h1
      rw [if_pos rfl]
      simp only [List.getElem?_zipWith, List.getElem?_map, hres, Option.map_some]
      constructor
      · rintro (h | h)
        · rw [if_pos (hneg.2 h.2)]
        · exact absurd h.1 (by norm_num)
      · intro h
        rw [if_neg]
        intro hh
        exact h (Or.inl ⟨by trivial, hneg.1 hh⟩)
    rw [if_neg h1]
    by_cases h2 : onesided = -1
    · subst h2
      rw [if_pos rfl]
      simp only [List.getElem?_zipWith, List.getElem?_map, hres, Option.map_some]
      constructor
      · rintro (h | h)
        · exact absurd h.1 (by norm_num)
        · rw [if_pos (hposr.2 h.2)]
      · intro h
        rw [if_neg]
        intro hh
        exact h (Or.inr ⟨by trivial, hposr.1 hh⟩)
    · rw [if_neg h2]
      simp [hres, h1, h2]
  cases weights with
  | none =>
    simp only [origWeight, Option.some.injEq] at hw
    subst hw
    simpa using hone
  | some ws =>
    simp only [origWeight] at hw
    simp only [List.getElem?_zipWith, hw]
    constructor
    · intro h; rw [hone.1 h]; simp
    · intro h; rw [hone.2 h]; simp [mul_comm]

/-- C43: with a kernel between 0 and 1 the weights are between zero and the original weights. -/
theorem C43_down (e : Env σ) (s : σ) (data : List ℝ) (weights : Option (List ℝ)) (kernel : ℝ → ℝ)
    (hk : ∀ x, 0 ≤ kernel x ∧ kernel x ≤ 1)
    (domain : ℝ) (hdom : 0 < domain) (onesided : ℤ) (f : Fit) (steps : List Step) (last : Step)
    (h : fit e s data weights kernel domain onesided = some (f, steps, last))
    (p : Fit × Step) (hp : p ∈ pairs f steps) (hscale : 0 ≤ p.1.scale) (i : ℕ) (r w : ℝ)
    (hr : residual e data p.1 i = some r) (hw : origWeight weights i = some w) (hw0 : 0 ≤ w) :
    ∃ v, p.2.weights[i]? = some v ∧ 0 ≤ v ∧ v ≤ w := by
  obtain ⟨a, b⟩ := C43_weights e s data weights kernel domain hdom onesided f steps last h p hp hscale i r w hr hw
  by_cases hx : Exempt onesided r
  · exact ⟨w, a hx, hw0, le_rfl⟩
  · obtain ⟨k0, k1⟩ := hk (r / (p.1.scale * domain))
    exact ⟨_, b hx, mul_nonneg hw0 k0, by nlinarith⟩

/-- C43: with no side chosen, the larger the residual the smaller the weight, when the kernel falls off. -/
theorem C43_order (e : Env σ) (s : σ) (data : List ℝ) (kernel : ℝ → ℝ)
    (hk : ∀ x y, |x| ≤ |y| → kernel y ≤ kernel x)
    (domain : ℝ) (hdom : 0 < domain) (f : Fit) (steps : List Step) (last : Step)
    (h : fit e s data none kernel domain 0 = some (f, steps, last))
    (p : Fit × Step) (hp : p ∈ pairs f steps) (hscale : 0 ≤ p.1.scale) (i j : ℕ) (r q : ℝ)
    (hi : residual e data p.1 i = some r) (hj : residual e data p.1 j = some q) (hrq : |r| ≤ |q|) :
    ∃ v u, p.2.weights[i]? = some v ∧ p.2.weights[j]? = some u ∧ u ≤ v := by
  have hx : ∀ t, ¬ Exempt 0 t := by
    intro t ht; rcases ht with ht | ht
    · exact absurd ht.1 (by norm_num)
    · exact absurd ht.1 (by norm_num)
  refine ⟨_, _, (C43_weights e s data none kernel domain hdom 0 f steps last h p hp hscale i r 1 hi rfl).2 (hx r),
    (C43_weights e s data none kernel domain hdom 0 f steps last h p hp hscale j q 1 hj rfl).2 (hx q), ?_⟩
  rw [one_mul, one_mul]
  apply hk
  rw [abs_div, abs_div]
  exact div_le_div_of_nonneg_right hrq (abs_nonneg _)

/-- C43: with one of the kernels and the default domain a deviant at 3 times the scale gets half its weight, and
what comes further out gets less. -/
theorem C43_half (k : Kernel) (hk : k ∈ [biweight, cosine, cosSquare, gauss, huber, lorentz, parabola, triangle,
    tricube, triweight, uniform, tophat 0, tophat 1, tophat 2, tophat 3, tophat 4, tophat 5, tophat 6])
    (e : Env σ) (s : σ) (data : List ℝ) (weights : Option (List ℝ)) (f : Fit) (steps : List Step) (last : Step)
    (h : fit e s data weights k.result (defaultDomain k.fwhm) 0 = some (f, steps, last))
    (p : Fit × Step) (hp : p ∈ pairs f steps) (hscale : 0 ≤ p.1.scale) (i : ℕ) (r w : ℝ)
    (hr : residual e data p.1 i = some r) (hw : origWeight weights i = some w) (hw0 : 0 ≤ w) :
    ∃ v, p.2.weights[i]? = some v ∧ 0 ≤ v ∧ v ≤ w ∧
      (|r| = 3 * p.1.scale → |v - w / 2| ≤ w * 1e-7) ∧
      (3 * p.1.scale ≤ |r| → v ≤ w * (1 / 2 + 1e-7)) ∧ (|r| ≤ 3 * p.1.scale → w * (1 / 2 - 1e-7) ≤ v) := by
  have hall : k ∈ allKernels := by
    simp only [allKernels, List.mem_cons, List.not_mem_nil, or_false] at hk ⊢
    tauto
  obtain ⟨f0, fh⟩ := C54_fwhm k hall
  have hdom : 0 < defaultDomain k.fwhm := by unfold defaultDomain; positivity
  have hx : ¬ Exempt 0 r := by
    rintro (ht | ht)
    · exact absurd ht.1 (by norm_num)
    · exact absurd ht.1 (by norm_num)
  have hv := (C43_weights e s data weights k.result _ hdom 0 f steps last h p hp hscale i r w hr hw).2 hx
  have hne : p.1.scale ≠ 0 := by
    intro h0
    simp only [fit] at h
    split at h
    · cases h
    split at h
    · cases h
    rename_i s1 f1 _ _ s2 st hl
    rw [Option.map_eq_some_iff] at h
    obtain ⟨l, _, heq⟩ := h
    simp only [Prod.mk.injEq] at heq
    obtain ⟨rfl, rfl, rfl⟩ := heq
    have := ((loop_spec e data weights _ _ 0 _ s1 s2 f1 st hl).2.2.1 p hp).1
    exact this (by rw [h0, zero_mul])
  have hs : 0 < p.1.scale := lt_of_le_of_ne hscale (Ne.symm hne)
  obtain ⟨-, k0, k1, -⟩ := C37_shape k hk (r / (p.1.scale * defaultDomain k.fwhm))
  have habs : |r / (p.1.scale * defaultDomain k.fwhm)| = |r| / (3 * p.1.scale) * (k.fwhm / 2) := by
    rw [abs_div, abs_of_pos (mul_pos hs hdom), defaultDomain]
    field_simp
    norm_num
    ring
  have hh : |k.fwhm / 2| = k.fwhm / 2 := abs_of_pos (by linarith)
  have h3 : 0 < 3 * p.1.scale := by linarith
  rw [abs_le] at fh
  have hout : 3 * p.1.scale ≤ |r| → k.result (r / (p.1.scale * defaultDomain k.fwhm)) ≤ k.result (k.fwhm / 2) := by
    intro hr3
    apply C54_falls k hk
    rw [hh, habs]
    have : 1 ≤ |r| / (3 * p.1.scale) := by rwa [le_div_iff₀ h3, one_mul]
    nlinarith
  have hin : |r| ≤ 3 * p.1.scale → k.result (k.fwhm / 2) ≤ k.result (r / (p.1.scale * defaultDomain k.fwhm)) := by
    intro hr3
    apply C54_falls k hk
    rw [hh, habs]
    have : |r| / (3 * p.1.scale) ≤ 1 := by rwa [div_le_iff₀ h3, one_mul]
    nlinarith
  refine ⟨_, hv, mul_nonneg hw0 k0, by nlinarith, fun hr3 => ?_, fun hr3 => ?_, fun hr3 => ?_⟩
  · have h1 := hout hr3.ge
    have h2 := hin hr3.le
    have : k.result (r / (p.1.scale * defaultDomain k.fwhm)) = k.result (k.fwhm / 2) := le_antisymm h1 h2
    rw [this, show w * k.result (k.fwhm / 2) - w / 2 = w * (k.result (k.fwhm / 2) - 1 / 2) by ring, abs_mul,
      abs_of_nonneg hw0]
    exact mul_le_mul_of_nonneg_left (abs_le.2 fh) hw0
  · exact mul_le_mul_of_nonneg_left (by linarith [hout hr3, fh.2]) hw0
  · exact mul_le_mul_of_nonneg_left (by linarith [hin hr3, fh.1]) hw0

/-- C43: the side is chosen by a word that begins with p or n, in either case; nothing else is accepted. -/
theorem C43_sides : setOneSided none = some 0 ∧
    ∀ (c : Char) (cs : List Char), setOneSided (some (String.ofList (c :: cs))) =
      if c ∈ ['p', 'P'] then some 1 else if c ∈ ['n', 'N'] then some (-1) else none := by
  refine ⟨rfl, fun c cs => ?_⟩
  simp [setOneSided]

/-- C43, where it fails: a robust fit that may not iterate raises an error, although the plain fit went well. -/
theorem C43_counterexample (e : Env σ) (he : e.maxIter = 0) (s : σ) (data : List ℝ) (weights : Option (List ℝ))
    (kernel : ℝ → ℝ) (domain : ℝ) (onesided : ℤ) : fit e s data weights kernel domain onesided = none := by
  unfold fit
  split
  · rfl
  · rw [he]
    rfl

/-! ## The hypotheses are met -/

/-- A mean of two points, with a scale of one, which settles after the second turn. -/
noncomputable def exampleEnv : Env ℕ where
  fit := fun n _ w => match w with
    | none => some (n + 1, ⟨[1], 7, 1⟩)
    | some _ => some (n + 1, ⟨[1 / 2], 3, 1⟩)
  yfit := fun p => p ++ p
  maxIter := 5
  tolerance := 1 / 10000

theorem example_run : fit exampleEnv 0 [0, 5] none lorentz.result (defaultDomain lorentz.fwhm) (-1) =
    some (⟨[1], 7, 1⟩, [⟨robustWeights lorentz.result (defaultDomain lorentz.fwhm) (-1) [0, 5] [1, 1] 1 none,
        ⟨[1 / 2], 3, 1⟩⟩,
      ⟨robustWeights lorentz.result (defaultDomain lorentz.fwhm) (-1) [0, 5] [1 / 2, 1 / 2] 1 none,
        ⟨[1 / 2], 3, 1⟩⟩],
      ⟨robustWeights lorentz.result (defaultDomain lorentz.fwhm) (-1) [0, 5] [1 / 2, 1 / 2] 1 none,
        ⟨[1 / 2], 3, 1⟩⟩) := by
  have hd : defaultDomain lorentz.fwhm ≠ 0 := by norm_num [defaultDomain, lorentz]
  simp only [fit, exampleEnv, loop, one_mul, hd, if_false]
  norm_num

example : ∃ r, fit exampleEnv 0 [0, 5] none lorentz.result (defaultDomain lorentz.fwhm) (-1) = some r ∧
    residual exampleEnv [0, 5] r.1 1 = some 4 ∧ Exempt (-1) 4 ∧ residual exampleEnv [0, 5] r.1 0 = some (-1) ∧
    ¬ Exempt (-1) (-1) := by
  refine ⟨_, example_run, ?_, Or.inr ⟨rfl, by norm_num⟩, ?_, ?_⟩
  · norm_num [residual, exampleEnv]
  · norm_num [residual, exampleEnv]
  · rintro (⟨h, _⟩ | ⟨_, h⟩)
    · norm_num at h
    · norm_num at h

example : setOneSided (some "positive") = some 1 ∧ setOneSided (some "Neg") = some (-1) ∧
    setOneSided (some "x") = none := by decide

end BF.Robust
