import Verif.Evidence
import Verif.Props.Fitters
import Verif.Props.GaussInt
import Mathlib.Analysis.SpecialFunctions.Pow.Real
import Mathlib.Analysis.SpecialFunctions.Gamma.Basic
import Mathlib.Analysis.Complex.ExponentialBounds
import Mathlib.MeasureTheory.Integral.Bochner.Basic

/-!
# C71 … : evidence, noise scale and standard deviations of the linear fitter
-/

namespace BF.Evidence

open BF.Fitters Finset MeasureTheory Matrix

variable {X : Type}

/-! ## Specification -/

/-- Parameter `k` is not kept. -/
def isFree (keep : Option (List (ℤ × ℝ))) (k : ℕ) : Bool := decide ((k : ℤ) ∉ (keep.getD []).map Prod.fst)

/-- The parameters that are not kept, in order. -/
def free (np : ℕ) (keep : Option (List (ℤ × ℝ))) : List ℕ := (List.range np).filter (isFree keep)

theorem isFree_none : isFree none = fun _ => true := by
  funext k
  simp [isFree]

/-- The weight of datum `i`: 1 when no weights are given. -/
noncomputable def Inp.weight (inp : Inp X) (i : ℕ) : ℝ := (inp.weights.map fun w => w i).getD 1

/-- The accuracy of datum `i`: 1 when no accuracies are given. -/
noncomputable def Inp.accuracy (inp : Inp X) (i : ℕ) : ℝ :=
  match inp.acc with
  | .none => 1
  | .scalar a => a
  | .array a => a i

/-- The probability density of `y` when it is measured around `f` with error `σ`. -/
noncomputable def normalPdf (y f σ : ℝ) : ℝ :=
  Real.exp (-(y - f) ^ 2 / (2 * σ ^ 2)) / (σ * √(2 * Real.pi))

/-- The likelihood of parameters `p` with noise scale `s`: the product over the data, each as often as its
weight says. -/
noncomputable def likelihood (m : Lin X) (inp : Inp X) (s : ℝ) (p : ℕ → ℝ) : ℝ :=
  ∏ i ∈ range inp.n, normalPdf (inp.y i) (m.result (inp.x i) p) (s * inp.accuracy i) ^ inp.weight i

/-- Sensible data: weights not negative, accuracies positive. -/
def Inp.Good (inp : Inp X) : Prop := ∀ i < inp.n, 0 ≤ inp.weight i ∧ 0 < inp.accuracy i

/-- What the user says about the prior ranges: `r a` is the range of the `a`-th fitted parameter.
With `limits` they are given for the fitted parameters, without it the priors of the model tell them for
all parameters. When there are too few, the last one is used for all others. -/
def GivenRanges (np : ℕ) (free : List ℕ) (priors : Option (List ℝ)) (r : ℕ → ℝ) : Option Limits → Prop
  | some (.scalar lo hi) => lo < hi ∧ ∀ a, r a = hi - lo
  | some (.array l) => l ≠ [] ∧ l.length ≤ free.length ∧ (∀ e ∈ l, e.1 < e.2) ∧
      ∀ a, r a = (l.map fun e => e.2 - e.1).getD (min a (l.length - 1)) 0
  | none => ∃ l, priors = some l ∧ l ≠ [] ∧ l.length ≤ np ∧ (∀ x ∈ l, 0 < x) ∧
      ∀ a, r a = l.getD (min (free.getD a 0) (l.length - 1)) 0

/-! ## Chi squared is a parabola -/

theorem quad (n K : ℕ) (D : ℕ → ℕ → ℝ) (w : ℕ → ℝ) (u : Fin K → ℝ) :
    u ⬝ᵥ (Matrix.of fun a b : Fin K => ∑ i ∈ range n, D i a * (D i b * w i)) *ᵥ u
      = ∑ i ∈ range n, (∑ a : Fin K, u a * D i a) ^ 2 * w i := by
  simp only [dotProduct, mulVec, of_apply]
  have h : ∀ i, (∑ a : Fin K, u a * D i a) ^ 2 * w i
      = ∑ a : Fin K, ∑ b : Fin K, u a * (D i a * (D i b * w i) * u b) := by
    intro i
    rw [pow_two, sum_mul_sum, sum_mul]
    apply sum_congr rfl
    intro a _
    rw [sum_mul]
    apply sum_congr rfl
    intro b _
    ring
  simp only [h]
  rw [sum_comm]
  apply sum_congr rfl
  intro a _
  rw [mul_sum, sum_comm]
  apply sum_congr rfl
  intro b _
  rw [sum_mul, mul_sum]

/-- The normal equations for the fitted parameters `x`, as `Fitter.fit` has them solved. -/
def Normal (m : Lin X) (d : Data X) (s : Fitter) (f : ℕ → Bool) (x : ℕ → ℝ) : Prop :=
  ∀ a < (indexOf m.np f).length, ∑ b ∈ range (indexOf m.np f).length,
      getHessian m d s (indexOf m.np f) a b * x b
    = getVector m d s (indexOf m.np f) (fun i =>
        if i < d.n then (d.y i - m.result (d.x i) (zeroed m.np s.params (indexOf m.np f))) * d.fitWgts i
        else s.normdata (i - d.n) * s.normweight (i - d.n)) a

theorem chi_expand (m : Lin X) (d : Data X) (s : Fitter) (f : ℕ → Bool) (x : ℕ → ℝ) (hn : s.nnorm = 0)
    (hx : Normal m d s f x)
    (q : ℕ → ℝ) (hq : ∀ k < m.np, f k = false → q k = s.params k) :
    let u : Fin (indexOf m.np f).length → ℝ := fun a => q (((List.range m.np).filter f).getD a 0) - x a
    chiSquared m d q = chiSquared m d (insertParameters m.np s.params x (indexOf m.np f))
      + u ⬝ᵥ hessMat m d s (indexOf m.np f) *ᵥ u := by
  intro u
  obtain ⟨h1, h2, -⟩ := fit_normal m d s f x (Or.inl hn) hx q hq
  simp only [hn, add_zero] at h1
  unfold hessMat getHessian
  simp only [hn, add_zero]
  rw [quad d.n _ (getDesign m d s (indexOf m.np f)) (allWgts d s) u]
  have h3 := normal_square d.n (indexOf m.np f).length (getDesign m d s (indexOf m.np f)) (allWgts d s)
    _ (fun a => q (((List.range m.np).filter f).getD a 0) - x a) h1
  have e1 : chiSquared m d q = ∑ i ∈ range d.n, ((if i < d.n then d.y i - m.result (d.x i)
      (insertParameters m.np s.params x (indexOf m.np f)) else s.normdata (i - d.n) - ∑ k ∈ range m.np,
        (insertParameters m.np s.params x (indexOf m.np f)) k * s.normdfdp (i - d.n) k) -
      ∑ a ∈ range (indexOf m.np f).length, (q (((List.range m.np).filter f).getD a 0) - x a)
        * getDesign m d s (indexOf m.np f) i a) ^ 2 * allWgts d s i := by
    apply sum_congr rfl
    intro i hi
    have hi := mem_range.1 hi
    rw [h2 i hi]
    simp only [allWgts, if_pos hi]
  rw [e1, h3]
  congr 1
  · apply sum_congr rfl
    intro i hi
    have hi := mem_range.1 hi
    simp only [allWgts, if_pos hi]
  · apply sum_congr rfl
    intro i _
    congr 2
    rw [Finset.sum_range]

theorem hessian_psd (m : Lin X) (d : Data X) (hd : d.Good) (s : Fitter) (hn : s.nnorm = 0) (fi : List ℤ) :
    (hessMat m d s fi).PosSemidef := by
  apply PosSemidef.of_dotProduct_mulVec_nonneg
  · ext a b
    simp only [hessMat, conjTranspose_apply, of_apply, star_trivial, getHessian]
    exact sum_congr rfl fun i _ => by ring
  · intro u
    simp only [star_trivial]
    unfold hessMat getHessian
    simp only [hn, add_zero]
    rw [quad d.n _ (getDesign m d s fi) (allWgts d s) u]
    apply sum_nonneg
    intro i hi
    apply mul_nonneg (sq_nonneg _)
    rw [allWgts, if_pos (mem_range.1 hi)]
    exact wgts_nonneg d hd i (mem_range.1 hi)

/-! ## The likelihood -/

theorem fitWgts_eq (inp : Inp X) (i : ℕ) :
    inp.data.fitWgts i = inp.weight i / (inp.accuracy i * inp.accuracy i) := by
  unfold Data.fitWgts Inp.data Inp.weight Inp.accuracy
  rcases inp.weights with _ | w <;> rcases inp.acc with _ | a | a <;> simp [Acc.each]

theorem sumwgt_eq (inp : Inp X) : inp.sumwgt = ∑ i ∈ range inp.n, inp.weight i := by
  unfold Inp.sumwgt Inp.weight
  rcases inp.weights with _ | w <;> simp

theorem good_data (inp : Inp X) (h : inp.Good) : inp.data.Good := by
  intro w hw i hi
  have := (h i hi).1
  unfold Inp.weight at this
  have hw : inp.weights = some w := hw
  simpa [hw] using this

theorem log_error (s a : ℝ) (hs : 0 < s) (ha : 0 < a) :
    Real.log (s * a * √(2 * Real.pi)) = Real.log a + 0.5 * Real.log (2 * Real.pi * (s * s)) := by
  have hp := Real.pi_pos
  rw [Real.log_mul (by positivity) (by positivity), Real.log_mul hs.ne' ha.ne',
    Real.log_sqrt (by positivity), Real.log_mul (by positivity : (2 * Real.pi) ≠ 0) (by positivity),
    Real.log_mul hs.ne' hs.ne']
  ring

theorem likelihood_eq (m : Lin X) (inp : Inp X) (hg : inp.Good) (s : ℝ) (hs : 0 < s) (p : ℕ → ℝ) :
    likelihood m inp s p = Real.exp (-0.5 * (inp.sumwgt * Real.log (2 * Real.pi * (s * s))
      + chiSquared m inp.data p / (s * s)) - ∑ i ∈ range inp.n, inp.weight i * Real.log (inp.accuracy i)) := by
  have hp := Real.pi_pos
  have h : ∀ i ∈ range inp.n,
      normalPdf (inp.y i) (m.result (inp.x i) p) (s * inp.accuracy i) ^ inp.weight i
      = Real.exp (-0.5 * (inp.weight i * Real.log (2 * Real.pi * (s * s))
        + (inp.y i - m.result (inp.x i) p) ^ 2 * inp.data.fitWgts i / (s * s))
        - inp.weight i * Real.log (inp.accuracy i)) := by
    intro i hi
    obtain ⟨-, ha⟩ := hg i (mem_range.1 hi)
    have e : normalPdf (inp.y i) (m.result (inp.x i) p) (s * inp.accuracy i)
        = Real.exp (-(inp.y i - m.result (inp.x i) p) ^ 2 / (2 * (s * inp.accuracy i) ^ 2)
          - (Real.log (inp.accuracy i) + 0.5 * Real.log (2 * Real.pi * (s * s)))) := by
      rw [← log_error s _ hs ha, Real.exp_sub, Real.exp_log (by positivity)]
      rfl
    rw [e, ← Real.exp_mul, fitWgts_eq]
    congr 1
    generalize Real.log (inp.accuracy i) = la
    generalize Real.log (2 * Real.pi * (s * s)) = ls
    generalize inp.y i - m.result (inp.x i) p = r
    generalize inp.accuracy i = a at *
    field_simp
    ring
  unfold likelihood
  rw [prod_congr rfl h, ← Real.exp_sum]
  congr 1
  rw [sum_sub_distrib, ← mul_sum, sum_add_distrib, ← sum_mul, ← sum_div, sumwgt_eq]
  rfl

/-- Accuracies and weights that the code combines well: not both weights and an array of accuracies. -/
def Inp.Combined (inp : Inp X) : Prop := inp.weights = none ∨ ∀ a, inp.acc ≠ .array a

theorem slacc_eq (t : State X) (h : t.inp.Combined) :
    slacc t = ∑ i ∈ range t.inp.n, t.inp.weight i * Real.log (t.inp.accuracy i) := by
  unfold slacc Inp.accuracy
  rcases hacc : t.inp.acc with _ | a | a
  · simp
  · simp only []
    rw [← sum_mul, sumwgt_eq]
  · rcases h with h | h
    · simp [Inp.weight, h]
    · exact absurd hacc (h a)

/-! ## The integral of the likelihood -/

theorem integral_like (m : Lin X) (inp : Inp X) (hg : inp.Good) (s0 : ℝ) (hs0 : 0 < s0) (s : Fitter)
    (f : ℕ → Bool) (x : ℕ → ℝ) (hn : s.nnorm = 0)
    (hx : Normal m inp.data s f x)
    (hdet : (hessMat m inp.data s (indexOf m.np f)).det ≠ 0)
    (place : (Fin (indexOf m.np f).length → ℝ) → ℕ → ℝ)
    (hplace : ∀ q (a : Fin (indexOf m.np f).length), place q (((List.range m.np).filter f).getD a 0) = q a)
    (hkept : ∀ q, ∀ k < m.np, f k = false → place q k = s.params k) :
    ∫ q, likelihood m inp s0 (place q)
      = likelihood m inp s0 (insertParameters m.np s.params x (indexOf m.np f))
        * (√(2 * Real.pi * (s0 * s0)) ^ (indexOf m.np f).length
          / √(hessMat m inp.data s (indexOf m.np f)).det) := by
  have hpd : (hessMat m inp.data s (indexOf m.np f)).PosDef :=
    (hessian_psd m inp.data (good_data inp hg) s hn _).posDef_iff_det_ne_zero.2 hdet
  rw [← GaussInt.gauss _ _ hpd (s0 * s0) (by positivity), ← integral_const_mul]
  rw [← integral_add_right_eq_self (fun q => likelihood m inp s0 (place q))
    (fun a : Fin (indexOf m.np f).length => x a)]
  congr 1
  ext q
  rw [likelihood_eq m inp hg s0 hs0, likelihood_eq m inp hg s0 hs0, ← Real.exp_add]
  congr 1
  rw [chi_expand m inp.data s f x hn hx (place _) (hkept _)]
  simp only [hplace]
  have e : (fun a : Fin (indexOf m.np f).length =>
      (q + fun a : Fin (indexOf m.np f).length => x a) a - x a) = q := by
    ext a
    simp
  rw [e]
  have : s0 * s0 ≠ 0 := by positivity
  field_simp
  ring

/-! ## The ranges -/

theorem getD_sum (l : List ℝ) (K : ℕ) (hK : l.length ≤ K) :
    ∑ a ∈ range K, l.getD a 0 = l.sum := by
  induction l generalizing K with
  | nil => simp
  | cons c l ih =>
    rcases K with _ | K
    · simp at hK
    · rw [sum_range_succ', List.sum_cons]
      simp only [List.getD_cons_succ, List.getD_cons_zero]
      rw [ih K (by simpa using hK)]
      ring

theorem last_getD (l : List ℝ) (h : l ≠ []) : l.getLast? = some (l.getD (l.length - 1) 0) := by
  have : 0 < l.length := List.length_pos_iff.2 h
  rw [List.getLast?_eq_getElem?, List.getD_eq_getElem?_getD, List.getElem?_eq_getElem (by omega)]
  rfl

theorem tail_sum (l : List ℝ) (h : l ≠ []) (K : ℕ) (hK : l.length ≤ K) :
    ∑ a ∈ range K, l.getD (min a (l.length - 1)) 0
      = l.sum + (K - l.length : ℕ) * l.getD (l.length - 1) 0 := by
  have h0 : 0 < l.length := List.length_pos_iff.2 h
  obtain ⟨j, rfl⟩ := Nat.exists_eq_add_of_le hK
  rw [sum_range_add, ← getD_sum l l.length le_rfl]
  congr 1
  · apply sum_congr rfl
    intro a ha
    have := mem_range.1 ha
    rw [min_eq_left (by omega)]
  · rw [sum_congr rfl (g := fun _ => l.getD (l.length - 1) 0)]
    · simp
    · intro a _
      rw [min_eq_right (by omega)]

theorem list_sum_range (l : List ℕ) (g : ℕ → ℝ) :
    ∑ a ∈ range l.length, g (l.getD a 0) = (l.map g).sum := by
  induction l with
  | nil => simp
  | cons c l ih =>
    rw [List.length_cons, sum_range_succ', List.map_cons, List.sum_cons]
    simp only [List.getD_cons_succ, List.getD_cons_zero]
    rw [ih]
    ring

theorem filter_sum (l : List ℕ) (pr : List ℝ) (h : pr ≠ []) (np : ℕ) :
    (((l.map fun k : ℕ => (k : ℤ)).filter fun k : ℤ => decide (k < (pr.length : ℤ))).map
        fun k => pr.getD (pyIdx np k) 0).sum
      + (l.length - ((l.map fun k : ℕ => (k : ℤ)).filter
          fun k : ℤ => decide (k < (pr.length : ℤ))).length : ℕ) * pr.getD (pr.length - 1) 0
      = (l.map fun k => pr.getD (min k (pr.length - 1)) 0).sum := by
  have h0 : 0 < pr.length := List.length_pos_iff.2 h
  induction l with
  | nil => simp
  | cons c l ih =>
    have hle : ((l.map fun k : ℕ => (k : ℤ)).filter
        fun k : ℤ => decide (k < (pr.length : ℤ))).length ≤ l.length := by
      have := List.length_filter_le (fun k : ℤ => decide (k < (pr.length : ℤ))) (l.map fun k : ℕ => (k : ℤ))
      simpa using this
    rw [List.map_cons, List.map_cons, List.sum_cons, ← ih]
    by_cases hc : c < pr.length
    · rw [List.filter_cons_of_pos (by simpa using hc), List.map_cons, List.sum_cons, List.length_cons,
        List.length_cons, pyIdx_cast, min_eq_left (by omega), Nat.add_sub_add_right]
      ring
    · rw [List.filter_cons_of_neg (by simpa using hc), List.length_cons, min_eq_right (by omega),
        Nat.succ_sub hle]
      push_cast
      ring

theorem log_getD (l : List ℝ) (i : ℕ) : Real.log (l.getD i 0) = (l.map Real.log).getD i 0 := by
  by_cases h : i < l.length
  · simp [List.getD_eq_getElem?_getD, h]
  · simp [List.getD_eq_getElem?_getD, h]

/-- The index that a fitter has with kept parameters in its constructor. -/
def startIndex (np : ℕ) (keep : Option (List (ℤ × ℝ))) : Option (List ℤ) :=
  keep.map fun _ => (free np keep).map fun k : ℕ => (k : ℤ)

theorem ranges_ok (np : ℕ) (keep : Option (List (ℤ × ℝ))) (t : State X)
    (hi : t.base.fitIndex = startIndex np keep) (hnp : t.base.npfit = (free np keep).length)
    (hK : 0 < (free np keep).length) (limits : Option Limits) (r : ℕ → ℝ)
    (hr : GivenRanges np (free np keep) t.priors r limits) :
    ∃ l, prirange t limits = some l ∧
      sumRange np t limits l = some (∑ a ∈ range (free np keep).length, Real.log (r a)) := by
  have one : ∀ c : ℝ, sumRange np t limits [c]
      = some ((free np keep).length * Real.log c) := by
    intro c
    unfold sumRange
    simp only [List.map_cons, List.map_nil, List.length_cons, List.length_nil, zero_add, if_true,
      List.getD_cons_zero, List.getLast?_singleton, hnp, Option.map_some]
    by_cases h1 : 1 < (free np keep).length
    · rw [if_pos h1, Nat.cast_sub h1.le]
      push_cast
      congr 1
      ring
    · have : (free np keep).length = 1 := by omega
      rw [if_neg h1, this]
      simp
  have full : ∀ l : List ℝ, l ≠ [] → l.length ≤ (free np keep).length → l.length ≠ 1 →
      (limits ≠ none ∨ t.base.fitIndex = none) → sumRange np t limits l
      = some (∑ a ∈ range (free np keep).length, (l.map Real.log).getD (min a (l.length - 1)) 0) := by
    intro l h0 h1 h2 h3
    have hm : l.map Real.log ≠ [] := by simpa using h0
    have e := tail_sum (l.map Real.log) hm (free np keep).length (by simpa using h1)
    rw [List.length_map] at e
    rw [e]
    have hs : sumRange np t limits l = if l.length < t.base.npfit then
        (l.map Real.log).getLast?.map fun last => (l.map Real.log).sum
          + (t.base.npfit - l.length : ℕ) * last else some (l.map Real.log).sum := by
      unfold sumRange
      simp only [List.length_map, if_neg h2]
      rcases limits with _ | lim
      · rcases hf : t.base.fitIndex with _ | fi
        · rfl
        · simp [hf] at h3
      · rfl
    rw [hs, hnp, last_getD _ hm, List.length_map]
    by_cases h4 : l.length < (free np keep).length
    · rw [if_pos h4]
      rfl
    · have : (free np keep).length - l.length = 0 := by omega
      rw [if_neg h4, this]
      simp
  rcases limits with _ | lim
  · obtain ⟨l, hl, h0, hlen, -, hra⟩ := hr
    refine ⟨l, hl, ?_⟩
    simp only [hra, log_getD]
    by_cases h1 : l.length = 1
    · obtain ⟨c, rfl⟩ := List.length_eq_one_iff.1 h1
      rw [one c]
      simp
    · rcases keep with _ | keep
      · have hfree : free np none = List.range np := by simp [free, isFree_none]
        rw [full l h0 (by rw [hfree]; simpa using hlen) h1 (Or.inr hi)]
        congr 1
        apply sum_congr rfl
        intro a ha
        have ha := mem_range.1 ha
        rw [hfree] at ha ⊢
        have ha' : a < np := by simpa using ha
        congr 2
        simp [List.getD_eq_getElem?_getD, ha']
      · have hm : l.map Real.log ≠ [] := by simpa using h0
        have e := filter_sum (free np (some keep)) (l.map Real.log) hm np
        rw [← list_sum_range (free np (some keep))
          fun k => (l.map Real.log).getD (min k ((l.map Real.log).length - 1)) 0, List.length_map] at e
        rw [← e]
        unfold sumRange
        simp only [List.length_map, if_neg h1, hi, startIndex, Option.map_some, hnp, last_getD _ hm]
        split_ifs with h4
        · rfl
        · have hle : (((free np (some keep)).map fun k : ℕ => (k : ℤ)).filter
              fun k : ℤ => decide (k < (l.length : ℤ))).length ≤ (free np (some keep)).length := by
            have := List.length_filter_le (fun k : ℤ => decide (k < (l.length : ℤ)))
              ((free np (some keep)).map fun k : ℕ => (k : ℤ))
            simpa using this
          rw [Nat.sub_eq_zero_of_le (not_lt.1 h4)]
          simp
  · rcases lim with ⟨lo, hi'⟩ | lh
    · obtain ⟨-, hra⟩ := hr
      refine ⟨_, rfl, ?_⟩
      rw [one]
      simp [hra]
    · obtain ⟨h0, hlen, -, hra⟩ := hr
      refine ⟨_, rfl, ?_⟩
      simp only [hra, log_getD]
      by_cases h1 : lh.length = 1
      · obtain ⟨c, rfl⟩ := List.length_eq_one_iff.1 h1
        rw [List.map_cons, List.map_nil, one]
        simp
      · rw [full _ (by simpa using h0) (by simpa using hlen) (by simpa using h1) (Or.inl (by simp))]
        simp

theorem ranges_pos (np : ℕ) (fr : List ℕ) (priors : Option (List ℝ)) (r : ℕ → ℝ) (limits : Option Limits)
    (hr : GivenRanges np fr priors r limits) (a : ℕ) : 0 < r a := by
  have get : ∀ (l : List ℝ) (i : ℕ), l ≠ [] → (∀ x ∈ l, 0 < x) → 0 < l.getD (min i (l.length - 1)) 0 := by
    intro l i h0 hp
    have : 0 < l.length := List.length_pos_iff.2 h0
    have hlt : min i (l.length - 1) < l.length := by omega
    rw [List.getD_eq_getElem?_getD, List.getElem?_eq_getElem hlt]
    exact hp _ (List.getElem_mem hlt)
  rcases limits with _ | (⟨lo, hi⟩ | lh)
  · obtain ⟨l, -, h0, -, hp, hra⟩ := hr
    rw [hra]
    exact get l _ h0 hp
  · obtain ⟨h, hra⟩ := hr
    rw [hra]
    linarith
  · obtain ⟨h0, -, hp, hra⟩ := hr
    rw [hra]
    have := get (lh.map fun e => e.2 - e.1) a (by simpa using h0) (by
      intro x hx
      obtain ⟨e, he, rfl⟩ := List.mem_map.1 hx
      have := hp e he
      linarith)
    simpa using this

/-! ## The state after a fit -/

theorem prolog_start (np : ℕ) (params : ℕ → ℝ) (keep : Option (List (ℤ × ℝ)))
    (hk : ∀ k, keep = some k → ProperKeep np k) :
    fitprolog np (initFitter np params keep) none
      = (indexOf np (isFree keep),
        { initFitter np params keep with npfit := (free np keep).length }) ∧
    (initFitter np params keep).fitIndex = startIndex np keep ∧
    (initFitter np params keep).nnorm = 0 ∧ Agrees (keep.getD []) (initFitter np params keep).params := by
  rcases keep with _ | keep
  · refine ⟨?_, rfl, rfl, by simp [Agrees]⟩
    simp [fitprolog, initFitter, keepFixed, indexOf, free, isFree_none]
  · have h := hk keep rfl
    have hk' : ∀ k ∈ keep.map Prod.fst, 0 ≤ k ∧ k < np := by
      intro k hk
      obtain ⟨kv, hkv, rfl⟩ := List.mem_map.1 hk
      exact h.2 kv hkv
    have e : (initFitter np params (some keep)).fitIndex = startIndex np (some keep) := by
      simp only [initFitter, keepFixed, setxor_index np _ hk']
      rfl
    refine ⟨?_, e, rfl, store_kept np keep h _⟩
    unfold fitprolog
    rw [e]
    simp only [startIndex, Option.map_some, List.length_map]
    simp only [startIndex, Option.map_some] at e
    rw [e]
    rfl

/-- What a fit leaves. -/
theorem fit_state (solve : ℕ → (ℕ → ℕ → ℝ) → (ℕ → ℝ) → Option (ℕ → ℝ)) (hsolve : SolveSpec solve)
    (m : Lin X) (params : ℕ → ℝ) (keep : Option (List (ℤ × ℝ)))
    (hk : ∀ k, keep = some k → ProperKeep m.np k) (fs : Option ℝ) (priors : Option (List ℝ)) (inp : Inp X)
    (t : State X) (h : fitState solve m (start m.np params keep fs priors) inp none = some t) :
    ∃ (s : Fitter) (x : ℕ → ℝ), s.nnorm = 0 ∧ Agrees (keep.getD []) s.params ∧
      Normal m inp.data s (isFree keep) x ∧
      t = { base := { s with params := insertParameters m.np s.params x (indexOf m.np (isFree keep)) }
            keep := keep.isSome
            fixedScale := fs
            minimumScale := none
            priors := priors
            inp := inp
            chisq := chiSquared m inp.data (insertParameters m.np s.params x (indexOf m.np (isFree keep)))
            hessian := hessianOf m inp.data s (indexOf m.np (isFree keep)) } ∧
      s.fitIndex = startIndex m.np keep ∧ s.npfit = (free m.np keep).length ∧
      s = { initFitter m.np params keep with npfit := (free m.np keep).length } := by
  obtain ⟨h1, h2, h3, h4⟩ := prolog_start m.np params keep hk
  simp only [fitState, start, Option.map_eq_some_iff] at h
  obtain ⟨s', hs', rfl⟩ := h
  unfold fit at hs'
  rw [h1] at hs'
  simp only [Option.map_eq_some_iff] at hs'
  obtain ⟨x, hx, rfl⟩ := hs'
  refine ⟨{ initFitter m.np params keep with npfit := (free m.np keep).length }, x, h3, h4,
    hsolve _ _ _ _ hx, ?_, h2, rfl, rfl⟩
  rw [h1]
  rfl

/-- The fitted part of the parameter vector: `place q` has the values `q` at the free parameters and the
kept values at the others. -/
structure Place (np : ℕ) (keep : Option (List (ℤ × ℝ))) (K : ℕ) (place : (Fin K → ℝ) → ℕ → ℝ) : Prop where
  size : (free np keep).length = K
  put : ∀ q (a : Fin K), place q ((free np keep).getD a 0) = q a
  kept : ∀ q, Agrees (keep.getD []) (place q)

/-- All that is needed about the state after a fit. -/
theorem fit_facts (solve : ℕ → (ℕ → ℕ → ℝ) → (ℕ → ℝ) → Option (ℕ → ℝ)) (hsolve : SolveSpec solve)
    (m : Lin X) (params : ℕ → ℝ) (keep : Option (List (ℤ × ℝ)))
    (hk : ∀ k, keep = some k → ProperKeep m.np k) (fs : Option ℝ)
    (priors : Option (List ℝ)) (inp : Inp X) (hg : inp.Good)
    (t : State X) (h : fitState solve m (start m.np params keep fs priors) inp none = some t)
    (hdet : t.hessian.M.det ≠ 0) (K : ℕ) (place : (Fin K → ℝ) → ℕ → ℝ) (hp : Place m.np keep K place) :
    0 < t.hessian.M.det ∧ t.base.fitIndex = startIndex m.np keep ∧ t.base.npfit = K ∧
    t.fixedScale = fs ∧ t.priors = priors ∧ t.inp = inp ∧ t.minimumScale = none ∧
    t.chisq = chiSquared m inp.data t.base.params ∧
    (K = 0 → t.hessian.M.det = 1) ∧
    ∀ s0, 0 < s0 → ∫ q, likelihood m inp s0 (place q)
      = likelihood m inp s0 t.base.params * (√(2 * Real.pi * (s0 * s0)) ^ K / √t.hessian.M.det) := by
  obtain ⟨hK, hplace, hkept⟩ := hp
  obtain ⟨s, x, hn, hag, hx, ht, hsi, hsn, -⟩ := fit_state solve hsolve m params keep hk fs priors inp t h
  set f : ℕ → Bool := isFree keep with hf
  have hlen : (indexOf m.np f).length = K := by rw [index_length]; exact hK
  subst hlen
  have hprop : ∀ k < m.np, f k = false → ∀ q, place q k = s.params k := by
    intro k _ hfk q
    rcases keep with _ | keep
    · simp [hf, isFree] at hfk
    · exact agree_of m.np keep (hk keep rfl) _ _ hag (hkept q) k hfk
  subst ht
  have hpsd := hessian_psd m inp.data (good_data inp hg) s hn (indexOf m.np f)
  refine ⟨(hpsd.posDef_iff_det_ne_zero.2 hdet).det_pos, hsi, hsn.trans hK, rfl, rfl, rfl, rfl, rfl, ?_, ?_⟩
  · intro hK0
    haveI : IsEmpty (Fin (indexOf m.np f).length) := by rw [hK0]; exact Fin.isEmpty
    show (hessMat m inp.data s (indexOf m.np f)).det = 1
    exact det_isEmpty
  · intro s0 hs0
    exact integral_like m inp hg s0 hs0 s f x hn hx hdet place hplace (fun q k hk hfk => hprop k hk hfk q)

/-- The value of the evidence, given the treatment of the noise. -/
theorem logZ_value (np : ℕ) (keep : Option (List (ℤ × ℝ))) (t : State X)
    (K : ℕ) (hs : (free np keep).length = K)
    (tI : t.base.fitIndex = startIndex np keep) (tN : t.base.npfit = K)
    (hdpos : 0 < t.hessian.M.det) (hdof : (K : ℝ) < t.inp.sumwgt) (hK : 0 < K)
    (limits : Option Limits) (r : ℕ → ℝ) (hr : GivenRanges np (free np keep) t.priors r limits)
    (noise : Option (ℝ × ℝ)) (s2 oc sp : ℝ) (hh : noisePart t noise = some (s2, oc, sp)) :
    getLogZ np t limits noise = some (getLogLikelihood t s2
      + (oc + (-(sp + ∑ a ∈ range K, Real.log (r a))
        + 0.5 * (K * Real.log (2 * Real.pi * s2) - Real.log t.hessian.M.det)))) := by
  subst hs
  have hdof' : ¬ (t.inp.sumwgt - ((free np keep).length : ℝ) ≤ 0) := by linarith
  obtain ⟨l, hl, hsr⟩ := ranges_ok np keep t tI tN hK limits r hr
  unfold getLogZ
  simp only [State.dof, tN, if_neg hdof', hh, Option.bind_some, if_neg hK.ne', hl, hsr,
    if_neg (not_le.2 hdpos)]

theorem exp_occam (K : ℕ) (v det : ℝ) (hv : 0 < v) (hd : 0 < det) :
    Real.exp (0.5 * (K * Real.log v - Real.log det)) = √v ^ K / √det := by
  have e3 : (0.5 : ℝ) * (K * Real.log v - Real.log det) = K * Real.log (√v) - Real.log (√det) := by
    rw [Real.log_sqrt hv.le, Real.log_sqrt hd.le]
    ring
  rw [e3, Real.exp_sub, Real.exp_nat_mul, Real.exp_log (by positivity), Real.exp_log (by positivity)]

theorem exp_ranges (np K : ℕ) (fr : List ℕ) (priors : Option (List ℝ)) (r : ℕ → ℝ) (limits : Option Limits)
    (hr : GivenRanges np fr priors r limits) :
    Real.exp (∑ a ∈ range K, Real.log (r a)) = ∏ a ∈ range K, r a := by
  rw [Real.exp_sum]
  exact prod_congr rfl fun a _ => Real.exp_log (ranges_pos _ _ _ _ _ hr a)

/-! ## C71 -/

/-- C71, with a fixed noise scale (1 when none is given). After a fit of a linear model, with kept parameters
given to the constructor or without, the evidence is the logarithm of the integral of the likelihood over
all values of the fitted parameters, the kept ones at their values, divided by the prior ranges of the
fitted parameters: for any number of parameters and data, with weights or accuracies or neither, or weights
and one accuracy for all. (Hence it is exact when the likelihood outside the limits is negligible.) -/
theorem C71_exact_partial (solve : ℕ → (ℕ → ℕ → ℝ) → (ℕ → ℝ) → Option (ℕ → ℝ)) (hsolve : SolveSpec solve)
    (m : Lin X) (params : ℕ → ℝ) (keep : Option (List (ℤ × ℝ)))
    (hk : ∀ k, keep = some k → ProperKeep m.np k) (fs : Option ℝ) (hfs : 0 < fs.getD 1)
    (priors : Option (List ℝ)) (inp : Inp X) (hg : inp.Good) (hc : inp.Combined)
    (t : State X) (h : fitState solve m (start m.np params keep fs priors) inp none = some t)
    (hdet : t.hessian.M.det ≠ 0) (K : ℕ) (place : (Fin K → ℝ) → ℕ → ℝ) (hp : Place m.np keep K place)
    (hdof : (K : ℝ) < inp.sumwgt)
    (limits : Option Limits) (r : ℕ → ℝ) (hr : GivenRanges m.np (free m.np keep) priors r limits) :
    ∃ v, getLogZ m.np t limits none = some v ∧
      Real.exp v = (∫ q, likelihood m inp (fs.getD 1) (place q)) / ∏ a ∈ range K, r a := by
  obtain ⟨hdpos, tI, tN, tF, tP, tX, -, tC, tD, hint⟩ := fit_facts solve hsolve m params keep hk fs priors inp
    hg t h hdet K place hp
  have hK := hp.size
  have hpi := Real.pi_pos
  have hlike : Real.exp (getLogLikelihood t (fs.getD 1 * fs.getD 1))
      = likelihood m inp (fs.getD 1) t.base.params := by
    rw [likelihood_eq m inp hg _ hfs, getLogLikelihood, slacc_eq _ (by rw [tX]; exact hc), tX, tC]
  have hhead : noisePart t none = some (fs.getD 1 * fs.getD 1, 0, 0) := by
    simp [noisePart, tF]
  rw [hint _ hfs]
  by_cases hK0 : K = 0
  · refine ⟨getLogLikelihood t (fs.getD 1 * fs.getD 1), ?_, ?_⟩
    · have hdof' : ¬ (inp.sumwgt - (K : ℝ) ≤ 0) := by linarith
      unfold getLogZ
      simp only [State.dof, tN, tX, if_neg hdof', hhead, Option.bind_some, if_pos hK0, add_zero]
    · rw [hlike, tD hK0, hK0]
      simp
  · refine ⟨_, logZ_value m.np keep t K hK tI tN hdpos (by rw [tX]; exact hdof) (by omega) limits r
      (by rw [tP]; exact hr) none _ _ _ hhead, ?_⟩
    rw [zero_add, zero_add, Real.exp_add, hlike, Real.exp_add, Real.exp_neg, exp_ranges _ _ _ _ _ _ hr,
      exp_occam _ _ _ (by positivity) hdpos]
    field_simp

/-- C71 fails for a sum of models: the ranges are those of the priors of the first model only. For every fit of the
sum of two models with one parameter each and with ranges `a` and `b`, the evidence is that for the range `a` twice: it
is wrong unless the two are equal. -/
theorem C71_counterexample_chain (solve : ℕ → (ℕ → ℕ → ℝ) → (ℕ → ℝ) → Option (ℕ → ℝ)) (hsolve : SolveSpec solve)
    (m : Lin X) (hnp : m.np = 2) (params : ℕ → ℝ) (fs : Option ℝ) (hfs : 0 < fs.getD 1) (a b : ℝ) (ha : 0 < a)
    (hb : 0 < b) (hab : a ≠ b) (inp : Inp X) (hg : inp.Good) (hc : inp.Combined)
    (t : State X) (h : fitState solve m (start m.np params none fs (chainPriors [[a], [b]])) inp none = some t)
    (hdet : t.hessian.M.det ≠ 0) (place : (Fin 2 → ℝ) → ℕ → ℝ) (hp : Place m.np none 2 place)
    (hdof : (2 : ℝ) < inp.sumwgt) :
    ∃ v, getLogZ m.np t none none = some v ∧
      Real.exp v ≠ (∫ q, likelihood m inp (fs.getD 1) (place q)) / (a * b) := by
  obtain ⟨v, hv, he⟩ := C71_exact_partial solve hsolve m params none (by simp) fs hfs (chainPriors [[a], [b]]) inp hg hc
    t h hdet 2 place hp (by exact_mod_cast hdof) none (fun _ => a)
    ⟨[a], rfl, by simp, by simp [hnp], by simpa using ha, by simp⟩
  refine ⟨v, hv, fun hw => hab ?_⟩
  have hpos := Real.exp_pos v
  rw [he] at hw hpos
  simp only [prod_const, card_range] at hw hpos
  have hI : (∫ q, likelihood m inp (fs.getD 1) (place q)) ≠ 0 := by
    intro h0
    rw [h0] at hpos
    simp at hpos
  have ha' := ha.ne'
  have hb' := hb.ne'
  field_simp at hw
  exact hw.symm

/-! ## C72: unknown noise scale -/

theorem scale_integral (ν c : ℝ) (hν : 0 < ν) (hc : 0 < c) :
    ∫ σ in Set.Ioi (0 : ℝ), σ ^ (-ν - 1) * Real.exp (-(c / (σ * σ)))
      = 0.5 * ((1 / c) ^ (ν / 2) * Real.Gamma (ν / 2)) := by
  have h := integral_comp_rpow_Ioi (fun t : ℝ => 0.5 * (t ^ (ν / 2 - 1) * Real.exp (-(c * t))))
    (show (-2 : ℝ) ≠ 0 by norm_num)
  rw [← Real.integral_rpow_mul_exp_neg_mul_Ioi (by positivity) hc, ← integral_const_mul, ← h]
  apply setIntegral_congr_fun measurableSet_Ioi
  intro σ hσ
  have hσ : 0 < σ := hσ
  have e1 : σ ^ (-2 : ℝ) = 1 / (σ * σ) := by
    rw [Real.rpow_neg hσ.le, Real.rpow_two, pow_two, one_div]
  have e2 : (σ ^ (-2 : ℝ)) ^ (ν / 2 - 1) = σ ^ (-ν + 2) := by
    rw [← Real.rpow_mul hσ.le]
    congr 1
    ring
  simp only [smul_eq_mul, e2]
  rw [e1]
  have e3 : σ ^ (-ν - 1) = σ ^ (-2 - 1 : ℝ) * σ ^ (-ν + 2) := by
    rw [← Real.rpow_add hσ]
    congr 1
    ring
  rw [e3]
  have : |(-2 : ℝ)| = 2 := by norm_num
  rw [this, mul_one_div]
  ring

/-- The evidence that is meant with an unknown noise scale between `lo` and `hi`: the likelihood averaged
over the prior ranges of the parameters and over the scale, with the prior `1 / σ`, normalised to 1 between
`lo` and `hi`. As in C71 the integral runs over all values. -/
noncomputable def averageScale (m : Lin X) (inp : Inp X) (K : ℕ) (place : (Fin K → ℝ) → ℕ → ℝ) (r : ℕ → ℝ)
    (lo hi : ℝ) : ℝ :=
  (∫ σ in Set.Ioi (0 : ℝ), (∫ q, likelihood m inp σ (place q)) / σ)
    / (Real.log (hi / lo) * ∏ a ∈ range K, r a)

/-- The factor that is left over for `ν` degrees of freedom, about `ν` itself. -/
noncomputable def factor (ν : ℝ) : ℝ :=
  2 * √(Real.pi * ν) * (ν / 2) ^ (ν / 2) * Real.exp (-(ν / 2)) / Real.Gamma (ν / 2)

/-- What there is of C72: with limits on the noise scale the evidence is the logarithm of the average, but
for a factor that depends on the limits and on the number of degrees of freedom only. That factor should be
1, see the counterexamples. -/
theorem C72_scale_partial (solve : ℕ → (ℕ → ℕ → ℝ) → (ℕ → ℝ) → Option (ℕ → ℝ)) (hsolve : SolveSpec solve)
    (m : Lin X) (params : ℕ → ℝ) (keep : Option (List (ℤ × ℝ)))
    (hk : ∀ k, keep = some k → ProperKeep m.np k) (fs : Option ℝ)
    (priors : Option (List ℝ)) (inp : Inp X) (hg : inp.Good) (hc : inp.Combined)
    (t : State X) (h : fitState solve m (start m.np params keep fs priors) inp none = some t)
    (hdet : t.hessian.M.det ≠ 0) (hchi : 0 < t.chisq)
    (K : ℕ) (hK0 : 0 < K) (place : (Fin K → ℝ) → ℕ → ℝ) (hp : Place m.np keep K place)
    (hdof : (K : ℝ) < inp.sumwgt)
    (limits : Option Limits) (r : ℕ → ℝ) (hr : GivenRanges m.np (free m.np keep) priors r limits)
    (lo hi : ℝ) (hlo : 0 < lo) (hhi : lo < hi) :
    ∃ v, getLogZ m.np t limits (some (lo, hi)) = some v ∧
      Real.exp v = averageScale m inp K place r lo hi
        * (factor (inp.sumwgt - K) * Real.exp (-Real.log (hi / lo))) := by
  obtain ⟨hdpos, tI, tN, tF, tP, tX, tM, tC, tD, hint⟩ := fit_facts solve hsolve m params keep hk fs priors inp
    hg t h hdet K place hp
  have hK := hp.size
  have hpi := Real.pi_pos
  set ν := inp.sumwgt - K with hν
  have hνpos : 0 < ν := by linarith
  have hR : 0 < Real.log (hi / lo) := Real.log_pos (by rw [one_lt_div hlo]; exact hhi)
  have hRe : Real.log hi - Real.log lo = Real.log (hi / lo) :=
    (Real.log_div (by linarith) hlo.ne').symm
  set R := Real.log (hi / lo) with hRdef
  set χ := t.chisq with hχ
  set S := ∑ i ∈ range inp.n, inp.weight i * Real.log (inp.accuracy i) with hS
  set det := t.hessian.M.det with hdetdef
  have tdof : t.dof = ν := by rw [State.dof, tX, tN]
  have hvar : makeVariance t = some (χ / ν) := by
    simp only [makeVariance, getScale, tdof, if_neg (not_le.2 hνpos), Option.map_some, tM]
    rw [Real.mul_self_sqrt (by positivity)]
  have hhead : noisePart t (some (lo, hi)) = some (χ / ν, 0.5 * Real.log (Real.pi * ν) - R, Real.log R) := by
    have hn : ¬ (lo ≤ 0 ∨ hi ≤ 0 ∨ R ≤ 0) := by
      rintro (h | h | h) <;> linarith
    simp only [noisePart, hRe, if_neg hn, hvar, Option.map_some, tdof]
  have hslacc : slacc t = S := by rw [slacc_eq _ (by rw [tX]; exact hc), tX]
  have prod_pos : 0 < ∏ a ∈ range K, r a := prod_pos fun a _ => ranges_pos _ _ _ _ _ hr a
  -- the likelihood times the Gaussian factor, for any variance
  have core : ∀ v, 0 < v → Real.exp (-0.5 * (inp.sumwgt * Real.log (2 * Real.pi * v) + χ / v) - S)
      * (√(2 * Real.pi * v) ^ K / √det)
      = Real.exp (-S) / √det * (2 * Real.pi * v) ^ (-(ν / 2)) * Real.exp (-(χ / 2 / v)) := by
    intro v hv
    have h2 : 0 < 2 * Real.pi * v := by positivity
    have e1 : √(2 * Real.pi * v) ^ K = Real.exp (0.5 * (K * Real.log (2 * Real.pi * v))) := by
      have := exp_occam K (2 * Real.pi * v) 1 h2 one_pos
      simpa using this.symm
    rw [e1, Real.rpow_def_of_pos h2]
    have e2 : ∀ a b c d e : ℝ, a + b = c + d + e → Real.exp a * (Real.exp b / √det)
        = Real.exp c / √det * Real.exp d * Real.exp e := by
      intro a b c d e hab
      rw [← mul_div_assoc, ← Real.exp_add, hab, Real.exp_add, Real.exp_add]
      ring
    apply e2
    rw [hν]
    field_simp
    ring
  -- the exact integral
  have hexact : ∫ σ in Set.Ioi (0 : ℝ), (∫ q, likelihood m inp σ (place q)) / σ
      = Real.exp (-S) / √det * (2 * Real.pi) ^ (-(ν / 2))
        * (0.5 * ((1 / (χ / 2)) ^ (ν / 2) * Real.Gamma (ν / 2))) := by
    rw [← scale_integral ν (χ / 2) hνpos (by positivity), ← integral_const_mul]
    apply setIntegral_congr_fun measurableSet_Ioi
    intro σ hσ
    have hσ : 0 < σ := hσ
    simp only
    rw [hint σ hσ, likelihood_eq m inp hg σ hσ, ← tC, core (σ * σ) (by positivity)]
    have e : (2 * Real.pi * (σ * σ)) ^ (-(ν / 2)) = (2 * Real.pi) ^ (-(ν / 2)) * σ ^ (-ν) := by
      rw [Real.mul_rpow (by positivity) (by positivity)]
      congr 1
      rw [Real.mul_rpow hσ.le hσ.le, ← Real.rpow_add hσ]
      congr 1
      ring
    have e' : σ ^ (-ν - 1) = σ ^ (-ν) / σ := by
      rw [Real.rpow_sub hσ, Real.rpow_one]
    rw [e, e']
    ring
  refine ⟨_, logZ_value m.np keep t K hK tI tN hdpos (by rw [tX]; exact hdof) hK0 limits r
      (by rw [tP]; exact hr) _ _ _ _ hhead, ?_⟩
  have e1 : Real.exp (0.5 * Real.log (Real.pi * ν)) = √(Real.pi * ν) := by
    have := exp_occam 1 (Real.pi * ν) 1 (by positivity) one_pos
    simpa using this
  have hLL : Real.exp (getLogLikelihood t (χ / ν))
      = Real.exp (-0.5 * (inp.sumwgt * Real.log (2 * Real.pi * (χ / ν)) + χ / (χ / ν)) - S) := by
    rw [getLogLikelihood, hslacc, tX]
  have hc2 := core (χ / ν) (by positivity)
  have hsplit : Real.exp (getLogLikelihood t (χ / ν) + (0.5 * Real.log (Real.pi * ν) - R
      + (-(Real.log R + ∑ a ∈ range K, Real.log (r a))
        + 0.5 * (K * Real.log (2 * Real.pi * (χ / ν)) - Real.log det))))
      = (Real.exp (-0.5 * (inp.sumwgt * Real.log (2 * Real.pi * (χ / ν)) + χ / (χ / ν)) - S)
          * (√(2 * Real.pi * (χ / ν)) ^ K / √det))
        * (√(Real.pi * ν) * Real.exp (-R) / (R * ∏ a ∈ range K, r a)) := by
    rw [Real.exp_add, hLL, Real.exp_add, Real.exp_add, exp_occam _ _ _ (by positivity) hdpos,
      Real.exp_sub (0.5 * Real.log (Real.pi * ν)) R, e1, Real.exp_neg, Real.exp_add, Real.exp_log hR, exp_ranges _ _ _ _ _ _ hr, Real.exp_neg R]
    field_simp
  rw [hsplit, hc2, averageScale, hexact]
  have hΓ : 0 < Real.Gamma (ν / 2) := Real.Gamma_pos_of_pos (by positivity)
  have e3 : (2 * Real.pi * (χ / ν)) ^ (-(ν / 2))
      = (2 * Real.pi) ^ (-(ν / 2)) * ((1 / (χ / 2)) ^ (ν / 2) * (ν / 2) ^ (ν / 2)) := by
    rw [Real.mul_rpow (by positivity) (by positivity), Real.rpow_neg (by positivity : 0 ≤ χ / ν),
      ← Real.inv_rpow (by positivity), ← Real.mul_rpow (by positivity) (by positivity)]
    congr 2
    field_simp
  have e4 : χ / 2 / (χ / ν) = ν / 2 := by
    field_simp
  rw [e3, e4, factor, ← hRdef]
  generalize (1 / (χ / 2)) ^ (ν / 2) = A
  generalize (ν / 2) ^ (ν / 2) = B
  generalize (2 * Real.pi) ^ (-(ν / 2)) = C
  generalize Real.exp (-(ν / 2)) = D
  generalize √(Real.pi * ν) = E
  generalize Real.exp (-S) / √det = F
  field_simp
  norm_num
  ring

theorem factor_two : factor 2 = 2 * √(2 * Real.pi) * Real.exp (-1) := by
  unfold factor
  norm_num [Real.Gamma_one, mul_comm]

theorem factor_four : factor 4 = 16 * √Real.pi * Real.exp (-2) := by
  unfold factor
  have h : √(Real.pi * 4) = √Real.pi * 2 := by
    rw [Real.sqrt_mul Real.pi_pos.le]
    congr 1
    rw [show (4 : ℝ) = 2 ^ 2 by norm_num]
    exact Real.sqrt_sq (by norm_num)
  rw [h]
  have hg : Real.Gamma 2 = 1 := by
    have := Real.Gamma_nat_eq_factorial 1
    rw [show (2 : ℝ) = ((1 : ℕ) : ℝ) + 1 by norm_num, this]
    simp
  norm_num [hg]
  ring

/-- C72 fails: with limits on the noise scale the evidence is not the logarithm of the average, as it depends
on the limits in another way: the logarithmic range is subtracted once as it is and once as logarithm
(`BaseFitter.py` 912, 921). For the same fit and the same priors, any two ranges of the scale of different
ratio give evidences of which at least one is wrong: the average is inversely proportional to the range, so
that `exp v * range` should be the same. -/
theorem C72_counterexample_limits (solve : ℕ → (ℕ → ℕ → ℝ) → (ℕ → ℝ) → Option (ℕ → ℝ))
    (hsolve : SolveSpec solve) (m : Lin X) (params : ℕ → ℝ) (keep : Option (List (ℤ × ℝ)))
    (hk : ∀ k, keep = some k → ProperKeep m.np k) (fs : Option ℝ)
    (priors : Option (List ℝ)) (inp : Inp X) (hg : inp.Good) (hc : inp.Combined)
    (t : State X) (h : fitState solve m (start m.np params keep fs priors) inp none = some t)
    (hdet : t.hessian.M.det ≠ 0) (hchi : 0 < t.chisq)
    (K : ℕ) (hK0 : 0 < K) (place : (Fin K → ℝ) → ℕ → ℝ) (hp : Place m.np keep K place)
    (hdof : (K : ℝ) < inp.sumwgt)
    (limits : Option Limits) (r : ℕ → ℝ) (hr : GivenRanges m.np (free m.np keep) priors r limits)
    (lo hi lo' hi' : ℝ) (hlo : 0 < lo) (hhi : lo < hi) (hlo' : 0 < lo') (hhi' : lo' < hi')
    (hne : hi / lo ≠ hi' / lo') (v v' : ℝ) (hv : getLogZ m.np t limits (some (lo, hi)) = some v)
    (hv' : getLogZ m.np t limits (some (lo', hi')) = some v') :
    averageScale m inp K place r lo hi * Real.log (hi / lo)
      = averageScale m inp K place r lo' hi' * Real.log (hi' / lo') ∧
    Real.exp v * Real.log (hi / lo) ≠ Real.exp v' * Real.log (hi' / lo') := by
  obtain ⟨w, hw, e⟩ := C72_scale_partial solve hsolve m params keep hk fs priors inp hg hc t h hdet hchi K hK0
    place hp hdof limits r hr lo hi hlo hhi
  obtain ⟨w', hw', e'⟩ := C72_scale_partial solve hsolve m params keep hk fs priors inp hg hc t h hdet hchi K
    hK0 place hp hdof limits r hr lo' hi' hlo' hhi'
  obtain rfl : w = v := Option.some.inj (hw.symm.trans hv)
  obtain rfl : w' = v' := Option.some.inj (hw'.symm.trans hv')
  have h1 : 1 < hi / lo := by rw [one_lt_div hlo]; exact hhi
  have h1' : 1 < hi' / lo' := by rw [one_lt_div hlo']; exact hhi'
  have hR : 0 < Real.log (hi / lo) := Real.log_pos h1
  have hR' : 0 < Real.log (hi' / lo') := Real.log_pos h1'
  have hP : 0 < ∏ a ∈ range K, r a := Finset.prod_pos fun a _ => ranges_pos _ _ _ _ _ hr a
  have hsame : averageScale m inp K place r lo hi * Real.log (hi / lo)
      = averageScale m inp K place r lo' hi' * Real.log (hi' / lo') := by
    unfold averageScale
    field_simp
  refine ⟨hsame, fun heq => ?_⟩
  have hA : 0 < averageScale m inp K place r lo hi * Real.log (hi / lo) * factor (inp.sumwgt - K) := by
    have := Real.exp_pos w
    rw [e] at this
    have h3 : 0 < averageScale m inp K place r lo hi * factor (inp.sumwgt - K) := by
      have h4 := Real.exp_pos (-Real.log (hi / lo))
      nlinarith [this, h4, mul_pos_iff.1 (show 0 < averageScale m inp K place r lo hi
        * factor (inp.sumwgt - K) * Real.exp (-Real.log (hi / lo)) by nlinarith)]
    nlinarith
  rw [e, e'] at heq
  have e1 : averageScale m inp K place r lo hi * (factor (inp.sumwgt - K) * Real.exp (-Real.log (hi / lo)))
      * Real.log (hi / lo) = averageScale m inp K place r lo hi * Real.log (hi / lo)
        * factor (inp.sumwgt - K) * Real.exp (-Real.log (hi / lo)) := by ring
  have e2 : averageScale m inp K place r lo' hi'
      * (factor (inp.sumwgt - K) * Real.exp (-Real.log (hi' / lo'))) * Real.log (hi' / lo')
      = averageScale m inp K place r lo' hi' * Real.log (hi' / lo')
        * factor (inp.sumwgt - K) * Real.exp (-Real.log (hi' / lo')) := by ring
  rw [e1, e2, ← hsame] at heq
  have h5 := mul_left_cancel₀ hA.ne' heq
  have h6 := Real.exp_injective h5
  have h7 : Real.log (hi / lo) = Real.log (hi' / lo') := by linarith
  exact hne (Real.log_injOn_pos (by simpa using (by linarith : 0 < hi / lo))
    (by simpa using (by linarith : 0 < hi' / lo')) h7)

/-- C72 fails for the comparison of models too: the factor by which the evidence is off depends on the number
of degrees of freedom. With 4 degrees of freedom against 2, the ratio of the two evidences is more than twice
too large. (`BaseFitter.py` 912 has the number of degrees of freedom in the numerator, where the Gaussian
approximation has it in the denominator.) -/
theorem C72_counterexample_models : factor 4 > 2 * factor 2 := by
  rw [factor_two, factor_four]
  have he := Real.exp_one_lt_d9
  have h2 : Real.exp (-1) = Real.exp (-2) * Real.exp 1 := by rw [← Real.exp_add]; norm_num
  have hs : √(2 * Real.pi) = √2 * √Real.pi := Real.sqrt_mul (by norm_num) _
  have hs2 : √2 < 1.4143 := by
    rw [Real.sqrt_lt' (by norm_num)]
    norm_num
  rw [h2, hs]
  have hp : 0 < √Real.pi := Real.sqrt_pos.2 Real.pi_pos
  have h3 : 0 < Real.exp (-2) := Real.exp_pos _
  have h4 : 0 < Real.exp 1 := Real.exp_pos _
  have h5 : √2 * Real.exp 1 < 4 := by
    have : 0 ≤ √2 := Real.sqrt_nonneg _
    nlinarith
  have h6 : 0 < √Real.pi * Real.exp (-2) := by positivity
  nlinarith [mul_pos h6 (sub_pos.2 h5)]

/-! ## C73: covariance and standard deviations -/

theorem index_start (np : ℕ) (keep : Option (List (ℤ × ℝ))) :
    (startIndex np keep).getD ((List.range np).map fun k : ℕ => (k : ℤ))
      = indexOf np (isFree keep) := by
  rcases keep with _ | keep
  · simp [startIndex, indexOf, isFree_none]
  · rfl

theorem inverse_index (m : Lin X) (t : State X) (index : Option (List ℤ)) (fi : List ℤ)
    (h : index.getD ((List.range m.np).map fun k : ℕ => (k : ℤ)) = fi) :
    getInverseHessian m t index = ({ t with hessian := hessianOf m t.inp.data t.base fi },
      if (hessMat m t.inp.data t.base fi).det = 0 then none
      else some ⟨fi.length, (hessMat m t.inp.data t.base fi)⁻¹⟩) := by
  subst h
  rfl

/-- The covariance matrix after a fit. -/
theorem covariance_value (solve : ℕ → (ℕ → ℕ → ℝ) → (ℕ → ℝ) → Option (ℕ → ℝ)) (hsolve : SolveSpec solve)
    (m : Lin X) (params : ℕ → ℝ) (keep : Option (List (ℤ × ℝ)))
    (hk : ∀ k, keep = some k → ProperKeep m.np k) (fs : Option ℝ)
    (priors : Option (List ℝ)) (inp : Inp X)
    (t : State X) (h : fitState solve m (start m.np params keep fs priors) inp none = some t)
    (hdet : t.hessian.M.det ≠ 0) (hdof : ((free m.np keep).length : ℝ) < inp.sumwgt) (hchi : 0 ≤ t.chisq) :
    (getCovarianceMatrix m t).1 = t ∧
    (getCovarianceMatrix m t).2 = some ⟨t.hessian.K,
      (t.chisq / (inp.sumwgt - (free m.np keep).length)) • t.hessian.M⁻¹⟩ := by
  obtain ⟨s, x, hn, hag, hx, rfl, hsi, hsn, -⟩ := fit_state solve hsolve m params keep hk fs priors inp t h
  set f : ℕ → Bool := isFree keep with hf
  have hi : s.fitIndex.getD ((List.range m.np).map fun k : ℕ => (k : ℤ)) = indexOf m.np f := by
    rw [hsi, index_start]
  have hdof' : ¬ inp.sumwgt - ((free m.np keep).length : ℝ) ≤ 0 := by linarith
  unfold getCovarianceMatrix
  rw [inverse_index m _ _ _ hi]
  refine ⟨rfl, ?_⟩
  have hd : ¬ (hessMat m inp.data { s with
      params := insertParameters m.np s.params x (indexOf m.np f) } (indexOf m.np f)).det = 0 := hdet
  dsimp only
  rw [if_neg hd]
  simp only [Option.bind_some, makeVariance, getScale, State.dof, hsn, if_neg hdof', Option.map_some]
  rw [Real.mul_self_sqrt (div_nonneg hchi (by linarith))]
  rfl

/-- The error of the fit, as it follows from the noise. -/
theorem error_of_noise (m : Lin X) (d : Data X) (s : Fitter) (f : ℕ → Bool) (x p e : ℕ → ℝ)
    (hn : s.nnorm = 0) (hy : ∀ i < d.n, d.y i = m.result (d.x i) p + e i)
    (hp : ∀ k < m.np, f k = false → p k = s.params k)
    (hx : Normal m d s f x) :
    hessMat m d s (indexOf m.np f) *ᵥ
        (fun a : Fin (indexOf m.np f).length => x a - p (((List.range m.np).filter f).getD a 0))
      = fun a : Fin (indexOf m.np f).length =>
        ∑ i ∈ range d.n, getDesign m d s (indexOf m.np f) i a * (d.fitWgts i * e i) := by
  ext a
  have hD : ∀ i b, i < d.n → getDesign m d s (indexOf m.np f) i b
      = m.part (d.x i) (((List.range m.np).filter f).getD b 0) := by
    intro i b hi
    simp only [getDesign, if_pos hi, index_at]
  have h := hx a a.2
  simp only [getVector, hn, add_zero] at h
  have e1 : ∀ i ∈ range d.n, getDesign m d s (indexOf m.np f) i a * (if i < d.n then
      (d.y i - m.result (d.x i) (zeroed m.np s.params (indexOf m.np f))) * d.fitWgts i
      else s.normdata (i - d.n) * s.normweight (i - d.n))
      = getDesign m d s (indexOf m.np f) i a * (d.fitWgts i * e i)
        + ∑ b ∈ range (indexOf m.np f).length, getDesign m d s (indexOf m.np f) i a
          * (getDesign m d s (indexOf m.np f) i b * d.fitWgts i)
            * p (((List.range m.np).filter f).getD b 0) := by
    intro i hi
    have hi := mem_range.1 hi
    rw [if_pos hi, hy i hi, result_diff m f s.params p (d.x i) hp]
    have : ∑ b ∈ range (indexOf m.np f).length, getDesign m d s (indexOf m.np f) i a
          * (getDesign m d s (indexOf m.np f) i b * d.fitWgts i)
            * p (((List.range m.np).filter f).getD b 0)
        = getDesign m d s (indexOf m.np f) i a * (d.fitWgts i
          * ∑ b ∈ range (indexOf m.np f).length, p (((List.range m.np).filter f).getD b 0)
            * m.part (d.x i) (((List.range m.np).filter f).getD b 0)) := by
      rw [mul_sum, mul_sum]
      apply sum_congr rfl
      intro b _
      rw [hD i b hi]
      ring
    rw [this]
    ring
  rw [sum_congr rfl e1, sum_add_distrib, sum_comm] at h
  have e2 : ∑ b ∈ range (indexOf m.np f).length, ∑ i ∈ range d.n, getDesign m d s (indexOf m.np f) i a
        * (getDesign m d s (indexOf m.np f) i b * d.fitWgts i)
          * p (((List.range m.np).filter f).getD b 0)
      = ∑ b ∈ range (indexOf m.np f).length, getHessian m d s (indexOf m.np f) a b
        * p (((List.range m.np).filter f).getD b 0) := by
    apply sum_congr rfl
    intro b _
    rw [getHessian, sum_mul, hn, add_zero]
    apply sum_congr rfl
    intro i hi
    rw [allWgts, if_pos (mem_range.1 hi)]
  rw [e2] at h
  simp only [mulVec, dotProduct, hessMat, of_apply, mul_sub, sum_sub_distrib]
  rw [← Finset.sum_range fun b => getHessian m d s (indexOf m.np f) a b * x b,
    ← Finset.sum_range fun b => getHessian m d s (indexOf m.np f) a b
      * p (((List.range m.np).filter f).getD b 0), h]
  ring

/-- The noise: uncorrelated, of mean square `s²` times that of the accuracy over the weight. -/
structure Noise {Ω : Type} [MeasurableSpace Ω] (P : Measure Ω) (inp : Inp X) (s : ℝ) (e : ℕ → Ω → ℝ) :
    Prop where
  integrable : ∀ i < inp.n, ∀ j < inp.n, Integrable (fun ω => e i ω * e j ω) P
  square : ∀ i < inp.n, ∫ ω, e i ω * e i ω ∂P = s ^ 2 * inp.accuracy i ^ 2 / inp.weight i
  cross : ∀ i < inp.n, ∀ j < inp.n, i ≠ j → ∫ ω, e i ω * e j ω ∂P = 0

theorem noise_form {Ω : Type} [MeasurableSpace Ω] (P : Measure Ω) (inp : Inp X) (s : ℝ) (e : ℕ → Ω → ℝ)
    (he : Noise P inp s e) (hw : ∀ i < inp.n, 0 < inp.weight i ∧ 0 < inp.accuracy i) (g h : ℕ → ℝ) :
    Integrable (fun ω => (∑ i ∈ range inp.n, g i * e i ω) * ∑ j ∈ range inp.n, h j * e j ω) P ∧
    ∫ ω, (∑ i ∈ range inp.n, g i * e i ω) * ∑ j ∈ range inp.n, h j * e j ω ∂P
      = s ^ 2 * ∑ i ∈ range inp.n, g i * h i / inp.data.fitWgts i := by
  have e1 : ∀ ω, (∑ i ∈ range inp.n, g i * e i ω) * ∑ j ∈ range inp.n, h j * e j ω
      = ∑ i ∈ range inp.n, ∑ j ∈ range inp.n, (g i * h j) * (e i ω * e j ω) := by
    intro ω
    rw [sum_mul_sum]
    exact sum_congr rfl fun i _ => sum_congr rfl fun j _ => by ring
  simp only [e1]
  have hint : ∀ i ∈ range inp.n, ∀ j ∈ range inp.n,
      Integrable (fun ω => (g i * h j) * (e i ω * e j ω)) P := fun i hi j hj =>
    (he.integrable i (mem_range.1 hi) j (mem_range.1 hj)).const_mul _
  refine ⟨integrable_finsetSum _ fun i hi => integrable_finsetSum _ fun j hj => hint i hi j hj, ?_⟩
  rw [integral_finsetSum _ fun i hi => integrable_finsetSum _ fun j hj => hint i hi j hj, mul_sum]
  apply sum_congr rfl
  intro i hi
  rw [integral_finsetSum _ fun j hj => hint i hi j hj]
  have hi' := mem_range.1 hi
  obtain ⟨h1, h2⟩ := hw i hi'
  rw [sum_eq_single i]
  · rw [integral_const_mul, he.square i hi', fitWgts_eq]
    field_simp
  · intro j hj hne
    rw [integral_const_mul, he.cross i hi' j (mem_range.1 hj) hne.symm, mul_zero]
  · intro h
    exact absurd hi h

theorem prod_inverse (n K : ℕ) (D : ℕ → ℕ → ℝ) (w : ℕ → ℝ) (hw : ∀ i < n, w i ≠ 0)
    (H : Matrix (Fin K) (Fin K) ℝ)
    (hH : H = Matrix.of fun a b : Fin K => ∑ i ∈ range n, D i a * (D i b * w i)) (hdet : H.det ≠ 0)
    (a b : Fin K) :
    ∑ i ∈ range n, (∑ c, H⁻¹ a c * (D i c * w i)) * (∑ c, H⁻¹ b c * (D i c * w i)) / w i = H⁻¹ a b := by
  have hu : IsUnit H.det := isUnit_iff_ne_zero.2 hdet
  have hsym : Hᵀ = H := by
    rw [hH]
    ext x y
    simp only [transpose_apply, of_apply]
    exact sum_congr rfl fun i _ => by ring
  have hinv : (H⁻¹)ᵀ = H⁻¹ := by rw [transpose_nonsing_inv, hsym]
  have h1 : H⁻¹ a b = (H⁻¹ * H * (H⁻¹)ᵀ) a b := by
    rw [nonsing_inv_mul _ hu, one_mul, hinv]
  rw [h1, Matrix.mul_apply]
  simp only [Matrix.mul_apply, transpose_apply]
  have hHe : ∀ c d, H c d = ∑ i ∈ range n, D i c * (D i d * w i) := by
    intro c d
    rw [hH, of_apply]
  have h2 : ∀ i ∈ range n, (∑ c, H⁻¹ a c * (D i c * w i)) * (∑ c, H⁻¹ b c * (D i c * w i)) / w i
      = ∑ d : Fin K, ∑ c : Fin K, H⁻¹ a c * (D i c * (D i d * w i)) * H⁻¹ b d := by
    intro i hi
    have := hw i (mem_range.1 hi)
    rw [sum_mul_sum, sum_comm, sum_div]
    apply sum_congr rfl
    intro d _
    rw [sum_div]
    apply sum_congr rfl
    intro c _
    field_simp
  rw [sum_congr rfl h2, sum_comm]
  apply sum_congr rfl
  intro d _
  rw [sum_comm, sum_mul]
  apply sum_congr rfl
  intro c _
  rw [hHe, mul_sum, sum_mul]

/-- The data with `y` the model at `p` plus noise. -/
def Inp.measured (inp : Inp X) (m : Lin X) (p e : ℕ → ℝ) : Inp X :=
  { inp with y := fun i => m.result (inp.x i) p + e i }

theorem hess_form (m : Lin X) (inp : Inp X) (s : Fitter) (hn : s.nnorm = 0) (fi : List ℤ) :
    hessMat m inp.data s fi = Matrix.of fun a b : Fin fi.length => ∑ i ∈ range inp.n,
      getDesign m inp.data s fi i a * (getDesign m inp.data s fi i b * inp.data.fitWgts i) := by
  unfold hessMat getHessian
  ext a b
  simp only [of_apply, hn, add_zero]
  apply sum_congr rfl
  intro i hi
  rw [allWgts, if_pos (show i < inp.data.n from mem_range.1 hi)]

theorem solve_sum (K n : ℕ) (H : Matrix (Fin K) (Fin K) ℝ) (hdet : H.det ≠ 0) (δ : Fin K → ℝ)
    (D : ℕ → ℕ → ℝ) (w e : ℕ → ℝ)
    (h : H *ᵥ δ = fun a : Fin K => ∑ i ∈ range n, D i a * (w i * e i)) (a : Fin K) :
    δ a = ∑ i ∈ range n, (∑ c, H⁻¹ a c * (D i c * w i)) * e i := by
  have hu : IsUnit H.det := isUnit_iff_ne_zero.2 hdet
  have h3 : δ = H⁻¹ *ᵥ fun a : Fin K => ∑ i ∈ range n, D i a * (w i * e i) := by
    rw [← h, mulVec_mulVec, nonsing_inv_mul _ hu, one_mulVec]
  rw [congrFun h3 a]
  simp only [mulVec, dotProduct, sum_mul, mul_sum]
  rw [sum_comm]
  exact sum_congr rfl fun i _ => sum_congr rfl fun c _ => by ring

/-- The error of the fit is linear in the noise. -/
theorem fit_error (m : Lin X) (inp : Inp X) (s : Fitter) (f : ℕ → Bool) (x p e : ℕ → ℝ) (hn : s.nnorm = 0)
    (hpk : ∀ k < m.np, f k = false → p k = s.params k)
    (hx : Normal m (inp.measured m p e).data s f x)
    (hdet : (hessMat m inp.data s (indexOf m.np f)).det ≠ 0) (a : Fin (indexOf m.np f).length) :
    x a - p (((List.range m.np).filter f).getD a 0)
      = ∑ i ∈ range inp.n, (∑ c, (hessMat m inp.data s (indexOf m.np f))⁻¹ a c
        * (getDesign m inp.data s (indexOf m.np f) i c * inp.data.fitWgts i)) * e i := by
  have h2 : hessMat m inp.data s (indexOf m.np f) *ᵥ
      (fun a : Fin (indexOf m.np f).length => x a - p (((List.range m.np).filter f).getD a 0))
      = fun a : Fin (indexOf m.np f).length => ∑ i ∈ range inp.n,
        getDesign m inp.data s (indexOf m.np f) i a * (inp.data.fitWgts i * e i) :=
    error_of_noise m (inp.measured m p e).data s f x p e hn (fun i _ => rfl) hpk hx
  exact solve_sum _ inp.n (hessMat m inp.data s (indexOf m.np f)) hdet
    (fun a => x a - p (((List.range m.np).filter f).getD a 0)) (getDesign m inp.data s (indexOf m.np f)) _ e h2 a

/-- Chi squared of the fit is that of the noise minus that of the errors. -/
theorem fit_chi (m : Lin X) (inp : Inp X) (s : Fitter) (f : ℕ → Bool) (x p e : ℕ → ℝ) (hn : s.nnorm = 0)
    (hpk : ∀ k < m.np, f k = false → p k = s.params k)
    (hx : Normal m (inp.measured m p e).data s f x) :
    chiSquared m (inp.measured m p e).data (insertParameters m.np s.params x (indexOf m.np f))
      = ∑ i ∈ range inp.n, inp.data.fitWgts i * (e i * e i)
      - ∑ a : Fin (indexOf m.np f).length, ∑ b : Fin (indexOf m.np f).length,
        hessMat m inp.data s (indexOf m.np f) a b * ((x a - p (((List.range m.np).filter f).getD a 0))
          * (x b - p (((List.range m.np).filter f).getD b 0))) := by
  have h1 := chi_expand m (inp.measured m p e).data s f x hn hx p hpk
  have h2 : chiSquared m (inp.measured m p e).data p
      = ∑ i ∈ range inp.n, inp.data.fitWgts i * (e i * e i) := by
    apply sum_congr rfl
    intro i _
    show (m.result (inp.x i) p + e i - m.result (inp.x i) p) ^ 2 * inp.data.fitWgts i = _
    ring
  rw [h2] at h1
  rw [h1, eq_sub_iff_add_eq]
  congr 1
  show _ = (fun a : Fin (indexOf m.np f).length => p (((List.range m.np).filter f).getD a 0) - x a) ⬝ᵥ
    hessMat m inp.data s (indexOf m.np f) *ᵥ
      (fun a : Fin (indexOf m.np f).length => p (((List.range m.np).filter f).getD a 0) - x a)
  simp only [dotProduct, mulVec, mul_sum]
  exact sum_congr rfl fun a _ => sum_congr rfl fun b _ => by ring

/-- The mean squares of the errors and of chi squared. -/
theorem mean_squares {Ω : Type} [MeasurableSpace Ω] (P : Measure Ω) (inp : Inp X) (s0 : ℝ) (e : ℕ → Ω → ℝ)
    (he : Noise P inp s0 e) (hw : ∀ i < inp.n, 0 < inp.weight i ∧ 0 < inp.accuracy i) (K : ℕ)
    (D : ℕ → ℕ → ℝ) (H : Matrix (Fin K) (Fin K) ℝ)
    (hH : H = Matrix.of fun a b : Fin K => ∑ i ∈ range inp.n, D i a * (D i b * inp.data.fitWgts i))
    (hdet : H.det ≠ 0) (δ : Ω → Fin K → ℝ) (χ : Ω → ℝ)
    (hδ : ∀ ω a, δ ω a = ∑ i ∈ range inp.n, (∑ c, H⁻¹ a c * (D i c * inp.data.fitWgts i)) * e i ω)
    (hχ : ∀ ω, χ ω = ∑ i ∈ range inp.n, inp.data.fitWgts i * (e i ω * e i ω)
      - ∑ a, ∑ b, H a b * (δ ω a * δ ω b)) :
    (∀ a b, ∫ ω, δ ω a * δ ω b ∂P = s0 ^ 2 * H⁻¹ a b) ∧ ∫ ω, χ ω ∂P = s0 ^ 2 * (inp.n - K) := by
  have hu : IsUnit H.det := isUnit_iff_ne_zero.2 hdet
  have hwpos : ∀ i < inp.n, inp.data.fitWgts i ≠ 0 := by
    intro i hi
    obtain ⟨h1, h2⟩ := hw i hi
    rw [fitWgts_eq]
    positivity
  have hcov : ∀ a b, Integrable (fun ω => δ ω a * δ ω b) P ∧
      ∫ ω, δ ω a * δ ω b ∂P = s0 ^ 2 * H⁻¹ a b := by
    intro a b
    simp only [hδ]
    obtain ⟨h1, h2⟩ := noise_form P inp s0 e he hw
      (fun i => ∑ c, H⁻¹ a c * (D i c * inp.data.fitWgts i))
      (fun i => ∑ c, H⁻¹ b c * (D i c * inp.data.fitWgts i))
    refine ⟨h1, ?_⟩
    rw [h2, prod_inverse inp.n K D _ hwpos H hH hdet a b]
  refine ⟨fun a b => (hcov a b).2, ?_⟩
  have hint1 : ∀ i ∈ range inp.n, Integrable (fun ω => inp.data.fitWgts i * (e i ω * e i ω)) P :=
    fun i hi => (he.integrable i (mem_range.1 hi) i (mem_range.1 hi)).const_mul _
  have hint2 : ∀ a b, Integrable (fun ω => H a b * (δ ω a * δ ω b)) P := fun a b => (hcov a b).1.const_mul _
  have htr : ∑ a, ∑ b, H a b * H⁻¹ a b = K := by
    have hsym : (H⁻¹)ᵀ = H⁻¹ := by
      rw [transpose_nonsing_inv]
      congr 1
      rw [hH]
      ext x y
      simp only [transpose_apply, of_apply]
      exact sum_congr rfl fun i _ => by ring
    have : ∀ a, ∑ b, H a b * H⁻¹ a b = (H * H⁻¹) a a := by
      intro a
      rw [Matrix.mul_apply]
      apply sum_congr rfl
      intro b _
      congr 1
      exact congrFun (congrFun hsym b) a
    simp only [this, mul_nonsing_inv _ hu]
    simp
  simp only [hχ]
  rw [integral_sub (integrable_finsetSum _ hint1)
    (integrable_finsetSum _ fun a _ => integrable_finsetSum _ fun b _ => hint2 a b),
    integral_finsetSum _ hint1, integral_finsetSum _ fun a _ => integrable_finsetSum _ fun b _ => hint2 a b]
  have h1 : ∀ i ∈ range inp.n, ∫ ω, inp.data.fitWgts i * (e i ω * e i ω) ∂P = s0 ^ 2 := by
    intro i hi
    obtain ⟨h1, h2⟩ := hw i (mem_range.1 hi)
    rw [integral_const_mul, he.square i (mem_range.1 hi), fitWgts_eq]
    field_simp
  have h2 : ∀ a ∈ (univ : Finset (Fin K)), ∫ ω, ∑ b, H a b * (δ ω a * δ ω b) ∂P
      = s0 ^ 2 * ∑ b, H a b * H⁻¹ a b := by
    intro a _
    rw [integral_finsetSum _ fun b _ => hint2 a b, mul_sum]
    apply sum_congr rfl
    intro b _
    rw [integral_const_mul, (hcov a b).2]
    ring
  rw [sum_congr rfl h1, sum_congr rfl h2, ← mul_sum, htr]
  simp
  ring

/-- C73 with any weights. -/
theorem covariance_mean (solve : ℕ → (ℕ → ℕ → ℝ) → (ℕ → ℝ) → Option (ℕ → ℝ)) (hsolve : SolveSpec solve)
    (m : Lin X) (params : ℕ → ℝ) (keep : Option (List (ℤ × ℝ)))
    (hk : ∀ k, keep = some k → ProperKeep m.np k) (fs : Option ℝ) (priors : Option (List ℝ))
    (inp : Inp X) (hw : ∀ i < inp.n, 0 < inp.weight i ∧ 0 < inp.accuracy i)
    (K : ℕ) (hK : (free m.np keep).length = K) (hdof : K < inp.sumwgt)
    (p : ℕ → ℝ) (hp : Agrees (keep.getD []) p)
    {Ω : Type} [MeasurableSpace Ω] [Nonempty Ω] (P : Measure Ω) (s0 : ℝ) (e : ℕ → Ω → ℝ)
    (he : Noise P inp s0 e) (t : Ω → State X)
    (h : ∀ ω, fitState solve m (start m.np params keep fs priors) (inp.measured m p fun i => e i ω) none
      = some (t ω))
    (hdet : ∀ ω, (t ω).hessian.M.det ≠ 0) :
    ∃ (C : Ω → Matrix (Fin K) (Fin K) ℝ) (σ : Ω → ℝ),
      (∀ ω, (getCovarianceMatrix m (t ω)).2 = some ⟨K, C ω⟩) ∧
      (∀ a b, ∫ ω, C ω a b ∂P
        = (inp.n - K) / (inp.sumwgt - K) * ∫ ω, ((t ω).base.params ((free m.np keep).getD a 0) - p ((free m.np keep).getD a 0))
          * ((t ω).base.params ((free m.np keep).getD b 0) - p ((free m.np keep).getD b 0)) ∂P) ∧
      (∀ ω, getScale (t ω) = some (σ ω)) ∧ ∫ ω, σ ω ^ 2 ∂P = (inp.n - K) / (inp.sumwgt - K) * s0 ^ 2 := by
  have hfs := fun ω => fit_state solve hsolve m params keep hk fs priors _ (t ω) (h ω)
  choose S x hn hag hx ht hsi hsn hS using hfs
  obtain ⟨s, hs⟩ : ∃ s : Fitter, s = { initFitter m.np params keep with npfit := (free m.np keep).length } :=
    ⟨_, rfl⟩
  rw [← hs] at hS
  obtain rfl : S = fun _ => s := funext hS
  beta_reduce at hn hag hx ht hsi hsn
  obtain ⟨ω₀⟩ := ‹Nonempty Ω›
  replace hn := hn ω₀
  replace hag := hag ω₀
  replace hsn := hsn ω₀
  clear hS hs hsi
  have hlen : (indexOf m.np (isFree keep)).length = K := by rw [index_length]; exact hK
  subst hlen
  have hpk : ∀ k < m.np, isFree keep k = false → p k = s.params k := by
    intro k _ hfk
    rcases keep with _ | keep
    · simp [isFree] at hfk
    · exact agree_of m.np keep (hk keep rfl) _ _ hag hp k hfk
  have hdet' : (hessMat m inp.data s (indexOf m.np (isFree keep))).det ≠ 0 := by
    have := hdet ω₀
    rw [ht ω₀] at this
    exact this
  have hpar : ∀ ω (a : Fin (indexOf m.np (isFree keep)).length),
      (t ω).base.params ((free m.np keep).getD a 0) = x ω a := by
    intro ω a
    rw [ht ω]
    exact (insert_spec m.np (isFree keep) s.params (x ω)).1 a _ (filter_at m.np _ a a.2)
  have hchi : ∀ ω, (t ω).chisq = chiSquared m (inp.measured m p fun i => e i ω).data
      (insertParameters m.np s.params (x ω) (indexOf m.np (isFree keep))) := by
    intro ω
    rw [ht ω]
  have hhess : ∀ ω, (t ω).hessian = ⟨_, hessMat m inp.data s (indexOf m.np (isFree keep))⟩ := by
    intro ω
    rw [ht ω]
    rfl
  have hdofω : ∀ ω, (t ω).dof = inp.sumwgt - (indexOf m.np (isFree keep)).length := by
    intro ω
    have h1 : (t ω).inp.sumwgt = inp.sumwgt := by
      rw [ht ω]
      rfl
    have h2 : (t ω).base.npfit = (indexOf m.np (isFree keep)).length := by
      rw [ht ω]
      exact hsn.trans hK
    rw [State.dof, h1, h2]
  clear ht
  obtain ⟨m1, m2⟩ := mean_squares P inp s0 e he hw _ (getDesign m inp.data s (indexOf m.np (isFree keep)))
    (hessMat m inp.data s (indexOf m.np (isFree keep))) (hess_form m inp s hn _) hdet'
    (fun ω a => x ω a - p ((free m.np keep).getD a 0)) (fun ω => (t ω).chisq)
    (fun ω a => fit_error m inp s (isFree keep) (x ω) p (fun i => e i ω) hn hpk (hx ω) hdet' a)
    (fun ω => (hchi ω).trans (fit_chi m inp s (isFree keep) (x ω) p (fun i => e i ω) hn hpk (hx ω)))
  have hN : (0 : ℝ) < inp.sumwgt - (indexOf m.np (isFree keep)).length := by linarith
  have hchi0 : ∀ ω, 0 ≤ (t ω).chisq := by
    intro ω
    rw [hchi ω]
    apply sum_nonneg
    intro i hi
    obtain ⟨h1, h2⟩ := hw i (mem_range.1 hi)
    have : (inp.measured m p fun i => e i ω).data.fitWgts i = inp.weight i / (inp.accuracy i * inp.accuracy i) :=
      fitWgts_eq inp i
    rw [this]
    positivity
  refine ⟨fun ω => ((t ω).chisq / (inp.sumwgt - (indexOf m.np (isFree keep)).length))
      • (hessMat m inp.data s (indexOf m.np (isFree keep)))⁻¹,
    fun ω => √((t ω).chisq / (inp.sumwgt - (indexOf m.np (isFree keep)).length)), ?_, ?_, ?_, ?_⟩
  · intro ω
    have hsum' : (inp.measured m p fun i => e i ω).sumwgt = inp.sumwgt := rfl
    have := (covariance_value solve hsolve m params keep hk fs priors _ (t ω) (h ω) (hdet ω)
      (by rw [hsum', hK]; linarith) (hchi0 ω)).2
    rw [this, hsum', hK, hhess ω]
  · intro a b
    simp only [hpar, m1 a b, Matrix.smul_apply, smul_eq_mul]
    rw [integral_mul_const, integral_div, m2]
    field_simp
  · intro ω
    rw [getScale, hdofω, if_neg (not_le.2 hN)]
  · have : ∀ ω, √((t ω).chisq / (inp.sumwgt - (indexOf m.np (isFree keep)).length)) ^ 2
        = (t ω).chisq / (inp.sumwgt - (indexOf m.np (isFree keep)).length) := fun ω =>
      Real.sq_sqrt (div_nonneg (hchi0 ω) hN.le)
    simp only [this]
    rw [integral_div, m2]
    field_simp

/-- C73: the covariance matrix that the fitter returns is on average, over the noise in the data, the
covariance of the errors of the fitted parameters; and the square of its scale is on average that of the
noise. The noise is any uncorrelated one, Gaussian or not, of scale `s0` times the accuracies (if any), for
any linear model, any number of data, with or without kept parameters. Weights should be on average 1 (and
the variance of the noise inversely proportional to them). -/
theorem C73_covariance (solve : ℕ → (ℕ → ℕ → ℝ) → (ℕ → ℝ) → Option (ℕ → ℝ)) (hsolve : SolveSpec solve)
    (m : Lin X) (params : ℕ → ℝ) (keep : Option (List (ℤ × ℝ)))
    (hk : ∀ k, keep = some k → ProperKeep m.np k) (fs : Option ℝ) (priors : Option (List ℝ))
    (inp : Inp X) (hw : ∀ i < inp.n, 0 < inp.weight i ∧ 0 < inp.accuracy i) (hsum : inp.sumwgt = inp.n)
    (K : ℕ) (hK : (free m.np keep).length = K) (hdof : K < inp.n)
    (p : ℕ → ℝ) (hp : Agrees (keep.getD []) p)
    {Ω : Type} [MeasurableSpace Ω] [Nonempty Ω] (P : Measure Ω) (s0 : ℝ) (e : ℕ → Ω → ℝ)
    (he : Noise P inp s0 e) (t : Ω → State X)
    (h : ∀ ω, fitState solve m (start m.np params keep fs priors) (inp.measured m p fun i => e i ω) none
      = some (t ω))
    (hdet : ∀ ω, (t ω).hessian.M.det ≠ 0) :
    ∃ (C : Ω → Matrix (Fin K) (Fin K) ℝ) (σ : Ω → ℝ),
      (∀ ω, (getCovarianceMatrix m (t ω)).2 = some ⟨K, C ω⟩) ∧
      (∀ a b, ∫ ω, C ω a b ∂P
        = ∫ ω, ((t ω).base.params ((free m.np keep).getD a 0) - p ((free m.np keep).getD a 0))
          * ((t ω).base.params ((free m.np keep).getD b 0) - p ((free m.np keep).getD b 0)) ∂P) ∧
      (∀ ω, getScale (t ω) = some (σ ω)) ∧ ∫ ω, σ ω ^ 2 ∂P = s0 ^ 2 := by
  have hd : (K : ℝ) < inp.n := by exact_mod_cast hdof
  have h1 := covariance_mean solve hsolve m params keep hk fs priors inp hw K hK (by rw [hsum]; exact hd) p hp P s0
    e he t h hdet
  rw [hsum, div_self (by linarith)] at h1
  simpa only [one_mul] using h1

/-- When the weights are not on average 1, the scale and the covariances are wrong by the factor
`(N - K) / (W - K)`, with `W` the sum of the weights. -/
theorem C73_counterexample_weights (solve : ℕ → (ℕ → ℕ → ℝ) → (ℕ → ℝ) → Option (ℕ → ℝ))
    (hsolve : SolveSpec solve)
    (m : Lin X) (params : ℕ → ℝ) (keep : Option (List (ℤ × ℝ)))
    (hk : ∀ k, keep = some k → ProperKeep m.np k) (fs : Option ℝ) (priors : Option (List ℝ))
    (inp : Inp X) (hw : ∀ i < inp.n, 0 < inp.weight i ∧ 0 < inp.accuracy i) (hsum : inp.sumwgt ≠ inp.n)
    (K : ℕ) (hK : (free m.np keep).length = K) (hdof : K < inp.sumwgt)
    (p : ℕ → ℝ) (hp : Agrees (keep.getD []) p)
    {Ω : Type} [MeasurableSpace Ω] [Nonempty Ω] (P : Measure Ω) (s0 : ℝ) (hs0 : 0 < s0) (e : ℕ → Ω → ℝ)
    (he : Noise P inp s0 e) (t : Ω → State X)
    (h : ∀ ω, fitState solve m (start m.np params keep fs priors) (inp.measured m p fun i => e i ω) none
      = some (t ω))
    (hdet : ∀ ω, (t ω).hessian.M.det ≠ 0) :
    ∃ σ : Ω → ℝ, (∀ ω, getScale (t ω) = some (σ ω)) ∧ ∫ ω, σ ω ^ 2 ∂P ≠ s0 ^ 2 := by
  obtain ⟨C, σ, -, -, h3, h4⟩ := covariance_mean solve hsolve m params keep hk fs priors inp hw K hK hdof p hp P s0
    e he t h hdet
  refine ⟨σ, h3, ?_⟩
  rw [h4]
  intro h5
  have hne : inp.sumwgt - (K : ℝ) ≠ 0 := by linarith
  have h6 : ((inp.n : ℝ) - K) / (inp.sumwgt - K) = 1 := by
    have : s0 ^ 2 ≠ 0 := by positivity
    exact mul_right_cancel₀ this (by rw [h5, one_mul])
  rw [div_eq_one_iff_eq hne] at h6
  exact hsum (by linarith)

end BF.Evidence
