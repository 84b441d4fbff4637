import Verif.Props.ErrGrad

/-!
# Mixtures of error distributions with any number of hyperparameters (C27)

The code names the hyperparameters of a mixture by fixed numbers: -1 is the fraction, -2 belongs to the second
distribution and -3 to the first. Here is when that is right, and when it is not.
-/

noncomputable section

namespace BF.ErrDis

open Real

variable {X : Type*}

/-! ## The parameters of the two -/

theorem mixP1_list (e2 : Dist X) (p h1 h2 : List ℝ) (f : ℝ) (hh2 : h2.length = e2.nh) :
    mixP1 e2 (p ++ (h1 ++ (h2 ++ [f]))) = p ++ h1 := by
  have e : p ++ (h1 ++ (h2 ++ [f])) = (p ++ h1) ++ (h2 ++ [f]) := by simp
  unfold mixP1 allBut
  rw [e, List.length_append (as := p ++ h1)]
  have : (p ++ h1).length + (h2 ++ [f]).length - (e2.nh + 1) = (p ++ h1).length := by
    simp [hh2]
  rw [this, List.take_left']
  rfl

theorem mixP2_list (e1 e2 : Dist X) (p h1 h2 : List ℝ) (f : ℝ) (hh1 : h1.length = e1.nh)
    (hh2 : h2.length = e2.nh) : mixP2 e1 e2 (p ++ (h1 ++ (h2 ++ [f]))) = p ++ h2 := by
  unfold mixP2 allBut
  have e1' : p ++ (h1 ++ (h2 ++ [f])) = (p ++ (h1 ++ h2)) ++ [f] := by simp
  have e2' : (p ++ (h1 ++ (h2 ++ [f]))).take ((p ++ (h1 ++ (h2 ++ [f]))).length - 1)
      = p ++ (h1 ++ h2) := by
    rw [e1']
    exact allBut_one (p ++ (h1 ++ h2)) f
  rw [e2', List.take_take]
  congr 1
  · have : min (((p ++ (h1 ++ (h2 ++ [f]))).take ((p ++ (h1 ++ (h2 ++ [f]))).length - (e1.nh + 1))).length - e2.nh)
        ((p ++ (h1 ++ (h2 ++ [f]))).length - (e1.nh + 1)) = p.length := by
      simp [hh1, hh2]; omega
    rw [this, List.take_left']
    rfl
  · have e3 : (p ++ (h1 ++ h2)).length - e2.nh = (p ++ h1).length := by simp [hh2]; omega
    rw [e3, ← List.append_assoc, List.drop_left']
    rfl

theorem fromEnd_last (p h1 h2 : List ℝ) (f : ℝ) : fromEnd (p ++ (h1 ++ (h2 ++ [f]))) 1 = f := by
  have e1' : p ++ (h1 ++ (h2 ++ [f])) = (p ++ (h1 ++ h2)) ++ [f] := by simp
  rw [e1']
  exact fromEnd_one _ _

theorem mixLd_list (e1 e2 : Dist X) (P : Prob X) (p h1 h2 : List ℝ) (f : ℝ) (hh1 : h1.length = e1.nh)
    (hh2 : h2.length = e2.nh) (hf0 : 0 < f) (hf1 : f < 1) (d : Datum X) :
    mixLd e1 e2 P (p ++ (h1 ++ (h2 ++ [f]))) d
      = log (f * exp (e1.ld P (p ++ h1) d) + (1 - f) * exp (e2.ld P (p ++ h2) d)) := by
  simp only [mixLd, fromEnd_last, if_neg (not_le.2 hf0), if_neg (not_le.2 hf1),
    mixP1_list e2 p h1 h2 f hh2, mixP2_list e1 e2 p h1 h2 f hh1 hh2, logaddexp, exp_add, exp_log hf0,
    exp_log (sub_pos.2 hf1)]
  rw [mul_comm, mul_comm (exp (e2.ld P (p ++ h2) d))]

/-- The term that the code yields for an index. -/
def mixTerm (e1 e2 : Dist X) (P : Prob X) (p h1 h2 : List ℝ) (f : ℝ) (k : ℤ) (d : Datum X) : ℝ :=
  let L1 := exp (e1.ld P (p ++ h1) d)
  let L2 := exp (e2.ld P (p ++ h2) d)
  let F := mixFff e1 e2 P (p ++ (h1 ++ (h2 ++ [f]))) d
  if 0 ≤ k then F * (f * L1 * e1.pd P (p ++ h1) k d + (1 - f) * L2 * e2.pd P (p ++ h2) k d)
  else if k = -1 then (L1 - L2) * F
  else if k = -2 then (1 - f) * L2 * F * e2.pd P (p ++ h2) (-1) d
  else f * L1 * F * e1.pd P (p ++ h1) (-1) d

theorem mixLoop_hyper (e1 e2 : Dist X) (P : Prob X) (p h1 h2 : List ℝ) (f : ℝ) (hh1 : h1.length = e1.nh)
    (hh2 : h2.length = e2.nh) (hy : List ℤ) (hs : hy.Sublist [-3, -2, -1]) :
    mixLoop e1 e2 P (p ++ (h1 ++ (h2 ++ [f]))) hy (if -3 ∈ hy then [-1] else [])
      (if -2 ∈ hy then [-1] else []) = some (hy.map (mixTerm e1 e2 P p h1 h2 f)) := by
  have h : hy ∈ ([-3, -2, -1] : List ℤ).sublists := List.mem_sublists.2 hs
  have h' : hy = [] ∨ hy = [-3] ∨ hy = [-2] ∨ hy = [-3, -2] ∨ hy = [-1] ∨ hy = [-3, -1] ∨ hy = [-2, -1]
      ∨ hy = [-3, -2, -1] := by
    have e : ([-3, -2, -1] : List ℤ).sublists
        = [[], [-3], [-2], [-3, -2], [-1], [-3, -1], [-2, -1], [-3, -2, -1]] := by decide
    rw [e] at h
    simpa using h
  have t1 : mixTerm e1 e2 P p h1 h2 f (-1) = fun d => (exp (e1.ld P (p ++ h1) d) - exp (e2.ld P (p ++ h2) d))
      * mixFff e1 e2 P (p ++ (h1 ++ (h2 ++ [f]))) d := by
    funext d; simp [mixTerm]
  have t2 : mixTerm e1 e2 P p h1 h2 f (-2) = fun d => (1 - f) * exp (e2.ld P (p ++ h2) d)
      * mixFff e1 e2 P (p ++ (h1 ++ (h2 ++ [f]))) d * e2.pd P (p ++ h2) (-1) d := by
    funext d; simp [mixTerm]
  have t3 : mixTerm e1 e2 P p h1 h2 f (-3) = fun d => f * exp (e1.ld P (p ++ h1) d)
      * mixFff e1 e2 P (p ++ (h1 ++ (h2 ++ [f]))) d * e1.pd P (p ++ h1) (-1) d := by
    funext d; simp [mixTerm]
  rcases h' with rfl | rfl | rfl | rfl | rfl | rfl | rfl | rfl <;>
    simp [mixLoop, t1, t2, t3, fromEnd_last, mixP1_list e2 p h1 h2 f hh2,
      mixP2_list e1 e2 p h1 h2 f hh1 hh2]

theorem mixParts_eq (e1 e2 : Dist X) (P : Prob X) (p h1 h2 : List ℝ) (f : ℝ) (hh1 : h1.length = e1.nh)
    (hh2 : h2.length = e2.nh) (ks : List ℤ) (hks : ∀ k ∈ ks, 0 ≤ k) (hy : List ℤ)
    (hs : hy.Sublist [-3, -2, -1]) :
    mixParts e1 e2 P (p ++ (h1 ++ (h2 ++ [f]))) (ks ++ hy)
      = some ((ks ++ hy).map (mixTerm e1 e2 P p h1 h2 f)) := by
  have hneg : ∀ k ∈ hy, k = -3 ∨ k = -2 ∨ k = -1 := by
    intro k hk
    simpa using hs.subset hk
  have hfilt : (ks ++ hy).filter (fun k => decide (0 ≤ k)) = ks := by
    rw [List.filter_append, List.filter_eq_self.2, List.filter_eq_nil_iff.2]
    · simp
    · intro k hk
      have := hneg k hk
      simp; omega
    · intro k hk
      simpa using hks k hk
  have hm : ∀ z : ℤ, z < 0 → (z ∈ ks ++ hy ↔ z ∈ hy) := by
    intro z hz
    rw [List.mem_append]
    constructor
    · rintro (h | h)
      · have := hks z h; omega
      · exact h
    · exact Or.inr
  unfold mixParts
  simp only [hfilt, hm (-3) (by omega), hm (-2) (by omega)]
  have h1' : (if -3 ∈ hy then ks ++ [-1] else ks) = ks ++ if -3 ∈ hy then [-1] else [] := by
    split <;> simp
  have h2' : (if -2 ∈ hy then ks ++ [-1] else ks) = ks ++ if -2 ∈ hy then [-1] else [] := by
    split <;> simp
  rw [h1', h2', mixLoop_spec e1 e2 P _ ks hks, mixLoop_hyper e1 e2 P p h1 h2 f hh1 hh2 hy hs]
  simp only [Option.map_some, List.map_append]
  congr 2
  apply List.map_congr_left
  intro k hk
  funext d
  simp only [mixTerm, if_pos (hks k hk), fromEnd_last, mixP1_list e2 p h1 h2 f hh2,
    mixP2_list e1 e2 p h1 h2 f hh1 hh2]

/-! ## The gradient -/

/-- Two distributions with any number of hyperparameters, at least one in the second, with good gradients of
their own, and a fraction strictly between 0 and 1. Any parameters of the model are fitted, and of the
hyperparameters any of the last three, the last of which is the fraction; but the third from the end only when
it belongs to the first distribution. Then the gradient is the true one. -/
theorem C27_mixed_general (num : List ℝ) (e1 e2 : Dist X) (P : Prob X) (p h1 h2 : List ℝ) (f : ℝ)
    (hh1 : h1.length = e1.nh) (hh2 : h2.length = e2.nh) (hlen : p.length = P.np) (hf0 : 0 < f) (hf1 : f < 1)
    (ks : List ℤ) (hks : ∀ k ∈ ks, 0 ≤ k ∧ k < P.np) (hy : List ℤ) (hs : hy.Sublist [-3, -2, -1])
    (hn2 : 1 ≤ e2.nh) (h3 : -3 ∈ hy → e2.nh = 1 ∧ 1 ≤ e1.nh)
    (hg1 : TermGradient P p h1 (e1.ld P) (e1.pd P (p ++ h1)) (ks ++ if -3 ∈ hy then [-1] else []))
    (hg2 : TermGradient P p h2 (e2.ld P) (e2.pd P (p ++ h2)) (ks ++ if -2 ∈ hy then [-1] else []))
    (hmin : ∀ d ∈ P.data, floatMin < f * exp (e1.ld P (p ++ h1) d) + (1 - f) * exp (e2.ld P (p ++ h2) d)) :
    IsGradient (fun a => logLhood (mixLd e1 e2 P a) P) (p ++ (h1 ++ (h2 ++ [f]))) (ks ++ hy)
      (mixGradient num e1 e2 P (p ++ (h1 ++ (h2 ++ [f]))) (ks ++ hy)) := by
  have hgrad : mixGradient num e1 e2 P (p ++ (h1 ++ (h2 ++ [f]))) (ks ++ hy)
      = partialLogL (mixTerm e1 e2 P p h1 h2 f) P (ks ++ hy) := by
    unfold mixGradient mixPartialLogL
    rw [mixParts_eq e1 e2 P p h1 h2 f hh1 hh2 ks (fun k hk => (hks k hk).1) hy hs]
    simp [partialLogL, Function.comp_def]
  rw [hgrad]
  have hneg : ∀ k ∈ hy, k = -3 ∨ k = -2 ∨ k = -1 := by
    intro k hk
    simpa using hs.subset hk
  have hF : ∀ d ∈ P.data, mixFff e1 e2 P (p ++ (h1 ++ (h2 ++ [f]))) d
      = 1 / (f * exp (e1.ld P (p ++ h1) d) + (1 - f) * exp (e2.ld P (p ++ h2) d)) := by
    intro d hd
    simp only [mixFff, fromEnd_last, mixP1_list e2 p h1 h2 f hh2, mixP2_list e1 e2 p h1 h2 f hh1 hh2]
    rw [if_pos (hmin d hd)]
    norm_num
  have hpos : ∀ d ∈ P.data, 0 < f * exp (e1.ld P (p ++ h1) d) + (1 - f) * exp (e2.ld P (p ++ h2) d) := by
    intro d _
    have := exp_pos (e1.ld P (p ++ h1) d)
    have := exp_pos (e2.ld P (p ++ h2) d)
    have := sub_pos.2 hf1
    positivity
  apply isGradient_of_terms P p (h1 ++ (h2 ++ [f])) hlen
  · intro k hk
    rcases List.mem_append.1 hk with hk | hk
    · exact Or.inl (hks k hk)
    · right
      have h4 := hneg k hk
      have h5 : k = -3 → 1 ≤ h1.length := by
        rintro rfl
        rw [hh1]; exact (h3 hk).2
      simp only [List.length_append, List.length_singleton]
      omega
  · constructor
    · intro k hk k0 v hpv d hd
      have hk' : k ∈ ks := by
        rcases List.mem_append.1 hk with hk | hk
        · exact hk
        · have := hneg k hk; omega
      have hpk := set_self p k.toNat v hpv
      have d1 := hg1.1 k (by simp [hk']) k0 v hpv d hd
      have d2 := hg2.1 k (by simp [hk']) k0 v hpv d hd
      simp only [mixLd_list e1 e2 P _ h1 h2 f hh1 hh2 hf0 hf1]
      refine (((d1.exp.const_mul f).fun_add (d2.exp.const_mul (1 - f))).log ?_).congr_deriv ?_
      · rw [hpk]
        exact (hpos d hd).ne'
      · simp only [mixTerm, if_pos k0, hpk, hF d hd]
        ring
    · intro k hk k0 v hpv d hd
      have hk' : k ∈ hy := by
        rcases List.mem_append.1 hk with hk | hk
        · have := (hks k hk).1; omega
        · exact hk
      have hL : (h1 ++ (h2 ++ [f])).length = h1.length + h2.length + 1 := by simp; omega
      rcases hneg k hk' with rfl | rfl | rfl
      · -- the last one of the first distribution
        obtain ⟨hn, hn1⟩ := h3 hk'
        have hi : (((h1 ++ (h2 ++ [f])).length : ℤ) + -3).toNat = (((h1.length : ℕ) : ℤ) + -1).toNat := by
          rw [hL]; omega
        rw [hi] at hpv ⊢
        have hlt : (((h1.length : ℕ) : ℤ) + -1).toNat < h1.length := by omega
        rw [List.getElem?_append_left hlt] at hpv
        have d1 := hg1.2 (-1) (by simp [hk']) (by omega) v hpv d hd
        have hset : ∀ t : ℝ, (h1 ++ (h2 ++ [f])).set (((h1.length : ℕ) : ℤ) + -1).toNat t
            = h1.set (((h1.length : ℕ) : ℤ) + -1).toNat t ++ (h2 ++ [f]) := by
          intro t
          rw [List.set_append_left _ _ hlt]
        simp only [hset]
        have hl' : ∀ t : ℝ, (h1.set (((h1.length : ℕ) : ℤ) + -1).toNat t).length = e1.nh := by
          intro t; simp [hh1]
        simp only [fun t => mixLd_list e1 e2 P p _ h2 f (hl' t) hh2 hf0 hf1 d]
        have hself := set_self h1 _ v hpv
        refine (((d1.exp.const_mul f).add_const _).log ?_).congr_deriv ?_
        · rw [hself]; exact (hpos d hd).ne'
        · rw [hself]
          simp only [mixTerm, hF d hd, if_neg (show ¬ (0 : ℤ) ≤ -3 by omega),
            if_neg (show ¬ (-3 : ℤ) = -1 by omega), if_neg (show ¬ (-3 : ℤ) = -2 by omega)]
          ring
      · -- the last one of the second distribution
        have hn2' : 1 ≤ h2.length := by omega
        have hi : (((h1 ++ (h2 ++ [f])).length : ℤ) + -2).toNat
            = h1.length + (((h2.length : ℕ) : ℤ) + -1).toNat := by
          rw [hL]; omega
        rw [hi] at hpv ⊢
        have hlt : (((h2.length : ℕ) : ℤ) + -1).toNat < h2.length := by omega
        rw [List.getElem?_append_right (by omega), Nat.add_sub_cancel_left,
          List.getElem?_append_left hlt] at hpv
        have d2 := hg2.2 (-1) (by simp [hk']) (by omega) v hpv d hd
        have hset : ∀ t : ℝ, (h1 ++ (h2 ++ [f])).set (h1.length + (((h2.length : ℕ) : ℤ) + -1).toNat) t
            = h1 ++ (h2.set (((h2.length : ℕ) : ℤ) + -1).toNat t ++ [f]) := by
          intro t
          rw [List.set_append_right _ _ (by omega), Nat.add_sub_cancel_left, List.set_append_left _ _ hlt]
        simp only [hset]
        have hl' : ∀ t : ℝ, (h2.set (((h2.length : ℕ) : ℤ) + -1).toNat t).length = e2.nh := by
          intro t; simp [hh2]
        simp only [fun t => mixLd_list e1 e2 P p h1 _ f hh1 (hl' t) hf0 hf1 d]
        have hself := set_self h2 _ v hpv
        refine (((d2.exp.const_mul (1 - f)).const_add _).log ?_).congr_deriv ?_
        · rw [hself]; exact (hpos d hd).ne'
        · rw [hself]
          simp only [mixTerm, hF d hd, if_neg (show ¬ (0 : ℤ) ≤ -2 by omega),
            if_neg (show ¬ (-2 : ℤ) = -1 by omega), if_true]
          ring
      · -- the fraction
        have hi : (((h1 ++ (h2 ++ [f])).length : ℤ) + -1).toNat = h1.length + h2.length := by
          rw [hL]; omega
        rw [hi] at hpv ⊢
        have hv : f = v := by
          rw [List.getElem?_append_right (by omega), Nat.add_sub_cancel_left,
            List.getElem?_append_right (by omega)] at hpv
          simpa using hpv
        subst hv
        have hset : ∀ t : ℝ, (h1 ++ (h2 ++ [f])).set (h1.length + h2.length) t = h1 ++ (h2 ++ [t]) := by
          intro t
          rw [List.set_append_right _ _ (by omega), Nat.add_sub_cancel_left,
            List.set_append_right _ _ (by omega)]
          simp
        simp only [hset]
        have hid := hasDerivAt_id' f
        have hlog : HasDerivAt (fun t => log (t * exp (e1.ld P (p ++ h1) d)
            + (1 - t) * exp (e2.ld P (p ++ h2) d))) (mixTerm e1 e2 P p h1 h2 f (-1) d) f := by
          refine (((hid.mul_const _).fun_add ((hid.const_sub 1).mul_const _)).log
            (hpos d hd).ne').congr_deriv ?_
          simp only [mixTerm, hF d hd, if_neg (show ¬ (0 : ℤ) ≤ -1 by omega), if_true]
          ring
        refine hlog.congr_of_eventuallyEq ?_
        filter_upwards [lt_mem_nhds hf0, gt_mem_nhds hf1] with t t0 t1
        exact mixLd_list e1 e2 P p h1 h2 t hh1 hh2 t0 t1 d

/-! ## The others -/

theorem mixLoop_length (e1 e2 : Dist X) (P : Prob X) (a : List ℝ) (fit : List ℤ) :
    ∀ (r1 r2 : List ℤ) (l : List (Datum X → ℝ)), mixLoop e1 e2 P a fit r1 r2 = some l →
    l.length + (fit.filter fun k => decide (k < -3)).length = fit.length := by
  induction fit with
  | nil => intro r1 r2 l h; simp [mixLoop] at h; simp [h]
  | cons k fit ih =>
    intro r1 r2 l h
    unfold mixLoop at h
    by_cases h0 : 0 ≤ k
    · rw [if_pos h0] at h
      have hk : ¬ k < -3 := by omega
      cases r1 with
      | nil => simp at h
      | cons k1 r1 =>
        cases r2 with
        | nil => simp at h
        | cons k2 r2 =>
          simp only [Option.map_eq_some_iff] at h
          obtain ⟨l', h1, rfl⟩ := h
          have := ih _ _ _ h1
          simp [hk]; omega
    · rw [if_neg h0] at h
      by_cases h1 : k = -1
      · rw [if_pos h1] at h
        simp only [Option.map_eq_some_iff] at h
        obtain ⟨l', h2, rfl⟩ := h
        have := ih _ _ _ h2
        have hk : ¬ k < -3 := by omega
        simp [hk]; omega
      · rw [if_neg h1] at h
        by_cases h2 : k = -2
        · rw [if_pos h2] at h
          cases r2 with
          | nil => simp at h
          | cons k2 r2 =>
            simp only [Option.map_eq_some_iff] at h
            obtain ⟨l', h3, rfl⟩ := h
            have := ih _ _ _ h3
            have hk : ¬ k < -3 := by omega
            simp [hk]; omega
        · rw [if_neg h2] at h
          by_cases h3 : k = -3
          · rw [if_pos h3] at h
            cases r1 with
            | nil => simp at h
            | cons k1 r1 =>
              simp only [Option.map_eq_some_iff] at h
              obtain ⟨l', h4, rfl⟩ := h
              have := ih _ _ _ h4
              have hk : ¬ k < -3 := by omega
              simp [hk]; omega
          · rw [if_neg h3] at h
            have := ih _ _ _ h
            have hk : k < -3 := by omega
            simp [hk]; omega

/-- When a hyperparameter further from the end than the third is fitted, the gradient is calculated
numerically, for all parameters. -/
theorem C27_mixed_numeric (num : List ℝ) (e1 e2 : Dist X) (P : Prob X) (a : List ℝ) (fitIndex : List ℤ)
    (k : ℤ) (hk : k ∈ fitIndex) (h3 : k < -3) : mixGradient num e1 e2 P a fitIndex = num := by
  unfold mixGradient mixPartialLogL mixParts
  simp only
  split
  · rename_i g hg
    simp only [Option.map_eq_some_iff] at hg
    obtain ⟨l, hl, rfl⟩ := hg
    have := mixLoop_length e1 e2 P a fitIndex _ _ l hl
    have hpos : 0 < (fitIndex.filter fun k => decide (k < -3)).length :=
      List.length_pos_of_mem (List.mem_filter.2 ⟨hk, by simpa using h3⟩)
    rw [if_pos (by simp; omega)]
  · rfl

/-- With a second distribution that has no hyperparameters, like that of Poisson, every likelihood raises. -/
theorem C27_counterexample_mixed_none (n1 : ℕ) (allpars : List ℝ) (h : n1 + 1 < allpars.length) :
    mixP2? n1 0 allpars = none := by
  have : (allBut allpars (n1 + 1)).length ≠ 0 := by simp [allBut]; omega
  simp only [mixP2?, if_true, if_neg this]

/-- In all other cases it is what the likelihood uses. -/
theorem mixP2?_some (e1 e2 : Dist X) (a : List ℝ) (h : e2.nh ≠ 0) :
    mixP2? e1.nh e2.nh a = some (mixP2 e1 e2 a) := by
  simp only [mixP2?, if_neg h, mixP2]

/-- One point at x = 1, y = 1, for the model `p0 x`. -/
def mixPoint : Prob ℝ where
  data := [⟨1, 1, 1, 1⟩]
  np := 1
  f := fun x p => p.getD 0 0 * x
  df := fun x _ => [x]
  hasW := false
  acc := .none
  cyclic := none

theorem mixPoint_smooth : mixPoint.Smooth [0] := by
  intro d hd
  refine ⟨rfl, ?_⟩
  intro k v g hv hg
  obtain rfl : d = ⟨1, 1, 1, 1⟩ := by simpa [mixPoint] using hd
  cases k with
  | succ k => simp at hv
  | zero =>
    obtain rfl : 1 = g := by simpa [mixPoint] using hg
    simpa [mixPoint] using (hasDerivAt_id' v).mul_const (1 : ℝ)

theorem mixPoint_offFold (p : List ℝ) : mixPoint.OffFold p := by
  intro d _ period h
  simp [mixPoint] at h

/-- With two hyperparameters in the second distribution the third from the end is the scale of the second. When
that one is fitted, and nothing further from the end, the code returns the derivative to the scale of the
first. Here a Gauss of scale 1 is mixed with an exponential of scale 2 and power 1; the residual is 1, so the
Gauss is stationary in its scale and 0 is returned, but the likelihood is not stationary. -/
theorem C27_counterexample_mixed_second (num : List ℝ) :
    ¬ IsGradient (fun a => logLhood (mixLd gaussDist expDist mixPoint a) mixPoint)
      ([0] ++ ([1] ++ ([2, 1] ++ [1 / 2]))) [-3]
      (mixGradient num gaussDist expDist mixPoint ([0] ++ ([1] ++ ([2, 1] ++ [1 / 2]))) [-3]) := by
  have hparts := mixParts_eq gaussDist expDist mixPoint [0] [1] [2, 1] (1 / 2) rfl rfl [] (by simp) [-3]
    (by decide)
  have h0 : mixGradient num gaussDist expDist mixPoint ([0] ++ ([1] ++ ([2, 1] ++ [1 / 2]))) [-3] = [0] := by
    unfold mixGradient mixPartialLogL
    rw [List.nil_append] at hparts
    rw [hparts]
    simp [mixTerm, gaussDist, gaussPd, gaussS2, fromEnd, mixPoint, Prob.residual, Prob.fold, Prob.varyy,
      Prob.accuracy, Prob.weightedResSq, Prob.wgt]
  rw [h0]
  rintro ⟨-, h⟩
  have h1 := h 0 (-3) 2 0 rfl (by simp [place]) rfl
  have hpl : place ([0] ++ ([1] ++ ([2, 1] ++ [1 / 2])) : List ℝ).length (-3) = 2 := by simp [place]
  rw [hpl] at h1
  have hset : ∀ t : ℝ, ([0] ++ ([1] ++ ([2, 1] ++ [1 / 2])) : List ℝ).set 2 t
      = [0] ++ ([1] ++ ([t, 1] ++ [1 / 2])) := by intro t; rfl
  simp only [hset, logLhood] at h1
  have hexp := (exp_terms mixPoint [0] 2 1 mixPoint_smooth (mixPoint_offFold _) one_pos
    (by intro d _; simp [expScale, mixPoint, Prob.hasAccuracy, fromEnd])
    (by
      intro d hd
      obtain rfl : d = ⟨1, 1, 1, 1⟩ := by simpa [mixPoint] using hd
      simp [mixPoint, Prob.residual, Prob.fold]) [-2]
    (by intro k hk; right; simp at hk; subst hk; simp) (by simp [mixPoint, Prob.hasAccuracy])).2 (-2)
    (by simp) (by omega) 2 rfl ⟨1, 1, 1, 1⟩ (by simp [mixPoint])
  have hv : expPd mixPoint ([0] ++ [2, 1]) (-2) ⟨1, 1, 1, 1⟩ = -1 / 4 := by
    simp [expPd, mixPoint, expScale, Prob.residual, Prob.fold, Prob.wgt, Prob.hasAccuracy, fromEnd, allBut]
    norm_num
  rw [hv] at hexp
  have hset' : ∀ t : ℝ, ([2, 1] : List ℝ).set ((([2, 1] : List ℝ).length : ℤ) + -2).toNat t = [t, 1] := by
    intro t; rfl
  simp only [hset'] at hexp
  have hpos : 0 < 1 / 2 * exp (gaussLd mixPoint ([0] ++ [1]) ⟨1, 1, 1, 1⟩)
      + (1 - 1 / 2) * exp (expLd mixPoint ([0] ++ [2, 1]) ⟨1, 1, 1, 1⟩) := by
    have := exp_pos (gaussLd mixPoint ([0] ++ [1]) ⟨1, 1, 1, 1⟩)
    have := exp_pos (expLd mixPoint ([0] ++ [2, 1]) ⟨1, 1, 1, 1⟩)
    linarith
  have htrue := ((hexp.exp.const_mul (1 - 1 / 2)).const_add
    (1 / 2 * exp (gaussLd mixPoint ([0] ++ [1]) ⟨1, 1, 1, 1⟩))).log hpos.ne'
  have hsame : HasDerivAt (fun t => log (1 / 2 * exp (gaussLd mixPoint ([0] ++ [1]) ⟨1, 1, 1, 1⟩)
      + (1 - 1 / 2) * exp (expLd mixPoint ([0] ++ [t, 1]) ⟨1, 1, 1, 1⟩))) 0 2 := by
    refine h1.congr_of_eventuallyEq (Filter.Eventually.of_forall fun t => ?_)
    have hd : mixPoint.data = [⟨1, 1, 1, 1⟩] := rfl
    simp only [hd, List.map_singleton, List.sum_singleton]
    rw [mixLd_list gaussDist expDist mixPoint [0] [1] [t, 1] (1 / 2) rfl rfl (by norm_num) (by norm_num)]
    rfl
  have := htrue.unique hsame
  rw [div_eq_zero_iff] at this
  rcases this with h2 | h2
  · have := exp_pos (expLd mixPoint ([0] ++ [2, 1]) ⟨1, 1, 1, 1⟩)
    nlinarith
  · exact hpos.ne' h2

/-- The same two distributions, when only the model, the power and the fraction are fitted, meet the hypotheses
of `C27_mixed_general`. -/
example (num : List ℝ) : IsGradient (fun a => logLhood (mixLd gaussDist expDist mixPoint a) mixPoint)
      ([0] ++ ([1] ++ ([2, 1] ++ [1 / 2]))) ([0] ++ [-2, -1])
      (mixGradient num gaussDist expDist mixPoint ([0] ++ ([1] ++ ([2, 1] ++ [1 / 2]))) ([0] ++ [-2, -1])) := by
  apply C27_mixed_general num gaussDist expDist mixPoint [0] [1] [2, 1] (1 / 2) rfl rfl rfl (by norm_num)
    (by norm_num) [0] (by simp [mixPoint]) [-2, -1] (by decide) (by simp [expDist]) (by decide)
  · have h := gauss_terms mixPoint [0] 1 rfl mixPoint_smooth (mixPoint_offFold _)
      (by intro d _; simp [mixPoint, Prob.varyy, Prob.accuracy]) [0] (by intro k hk; left; simp at hk; simp [hk, mixPoint])
    simpa [gaussDist] using h
  · have h := exp_terms mixPoint [0] 2 1 mixPoint_smooth (mixPoint_offFold _) one_pos
      (by intro d _; simp [expScale, mixPoint, Prob.hasAccuracy, fromEnd])
      (by
        intro d hd
        obtain rfl : d = ⟨1, 1, 1, 1⟩ := by simpa [mixPoint] using hd
        simp [mixPoint, Prob.residual, Prob.fold]) [0, -1]
      (by intro k hk; simp at hk; rcases hk with rfl | rfl <;> simp [mixPoint]) (by decide)
    simpa [expDist] using h
  · intro d hd
    obtain rfl : d = ⟨1, 1, 1, 1⟩ := by simpa [mixPoint] using hd
    have h1 : exp (expDist.ld mixPoint ([0] ++ [2, 1]) ⟨1, 1, 1, 1⟩) = exp (-(1 / 2)) * (1 / 4) := by
      simp only [expDist, expLd]
      simp [mixPoint, expScale, Prob.residual, Prob.fold, Prob.hasAccuracy, fromEnd, allBut, gammaln]
      rw [exp_add, exp_log (by norm_num)]
      norm_num
    have h2 : (1 : ℝ) / 2 ≤ exp (-(1 / 2)) := by
      have := add_one_le_exp (-(1 / 2) : ℝ)
      linarith
    have h3 := exp_pos (gaussDist.ld mixPoint ([0] ++ [1]) ⟨1, 1, 1, 1⟩)
    rw [h1]
    have : floatMin ≤ 1 / 32 := by
      have h5 : (2 : ℝ) ^ (-1022 : ℤ) ≤ (2 : ℝ) ^ (-5 : ℤ) := zpow_le_zpow_right₀ (by norm_num) (by norm_num)
      unfold floatMin
      refine h5.trans (by norm_num)
    nlinarith

end BF.ErrDis
