import Verif.Football
import Mathlib.Analysis.SpecialFunctions.Pow.Deriv
import Mathlib.Tactic.IntervalCases
import Mathlib.Tactic.LinearCombination

/-!
# C99: the football model
-/

noncomputable section

namespace BF.Football

open Real

/-! ## Rows -/

/-- A row from its assignments. -/
def total (l : List (ℕ × ℝ)) (k : ℕ) : ℝ := (l.map fun a => if a.1 = k then a.2 else 0).sum

theorem increase_some (w : ℕ) (l : List (ℕ × ℝ)) (hl : ∀ a ∈ l, a.1 < w) : increase w l = some (total l) := by
  have key : ∀ (l : List (ℕ × ℝ)) (r : ℕ → ℝ), (∀ a ∈ l, a.1 < w) →
      l.foldl (fun r a => r.bind fun r => if a.1 < w then some (Function.update r a.1 (r a.1 + a.2)) else none) (some r) =
        some (fun k => r k + total l k) := by
    intro l
    induction l with
    | nil => intro r _; simp [total]
    | cons a l ih =>
      intro r h
      rw [List.foldl_cons, Option.bind_some, if_pos (h a (by simp)), ih _ (fun b hb => h b (by simp [hb]))]
      congr 1
      funext k
      simp only [total, List.map_cons, List.sum_cons]
      by_cases hk : a.1 = k
      · subst hk; rw [Function.update_self, if_pos rfl]; ring
      · rw [Function.update_of_ne (Ne.symm hk), if_neg hk]; ring
  rw [increase, key l _ hl]
  simp

theorem assign_some (w : ℕ) (l : List (ℕ × ℝ)) (hl : ∀ a ∈ l, a.1 < w) (hn : (l.map Prod.fst).Nodup) :
    assign w l = some (total l) := by
  have key : ∀ (l : List (ℕ × ℝ)) (r : ℕ → ℝ), (∀ a ∈ l, a.1 < w) → (l.map Prod.fst).Nodup → (∀ a ∈ l, r a.1 = 0) →
      l.foldl (fun r a => r.bind fun r => if a.1 < w then some (Function.update r a.1 a.2) else none) (some r) =
        some (fun k => r k + total l k) := by
    intro l
    induction l with
    | nil => intro r _ _ _; simp [total]
    | cons a l ih =>
      intro r h hn hr
      rw [List.map_cons, List.nodup_cons] at hn
      rw [List.foldl_cons, Option.bind_some, if_pos (h a (by simp)), ih _ (fun b hb => h b (by simp [hb])) hn.2]
      · congr 1
        funext k
        simp only [total, List.map_cons, List.sum_cons]
        by_cases hk : a.1 = k
        · subst hk; rw [Function.update_self, if_pos rfl, hr a (by simp)]; ring
        · rw [Function.update_of_ne (Ne.symm hk), if_neg hk]; ring
      · intro b hb
        rw [Function.update_of_ne, hr b (by simp [hb])]
        intro e
        exact hn.1 (e ▸ List.mem_map_of_mem hb)
  rw [assign, key l _ hl hn (fun _ _ => rfl)]
  simp

/-! ## Derivatives along a path -/

/-- Derivative of one parameter to another. -/
abbrev del (j k : ℕ) : ℝ := if j = k then 1 else 0

theorem path (p : ℕ → ℝ) (k j : ℕ) : HasDerivAt (fun t => Function.update p k t j) (del j k) (p k) := by
  by_cases h : j = k
  · subst h
    simp only [Function.update_self, del, if_true]
    exact hasDerivAt_id _
  · simp only [Function.update_of_ne h, del, if_neg h]
    exact hasDerivAt_const _ _

theorem core {A M B E : ℝ → ℝ} {A' M' B' E' s : ℝ} (hA : HasDerivAt A A' s) (hM : HasDerivAt M M' s)
    (hB : HasDerivAt B B' s) (hE : HasDerivAt E E' s) (m0 : 0 < M s) (b0 : 0 < B s) :
    HasDerivAt (fun t => A t * √(M t) * (1 - B t ^ E t))
      ((A' * √(M s) + A s * (M' / (2 * √(M s)))) * (1 - B s ^ E s) -
        A s * √(M s) * (B' * E s * (B s ^ E s / B s) + E' * B s ^ E s * log (B s))) s := by
  refine ((hA.mul (hM.sqrt m0.ne')).mul ((hasDerivAt_const s (1 : ℝ)).sub (hB.rpow hE b0))).congr_deriv ?_
  simp only [Pi.mul_apply, Pi.sub_apply]
  rw [rpow_sub_one b0.ne']
  ring

/-! ## Algebra of the partials -/

theorem alg4h (a b c0 c1 d0 P L s da db dc0 dc1 dd : ℝ) (hb : b ≠ 0) (h1 : c1 ≠ 0) (hd : d0 ≠ 0) (hs : s ≠ 0)
    (h : s ^ 2 = c0 * d0 / c1) :
    (da * s + a * (((dc0 * d0 + c0 * dd) * c1 - c0 * d0 * dc1) / c1 ^ 2 / (2 * s))) * (1 - P) -
        a * s * (db * (c0 * d0 / c1) * (P / b) + ((dc0 * d0 + c0 * dd) * c1 - c0 * d0 * dc1) / c1 ^ 2 * P * L) =
      da * (s * (1 - P)) + db * (-a * s * (c0 * d0 / c1) * P / b) +
        dc0 * (-(a * ((P - 1) * c1 + 2 * P * L * c0 * d0) / (2 * s * c1 * c1)) * d0) +
        dc1 * (a * ((P - 1) * c1 + 2 * P * L * c0 * d0) / (2 * s * c1 * c1) * (c0 * d0 / c1)) +
        dd * (-(a * ((P - 1) * c1 + 2 * P * L * c0 * d0) / (2 * s * c1 * c1)) * c0) := by
  have hc : c0 = s ^ 2 * c1 / d0 := by rw [h]; field_simp
  subst hc
  field_simp
  ring

theorem alg4a (a b c0 c1 d0 P L s da db dc0 dc1 dd : ℝ) (hb : b ≠ 0) (h0 : c0 ≠ 0) (h1 : c1 ≠ 0) (hd : d0 ≠ 0) (hs : s ≠ 0)
    (h : s ^ 2 = 1 / (c0 * d0 / c1)) :
    (da * s + a * ((dc1 * (c0 * d0) - c1 * (dc0 * d0 + c0 * dd)) / (c0 * d0) ^ 2 / (2 * s))) * (1 - P) -
        a * s * (db * (1 / (c0 * d0 / c1)) * (P / b) +
          (dc1 * (c0 * d0) - c1 * (dc0 * d0 + c0 * dd)) / (c0 * d0) ^ 2 * P * L) =
      da * (s * (1 - P)) + db * (-a * s * (1 / (c0 * d0 / c1)) * P / b) +
        dc1 * (-(a * ((P - 1) * c0 * d0 + 2 * P * L * c1) / (2 * s * c0 * c0)) / (d0 * d0)) +
        dc0 * (a * ((P - 1) * c0 * d0 + 2 * P * L * c1) / (2 * s * c0 * c0) * (1 / (c0 * d0 / c1)) / d0) +
        dd * (a * ((P - 1) * c0 * d0 + 2 * P * L * c1) / (2 * s * c0 * c0) * c1 / (d0 * d0 * d0)) := by
  have hc : c1 = s ^ 2 * c0 * d0 := by rw [h]; field_simp
  subst hc
  field_simp
  ring

theorem alg5h (a b c0 c1 d0 f0 f1 P L s da db dc0 dc1 dd df0 df1 : ℝ) (hb : b ≠ 0) (h1 : c1 ≠ 0) (hd : d0 ≠ 0)
    (hf : f0 ≠ 0) (hs : s ≠ 0) (h : s ^ 2 = c0 * d0 * f0 / c1) :
    (da * s + a * ((((dc0 * d0 + c0 * dd) * c1 - c0 * d0 * dc1) / c1 ^ 2 * f0 + c0 * d0 / c1 * df0) / (2 * s))) * (1 - P) -
        a * s * (db * (c0 * d0 * f1 / c1) * (P / b) +
          (((dc0 * d0 + c0 * dd) * c1 - c0 * d0 * dc1) / c1 ^ 2 * f1 + c0 * d0 / c1 * df1) * P * L) =
      da * (-s * (P - 1)) + db * (-a * s * (c0 * d0 * f1 / c1) * P / b) +
        dc0 * (-(a * d0 * f0 * (2 * P * L * (c0 * d0) * f1 + (P - 1) * c1)) / (2 * c1 ^ 2 * s)) +
        dc1 * ((a * (c0 * d0) * f0 * ((P - 1) * c1 + 2 * P * L * (c0 * d0) * f1)) / (2 * s * c1 ^ 3)) +
        dd * (-(a * c0 * f0 * (2 * P * L * (c0 * d0) * f1 + (P - 1) * c1)) / (2 * c1 ^ 2 * s)) +
        df0 * (-(a * (P - 1) * (c0 * d0)) / (2 * c1 * s)) + df1 * (-(a * P * L * (c0 * d0) * s) / c1) := by
  have hc : c0 = s ^ 2 * c1 / (d0 * f0) := by rw [h]; field_simp
  subst hc
  field_simp
  ring

theorem alg5a (a b c0 c1 d0 f0 f1 P L s da db dc0 dc1 dd df0 df1 : ℝ) (hb : b ≠ 0) (h0 : c0 ≠ 0) (hd : d0 ≠ 0)
    (hf : f1 ≠ 0) (hs : s ≠ 0) (h : s ^ 2 = c1 * f1 / (c0 * d0)) :
    (da * s + a * (((dc1 * (c0 * d0) - c1 * (dc0 * d0 + c0 * dd)) / (c0 * d0) ^ 2 * f1 + c1 / (c0 * d0) * df1) / (2 * s))) *
          (1 - P) -
        a * s * (db * (c1 * f0 / (c0 * d0)) * (P / b) +
          ((dc1 * (c0 * d0) - c1 * (dc0 * d0 + c0 * dd)) / (c0 * d0) ^ 2 * f0 + c1 / (c0 * d0) * df0) * P * L) =
      da * (-s * (P - 1)) + db * (-a * s * (c1 * f0 / (c0 * d0)) * P / b) +
        dc1 * (-(a * f1 * (2 * P * L * f0 * c1 + (P - 1) * (c0 * d0))) / (2 * (c0 * d0) ^ 2 * s)) +
        dc0 * ((a * c1 * f1 * ((P - 1) * (c0 * d0) + 2 * P * L * c1 * f0)) / (2 * (c0 * d0) ^ 2 * s * c0)) +
        dd * ((a * c1 * f1 * ((P - 1) * (c0 * d0) + 2 * P * L * c1 * f0)) / (2 * (c0 * d0) ^ 2 * s * d0)) +
        df1 * (-(a * (P - 1) * c1) / (2 * (c0 * d0) * s)) + df0 * (-(a * P * L * c1 * s) / (c0 * d0)) := by
  have hc : c1 = s ^ 2 * c0 * d0 / f1 := by rw [h]; field_simp
  subst hc
  field_simp
  ring

/-! ## Partials per complexity -/

theorem total_cons (a : ℕ × ℝ) (l : List (ℕ × ℝ)) (k : ℕ) : total (a :: l) k = del a.1 k * a.2 + total l k := by
  simp only [total, List.map_cons, List.sum_cons, del]
  split_ifs <;> ring

theorem total_nil (k : ℕ) : total [] k = 0 := rfl

theorem home5 (p : ℕ → ℝ) (x0 x1 k : ℕ) (b1 : 0 < p (x1 * 5 + 1)) (c0 : 0 < p (x0 * 5 + 2)) (c1 : 0 < p (x1 * 5 + 2))
    (d0 : 0 < p (x0 * 5 + 3)) (f0 : 0 < p (x0 * 5 + 4)) :
    HasDerivAt (fun t => (goals5 (Function.update p k t) x0 x1).1) (total (part5 p x0 x1).1 k) (p k) := by
  have hm : HasDerivAt (fun t => Function.update p k t (x0 * 5 + 2) * Function.update p k t (x0 * 5 + 3) /
      Function.update p k t (x1 * 5 + 2)) _ (p k) :=
    ((path p k (x0 * 5 + 2)).mul (path p k (x0 * 5 + 3))).div (path p k (x1 * 5 + 2))
      (by simp only [Function.update_eq_self]; exact c1.ne')
  have h := core (path p k (x0 * 5)) (hm.mul (path p k (x0 * 5 + 4))) (path p k (x1 * 5 + 1))
    (hm.mul (path p k (x1 * 5 + 4)))
    (by simp only [Pi.mul_apply, Pi.div_apply, Function.update_eq_self]; positivity)
    (by simp only [Function.update_eq_self]; exact b1)
  refine h.congr_deriv ?_
  simp only [Pi.mul_apply, Pi.div_apply, Function.update_eq_self, part5, total_cons, total_nil, add_zero]
  have e1 : p (x0 * 5 + 2) * p (x0 * 5 + 3) / p (x1 * 5 + 2) * p (x0 * 5 + 4) =
    p (x0 * 5 + 2) * p (x0 * 5 + 3) * p (x0 * 5 + 4) / p (x1 * 5 + 2) := by ring
  have e2 : p (x0 * 5 + 2) * p (x0 * 5 + 3) / p (x1 * 5 + 2) * p (x1 * 5 + 4) =
    p (x0 * 5 + 2) * p (x0 * 5 + 3) * p (x1 * 5 + 4) / p (x1 * 5 + 2) := by ring
  rw [e1, e2]
  have hs : 0 < √(p (x0 * 5 + 2) * p (x0 * 5 + 3) * p (x0 * 5 + 4) / p (x1 * 5 + 2)) := sqrt_pos.2 (by positivity)
  refine (alg5h _ _ _ _ _ _ _ _ _ _ _ _ _ _ _ _ _ b1.ne' c1.ne' d0.ne' f0.ne' hs.ne' (sq_sqrt (by positivity))).trans ?_
  ring

theorem away5 (p : ℕ → ℝ) (x0 x1 k : ℕ) (b0 : 0 < p (x0 * 5 + 1)) (c0 : 0 < p (x0 * 5 + 2)) (c1 : 0 < p (x1 * 5 + 2))
    (d0 : 0 < p (x0 * 5 + 3)) (f1 : 0 < p (x1 * 5 + 4)) :
    HasDerivAt (fun t => (goals5 (Function.update p k t) x0 x1).2) (total (part5 p x0 x1).2 k) (p k) := by
  have hm : HasDerivAt (fun t => Function.update p k t (x1 * 5 + 2) /
      (Function.update p k t (x0 * 5 + 2) * Function.update p k t (x0 * 5 + 3))) _ (p k) :=
    (path p k (x1 * 5 + 2)).div ((path p k (x0 * 5 + 2)).mul (path p k (x0 * 5 + 3)))
      (by simp only [Pi.mul_apply, Function.update_eq_self]; exact (mul_pos c0 d0).ne')
  have h := core (path p k (x1 * 5)) (hm.mul (path p k (x1 * 5 + 4))) (path p k (x0 * 5 + 1))
    (hm.mul (path p k (x0 * 5 + 4)))
    (by simp only [Pi.mul_apply, Pi.div_apply, Function.update_eq_self]; positivity)
    (by simp only [Function.update_eq_self]; exact b0)
  have hfun : (fun t => (goals5 (Function.update p k t) x0 x1).2) = fun t => Function.update p k t (x1 * 5) *
      √(Function.update p k t (x1 * 5 + 2) / (Function.update p k t (x0 * 5 + 2) * Function.update p k t (x0 * 5 + 3)) *
        Function.update p k t (x1 * 5 + 4)) * (1 - Function.update p k t (x0 * 5 + 1) ^
      (Function.update p k t (x1 * 5 + 2) / (Function.update p k t (x0 * 5 + 2) * Function.update p k t (x0 * 5 + 3)) *
        Function.update p k t (x0 * 5 + 4))) := by
    funext t
    simp only [goals5, one_div_div]
  rw [hfun]
  refine h.congr_deriv ?_
  simp only [Pi.mul_apply, Pi.div_apply, Function.update_eq_self, part5, total_cons, total_nil, add_zero]
  have e1 : p (x1 * 5 + 2) / (p (x0 * 5 + 2) * p (x0 * 5 + 3)) * p (x1 * 5 + 4) =
    p (x1 * 5 + 2) * p (x1 * 5 + 4) / (p (x0 * 5 + 2) * p (x0 * 5 + 3)) := by ring
  have e2 : p (x1 * 5 + 2) / (p (x0 * 5 + 2) * p (x0 * 5 + 3)) * p (x0 * 5 + 4) =
    p (x1 * 5 + 2) * p (x0 * 5 + 4) / (p (x0 * 5 + 2) * p (x0 * 5 + 3)) := by ring
  rw [e1, e2]
  have hs : 0 < √(p (x1 * 5 + 2) * p (x1 * 5 + 4) / (p (x0 * 5 + 2) * p (x0 * 5 + 3))) := sqrt_pos.2 (by positivity)
  refine (alg5a _ _ _ _ _ _ _ _ _ _ _ _ _ _ _ _ _ b0.ne' c0.ne' d0.ne' f1.ne' hs.ne' (sq_sqrt (by positivity))).trans ?_
  ring

theorem home4 (p : ℕ → ℝ) (x0 x1 k : ℕ) (b1 : 0 < p (x1 * 4 + 1)) (c0 : 0 < p (x0 * 4 + 2)) (c1 : 0 < p (x1 * 4 + 2))
    (d0 : 0 < p (x0 * 4 + 3)) :
    HasDerivAt (fun t => (goals4 (Function.update p k t) x0 x1).1) (total (part4 p x0 x1).1 k) (p k) := by
  have hm : HasDerivAt (fun t => Function.update p k t (x0 * 4 + 2) * Function.update p k t (x0 * 4 + 3) /
      Function.update p k t (x1 * 4 + 2)) _ (p k) :=
    ((path p k (x0 * 4 + 2)).mul (path p k (x0 * 4 + 3))).div (path p k (x1 * 4 + 2))
      (by simp only [Function.update_eq_self]; exact c1.ne')
  have h := core (path p k (x0 * 4)) hm (path p k (x1 * 4 + 1)) hm
    (by simp only [Function.update_eq_self]; positivity)
    (by simp only [Function.update_eq_self]; exact b1)
  refine h.congr_deriv ?_
  simp only [Pi.mul_apply, Function.update_eq_self, part4, total_cons, total_nil, add_zero]
  have hs : 0 < √(p (x0 * 4 + 2) * p (x0 * 4 + 3) / p (x1 * 4 + 2)) := sqrt_pos.2 (by positivity)
  refine (alg4h _ _ _ _ _ _ _ _ _ _ _ _ _ b1.ne' c1.ne' d0.ne' hs.ne' (sq_sqrt (by positivity))).trans ?_
  ring

theorem away4 (p : ℕ → ℝ) (x0 x1 k : ℕ) (b0 : 0 < p (x0 * 4 + 1)) (c0 : 0 < p (x0 * 4 + 2)) (c1 : 0 < p (x1 * 4 + 2))
    (d0 : 0 < p (x0 * 4 + 3)) :
    HasDerivAt (fun t => (goals4 (Function.update p k t) x0 x1).2) (total (part4 p x0 x1).2 k) (p k) := by
  have hm : HasDerivAt (fun t => Function.update p k t (x1 * 4 + 2) /
      (Function.update p k t (x0 * 4 + 2) * Function.update p k t (x0 * 4 + 3))) _ (p k) :=
    (path p k (x1 * 4 + 2)).div ((path p k (x0 * 4 + 2)).mul (path p k (x0 * 4 + 3)))
      (by simp only [Pi.mul_apply, Function.update_eq_self]; exact (mul_pos c0 d0).ne')
  have h := core (path p k (x1 * 4)) hm (path p k (x0 * 4 + 1)) hm
    (by simp only [Function.update_eq_self]; positivity)
    (by simp only [Function.update_eq_self]; exact b0)
  have hfun : (fun t => (goals4 (Function.update p k t) x0 x1).2) = fun t => Function.update p k t (x1 * 4) *
      √(Function.update p k t (x1 * 4 + 2) / (Function.update p k t (x0 * 4 + 2) * Function.update p k t (x0 * 4 + 3))) *
        (1 - Function.update p k t (x0 * 4 + 1) ^
      (Function.update p k t (x1 * 4 + 2) / (Function.update p k t (x0 * 4 + 2) * Function.update p k t (x0 * 4 + 3)))) := by
    funext t
    simp only [goals4, one_div_div]
  rw [hfun]
  refine h.congr_deriv ?_
  simp only [Pi.mul_apply, Function.update_eq_self, part4, total_cons, total_nil, add_zero]
  have hs : 0 < √(1 / (p (x0 * 4 + 2) * p (x0 * 4 + 3) / p (x1 * 4 + 2))) := sqrt_pos.2 (by positivity)
  have e := one_div_div (p (x0 * 4 + 2) * p (x0 * 4 + 3)) (p (x1 * 4 + 2))
  rw [← e]
  refine (alg4a _ _ _ _ _ _ _ _ _ _ _ _ _ b0.ne' c0.ne' c1.ne' d0.ne' hs.ne' (sq_sqrt (by positivity))).trans ?_
  ring

theorem home3 (p : ℕ → ℝ) (x0 x1 k : ℕ) (b1 : 0 < p (x1 * 3 + 1)) (c0 : 0 < p (x0 * 3 + 2)) (c1 : 0 < p (x1 * 3 + 2)) :
    HasDerivAt (fun t => (goals3 (Function.update p k t) x0 x1).1) (total (part3 p x0 x1).1 k) (p k) := by
  have hm : HasDerivAt (fun t => Function.update p k t (x0 * 3 + 2) / Function.update p k t (x1 * 3 + 2)) _ (p k) :=
    (path p k (x0 * 3 + 2)).div (path p k (x1 * 3 + 2)) (by simp only [Function.update_eq_self]; exact c1.ne')
  have h := core (path p k (x0 * 3)) hm (path p k (x1 * 3 + 1)) hm
    (by simp only [Function.update_eq_self]; positivity)
    (by simp only [Function.update_eq_self]; exact b1)
  refine h.congr_deriv ?_
  simp only [Function.update_eq_self, part3, total_cons, total_nil, add_zero]
  have hs : 0 < √(p (x0 * 3 + 2) / p (x1 * 3 + 2)) := sqrt_pos.2 (by positivity)
  have g := alg4h (p (x0 * 3)) (p (x1 * 3 + 1)) (p (x0 * 3 + 2)) (p (x1 * 3 + 2)) 1
    (p (x1 * 3 + 1) ^ (p (x0 * 3 + 2) / p (x1 * 3 + 2))) (log (p (x1 * 3 + 1))) _
    (del (x0 * 3) k) (del (x1 * 3 + 1) k) (del (x0 * 3 + 2) k) (del (x1 * 3 + 2) k) 0
    b1.ne' c1.ne' one_ne_zero hs.ne' (by rw [mul_one]; exact sq_sqrt (by positivity))
  simp only [mul_one, mul_zero, zero_mul, add_zero] at g
  refine g.trans ?_
  ring

theorem away3 (p : ℕ → ℝ) (x0 x1 k : ℕ) (b0 : 0 < p (x0 * 3 + 1)) (c0 : 0 < p (x0 * 3 + 2)) (c1 : 0 < p (x1 * 3 + 2)) :
    HasDerivAt (fun t => (goals3 (Function.update p k t) x0 x1).2) (total (part3 p x0 x1).2 k) (p k) := by
  have hm : HasDerivAt (fun t => Function.update p k t (x1 * 3 + 2) / Function.update p k t (x0 * 3 + 2)) _ (p k) :=
    (path p k (x1 * 3 + 2)).div (path p k (x0 * 3 + 2)) (by simp only [Function.update_eq_self]; exact c0.ne')
  have h := core (path p k (x1 * 3)) hm (path p k (x0 * 3 + 1)) hm
    (by simp only [Function.update_eq_self]; positivity)
    (by simp only [Function.update_eq_self]; exact b0)
  have hfun : (fun t => (goals3 (Function.update p k t) x0 x1).2) = fun t => Function.update p k t (x1 * 3) *
      √(Function.update p k t (x1 * 3 + 2) / Function.update p k t (x0 * 3 + 2)) *
        (1 - Function.update p k t (x0 * 3 + 1) ^
      (Function.update p k t (x1 * 3 + 2) / Function.update p k t (x0 * 3 + 2))) := by
    funext t
    simp only [goals3, one_div_div]
  rw [hfun]
  refine h.congr_deriv ?_
  simp only [Function.update_eq_self, part3, total_cons, total_nil, add_zero, one_div_div]
  have hs : 0 < √(p (x1 * 3 + 2) / p (x0 * 3 + 2)) := sqrt_pos.2 (by positivity)
  have g := alg4a (p (x1 * 3)) (p (x0 * 3 + 1)) (p (x0 * 3 + 2)) (p (x1 * 3 + 2)) 1
    (p (x0 * 3 + 1) ^ (p (x1 * 3 + 2) / p (x0 * 3 + 2))) (log (p (x0 * 3 + 1))) _
    (del (x1 * 3) k) (del (x0 * 3 + 1) k) (del (x0 * 3 + 2) k) (del (x1 * 3 + 2) k) 0
    b0.ne' c0.ne' c1.ne' one_ne_zero hs.ne' (by rw [mul_one, one_div_div]; exact sq_sqrt (by positivity))
  simp only [mul_one, mul_zero, zero_mul, add_zero, one_div_div, div_one] at g
  refine g.trans ?_
  ring

theorem home2 (p : ℕ → ℝ) (x0 x1 k : ℕ) :
    HasDerivAt (fun t => (goals2 (Function.update p k t) x0 x1).1) (total (part2 p x0 x1).1 k) (p k) := by
  refine ((path p k (x0 * 2)).mul ((hasDerivAt_const _ (1 : ℝ)).sub (path p k (x1 * 2 + 1)))).congr_deriv ?_
  simp only [Pi.sub_apply, Function.update_eq_self, part2, total_cons, total_nil]
  ring

theorem away2 (p : ℕ → ℝ) (x0 x1 k : ℕ) :
    HasDerivAt (fun t => (goals2 (Function.update p k t) x0 x1).2) (total (part2 p x0 x1).2 k) (p k) := by
  refine ((path p k (x1 * 2)).mul ((hasDerivAt_const _ (1 : ℝ)).sub (path p k (x0 * 2 + 1)))).congr_deriv ?_
  simp only [Pi.sub_apply, Function.update_eq_self, part2, total_cons, total_nil]
  ring

/-! ## The claims -/

/-- What the model says about one match: the scores of the home team and of the away team. -/
def Scores (n : ℕ) (x0 x1 : ℕ) (f : (ℕ → ℝ) → ℝ × ℝ) : Prop := ∀ q, result n q x0 x1 = some (f q)

/-- C99. The partials are the derivatives of the scores to all parameters of all teams, for each complexity. Defense and, for
the higher complexities, the other parameters of the two teams must be positive. -/
theorem C99_partials (n teams x0 x1 : ℕ) (h1 : 1 ≤ n) (h5 : n ≤ 5) (hx0 : x0 < teams) (hx1 : x1 < teams) (hx : x0 ≠ x1)
    (p : ℕ → ℝ) (hp : 3 ≤ n → ∀ i, 1 ≤ i → i < n → 0 < p (n * x0 + i) ∧ 0 < p (n * x1 + i)) :
    ∃ f home away, Scores n x0 x1 f ∧ basePartial n (n * teams) p x0 x1 = some (home, away) ∧
      ∀ k, HasDerivAt (fun t => (f (Function.update p k t)).1) (home k) (p k) ∧
        HasDerivAt (fun t => (f (Function.update p k t)).2) (away k) (p k) := by
  interval_cases n
  · refine ⟨fun q => goals1 q x0 x1, total (part1 x0 x1).1, total (part1 x0 x1).2, fun q => rfl, ?_, fun k => ⟨?_, ?_⟩⟩
    · simp only [basePartial]
      rw [assign_some, assign_some] <;> simp [part1] <;> omega
    · refine (path p k x0).congr_deriv ?_
      simp [part1, total_cons, total_nil]
    · refine (path p k x1).congr_deriv ?_
      simp [part1, total_cons, total_nil]
  · refine ⟨fun q => goals2 q x0 x1, total (part2 p x0 x1).1, total (part2 p x0 x1).2, fun q => rfl, ?_,
      fun k => ⟨home2 p x0 x1 k, away2 p x0 x1 k⟩⟩
    simp only [basePartial]
    rw [assign_some, assign_some] <;> simp [part2] <;> omega
  · have hp' := hp le_rfl
    refine ⟨fun q => goals3 q x0 x1, total (part3 p x0 x1).1, total (part3 p x0 x1).2, fun q => rfl, ?_,
      fun k => ⟨home3 p x0 x1 k ?_ ?_ ?_, away3 p x0 x1 k ?_ ?_ ?_⟩⟩
    · simp only [basePartial]
      rw [increase_some, increase_some] <;> simp [part3] <;> omega
    all_goals
      rw [mul_comm]
      first
      | exact (hp' _ (by norm_num) (by norm_num)).1
      | exact (hp' _ (by norm_num) (by norm_num)).2
  · have hp' := hp (by norm_num)
    refine ⟨fun q => goals4 q x0 x1, total (part4 p x0 x1).1, total (part4 p x0 x1).2, fun q => rfl, ?_,
      fun k => ⟨home4 p x0 x1 k ?_ ?_ ?_ ?_, away4 p x0 x1 k ?_ ?_ ?_ ?_⟩⟩
    · simp only [basePartial]
      rw [assign_some, assign_some] <;> simp [part4] <;> omega
    all_goals
      rw [mul_comm]
      first
      | exact (hp' _ (by norm_num) (by norm_num)).1
      | exact (hp' _ (by norm_num) (by norm_num)).2
  · have hp' := hp (by norm_num)
    refine ⟨fun q => goals5 q x0 x1, total (part5 p x0 x1).1, total (part5 p x0 x1).2, fun q => rfl, ?_,
      fun k => ⟨home5 p x0 x1 k ?_ ?_ ?_ ?_ ?_, away5 p x0 x1 k ?_ ?_ ?_ ?_ ?_⟩⟩
    · simp only [basePartial]
      rw [assign_some, assign_some] <;> simp [part5] <;> omega
    all_goals
      rw [mul_comm]
      first
      | exact (hp' _ (by norm_num) (by norm_num)).1
      | exact (hp' _ (by norm_num) (by norm_num)).2

/-- Three teams, all parameters 1/2: the conditions of `C99_partials` are met. -/
example : ∃ f home away, Scores 5 2 0 f ∧ basePartial 5 15 (fun _ => 1 / 2) 2 0 = some (home, away) ∧
    ∀ k, HasDerivAt (fun t => (f (Function.update (fun _ => 1 / 2) k t)).1) (home k) (1 / 2) ∧
      HasDerivAt (fun t => (f (Function.update (fun _ => 1 / 2) k t)).2) (away k) (1 / 2) :=
  C99_partials 5 3 2 0 (by norm_num) (by norm_num) (by norm_num) (by norm_num) (by norm_num) (fun _ => 1 / 2)
    (fun _ _ _ _ => ⟨by norm_num, by norm_num⟩)

/-- C99. Outside the range 1 to 5 of the complexity there is no model. -/
theorem C99_complexity (n : ℕ) (p : ℕ → ℝ) (x0 x1 : ℕ) : (result n p x0 x1).isSome ↔ 1 ≤ n ∧ n ≤ 5 := by
  constructor
  · intro h
    match n, h with
    | 1, _ | 2, _ | 3, _ | 4, _ | 5, _ => norm_num
  · rintro ⟨h1, h5⟩
    interval_cases n <;> rfl

/-- The defaults of the documentation: defense 0, midfield, home advantage and strategy 1. -/
def default (i : ℕ) : ℝ := if i = 1 then 0 else 1

/-- C99. The default values have no effect: a model of higher complexity with the further parameters at their defaults has the
same scores as the simpler model. -/
theorem C99_nested (n m : ℕ) (h1 : 1 ≤ n) (hnm : n ≤ m) (h5 : m ≤ 5) (p q : ℕ → ℝ) (x0 x1 : ℕ)
    (hsame : ∀ team, team = x0 ∨ team = x1 → ∀ i, i < n → q (m * team + i) = p (n * team + i))
    (hdef : ∀ team, team = x0 ∨ team = x1 → ∀ i, n ≤ i → i < m → q (m * team + i) = default i) :
    result m q x0 x1 = result n p x0 x1 := by
  have a0 := hsame x0 (Or.inl rfl)
  have a1 := hsame x1 (Or.inr rfl)
  have d0 := hdef x0 (Or.inl rfl)
  have d1 := hdef x1 (Or.inr rfl)
  clear hsame hdef
  have split : ∀ x : ℕ, (∀ i, i < n → q (m * x + i) = p (n * x + i)) → (∀ i, n ≤ i → i < m → q (m * x + i) = default i) →
      ∀ i, i < m → q (x * m + i) = if i < n then p (x * n + i) else default i := by
    intro x ha hd i hi
    rw [mul_comm x m, mul_comm x n]
    split_ifs with h
    · exact ha i h
    · exact hd i (by omega) hi
  have e0 := split x0 a0 d0
  have e1 := split x1 a1 d1
  clear split a0 a1 d0 d1
  have z0 := e0 0 (by omega)
  have z1 := e1 0 (by omega)
  rw [if_pos (by omega), add_zero, add_zero] at z0 z1
  interval_cases m <;> interval_cases n <;>
    simp [result, goals1, goals2, goals3, goals4, goals5, default, z0, z1, e0, e1] at * <;> simp [*]

/-- Two teams with 2 and 3 trials: at the defaults the most complex model returns the trials. -/
example : result 5 (fun k => if k = 0 then 2 else if k = 5 then 3 else default (k % 5)) 0 1 = some (2, 3) := by
  rw [C99_nested 1 5 (by norm_num) (by norm_num) (by norm_num) (fun k => if k = 0 then 2 else 3)]
  · simp [result, goals1]
  · rintro team (rfl | rfl) i hi <;> interval_cases i <;> simp
  · rintro team (rfl | rfl) i h1 h5 <;> interval_cases i <;> simp [default]

/-- C99. At complexity 4 the scores are those of the documented equations. -/
theorem C99_equations (p : ℕ → ℝ) (h a : ℕ) :
    result 4 p h a =
      some (p (4 * h) * √(p (4 * h + 2) * p (4 * h + 3) / p (4 * a + 2)) *
          (1 - p (4 * a + 1) ^ (p (4 * h + 2) * p (4 * h + 3) / p (4 * a + 2))),
        p (4 * a) * √(p (4 * a + 2) / (p (4 * h + 2) * p (4 * h + 3))) *
          (1 - p (4 * h + 1) ^ (p (4 * a + 2) / (p (4 * h + 2) * p (4 * h + 3))))) := by
  simp only [result, goals4, one_div_div, mul_comm h, mul_comm a]

/-- C99. Only the home advantage tells home from away: without it, teams which exchange home and away exchange their scores. -/
theorem C99_swap (n : ℕ) (p : ℕ → ℝ) (x0 x1 : ℕ) (hd : 4 ≤ n → p (n * x0 + 3) = 1 ∧ p (n * x1 + 3) = 1) :
    result n p x1 x0 = (result n p x0 x1).map Prod.swap := by
  match n, hd with
  | 0, _ => rfl
  | 1, _ => rfl
  | 2, _ => rfl
  | 3, _ => simp [result, goals3]
  | 4, hd =>
    have := hd le_rfl
    rw [mul_comm 4 x0, mul_comm 4 x1] at this
    simp [result, goals4, this.1, this.2]
  | 5, hd =>
    have := hd (by norm_num)
    rw [mul_comm 5 x0, mul_comm 5 x1] at this
    simp [result, goals5, this.1, this.2]
  | n + 6, _ => rfl

/-- The scores grow with the ratio of the strengths in midfield. -/
theorem grows {b e f m m' : ℝ} (hb0 : 0 < b) (hb1 : b < 1) (he : 0 < e) (hf : 0 < f) (hm : 0 < m) (h : m < m') :
    √(m * e) * (1 - b ^ (m * f)) < √(m' * e) * (1 - b ^ (m' * f)) := by
  have h1 : √(m * e) < √(m' * e) := sqrt_lt_sqrt (by positivity) (by nlinarith)
  have h2 : b ^ (m' * f) < b ^ (m * f) := rpow_lt_rpow_of_exponent_gt hb0 hb1 (by nlinarith)
  have h3 : b ^ (m * f) < 1 := rpow_lt_one hb0.le hb1 (by positivity)
  have h4 : 0 < √(m * e) := sqrt_pos.2 (by positivity)
  nlinarith

/-- Parameters of a team inside the documented limits. -/
def Inside (n : ℕ) (p : ℕ → ℝ) (x : ℕ) : Prop :=
  0 < p (n * x) ∧ (2 ≤ n → 0 < p (n * x + 1) ∧ p (n * x + 1) < 1) ∧ ∀ i, 2 ≤ i → i < n → 0 < p (n * x + i)

theorem positive_core {a m e b f : ℝ} (ha : 0 < a) (hm : 0 < m * e) (hb0 : 0 < b) (hb1 : b < 1) (hf : 0 < m * f) :
    0 < a * √(m * e) * (1 - b ^ (m * f)) := by
  have h3 : b ^ (m * f) < 1 := rpow_lt_one hb0.le hb1 hf
  have h4 : 0 < √(m * e) := sqrt_pos.2 hm
  have : 0 < 1 - b ^ (m * f) := by linarith
  positivity

/-- C99. Inside the documented limits both teams have a positive score. -/
theorem C99_positive (n : ℕ) (p : ℕ → ℝ) (x0 x1 : ℕ) (h0 : Inside n p x0) (h1 : Inside n p x1) (s0 s1 : ℝ)
    (h : result n p x0 x1 = some (s0, s1)) : 0 < s0 ∧ 0 < s1 := by
  have hn := (C99_complexity n p x0 x1).1 (by rw [h]; rfl)
  obtain ⟨hn1, hn5⟩ := hn
  obtain ⟨a0, b0, r0⟩ := h0
  obtain ⟨a1, b1, r1⟩ := h1
  interval_cases n
  · simp only [result, goals1, Option.some.injEq, Prod.mk.injEq] at h
    rw [← h.1, ← h.2]
    simpa using And.intro a0 a1
  · simp only [result, goals2, Option.some.injEq, Prod.mk.injEq, mul_comm _ 2] at h
    rw [← h.1, ← h.2]
    have b0 := b0 le_rfl
    have b1 := b1 le_rfl
    exact ⟨mul_pos a0 (by linarith), mul_pos a1 (by linarith)⟩
  · simp only [result, goals3, Option.some.injEq, Prod.mk.injEq, mul_comm _ 3] at h
    rw [← h.1, ← h.2]
    have b0 := b0 (by norm_num)
    have b1 := b1 (by norm_num)
    have c0 := r0 2 le_rfl (by norm_num)
    have c1 := r1 2 le_rfl (by norm_num)
    have g := positive_core a0 (m := p (3 * x0 + 2) / p (3 * x1 + 2)) (e := 1) (f := 1) (by positivity) b1.1 b1.2 (by positivity)
    have g' := positive_core a1 (m := 1 / (p (3 * x0 + 2) / p (3 * x1 + 2))) (e := 1) (f := 1) (by positivity) b0.1 b0.2
      (by positivity)
    rw [mul_one] at g g'
    exact ⟨g, g'⟩
  · simp only [result, goals4, Option.some.injEq, Prod.mk.injEq, mul_comm _ 4] at h
    rw [← h.1, ← h.2]
    have b0 := b0 (by norm_num)
    have b1 := b1 (by norm_num)
    have c0 := r0 2 le_rfl (by norm_num)
    have c1 := r1 2 le_rfl (by norm_num)
    have d0 := r0 3 (by norm_num) (by norm_num)
    have g := positive_core a0 (m := p (4 * x0 + 2) * p (4 * x0 + 3) / p (4 * x1 + 2)) (e := 1) (f := 1) (by positivity)
      b1.1 b1.2 (by positivity)
    have g' := positive_core a1 (m := 1 / (p (4 * x0 + 2) * p (4 * x0 + 3) / p (4 * x1 + 2))) (e := 1) (f := 1)
      (by positivity) b0.1 b0.2 (by positivity)
    rw [mul_one] at g g'
    exact ⟨g, g'⟩
  · simp only [result, goals5, Option.some.injEq, Prod.mk.injEq, mul_comm _ 5] at h
    rw [← h.1, ← h.2]
    have b0 := b0 (by norm_num)
    have b1 := b1 (by norm_num)
    have c0 := r0 2 le_rfl (by norm_num)
    have c1 := r1 2 le_rfl (by norm_num)
    have d0 := r0 3 (by norm_num) (by norm_num)
    have f0 := r0 4 (by norm_num) (by norm_num)
    have f1 := r1 4 (by norm_num) (by norm_num)
    exact ⟨positive_core a0 (by positivity) b1.1 b1.2 (by positivity), positive_core a1 (by positivity) b0.1 b0.2 (by positivity)⟩

/-- C99. A larger home advantage of the home team gives it a larger score and its opponent a smaller one. The home advantage of
the other team is of no account. -/
theorem C99_home (n : ℕ) (hn : n = 4 ∨ n = 5) (p : ℕ → ℝ) (x0 x1 : ℕ) (hx : x0 ≠ x1) (h0 : Inside n p x0)
    (h1 : Inside n p x1) (d e : ℝ) (hd : p (n * x0 + 3) < d) (s0 s1 t0 t1 : ℝ) (hs : result n p x0 x1 = some (s0, s1))
    (ht : result n (Function.update (Function.update p (n * x0 + 3) d) (n * x1 + 3) e) x0 x1 = some (t0, t1)) :
    s0 < t0 ∧ t1 < s1 := by
  obtain ⟨a0, b0, r0⟩ := h0
  obtain ⟨a1, b1, r1⟩ := h1
  have b0 := b0 (by omega)
  have b1 := b1 (by omega)
  have c0 := r0 2 le_rfl (by omega)
  have c1 := r1 2 le_rfl (by omega)
  have d0 := r0 3 (by norm_num) (by omega)
  have hm : p (n * x0 + 2) * p (n * x0 + 3) / p (n * x1 + 2) < p (n * x0 + 2) * d / p (n * x1 + 2) := by
    gcongr
  have hm0 : 0 < p (n * x0 + 2) * p (n * x0 + 3) / p (n * x1 + 2) := by positivity
  have hm1 : 1 / (p (n * x0 + 2) * d / p (n * x1 + 2)) < 1 / (p (n * x0 + 2) * p (n * x0 + 3) / p (n * x1 + 2)) :=
    one_div_lt_one_div_of_lt hm0 hm
  have hm2 : 0 < 1 / (p (n * x0 + 2) * d / p (n * x1 + 2)) := one_div_pos.2 (hm0.trans hm)
  rcases hn with rfl | rfl
  · have u : ∀ j, j ≠ 4 * x0 + 3 → j ≠ 4 * x1 + 3 →
        Function.update (Function.update p (4 * x0 + 3) d) (4 * x1 + 3) e j = p j := by
      intro j h h'
      rw [Function.update_of_ne h', Function.update_of_ne h]
    have u3 : Function.update (Function.update p (4 * x0 + 3) d) (4 * x1 + 3) e (4 * x0 + 3) = d := by
      rw [Function.update_of_ne (by omega), Function.update_self]
    simp only [result, goals4, Option.some.injEq, Prod.mk.injEq, mul_comm _ 4, u3] at hs ht
    rw [u _ (by omega) (by omega), u _ (by omega) (by omega), u _ (by omega) (by omega), u _ (by omega) (by omega),
      u _ (by omega) (by omega), u _ (by omega) (by omega)] at ht
    rw [← hs.1, ← hs.2, ← ht.1, ← ht.2]
    have g := grows (e := 1) (f := 1) b1.1 b1.2 one_pos one_pos hm0 hm
    have g' := grows (e := 1) (f := 1) b0.1 b0.2 one_pos one_pos hm2 hm1
    simp only [mul_one] at g g'
    constructor
    · rw [mul_assoc, mul_assoc]; exact mul_lt_mul_of_pos_left g a0
    · rw [mul_assoc, mul_assoc]; exact mul_lt_mul_of_pos_left g' a1
  · have f0 := r0 4 (by norm_num) (by norm_num)
    have f1 := r1 4 (by norm_num) (by norm_num)
    have u : ∀ j, j ≠ 5 * x0 + 3 → j ≠ 5 * x1 + 3 →
        Function.update (Function.update p (5 * x0 + 3) d) (5 * x1 + 3) e j = p j := by
      intro j h h'
      rw [Function.update_of_ne h', Function.update_of_ne h]
    have u3 : Function.update (Function.update p (5 * x0 + 3) d) (5 * x1 + 3) e (5 * x0 + 3) = d := by
      rw [Function.update_of_ne (by omega), Function.update_self]
    simp only [result, goals5, Option.some.injEq, Prod.mk.injEq, mul_comm _ 5, u3] at hs ht
    rw [u (5 * x0) (by omega) (by omega), u (5 * x0 + 2) (by omega) (by omega), u (5 * x1 + 2) (by omega) (by omega),
      u (5 * x0 + 4) (by omega) (by omega), u (5 * x1 + 1) (by omega) (by omega), u (5 * x1 + 4) (by omega) (by omega),
      u (5 * x1) (by omega) (by omega), u (5 * x0 + 1) (by omega) (by omega)] at ht
    rw [← hs.1, ← hs.2, ← ht.1, ← ht.2]
    have g := grows b1.1 b1.2 f0 f1 hm0 hm
    have g' := grows b0.1 b0.2 f1 f0 hm2 hm1
    constructor
    · rw [mul_assoc, mul_assoc]; exact mul_lt_mul_of_pos_left g a0
    · rw [mul_assoc, mul_assoc]; exact mul_lt_mul_of_pos_left g' a1

/-- Teams at 1/2: the conditions of `C99_home` are met. -/
example : ∃ s0 s1 t0 t1, result 4 (fun _ => 1 / 2) 0 1 = some (s0, s1) ∧
    result 4 (Function.update (Function.update (fun _ => 1 / 2) 3 1) 7 1) 0 1 = some (t0, t1) ∧ s0 < t0 ∧ t1 < s1 := by
  have hI : ∀ x, Inside 4 (fun _ => 1 / 2) x := fun x =>
    ⟨by norm_num, fun _ => ⟨by norm_num, by norm_num⟩, fun _ _ _ => by norm_num⟩
  exact ⟨_, _, _, _, rfl, rfl, C99_home 4 (Or.inl rfl) _ 0 1 (by norm_num) (hI 0) (hI 1) 1 1 (by norm_num) _ _ _ _ rfl rfl⟩

/-! ## Priors and fixed parameters -/

/-- C99. When the football model is the last of the chain, a parameter of any team has the prior of that kind of
parameter; the priors of the preceding models are theirs. Not so for models behind it, see
`C99_counterexample_priors`. -/
theorem C99_priors_partial {P : Type*} (front : List (Link P)) (hf : ∀ m ∈ front, m.complexity = none) (m : Link P) (c : ℕ)
    (hm : m.complexity = some c) (team i : ℕ) (hi : i < c) :
    getPrior (front ++ [m]) ((front.map Link.npbase).sum + (c * team + i)) = some (m.prior i) := by
  induction front with
  | nil =>
    simp only [List.nil_append, List.map_nil, List.sum_nil, zero_add, getPrior, hm, Nat.mul_add_mod, Nat.mod_eq_of_lt hi]
  | cons a l ih =>
    have ha := hf a (by simp)
    simp only [List.cons_append, getPrior, ha, List.map_cons, List.sum_cons]
    rw [if_neg (by omega), Nat.add_assoc, Nat.add_sub_cancel_left]
    exact ih (fun m hm => hf m (by simp [hm]))

/-- C99. A football model never asks the models behind it: any parameter of a following model gets a prior of the football
model, and so do parameters that do not exist. -/
theorem C99_counterexample_priors {P : Type*} (m : Link P) (c : ℕ) (hm : m.complexity = some c) (rest : List (Link P))
    (k : ℕ) : getPrior (m :: rest) k = some (m.prior (k % c)) := by
  simp only [getPrior, hm]

/-- Two teams of complexity 2 and a model behind it whose prior is 7: the prior of its first parameter is 0. -/
example : getPrior [(⟨4, some 2, fun k => k⟩ : Link ℕ), ⟨1, none, fun _ => 7⟩] 4 = some 0 := rfl

/-- C99. With fixed parameters the partials cannot be calculated: as soon as the last team plays at home an exception is
raised. -/
theorem C99_counterexample_fixed (n teams nfixed x1 : ℕ) (h1 : 1 ≤ n) (h5 : n ≤ 5) (ht : 1 ≤ teams) (hf : 1 ≤ nfixed)
    (p : ℕ → ℝ) : basePartial n (n * teams - nfixed) p (teams - 1) x1 = none := by
  have key : ∀ (w : ℕ) (g : (ℕ → ℝ) → ℕ × ℝ → ℝ) (l : List (ℕ × ℝ)) (r : Option (ℕ → ℝ)), (∃ a ∈ l, w ≤ a.1) →
      l.foldl (fun r a => r.bind fun r => if a.1 < w then some (Function.update r a.1 (g r a)) else none) r = none := by
    intro w g l
    have nn : ∀ l : List (ℕ × ℝ), l.foldl (fun r a => r.bind fun r => if a.1 < w then
        some (Function.update r a.1 (g r a)) else none) (none : Option (ℕ → ℝ)) = none := by
      intro l
      induction l with
      | nil => rfl
      | cons a l ih => exact ih
    induction l with
    | nil => rintro r ⟨a, ha, _⟩; simp at ha
    | cons b l ih =>
      rintro r ⟨a, ha, hw⟩
      rw [List.foldl_cons]
      rcases List.mem_cons.1 ha with rfl | ha
      · have : (r.bind fun r => if a.1 < w then some (Function.update r a.1 (g r a)) else none) = none := by
          rcases r with _ | r
          · rfl
          · rw [Option.bind_some, if_neg (by omega)]
        rw [this, nn]
      · exact ih _ ⟨a, ha, hw⟩
  have ka : ∀ (w i : ℕ) (l : List (ℕ × ℝ)), i ∈ l.map Prod.fst → w ≤ i → assign w l = none := by
    intro w i l hi hw
    obtain ⟨a, ha, rfl⟩ := List.mem_map.1 hi
    exact key w (fun _ a => a.2) l _ ⟨a, ha, hw⟩
  have ki : ∀ (w i : ℕ) (l : List (ℕ × ℝ)), i ∈ l.map Prod.fst → w ≤ i → increase w l = none := by
    intro w i l hi hw
    obtain ⟨a, ha, rfl⟩ := List.mem_map.1 hi
    exact key w (fun r a => r a.1 + a.2) l _ ⟨a, ha, hw⟩
  interval_cases n <;> simp only [basePartial]
  · rw [ka _ (teams - 1) (part1 _ _).1 (by simp [part1]) (by omega)]
  · rw [ka _ ((teams - 1) * 2 + 1) (part2 p _ _).2 (by simp [part2]) (by omega)]
    cases assign (2 * teams - nfixed) (part2 p (teams - 1) x1).1 <;> rfl
  · rw [ki _ ((teams - 1) * 3 + 2) (part3 p _ _).1 (by simp [part3]) (by omega)]
  · rw [ka _ ((teams - 1) * 4 + 3) (part4 p _ _).1 (by simp [part4]) (by omega)]
  · rw [ka _ ((teams - 1) * 5 + 4) (part5 p _ _).1 (by simp [part5]) (by omega)]

/-- C99. With fixed parameters and no exception the columns are wrong: three teams, that of team 0 fixed, so that column 0 is
for team 1. The score of team 0 does not depend on it, but the partial says it does. -/
theorem C99_counterexample_columns (p : ℕ → ℝ) :
    ∃ home away, basePartial 1 2 p 0 1 = some (home, away) ∧ home 0 = 1 ∧
      HasDerivAt (fun t => (goals1 (Function.update p 1 t) 0 1).1) 0 (p 1) := by
  refine ⟨_, _, rfl, ?_, ?_⟩
  · simp
  · exact (path p 1 0).congr_deriv (by simp)

end BF.Football
