import Verif.Salesman
import Mathlib.Tactic.Linarith
import Mathlib.Tactic.Ring
import Mathlib.Tactic.Positivity
import Mathlib.Tactic.LinearCombination

/-!
# C02: tour lengths
-/

namespace BF
namespace Salesman

variable {α : Type*}

/-- Specification: length of the closed tour through the cities of a list, as the sum over the
positions of the distance to the (cyclically) next city. -/
noncomputable def tourLength (dist : α → α → ℝ) (l : List α) : ℝ :=
  ∑ i : Fin l.length, dist l[i] (l[(i.1 + 1) % l.length]'(Nat.mod_lt _ (by have := i.2; omega)))

theorem legs_length (dist : α → α → ℝ) (l : List α) (k : ℕ) : (legs dist l k).length = l.length := by
  simp [legs]

theorem legs_sum (dist : α → α → ℝ) (l : List α) : (legs dist l).sum = tourLength dist l := by
  unfold tourLength
  rw [← List.sum_ofFn]
  congr 1
  apply List.ext_getElem
  · simp [legs]
  · intro i h1 h2
    simp [legs, List.getElem_rotate]

/-- A closed tour of n cities has exactly n legs, leg i is the distance between city i and the next
one (cyclically) divided by the scale. -/
theorem C02_legs (dist : α → α → ℝ) (scale : ℝ) (l : List α) :
    (result dist scale false none l).length = l.length ∧
    ∀ (i : ℕ) (h : i < l.length), (result dist scale false none l)[i]? =
      some (dist l[i] (l[(i + 1) % l.length]'(Nat.mod_lt _ (by omega))) / scale) := by
  refine ⟨by simp [result, legs_length], ?_⟩
  intro i h
  simp [result, legs, h, List.getElem_rotate]

/-- One way: all legs as in the closed tour but the last one, which is zero. -/
theorem C02_oneway (dist : α → α → ℝ) (scale : ℝ) (l : List α) (i : ℕ) (h : i < l.length) :
    (result dist scale true none l)[i]? =
      if i = l.length - 1 then some 0 else (result dist scale false none l)[i]? := by
  simp only [result, if_true, List.getElem?_set, Bool.false_eq_true, if_false, List.length_map,
    legs_length]
  by_cases hi : i = l.length - 1
  · subst hi; simp [h]
  · simp [hi, Ne.symm hi]

theorem sum_neg_map (l : List ℝ) : (l.map (- ·)).sum = - l.sum := by
  induction l with
  | nil => simp
  | cons a l ih => rw [List.map_cons, List.sum_cons, ih, List.sum_cons]; ring

theorem sum_div_map (l : List ℝ) (s : ℝ) : (l.map (· / s)).sum = l.sum / s := by
  induction l with
  | nil => simp
  | cons a l ih => rw [List.map_cons, List.sum_cons, ih, List.sum_cons]; ring

/-- The log likelihood of a tour is minus its length over the scale, by both formulas. -/
theorem C02_logL (dist : α → α → ℝ) (scale : ℝ) (l : List α) :
    logLikelihood (result dist scale false none l) = - (tourLength dist l / scale) ∧
    ∀ res, logLikelihoodAlt res = logLikelihood res := by
  constructor
  · simp only [logLikelihood, logLdata, result, Bool.false_eq_true, if_false]
    rw [sum_neg_map, sum_div_map, legs_sum]
  · intro res
    simp only [logLikelihood, logLikelihoodAlt, logLdata]
    rw [sum_neg_map]

theorem legs_rotate (dist : α → α → ℝ) (l : List α) (n : ℕ) :
    legs dist (l.rotate n) = (legs dist l).rotate n := by
  unfold legs
  rw [List.zipWith_rotate_distrib _ _ _ _ (by simp), List.rotate_rotate, List.rotate_rotate,
    Nat.add_comm]

/-- Starting the tour at another city changes neither its length nor the likelihood, with or without
weights. -/
theorem C02_rotation (dist : α → α → ℝ) (scale : ℝ) (w : Option (α → ℝ)) (l : List α) (n : ℕ) :
    logLikelihood (result dist scale false w (l.rotate n)) =
      logLikelihood (result dist scale false w l) := by
  simp only [logLikelihood, logLdata, result, Bool.false_eq_true, if_false]
  rw [sum_neg_map, sum_neg_map]
  congr 1
  cases w with
  | none =>
    simp only
    rw [legs_rotate, List.map_rotate]
    exact (List.rotate_perm _ _).sum_eq
  | some w =>
    simp only
    rw [legs_rotate, List.map_rotate, List.map_rotate,
      ← List.zipWith_rotate_distrib _ _ _ _ (by simp [legs_length])]
    exact (List.rotate_perm _ _).sum_eq

/-- Running through the tour backwards does not change it either, when the distance is
symmetric. -/
theorem C02_reversal (dist : α → α → ℝ) (hs : ∀ a b, dist a b = dist b a) (scale : ℝ)
    (l : List α) :
    logLikelihood (result dist scale false none l.reverse) =
      logLikelihood (result dist scale false none l) := by
  rw [(C02_logL dist scale l.reverse).1, (C02_logL dist scale l).1, ← legs_sum, ← legs_sum]
  congr 2
  rcases Nat.eq_zero_or_pos l.length with h0 | h0
  · rw [List.length_eq_zero_iff] at h0; subst h0; rfl
  set m := l.length - 1 % l.length with hm
  have h1 : legs dist l.reverse = (List.zipWith dist l (l.rotate m)).reverse := by
    unfold legs
    rw [List.rotate_reverse, ← hm]
    apply List.ext_getElem
    · simp
    · intro i hi1 hi2
      simp
  have h2 : l.rotate (m + 1) = l := by
    rw [← List.rotate_mod]
    have : (m + 1) % l.length = 0 := by
      rcases Nat.lt_or_ge 1 l.length with h | h
      · rw [hm, Nat.mod_eq_of_lt h, Nat.sub_add_cancel h0, Nat.mod_self]
      · have : l.length = 1 := by omega
        rw [this]; exact Nat.mod_one _
    rw [this, List.rotate_zero]
  have h3 : (List.zipWith dist l (l.rotate m)).rotate 1 = legs dist l := by
    rw [List.zipWith_rotate_distrib _ _ _ _ (by simp), List.rotate_rotate, h2]
    unfold legs
    exact List.zipWith_comm_of_comm hs
  rw [h1, ← h3]
  exact ((List.reverse_perm _).trans (List.rotate_perm _ _).symm).sum_eq

/-- Lengths are never negative. -/
theorem C02_nonneg (dist : α → α → ℝ) (h0 : ∀ a b, 0 ≤ dist a b) (scale : ℝ) (hsc : 0 < scale)
    (w : Option (α → ℝ)) (hw : ∀ f ∈ w, ∀ a, 0 ≤ f a) (oneway : Bool) (l : List α) :
    (∀ r ∈ result dist scale oneway w l, 0 ≤ r) ∧
    logLikelihood (result dist scale oneway w l) ≤ 0 := by
  have h1 : ∀ r ∈ (legs dist l).map (· / scale), 0 ≤ r := by
    intro r hr
    obtain ⟨q, hq, rfl⟩ := List.mem_map.1 hr
    unfold legs at hq
    rw [List.mem_iff_getElem] at hq
    obtain ⟨i, hi, rfl⟩ := hq
    rw [List.getElem_zipWith]
    exact div_nonneg (h0 _ _) hsc.le
  have h2 : ∀ r ∈ (if oneway then ((legs dist l).map (· / scale)).set
      (((legs dist l).map (· / scale)).length - 1) 0 else (legs dist l).map (· / scale)), 0 ≤ r := by
    intro r hr
    split at hr
    · rcases List.mem_or_eq_of_mem_set hr with h | h
      · exact h1 r h
      · rw [h]
    · exact h1 r hr
  have h3 : ∀ r ∈ result dist scale oneway w l, 0 ≤ r := by
    intro r hr
    unfold result at hr
    cases w with
    | none => exact h2 r hr
    | some f =>
      simp only at hr
      rw [List.mem_iff_getElem] at hr
      obtain ⟨i, hi, rfl⟩ := hr
      rw [List.getElem_zipWith]
      refine mul_nonneg (h2 _ (List.getElem_mem _)) ?_
      rw [List.getElem_map]
      exact hw f rfl _
  refine ⟨h3, ?_⟩
  unfold logLikelihood logLdata
  rw [sum_neg_map]
  have := List.sum_nonneg h3
  linarith

/-! ### the distances -/

/-- The Manhattan and Euclidic distances are symmetric and not negative. -/
theorem C02_manhattan_euclid (a b : List ℝ) :
    manhattan a b = manhattan b a ∧ 0 ≤ manhattan a b ∧
    euclidic a b = euclidic b a ∧ 0 ≤ euclidic a b := by
  refine ⟨?_, ?_, ?_, Real.sqrt_nonneg _⟩
  · unfold manhattan
    rw [List.zipWith_comm_of_comm (fun x y => abs_sub_comm x y)]
  · unfold manhattan
    apply List.sum_nonneg
    intro r hr
    rw [List.mem_iff_getElem] at hr
    obtain ⟨i, hi, rfl⟩ := hr
    rw [List.getElem_zipWith]
    exact abs_nonneg _
  · unfold euclidic
    rw [List.zipWith_comm_of_comm (f := fun x y : ℝ => (x - y) ^ 2) (fun x y => by ring)]

/-- Specification: cosine of the angle between two directions on the sphere (the inner product of
the unit vectors), for longitude and latitude in degrees. -/
noncomputable def cosAngle (c1 c2 : ℝ × ℝ) : ℝ :=
  let r := Real.pi / 180
  Real.cos (c1.2 * r) * Real.cos (c1.1 * r) * (Real.cos (c2.2 * r) * Real.cos (c2.1 * r)) +
  Real.cos (c1.2 * r) * Real.sin (c1.1 * r) * (Real.cos (c2.2 * r) * Real.sin (c2.1 * r)) +
  Real.sin (c1.2 * r) * Real.sin (c2.2 * r)

theorem haversine_eq (c1 c2 : ℝ × ℝ) : haversine c1 c2 = (1 - cosAngle c1 c2) / 2 := by
  obtain ⟨l1, b1⟩ := c1
  obtain ⟨l2, b2⟩ := c2
  unfold haversine cosAngle
  simp only
  set r := Real.pi / 180
  have e : ∀ x : ℝ, x * r = 2 * (x * r / 2) := fun x => by ring
  rw [e b1, e b2, e l1, e l2]
  have e' : ∀ x : ℝ, 2 * (x * r / 2) / 2 = x * r / 2 := fun x => by ring
  rw [e' b1, e' b2, e' l1, e' l2]
  generalize b1 * r / 2 = u1
  generalize b2 * r / 2 = u2
  generalize l1 * r / 2 = v1
  generalize l2 * r / 2 = v2
  rw [Real.sin_two_mul, Real.sin_two_mul, Real.sin_two_mul, Real.sin_two_mul,
    Real.cos_two_mul, Real.cos_two_mul, Real.cos_two_mul, Real.cos_two_mul]
  have hu1 := Real.sin_sq_add_cos_sq u1
  have hu2 := Real.sin_sq_add_cos_sq u2
  have hv1 := Real.sin_sq_add_cos_sq v1
  have hv2 := Real.sin_sq_add_cos_sq v2
  have s1 : Real.sin u1 ^ 2 = 1 - Real.cos u1 ^ 2 := by linarith
  have s2 : Real.sin u2 ^ 2 = 1 - Real.cos u2 ^ 2 := by linarith
  have t1 : Real.sin v1 ^ 2 = 1 - Real.cos v1 ^ 2 := by linarith
  have t2 : Real.sin v2 ^ 2 = 1 - Real.cos v2 ^ 2 := by linarith
  have x1 : (Real.sin u2 * Real.cos u1 - Real.sin u1 * Real.cos u2) ^ 2 =
      (1 - Real.cos u2 ^ 2) * Real.cos u1 ^ 2 -
      2 * (Real.sin u2 * Real.cos u1 * Real.sin u1 * Real.cos u2) +
      (1 - Real.cos u1 ^ 2) * Real.cos u2 ^ 2 := by
    rw [← s1, ← s2]; ring
  have x2 : (Real.sin v2 * Real.cos v1 - Real.sin v1 * Real.cos v2) ^ 2 =
      (1 - Real.cos v2 ^ 2) * Real.cos v1 ^ 2 -
      2 * (Real.sin v2 * Real.cos v1 * Real.sin v1 * Real.cos v2) +
      (1 - Real.cos v1 ^ 2) * Real.cos v2 ^ 2 := by
    rw [← t1, ← t2]; ring
  rw [x1, x2]
  ring

theorem cosAngle_le (c1 c2 : ℝ × ℝ) : |cosAngle c1 c2| ≤ 1 := by
  obtain ⟨l1, b1⟩ := c1
  obtain ⟨l2, b2⟩ := c2
  unfold cosAngle
  simp only
  set r := Real.pi / 180
  generalize b1 * r = u1
  generalize b2 * r = u2
  generalize l1 * r = v1
  generalize l2 * r = v2
  have h1 := Real.sin_sq_add_cos_sq u1
  have h2 := Real.sin_sq_add_cos_sq u2
  have h3 := Real.sin_sq_add_cos_sq v1
  have h4 := Real.sin_sq_add_cos_sq v2
  have n1 : (Real.cos u1 * Real.cos v1) ^ 2 + (Real.cos u1 * Real.sin v1) ^ 2 + Real.sin u1 ^ 2 = 1 := by
    have : Real.cos u1 ^ 2 * (Real.sin v1 ^ 2 + Real.cos v1 ^ 2) + Real.sin u1 ^ 2 = 1 := by
      rw [h3]; linarith
    linarith
  have n2 : (Real.cos u2 * Real.cos v2) ^ 2 + (Real.cos u2 * Real.sin v2) ^ 2 + Real.sin u2 ^ 2 = 1 := by
    have : Real.cos u2 ^ 2 * (Real.sin v2 ^ 2 + Real.cos v2 ^ 2) + Real.sin u2 ^ 2 = 1 := by
      rw [h4]; linarith
    linarith
  generalize Real.cos u1 * Real.cos v1 = a1 at *
  generalize Real.cos u1 * Real.sin v1 = a2 at *
  generalize Real.sin u1 = a3 at *
  generalize Real.cos u2 * Real.cos v2 = d1 at *
  generalize Real.cos u2 * Real.sin v2 = d2 at *
  generalize Real.sin u2 = d3 at *
  rw [abs_le]
  constructor
  · nlinarith [sq_nonneg (a1 + d1), sq_nonneg (a2 + d2), sq_nonneg (a3 + d3)]
  · nlinarith [sq_nonneg (a1 - d1), sq_nonneg (a2 - d2), sq_nonneg (a3 - d3)]

/-- The spherical distance is the angle between the two directions: it lies in `[0, π]` and its
cosine is the inner product of the unit vectors. It is therefore symmetric. -/
theorem C02_spherical (c1 c2 : ℝ × ℝ) :
    0 ≤ spherical c1 c2 ∧ spherical c1 c2 ≤ Real.pi ∧
    Real.cos (spherical c1 c2) = cosAngle c1 c2 ∧ spherical c1 c2 = spherical c2 c1 := by
  have hsym : ∀ c1 c2 : ℝ × ℝ, cosAngle c1 c2 = cosAngle c2 c1 := by
    intro c1 c2; unfold cosAngle; simp only; ring
  have hc := abs_le.1 (cosAngle_le c1 c2)
  have h0 : 0 ≤ haversine c1 c2 := by rw [haversine_eq]; linarith
  have h1 : haversine c1 c2 ≤ 1 := by rw [haversine_eq]; linarith
  have hs : spherical c1 c2 =
      2 * arctan2 (Real.sqrt (haversine c1 c2)) (Real.sqrt (1 - haversine c1 c2)) := by
    unfold spherical; simp only [not_lt.2 h1, if_false]
  have hs2 : spherical c2 c1 = spherical c1 c2 := by
    unfold spherical
    rw [haversine_eq c2 c1, hsym c2 c1, ← haversine_eq]
  set a := haversine c1 c2 with ha
  set z : ℂ := ⟨Real.sqrt (1 - a), Real.sqrt a⟩ with hz
  have hn : ‖z‖ = 1 := by
    have : ‖z‖ ^ 2 = 1 := by
      rw [← Complex.normSq_eq_norm_sq, Complex.normSq_apply]
      simp only [hz]
      rw [Real.mul_self_sqrt (by linarith), Real.mul_self_sqrt h0]; ring
    nlinarith [norm_nonneg z]
  have hz0 : z ≠ 0 := by intro e; rw [e] at hn; simp at hn
  have harg0 : 0 ≤ Complex.arg z := Complex.arg_nonneg_iff.2 (Real.sqrt_nonneg _)
  have harg1 : Complex.arg z ≤ Real.pi / 2 := by
    have := Complex.abs_arg_le_pi_div_two_iff.2 (show 0 ≤ z.re from Real.sqrt_nonneg _)
    exact (abs_le.1 this).2
  have hcos : Real.cos (Complex.arg z) = Real.sqrt (1 - a) := by
    rw [Complex.cos_arg hz0, hn, div_one]
  refine ⟨?_, ?_, ?_, hs2.symm⟩
  · rw [hs]; unfold arctan2; linarith
  · rw [hs]; unfold arctan2; linarith
  · rw [hs]; unfold arctan2
    rw [Real.cos_two_mul, hcos, Real.sq_sqrt (by linarith), ha, haversine_eq]; ring

/-! ### the smallest distance -/

theorem minFrom_spec (l : List ℝ) (m : ℝ) :
    (minFrom m l ≤ m ∧ ∀ x ∈ l, minFrom m l ≤ x) ∧ (minFrom m l = m ∨ minFrom m l ∈ l) := by
  unfold minFrom
  induction l generalizing m with
  | nil => simp
  | cons a l ih =>
    simp only [List.foldl_cons]
    obtain ⟨⟨h1, h2⟩, h3⟩ := ih (min m a)
    refine ⟨⟨h1.trans (min_le_left _ _), ?_⟩, ?_⟩
    · intro x hx
      rcases List.mem_cons.1 hx with rfl | hx
      · exact h1.trans (min_le_right _ _)
      · exact h2 x hx
    · rcases h3 with h3 | h3
      · rw [h3]
        rcases min_choice m a with h | h
        · left; exact h
        · right; rw [h]; simp
      · right; exact List.mem_cons_of_mem _ h3

/-- For two or more cities the minimum distance is the smallest distance between two different
positions in the list of cities: a lower bound of all of them, and one of them. -/
theorem C02_minimumDistance (dist : α → α → ℝ) (l : List α) (h : 2 ≤ l.length) :
    ∃ md, minimumDistance dist l = some md ∧
      (∀ (i j : ℕ) (hi : i < l.length) (hj : j < l.length), i ≠ j → md ≤ dist l[i] l[j]) ∧
      (∃ (i j : ℕ) (hi : i < l.length) (hj : j < l.length), i ≠ j ∧ md = dist l[i] l[j]) := by
  have hleg : ∀ r i (hi : i < l.length), dist l[i] (l[(i + r) % l.length]'(Nat.mod_lt _ (by omega)))
      ∈ legs dist l r := by
    intro r i hi
    rw [List.mem_iff_getElem]
    refine ⟨i, by simpa [legs] using hi, ?_⟩
    simp [legs, List.getElem_rotate]
  have hleg' : ∀ r x, x ∈ legs dist l r → 1 ≤ r → r < l.length → ∃ (i j : ℕ) (hi : i < l.length)
      (hj : j < l.length), i ≠ j ∧ x = dist l[i] l[j] := by
    intro r x hx h1 h2
    rw [List.mem_iff_getElem] at hx
    obtain ⟨i, hi, rfl⟩ := hx
    have hi' : i < l.length := by simpa [legs] using hi
    refine ⟨i, (i + r) % l.length, hi', Nat.mod_lt _ (by omega), ?_, ?_⟩
    · intro e
      rcases Nat.lt_or_ge (i + r) l.length with h3 | h3
      · rw [Nat.mod_eq_of_lt h3] at e; omega
      · rw [Nat.mod_eq_sub_mod h3, Nat.mod_eq_of_lt (by omega)] at e; omega
    · simp [legs, List.getElem_rotate]
  have hfold : ∀ (rs : List ℕ) (m : ℝ),
      let f := rs.foldl (fun md roll => minFrom md (legs dist l roll)) m
      (f ≤ m ∧ ∀ r ∈ rs, ∀ x ∈ legs dist l r, f ≤ x) ∧
      (f = m ∨ ∃ r ∈ rs, f ∈ legs dist l r) := by
    intro rs
    induction rs with
    | nil => intro m; simp
    | cons r rs ih =>
      intro m
      simp only [List.foldl_cons]
      obtain ⟨⟨h1, h2⟩, h3⟩ := ih (minFrom m (legs dist l r))
      obtain ⟨⟨g1, g2⟩, g3⟩ := minFrom_spec (legs dist l r) m
      refine ⟨⟨h1.trans g1, ?_⟩, ?_⟩
      · intro r' hr' x hx
        rcases List.mem_cons.1 hr' with rfl | hr'
        · exact h1.trans (g2 x hx)
        · exact h2 r' hr' x hx
      · rcases h3 with h3 | ⟨r', hr', h3⟩
        · rw [h3]
          rcases g3 with g3 | g3
          · left; exact g3
          · right; exact ⟨r, by simp, g3⟩
        · right; exact ⟨r', List.mem_cons_of_mem _ hr', h3⟩
  unfold minimumDistance
  cases hl : legs dist l 1 with
  | nil =>
    have := legs_length dist l 1
    rw [hl] at this; simp at this; omega
  | cons d ds =>
    refine ⟨_, rfl, ?_, ?_⟩
    all_goals
      obtain ⟨⟨h1, h2⟩, h3⟩ := hfold (List.range' 2 (l.length - 2)) (minFrom d ds)
      obtain ⟨⟨g1, g2⟩, g3⟩ := minFrom_spec ds d
    · intro i j hi hj hij
      -- the roll that brings j next to i
      obtain ⟨r, hr1, hr2, hr3⟩ : ∃ r, 1 ≤ r ∧ r < l.length ∧ (i + r) % l.length = j := by
        rcases Nat.lt_or_gt_of_ne hij with h' | h'
        · exact ⟨j - i, by omega, by omega, by rw [Nat.add_sub_cancel' h'.le, Nat.mod_eq_of_lt hj]⟩
        · refine ⟨l.length - (i - j), by omega, by omega, ?_⟩
          have : i + (l.length - (i - j)) = j + l.length := by omega
          rw [this, Nat.add_mod_right, Nat.mod_eq_of_lt hj]
      have hmem := hleg r i hi
      simp only [hr3] at hmem
      rcases Nat.lt_or_ge r 2 with hr | hr
      · have : r = 1 := by omega
        subst this
        rw [hl] at hmem
        refine h1.trans ?_
        rcases List.mem_cons.1 hmem with e | e
        · rw [e]; exact g1
        · exact g2 _ e
      · exact h2 r (by rw [List.mem_range'_1]; omega) _ hmem
    · rcases h3 with h3 | ⟨r, hr, h3⟩
      · rw [h3]
        have : minFrom d ds ∈ legs dist l 1 := by
          rw [hl]
          rcases g3 with g3 | g3
          · rw [g3]; simp
          · exact List.mem_cons_of_mem _ g3
        exact hleg' 1 _ this le_rfl (by omega)
      · rw [List.mem_range'_1] at hr
        exact hleg' r _ h3 (by omega) (by omega)

/-! Non-vacuity -/

example : tourLength (fun a b : ℝ => |a - b|) [0, 3, 1] = 6 := by
  rw [← legs_sum]; norm_num [legs, List.rotate]

example : minimumDistance (fun a b : ℝ => |a - b|) [0, 3, 1] = some 1 := by
  norm_num [minimumDistance, legs, minFrom, List.rotate, List.range']

end Salesman
end BF
