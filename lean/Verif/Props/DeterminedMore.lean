import Verif.Props.SameFitModels

/-!
# C119: splines, basic splines, and harmonics with a constant
-/

noncomputable section

namespace BF.SameFit

open BF.Fitters BF.LinearModels Finset

variable {X Y : Type}

/-! ## Specification -/

/-- The data allow one point for every parameter, from left to right, such that point i is beyond inner knot i - order and
before inner knot i + 1, as far as these exist. -/
def Spread (order : ℕ) (knots : List ℝ) (d : Data ℝ) : Prop :=
  ∃ σ : ℕ → ℕ, ∀ i < order + knots.length - 1, σ i < d.n ∧ (i ≤ order ∨ knots.getD (i - order) 0 < d.x (σ i)) ∧
    (knots.length ≤ i + 2 ∨ d.x (σ i) < knots.getD (i + 1) 0) ∧ ∀ j < i, d.x (σ j) < d.x (σ i)

/-! ## Models with the same curves -/

theorem same_determine {φ : X → Y} {D : Set X} {m : Lin X} {m' : Lin Y} (hm : SameCurves φ D m m') (hnp : m.np = m'.np)
    (d : Data X) (hD : ∀ i < d.n, d.x i ∈ D) : Determine m d [] ↔ Determine m' (moved φ d) [] := by
  rw [determine_ker, determine_ker]
  have h1 := LinearMap.finrank_range_add_finrank_ker (values m d)
  have h2 := LinearMap.finrank_range_add_finrank_ker (values m' (moved φ d))
  rw [← range_eq hm d hD] at h2
  rw [Module.finrank_fin_fun] at h1 h2
  have h3 : Module.finrank ℝ (LinearMap.ker (values m d)) = Module.finrank ℝ (LinearMap.ker (values m' (moved φ d))) := by
    have : Module.finrank ℝ (LinearMap.range (values m d)) + Module.finrank ℝ (LinearMap.ker (values m' (moved φ d)))
      = m'.np := h2
    omega
  rw [← Submodule.finrank_eq_zero, ← Submodule.finrank_eq_zero, h3]

/-! ## Splines -/

/-- The same inner knots between other ends. -/
def wide (a b : ℝ) (knots : List ℝ) : List ℝ := a :: (knots.tail.dropLast ++ [b])

theorem wide_length (a b : ℝ) (knots : List ℝ) (h2 : 2 ≤ knots.length) : (wide a b knots).length = knots.length := by
  simp [wide]
  omega

theorem wide_inner (a b : ℝ) (knots : List ℝ) (j : ℕ) (h1 : 1 ≤ j) (h2 : j + 1 < knots.length) :
    (wide a b knots).getD j 0 = knots.getD j 0 := by
  obtain ⟨j, rfl⟩ : ∃ i, j = i + 1 := ⟨j - 1, by omega⟩
  cases knots with
  | nil => simp at h2
  | cons k ks =>
    simp only [List.length_cons] at h2
    have hl : j < ks.dropLast.length := by simp; omega
    simp only [wide, List.tail_cons, List.getD_eq_getElem?_getD, List.getElem?_cons_succ]
    rw [List.getElem?_append_left hl, List.getElem?_eq_getElem hl, List.getElem_dropLast,
      List.getElem?_eq_getElem (by omega)]

theorem wide_first (a b : ℝ) (knots : List ℝ) : (wide a b knots).getD 0 0 = a := rfl

theorem wide_last (a b : ℝ) (knots : List ℝ) (h2 : 2 ≤ knots.length) :
    (wide a b knots).getD (knots.length - 1) 0 = b := by
  obtain ⟨n, hn⟩ : ∃ n, knots.length = n + 2 := ⟨knots.length - 2, by omega⟩
  have hl : knots.tail.dropLast.length = n := by simp; omega
  rw [hn, show n + 2 - 1 = n + 1 by omega]
  simp only [wide, List.getD_eq_getElem?_getD, List.getElem?_cons_succ]
  rw [List.getElem?_append_right (by omega), hl, Nat.sub_self]
  rfl

theorem wide_sorted (a b : ℝ) (knots : List ℝ) (hs : knots.Pairwise (· < ·)) (hab : a < b)
    (ha : ∀ k ∈ knots, a < k) (hb : ∀ k ∈ knots, k < b) : (wide a b knots).Pairwise (· < ·) := by
  have hsub : knots.tail.dropLast.Sublist knots := (List.dropLast_sublist _).trans (List.tail_sublist _)
  rw [wide, List.pairwise_cons]
  refine ⟨fun x hx => ?_, ?_⟩
  · rcases List.mem_append.1 hx with h | h
    · exact ha x (hsub.subset h)
    · rw [List.mem_singleton.1 h]
      exact hab
  · rw [List.pairwise_append]
    refine ⟨hs.sublist hsub, by simp, fun x hx y hy => ?_⟩
    rw [List.mem_singleton.1 hy]
    exact hb x (hsub.subset hx)

theorem wide_splines (order : ℕ) (a b : ℝ) (knots : List ℝ) (h2 : 2 ≤ knots.length) :
    splines order (wide a b knots) = splines order knots := by
  have hl := wide_length a b knots h2
  have hi : (wide a b knots).tail.dropLast = knots.tail.dropLast := by
    simp [wide]
  unfold splines Splines.splinePartial
  simp only [hl, hi]

theorem ends (S : Finset ℝ) : ∃ a b : ℝ, a < b ∧ (∀ x ∈ S, a < x) ∧ ∀ x ∈ S, x < b := by
  obtain ⟨a, ha⟩ := S.finite_toSet.bddBelow
  obtain ⟨b, hb⟩ := S.finite_toSet.bddAbove
  refine ⟨min a b - 1, max a b + 1, ?_, fun x hx => ?_, fun x hx => ?_⟩
  · have := min_le_max (a := a) (b := b)
    linarith
  · have := ha hx
    have := min_le_left a b
    linarith
  · have := hb hx
    have := le_max_right a b
    linarith

/-- C119: a Splines model of order 1 and up is determined if and only if the data, wherever they are, are spread over its
intervals: one point per parameter, from left to right, each between the proper inner knots. -/
theorem C119_splines (order : ℕ) (h1 : 1 ≤ order) (knots : List ℝ) (h2 : 2 ≤ knots.length)
    (hs : knots.Pairwise (· < ·)) (d : Data ℝ) : Determine (splines order knots) d [] ↔ Spread order knots d := by
  classical
  obtain ⟨a, b, hab, ha, hb⟩ := ends ((range d.n).image d.x ∪ knots.toFinset)
  have hl := wide_length a b knots h2
  have hs' : (wide a b knots).Pairwise (· < ·) := wide_sorted a b knots hs hab
    (fun k hk => ha k (mem_union_right _ (List.mem_toFinset.2 hk)))
    (fun k hk => hb k (mem_union_right _ (List.mem_toFinset.2 hk)))
  have hda : ∀ i < d.n, a < d.x i := fun i hi => ha _ (mem_union_left _ (mem_image_of_mem _ (mem_range.2 hi)))
  have hdb : ∀ i < d.n, d.x i < b := fun i hi => hb _ (mem_union_left _ (mem_image_of_mem _ (mem_range.2 hi)))
  have hw : Within (wide a b knots) d := by
    intro i hi
    rw [wide_first, hl, wide_last a b knots h2]
    exact ⟨(hda i hi).le, (hdb i hi).le⟩
  rw [← wide_splines order a b knots h2]
  have hcurves := C127_bsplines order (wide a b knots) (by omega) hs'
  rw [same_determine hcurves rfl d hw, show moved id d = d from rfl,
    C119_bsplines order h1 (wide a b knots) (by omega) hs' d hw, hl]
  unfold Spread
  refine exists_congr fun σ => forall_congr' fun i => imp_congr_right fun hi => and_congr_right fun hσ => ?_
  have e1 : (wide a b knots).getD (i - order) 0 < d.x (σ i) ∨ (i = 0 ∧ d.x (σ i) = (wide a b knots).getD 0 0) ↔
      (i ≤ order ∨ knots.getD (i - order) 0 < d.x (σ i)) := by
    rcases Nat.lt_or_ge order i with h | h
    · rw [wide_inner a b knots _ (by omega) (by omega)]
      constructor
      · rintro (h' | ⟨h', -⟩)
        · exact Or.inr h'
        · omega
      · rintro (h' | h')
        · omega
        · exact Or.inl h'
    · rw [show i - order = 0 by omega, wide_first]
      exact ⟨fun _ => Or.inl h, fun _ => Or.inl (hda _ hσ)⟩
  have e2 : (d.x (σ i) < (wide a b knots).getD (min (i + 1) (knots.length - 1)) 0 ∨
      (i + 2 = order + knots.length ∧ d.x (σ i) = (wide a b knots).getD (knots.length - 1) 0)) ↔
      (knots.length ≤ i + 2 ∨ d.x (σ i) < knots.getD (i + 1) 0) := by
    rcases Nat.lt_or_ge (i + 2) knots.length with h | h
    · rw [show min (i + 1) (knots.length - 1) = i + 1 by omega, wide_inner a b knots _ (by omega) (by omega)]
      constructor
      · rintro (h' | ⟨h', -⟩)
        · exact Or.inr h'
        · omega
      · rintro (h' | h')
        · omega
        · exact Or.inl h'
    · rw [show min (i + 1) (knots.length - 1) = knots.length - 1 by omega, wide_last a b knots h2]
      exact ⟨fun _ => Or.inl h, fun _ => Or.inl (hdb _ hσ)⟩
  unfold InRange
  rw [hl, e1, e2, and_assoc]

/-- C119: a Splines model of order 0, a staircase, is determined if and only if there are data on each of its stairs. -/
theorem C119_splines_steps (knots : List ℝ) (h3 : 3 ≤ knots.length) (hs : knots.Pairwise (· < ·)) (d : Data ℝ) :
    Determine (splines 0 knots) d [] ↔ ∀ i, i + 1 < knots.length → ∃ j < d.n, (i = 0 ∨ knots.getD i 0 ≤ d.x j) ∧
      (i + 2 = knots.length ∨ d.x j < knots.getD (i + 1) 0) := by
  classical
  have h2 : 2 ≤ knots.length := by omega
  obtain ⟨a, b, hab, ha, hb⟩ := ends ((range d.n).image d.x ∪ knots.toFinset)
  have hl := wide_length a b knots h2
  have hs' : (wide a b knots).Pairwise (· < ·) := wide_sorted a b knots hs hab
    (fun k hk => ha k (mem_union_right _ (List.mem_toFinset.2 hk)))
    (fun k hk => hb k (mem_union_right _ (List.mem_toFinset.2 hk)))
  have hda : ∀ i < d.n, a < d.x i := fun i hi => ha _ (mem_union_left _ (mem_image_of_mem _ (mem_range.2 hi)))
  have hdb : ∀ i < d.n, d.x i < b := fun i hi => hb _ (mem_union_left _ (mem_image_of_mem _ (mem_range.2 hi)))
  have hw : Within (wide a b knots) d := by
    intro i hi
    rw [wide_first, hl, wide_last a b knots h2]
    exact ⟨(hda i hi).le, (hdb i hi).le⟩
  rw [← wide_splines 0 a b knots h2]
  have hcurves := C127_bsplines 0 (wide a b knots) (by omega) hs'
  rw [same_determine hcurves rfl d hw, show moved id d = d from rfl,
    C119_bsplines_steps (wide a b knots) (by omega) hs' d, hl]
  refine forall_congr' fun i => imp_congr_right fun hi => exists_congr fun j => and_congr_right fun hj => ?_
  have e1 : (wide a b knots).getD i 0 ≤ d.x j ↔ (i = 0 ∨ knots.getD i 0 ≤ d.x j) := by
    rcases Nat.eq_zero_or_pos i with rfl | h
    · exact ⟨fun _ => Or.inl rfl, fun _ => (hda j hj).le⟩
    · rw [wide_inner a b knots i h hi]
      exact ⟨Or.inr, fun h' => h'.resolve_left (by omega)⟩
  have e2 : (d.x j < (wide a b knots).getD (i + 1) 0 ∨ (i + 2 = knots.length ∧ d.x j = (wide a b knots).getD (i + 1) 0)) ↔
      (i + 2 = knots.length ∨ d.x j < knots.getD (i + 1) 0) := by
    rcases Nat.lt_or_ge (i + 2) knots.length with h | h
    · rw [wide_inner a b knots _ (by omega) (by omega)]
      constructor
      · rintro (h' | ⟨h', -⟩)
        · exact Or.inr h'
        · omega
      · rintro (h' | h')
        · omega
        · exact Or.inl h'
    · have hi2 : i + 2 = knots.length := by omega
      rw [show i + 1 = knots.length - 1 by omega, wide_last a b knots h2]
      exact ⟨fun _ => Or.inl hi2, fun _ => Or.inl (hdb j hj)⟩
  rw [e1, e2]

/-- C119: the same holds for a BasicSplines model. -/
theorem C119_basicsplines (solve : BasicSplines.Solver) (hsolve : SolveSpec solve) (hregular : SolveRegular solve)
    (m : BasicSplines.Spec) (h1 : 1 ≤ m.order) (h2 : 2 ≤ m.knots.length) (hs : m.knots.Pairwise (· < ·))
    (basis : ℕ → ℕ → ℕ → ℝ) (hb : m.makeBasis solve = some basis) (d : Data ℝ) :
    Determine (basicSplines m basis) d [] ↔ Spread m.order m.knots d := by
  have hc := C127_basicsplines solve hsolve hregular m h2 hs basis hb Set.univ
  rw [← C119_splines m.order h1 m.knots h2 hs d, same_determine hc (show m.order + m.knots.length - 1 = m.knots.length + m.order - 1 by omega) d
    fun _ _ => trivial]
  rfl

/-! ## Sums -/

theorem plus_result (m1 m2 : Lin X) (x : X) (p : ℕ → ℝ) :
    (plus m1 m2).result x p = m1.result x p + m2.result x fun k => p (m1.np + k) := by
  have h1 : ∑ k ∈ range m1.np, p k * (plus m1 m2).part x k = ∑ k ∈ range m1.np, p k * m1.part x k :=
    sum_congr rfl fun k hk => by simp only [plus, if_pos (mem_range.1 hk)]
  have h2 : ∑ k ∈ range m2.np, p (m1.np + k) * (plus m1 m2).part x (m1.np + k)
      = ∑ k ∈ range m2.np, p (m1.np + k) * m2.part x k := sum_congr rfl fun k _ => by
    simp only [plus, if_neg (show ¬ m1.np + k < m1.np by omega), Nat.add_sub_cancel_left]
  have hnp : (plus m1 m2).np = m1.np + m2.np := rfl
  have hoff : (plus m1 m2).off x = m1.off x + m2.off x := rfl
  simp only [Lin.result, hnp, sum_range_add, h1, h2, hoff]
  ring

/-- C127: the sum of two models has the same curves as the sum in the other order. -/
theorem C127_order (m1 m2 : Lin X) : SameCurves id Set.univ (plus m1 m2) (plus m2 m1) := by
  have key : ∀ m1 m2 : Lin X, ∀ p, ∃ q, ∀ x ∈ (Set.univ : Set X), (plus m2 m1).result x q = (plus m1 m2).result x p := by
    intro m1 m2 p
    refine ⟨fun k => if k < m2.np then p (m1.np + k) else p (k - m2.np), fun x _ => ?_⟩
    rw [plus_result, plus_result, add_comm]
    congr 1
    · exact result_congr m1 x fun k hk => by simp
    · exact result_congr m2 x fun k hk => by simp [hk]
  exact ⟨key m1 m2, key m2 m1⟩

/-- C127: models that have the same curves may replace each other in a sum. -/
theorem C127_sum (φ : X → Y) (D : Set X) (m1 m2 : Lin X) (m1' m2' : Lin Y) (h1 : SameCurves φ D m1 m1')
    (h2 : SameCurves φ D m2 m2') : SameCurves φ D (plus m1 m2) (plus m1' m2') := by
  constructor
  · intro p
    obtain ⟨q1, e1⟩ := h1.1 p
    obtain ⟨q2, e2⟩ := h2.1 fun k => p (m1.np + k)
    refine ⟨fun k => if k < m1'.np then q1 k else q2 (k - m1'.np), fun x hx => ?_⟩
    rw [plus_result, plus_result, ← e1 x hx, ← e2 x hx]
    congr 1
    · exact result_congr m1' _ fun k hk => by simp [hk]
    · exact result_congr m2' _ fun k hk => by simp
  · intro q
    obtain ⟨p1, e1⟩ := h1.2 q
    obtain ⟨p2, e2⟩ := h2.2 fun k => q (m1'.np + k)
    refine ⟨fun k => if k < m1.np then p1 k else p2 (k - m1.np), fun x hx => ?_⟩
    rw [plus_result, plus_result, ← e1 x hx, ← e2 x hx]
    congr 1
    · exact result_congr m1 _ fun k hk => by simp [hk]
    · exact result_congr m2 _ fun k hk => by simp

/-- C119: a sum of a polynomial and a model that has some polynomial of that degree among its curves, such as another
polynomial or a spline, is not determined by any data. -/
theorem C119_twice (degree : ℕ) (m : Lin ℝ) (hm : ∃ p, (∃ k < m.np, p k ≠ 0) ∧
    ∃ q, ∀ x, m.result x p - m.result x (fun _ => 0) = (polynomial degree).result x q) (d : Data ℝ) :
    ¬ Determine (plus (polynomial degree) m) d [] := by
  obtain ⟨p, ⟨k, hk, hpk⟩, q, hq⟩ := hm
  intro h
  have h1 := h (fun k => if k < degree + 1 then 0 else p (k - (degree + 1)))
    (fun k => if k < degree + 1 then q k else 0) (by intro kv hkv; simp at hkv) (by intro kv hkv; simp at hkv)
    (fun i _ => by
      rw [plus_result, plus_result]
      have e0 : (polynomial degree).result (d.x i) (fun k => if k < degree + 1 then 0 else p (k - (degree + 1)))
          = 0 := by
        rw [result_congr (polynomial degree) (d.x i) (q := fun _ => 0) fun k hk => by
          rw [if_pos (show k < degree + 1 from hk)]]
        simp [Lin.result, polynomial, ofPartial]
      have e1 : m.result (d.x i) (fun k => (fun k => if k < degree + 1 then 0 else p (k - (degree + 1)))
          ((polynomial degree).np + k)) = m.result (d.x i) p := result_congr m _ fun k _ => by
        show (if degree + 1 + k < degree + 1 then 0 else p (degree + 1 + k - (degree + 1))) = p k
        rw [if_neg (by omega), Nat.add_sub_cancel_left]
      have e2 : (polynomial degree).result (d.x i) (fun k => if k < degree + 1 then q k else 0)
          = (polynomial degree).result (d.x i) q := result_congr _ _ fun k hk => by
        rw [if_pos (show k < degree + 1 from hk)]
      have e3 : m.result (d.x i) (fun k => (fun k => if k < degree + 1 then q k else 0)
          ((polynomial degree).np + k)) = m.result (d.x i) fun _ => 0 := result_congr m _ fun k _ => by
        show (if degree + 1 + k < degree + 1 then q (degree + 1 + k) else 0) = 0
        rw [if_neg (by omega)]
      rw [e0, e1, e2, e3, ← hq]
      ring) (degree + 1 + k) (by show degree + 1 + k < degree + 1 + m.np; omega)
  simp only [if_neg (show ¬ degree + 1 + k < degree + 1 by omega), Nat.add_sub_cancel_left] at h1
  exact hpk h1

/-! ## Harmonics with a constant -/

theorem trig_zero (order : ℕ) (period : ℝ) (d : Data ℝ) (h : 2 * order < phases period d) (c : ℝ) (v : ℕ → ℝ)
    (hz : ∀ i < d.n, c + ∑ j ∈ range order,
      (v (2 * j) * Real.cos ((j + 1) * (2 * Real.pi * d.x i / period))
        + v (2 * j + 1) * Real.sin ((j + 1) * (2 * Real.pi * d.x i / period))) = 0) :
    c = 0 ∧ ∀ j < order, v (2 * j) = 0 ∧ v (2 * j + 1) = 0 := by
  classical
  let P : Polynomial ℂ := Polynomial.C (2 * c : ℂ) * Polynomial.X ^ order + ∑ j ∈ range order,
    (Polynomial.C ((v (2 * j) : ℂ) - v (2 * j + 1) * Complex.I) * Polynomial.X ^ (order + j + 1)
      + Polynomial.C ((v (2 * j) : ℂ) + v (2 * j + 1) * Complex.I) * Polynomial.X ^ (order - j - 1))
  let u : ℝ → ℂ := fun t => Complex.exp (2 * Real.pi * t * Complex.I)
  have hdeg : P.natDegree ≤ 2 * order := by
    refine (Polynomial.natDegree_add_le _ _).trans (max_le ?_ ?_)
    · exact (Polynomial.natDegree_C_mul_X_pow_le _ _).trans (by omega)
    refine Polynomial.natDegree_sum_le_of_forall_le _ _ fun j hj => ?_
    have hj := mem_range.1 hj
    refine (Polynomial.natDegree_add_le _ _).trans (max_le ?_ ?_)
    · exact (Polynomial.natDegree_C_mul_X_pow_le _ _).trans (by omega)
    · exact (Polynomial.natDegree_C_mul_X_pow_le _ _).trans (by omega)
  have hroot : ∀ i < d.n, P.eval (u (Int.fract (d.x i / period))) = 0 := by
    intro i hi
    have hu : u (Int.fract (d.x i / period)) = Complex.exp ((2 * Real.pi * d.x i / period : ℝ) * Complex.I) := by
      simp only [u]
      rw [Complex.exp_eq_exp_iff_exists_int]
      refine ⟨-⌊d.x i / period⌋, ?_⟩
      rw [Int.fract]
      push_cast
      ring
    rw [hu]
    have hy := hz i hi
    generalize 2 * Real.pi * d.x i / period = y at hy
    have hE : Complex.exp (y * Complex.I) ≠ 0 := Complex.exp_ne_zero _
    have hpow : ∀ n : ℕ, Complex.exp (y * Complex.I) ^ n
        = (Real.cos (n * y) : ℂ) + (Real.sin (n * y) : ℂ) * Complex.I := by
      intro n
      rw [← Complex.exp_nat_mul, ← mul_assoc, Complex.exp_mul_I]
      push_cast
      rfl
    have hterm : ∀ j ∈ range order,
        (Polynomial.C ((v (2 * j) : ℂ) - v (2 * j + 1) * Complex.I) * Polynomial.X ^ (order + j + 1)
          + Polynomial.C ((v (2 * j) : ℂ) + v (2 * j + 1) * Complex.I) * Polynomial.X ^ (order - j - 1)).eval
            (Complex.exp (y * Complex.I))
        = 2 * Complex.exp (y * Complex.I) ^ order * ((v (2 * j) * Real.cos ((j + 1) * y)
          + v (2 * j + 1) * Real.sin ((j + 1) * y) : ℝ) : ℂ) := by
      intro j hj
      have hj := mem_range.1 hj
      have e1 : Complex.exp (y * Complex.I) ^ order
          = Complex.exp (y * Complex.I) ^ (order - j - 1) * Complex.exp (y * Complex.I) ^ (j + 1) := by
        rw [← pow_add]
        congr 1
        omega
      have e2 := hpow (j + 1)
      push_cast at e2
      have e3 : Complex.cos ((j + 1) * y) ^ 2 + Complex.sin ((j + 1) * y) ^ 2 = 1 := by
        rw [add_comm]
        exact Complex.sin_sq_add_cos_sq _
      simp only [Polynomial.eval_add, Polynomial.eval_mul, Polynomial.eval_C, Polynomial.eval_pow, Polynomial.eval_X]
      rw [show order + j + 1 = order + (j + 1) by omega, pow_add, e1, e2]
      push_cast
      generalize Complex.exp (y * Complex.I) ^ (order - j - 1) = F
      generalize Complex.cos ((j + 1) * y) = cc at *
      generalize Complex.sin ((j + 1) * y) = ss at *
      have hI : Complex.I ^ 2 = -1 := Complex.I_sq
      linear_combination (-(F * ((v (2 * j) : ℂ) + v (2 * j + 1) * Complex.I))) * e3
        + F * ss * (v (2 * j) * ss + v (2 * j + 1) * ss * Complex.I) * hI
        - 2 * v (2 * j + 1) * F * ss * (cc + Complex.I * ss) * hI
    rw [Polynomial.eval_add, Polynomial.eval_finsetSum, sum_congr rfl hterm, ← mul_sum, ← Complex.ofReal_sum,
      Polynomial.eval_mul, Polynomial.eval_C, Polynomial.eval_pow, Polynomial.eval_X]
    have hc : ((c : ℂ) + ((∑ j ∈ range order, (v (2 * j) * Real.cos ((j + 1) * y)
        + v (2 * j + 1) * Real.sin ((j + 1) * y)) : ℝ) : ℂ)) = 0 := by
      rw [← Complex.ofReal_add, hy, Complex.ofReal_zero]
    linear_combination 2 * Complex.exp (y * Complex.I) ^ order * hc
  have hcard : ((((range d.n).image fun i => Int.fract (d.x i / period))).image u).card = phases period d := by
    rw [card_image_of_injOn]
    · rfl
    · intro a ha b hb hab
      obtain ⟨i, -, rfl⟩ := mem_image.1 (mem_coe.1 ha)
      obtain ⟨j, -, rfl⟩ := mem_image.1 (mem_coe.1 hb)
      simp only [u] at hab
      rw [Complex.exp_eq_exp_iff_exists_int] at hab
      obtain ⟨n, hn⟩ := hab
      have hpi : (2 * Real.pi * Complex.I : ℂ) ≠ 0 := Complex.two_pi_I_ne_zero
      have h1 : ((Int.fract (d.x i / period) : ℝ) : ℂ) = ((Int.fract (d.x j / period) + n : ℝ) : ℂ) := by
        apply mul_left_cancel₀ hpi
        push_cast
        linear_combination hn
      have h2 := Complex.ofReal_injective h1
      have a0 := Int.fract_nonneg (d.x i / period)
      have a1 := Int.fract_lt_one (d.x i / period)
      have b0 := Int.fract_nonneg (d.x j / period)
      have b1 := Int.fract_lt_one (d.x j / period)
      have c1 : (n : ℝ) < 1 := by linarith
      have c2 : (-1 : ℝ) < n := by linarith
      have d1 : n < 1 := by exact_mod_cast c1
      have d2 : -1 < n := by exact_mod_cast c2
      have : n = 0 := by omega
      rw [h2, this]
      simp
  have hP : P = 0 := by
    refine Polynomial.eq_zero_of_natDegree_lt_card_of_eval_eq_zero' _
      (((range d.n).image fun i => Int.fract (d.x i / period)).image u) (fun z hz => ?_) ?_
    · obtain ⟨t, ht, rfl⟩ := mem_image.1 hz
      obtain ⟨i, hi, rfl⟩ := mem_image.1 ht
      exact hroot i (mem_range.1 hi)
    · rw [hcard]
      omega
  constructor
  · have hc := congrArg (fun p => p.coeff order) hP
    simp only [P, Polynomial.finsetSum_coeff, Polynomial.coeff_add, Polynomial.coeff_C_mul, Polynomial.coeff_X_pow,
      Polynomial.coeff_zero] at hc
    rw [sum_eq_zero fun j hj => by
      have := mem_range.1 hj
      rw [if_neg (by omega), if_neg (by omega), mul_zero, mul_zero, add_zero]] at hc
    rw [if_pos True.intro, mul_one, add_zero] at hc
    have : (2 * c : ℂ) = ((2 * c : ℝ) : ℂ) := by push_cast; rfl
    rw [this] at hc
    have := Complex.ofReal_eq_zero.1 hc
    linarith
  · intro j hj
    have hc := congrArg (fun p => p.coeff (order + j + 1)) hP
    simp only [P, Polynomial.finsetSum_coeff, Polynomial.coeff_add, Polynomial.coeff_C_mul, Polynomial.coeff_X_pow,
      Polynomial.coeff_zero] at hc
    rw [if_neg (by omega), mul_zero, zero_add, sum_eq_single j] at hc
    · rw [if_pos rfl, if_neg (by omega), mul_one, mul_zero, add_zero] at hc
      have hre := congrArg Complex.re hc
      have him := congrArg Complex.im hc
      simp at hre him
      exact ⟨hre, him⟩
    · intro k _ hk
      rw [if_neg (by omega), if_neg (by omega), mul_zero, mul_zero, add_zero]
    · intro h
      exact absurd (mem_range.2 hj) h

theorem harmonic_phase (order : ℕ) (period x : ℝ) (k : ℕ) :
    (harmonic order period).part x k = (harmonic order 1).part (Int.fract (x / period)) k := by
  show (Poly.harmonicPartial order period x).getD k 0 = (Poly.harmonicPartial order 1 (Int.fract (x / period))).getD k 0
  unfold Poly.harmonicPartial
  congr 1
  refine List.map_congr_left fun kp _ => ?_
  have e : ∀ j : ℕ, (j : ℝ) * (2 * Real.pi * x / period)
      = (j : ℝ) * (2 * Real.pi * Int.fract (x / period) / 1) + ((j * ⌊x / period⌋ : ℤ) : ℝ) * (2 * Real.pi) := by
    intro j
    rw [Int.fract]
    push_cast
    ring
  simp only [e, Real.cos_add_int_mul_two_pi, Real.sin_add_int_mul_two_pi]

/-- C119: a Harmonic model together with a constant is determined if and only if the data are at as many different phases
as there are parameters. -/
theorem C119_harmonic (order : ℕ) (period : ℝ) (d : Data ℝ) :
    Determine (plus (polynomial 0) (harmonic order period)) d [] ↔ 2 * order + 1 ≤ phases period d := by
  classical
  have hp0 : ∀ x, (polynomial 0).part x 0 = 1 := fun x => by
    simp [polynomial, ofPartial, Poly.polyPartial, Poly.powers_range]
  constructor
  · intro h
    by_contra hlt
    obtain ⟨v, ⟨k, hk, hv⟩, hz⟩ := dependent (2 * order + 1) ((range d.n).image fun i => Int.fract (d.x i / period))
      (fun k t => (plus (polynomial 0) (harmonic order 1)).part t k) (not_le.1 hlt)
    refine hv ((determine_all _ d).1 h v (fun x hx => ?_) k (by show k < 0 + 1 + 2 * order; omega))
    obtain ⟨i, hi, rfl⟩ := mem_image.1 hx
    have := hz _ (mem_image_of_mem _ hi)
    rw [show (plus (polynomial 0) (harmonic order period)).np = 2 * order + 1 from Nat.add_comm 1 _, ← this]
    refine sum_congr rfl fun k _ => ?_
    congr 1
    simp only [plus]
    split
    · rename_i h0
      have h0 : k = 0 := by
        have : k < 0 + 1 := h0
        omega
      rw [h0, hp0, hp0]
    · exact harmonic_phase order period _ _
  · intro h
    rw [determine_all]
    intro v hz
    have hsum : ∀ i < d.n, v 0 + ∑ j ∈ range order,
        (v (1 + 2 * j) * Real.cos ((j + 1) * (2 * Real.pi * d.x i / period))
          + v (1 + (2 * j + 1)) * Real.sin ((j + 1) * (2 * Real.pi * d.x i / period))) = 0 := by
      intro i hi
      have h1 := hz _ (mem_image_of_mem _ (mem_range.2 hi))
      rw [show (plus (polynomial 0) (harmonic order period)).np = 1 + 2 * order from rfl, sum_range_add, sum_range_one,
        show (plus (polynomial 0) (harmonic order period)).part (d.x i) 0 = 1 from hp0 (d.x i), mul_one] at h1
      rw [← h1, ← harmonic_sum order period (d.x i) fun k => v (1 + k)]
      congr 1
      refine sum_congr rfl fun k _ => ?_
      congr 1
      simp only [plus]
      rw [if_neg (show ¬ 1 + k < (polynomial 0).np from (show ¬ 1 + k < 0 + 1 by omega))]
      congr 1
      show k = 1 + k - 1
      omega
    obtain ⟨h0, hpair⟩ := trig_zero order period d (by omega) (v 0) (fun k => v (1 + k)) hsum
    intro k hk
    have hk : k < 1 + 2 * order := hk
    rcases Nat.eq_zero_or_pos k with rfl | hpos
    · exact h0
    · obtain ⟨k, rfl⟩ : ∃ j, k = 1 + j := ⟨k - 1, by omega⟩
      rcases Nat.even_or_odd' k with ⟨j, rfl | rfl⟩
      · exact (hpair j (by omega)).1
      · exact (hpair j (by omega)).2

/-! ## Examples -/

/-- A parabola with a knot at 2 and data at 0, 1, 3, 4: enough, one before and one beyond the knot would do. -/
example : Spread 2 [0, 2, 4] ⟨4, fun i => if i < 2 then (i : ℝ) else i + 1, fun _ => 0, none, none⟩ := by
  refine ⟨id, fun i hi => ?_⟩
  have hi : i < 4 := hi
  interval_cases i <;> refine ⟨by norm_num, ?_, ?_, ?_⟩ <;> norm_num
  all_goals intro j hj; interval_cases j <;> norm_num

end BF.SameFit
