import Verif.Props.BSplines
import Verif.Props.BasicSplines
import Mathlib.Order.Interval.Set.Infinite

/-!
# C81: the B-splines are a basis of all splines
-/

namespace BF.BSplines

open BF.Poly BF.Cox BF.Splines BF.BasicSplines Finset

/-- As many independent functions as there are functions they are made of: each of them can be made of the others. -/
theorem span_dual {α : Type} (n : ℕ) (b φ : ℕ → α → ℝ)
    (hφ : ∀ j < n, ∃ c : ℕ → ℝ, ∀ x, φ j x = ∑ k ∈ range n, c k * b k x)
    (hind : ∀ z : ℕ → ℝ, (∀ x, ∑ j ∈ range n, z j * φ j x = 0) → ∀ j < n, z j = 0) :
    (∀ c : ℕ → ℝ, ∃ z : ℕ → ℝ, ∀ x, ∑ j ∈ range n, z j * φ j x = ∑ k ∈ range n, c k * b k x) ∧
    ∀ c : ℕ → ℝ, (∀ x, ∑ k ∈ range n, c k * b k x = 0) → ∀ k < n, c k = 0 := by
  choose! T hT using hφ
  let ext : (Fin n → ℝ) → ℕ → ℝ := fun z k => if h : k < n then z ⟨k, h⟩ else 0
  let L : (Fin n → ℝ) →ₗ[ℝ] (Fin n → ℝ) :=
    { toFun := fun z k => ∑ j : Fin n, z j * T j k
      map_add' := fun z w => by
        funext j
        simp only [Pi.add_apply, add_mul, sum_add_distrib]
      map_smul' := fun s z => by
        funext j
        simp only [Pi.smul_apply, smul_eq_mul, mul_sum, RingHom.id_apply, mul_assoc] }
  have hval : ∀ (z : Fin n → ℝ) (x : α), ∑ j ∈ range n, ext z j * φ j x = ∑ k : Fin n, L z k * b k x := by
    intro z x
    rw [← Fin.sum_univ_eq_sum_range (fun j => ext z j * φ j x) n]
    have h1 : ∀ j : Fin n, ext z j * φ j x = ∑ k : Fin n, z j * T j k * b k x := by
      intro j
      rw [hT j j.2 x, ← Fin.sum_univ_eq_sum_range (fun k => T j k * b k x) n, mul_sum]
      have : ext z j = z j := by simp [ext]
      rw [this]
      exact sum_congr rfl fun k _ => by ring
    simp only [h1]
    rw [sum_comm]
    apply sum_congr rfl
    intro k _
    show _ = (∑ j : Fin n, z j * T j k) * b k x
    rw [sum_mul]
  have hinj : Function.Injective L := by
    rw [injective_iff_map_eq_zero]
    intro z hz
    have h1 := hind (ext z) (fun x => by
      rw [hval, hz]
      simp)
    funext k
    have := h1 k k.2
    simpa [ext] using this
  have hsurj := LinearMap.injective_iff_surjective.1 hinj
  have hc : ∀ c : ℕ → ℝ, ∃ z : Fin n → ℝ, L z = (fun k : Fin n => c k) ∧
      ∀ x, ∑ j ∈ range n, ext z j * φ j x = ∑ k ∈ range n, c k * b k x := by
    intro c
    obtain ⟨z, hz⟩ := hsurj fun k => c k
    refine ⟨z, hz, fun x => ?_⟩
    rw [hval, hz, ← Fin.sum_univ_eq_sum_range (fun k => c k * b k x) n]
  constructor
  · intro c
    obtain ⟨z, -, h⟩ := hc c
    exact ⟨_, h⟩
  · intro c h0 k hk
    obtain ⟨z, hz, h⟩ := hc c
    have h1 := hind (ext z) fun x => by rw [h, h0]
    have h2 : z = 0 := by
      funext j
      have := h1 j j.2
      simpa [ext] using this
    rw [h2, map_zero] at hz
    exact (congrFun hz ⟨k, hk⟩).symm

/-- The domain. -/
def Spec.Dom (m : Spec) (x : ℝ) : Prop := m.knot 0 ≤ x ∧ x ≤ m.knot (m.knots.length - 1)

/-- The functions of which splines are made are independent on the domain. -/
theorem gen_indep (m : Spec) (hm : Good m) (z : ℕ → ℝ)
    (h : ∀ x, m.Dom x → ∑ j ∈ range (m.knots.length + m.order - 1), z j * gen m.order m.knots j x = 0) :
    ∀ j < m.knots.length + m.order - 1, z j = 0 := by
  have h2 := hm.1
  simp only [gen_sum m.order m.knots h2] at h
  have hpoly : ∀ i < m.order + 1, z i = 0 := by
    have h01 : m.knot 0 < m.knot 1 := knot_lt hm (by omega) (by omega)
    have hroot : ∀ x ∈ Set.Ico (m.knot 0) (m.knot 1), ∑ i ∈ range (m.order + 1), z i * x ^ i = 0 := by
      intro x hx
      have h3 := h x ⟨hx.1, hx.2.le.trans (knot_le hm (by omega) (by omega))⟩
      rw [sum_eq_zero (s := range (m.knots.length - 2)), add_zero] at h3
      · exact h3
      · intro j hj
        have := mem_range.1 hj
        have hk : m.knot 1 ≤ m.knot (j + 1) := knot_le hm (by omega) (by omega)
        rw [trunc, if_neg, mul_zero]
        intro hc
        have : m.knot (j + 1) ≤ x := hc
        linarith [hx.2]
    have hP : (∑ i ∈ range (m.order + 1), Polynomial.C (z i) * Polynomial.X ^ i : Polynomial ℝ) = 0 := by
      apply Polynomial.eq_zero_of_infinite_isRoot
      refine Set.Infinite.mono ?_ (Set.Ico_infinite h01)
      intro x hx
      show Polynomial.IsRoot _ x
      rw [Polynomial.IsRoot.def, Polynomial.eval_finsetSum]
      simp only [Polynomial.eval_mul, Polynomial.eval_C, Polynomial.eval_pow, Polynomial.eval_X]
      exact hroot x hx
    intro i hi
    have := congrArg (fun q => Polynomial.coeff q i) hP
    simp only [Polynomial.finsetSum_coeff, Polynomial.coeff_C_mul_X_pow, Polynomial.coeff_zero] at this
    rw [sum_ite_eq, if_pos (mem_range.2 hi)] at this
    exact this
  have htr : ∀ j, j < m.knots.length - 2 → z (m.order + 1 + j) = 0 := by
    intro j
    induction j using Nat.strong_induction_on with
    | _ j ih =>
      intro hj
      have hk : m.knot (j + 1) < m.knot (j + 2) := knot_lt hm (by omega) (by omega)
      obtain ⟨x, hx1, hx2⟩ := exists_between hk
      have h3 := h x ⟨(knot_le hm (by omega) (by omega)).trans hx1.le,
        hx2.le.trans (knot_le hm (by omega) (by omega))⟩
      rw [sum_eq_zero (s := range (m.order + 1)) (fun i hi => by rw [hpoly i (mem_range.1 hi), zero_mul]), zero_add,
        sum_eq_single j] at h3
      · rw [trunc, if_pos (show m.knots.getD (j + 1) 0 ≤ x from hx1.le)] at h3
        rcases mul_eq_zero.1 h3 with h4 | h4
        · exact h4
        · exfalso
          have : x - m.knot (j + 1) ≠ 0 := by linarith
          exact pow_ne_zero _ this h4
      · intro i hi hij
        have hi' := mem_range.1 hi
        rcases lt_or_gt_of_ne hij with h5 | h5
        · rw [ih i h5 hi', zero_mul]
        · rw [trunc, if_neg, mul_zero]
          intro hc
          have h6 : m.knot (j + 2) ≤ m.knot (i + 1) := knot_le hm (by omega) (by omega)
          have : m.knot (i + 1) ≤ x := hc
          linarith
      · intro hn
        exact absurd (mem_range.2 hj) hn
  intro j hj
  by_cases h3 : j < m.order + 1
  · exact hpoly j h3
  · have := htr (j - (m.order + 1)) (by omega)
    rwa [show m.order + 1 + (j - (m.order + 1)) = j by omega] at this

theorem fn_marsden (m : Spec) (hm : Good m) (x : ℝ) (hx : m.Dom x) :
    ∑ i ∈ range m.npar, Polynomial.C (m.fn x i) * psi (aug m) m.order i
      = (Polynomial.X - Polynomial.C x) ^ m.order := by
  have h2 := hm.1
  refine marsden (aug_knots m hm) x ?_ ?_ m.order ((aug_first m hm m.order).2 le_rfl) m.npar ?_
  · rw [aug_zero]
    exact hx.1
  · rw [aug_last m hm]
    exact hx.2
  · unfold lastInt Spec.npar
    omega

/-- Powers of x. -/
theorem power_span (m : Spec) (hm : Good m) (k : ℕ) (hk : k ≤ m.order) :
    ∃ c : ℕ → ℝ, ∀ x, m.Dom x → x ^ k = ∑ i ∈ range m.npar, c i * m.fn x i := by
  have hch : (m.order.choose (m.order - k) : ℝ) ≠ 0 := by
    have := Nat.choose_pos (show m.order - k ≤ m.order by omega)
    exact_mod_cast this.ne'
  refine ⟨fun i => (-1) ^ k / (m.order.choose (m.order - k) : ℝ) * (psi (aug m) m.order i).coeff (m.order - k),
    fun x hx => ?_⟩
  have h := congrArg (fun q => Polynomial.coeff q (m.order - k)) (fn_marsden m hm x hx)
  simp only [Polynomial.finsetSum_coeff, Polynomial.coeff_C_mul] at h
  rw [sub_eq_add_neg, ← Polynomial.C_neg, Polynomial.coeff_X_add_C_pow] at h
  rw [show m.order - (m.order - k) = k by omega] at h
  have e : ∀ i, (-1) ^ k / (m.order.choose (m.order - k) : ℝ) * (psi (aug m) m.order i).coeff (m.order - k) * m.fn x i
      = (-1) ^ k / (m.order.choose (m.order - k) : ℝ) * (m.fn x i * (psi (aug m) m.order i).coeff (m.order - k)) :=
    fun i => by ring
  simp only [e]
  rw [← mul_sum, h, neg_pow x k]
  have h1 : ((-1 : ℝ) ^ k) * (-1) ^ k = 1 := by rw [← mul_pow]; norm_num
  field_simp
  rw [show ((-1 : ℝ) ^ k) ^ 2 = (-1) ^ k * (-1) ^ k by ring, h1, mul_one]

/-- Truncated powers at the inner knots. -/
theorem trunc_span (m : Spec) (hm : Good m) (j : ℕ) (hj : j + 2 < m.knots.length) :
    ∃ c : ℕ → ℝ, ∀ x, m.Dom x → trunc m.order (m.knot (j + 1)) x = ∑ i ∈ range m.npar, c i * m.fn x i := by
  set y := m.knot (j + 1) with hy
  have hT := aug_knots m hm
  refine ⟨fun i => if m.order + (j + 1) ≤ i then (-1) ^ m.order * (psi (aug m) m.order i).eval y else 0,
    fun x hx => ?_⟩
  by_cases h : y ≤ x
  · rw [trunc, if_pos h]
    have hma := congrArg (fun q => Polynomial.eval y q) (fn_marsden m hm x hx)
    simp only [Polynomial.eval_finsetSum, Polynomial.eval_mul, Polynomial.eval_C, Polynomial.eval_pow,
      Polynomial.eval_sub, Polynomial.eval_X] at hma
    have h1 : (x - y) ^ m.order = (-1) ^ m.order * (y - x) ^ m.order := by
      rw [← mul_pow]
      ring_nf
    rw [h1, ← hma, mul_sum]
    apply sum_congr rfl
    intro i hi
    by_cases hi1 : m.order + (j + 1) ≤ i
    · simp only [if_pos hi1]
      ring
    · simp only [if_neg hi1, zero_mul]
      by_cases hi2 : j + 1 ≤ i
      · -- the knot is inside
        have : (psi (aug m) m.order i).eval y = 0 := by
          rw [psi, Polynomial.eval_prod]
          apply prod_eq_zero (i := m.order + (j + 1) - i - 1) (mem_range.2 (by omega))
          rw [Polynomial.eval_sub, Polynomial.eval_X, Polynomial.eval_C, sub_eq_zero, hy, aug]
          congr 1
          omega
        rw [this, mul_zero, mul_zero]
      · have : m.fn x i = 0 := by
          by_contra hcon
          obtain ⟨-, -, c, d⟩ := support hT x m.order i hcon
          have hle : aug m (i + m.order + 1) ≤ y := knot_le hm (by omega) (by omega)
          rcases d with d | d
          · linarith
          · have hlt : y < m.knot (m.knots.length - 1) := knot_lt hm (by omega) (by omega)
            rw [aug_last m hm] at d
            linarith
        rw [this, zero_mul, mul_zero]
  · rw [trunc, if_neg h, sum_eq_zero]
    intro i hi
    have hi' := mem_range.1 hi
    by_cases hi1 : m.order + (j + 1) ≤ i
    · have : m.fn x i = 0 := by
        by_contra hcon
        obtain ⟨-, b, -, -⟩ := support hT x m.order i hcon
        have hle : y ≤ aug m i := knot_le hm (by omega) (by omega)
        linarith
      rw [this, mul_zero]
    · simp only [if_neg hi1, zero_mul]

theorem gen_span (m : Spec) (hm : Good m) (j : ℕ) (hj : j < m.npar) :
    ∃ c : ℕ → ℝ, ∀ x, m.Dom x → gen m.order m.knots j x = ∑ i ∈ range m.npar, c i * m.fn x i := by
  have h2 := hm.1
  unfold Spec.npar at hj
  by_cases h : j < m.order + 1
  · obtain ⟨c, hc⟩ := power_span m hm j (by omega)
    exact ⟨c, fun x hx => by rw [gen, if_pos h, hc x hx]⟩
  · obtain ⟨c, hc⟩ := trunc_span m hm (j - m.order - 1) (by omega)
    refine ⟨c, fun x hx => ?_⟩
    rw [gen, if_neg h, ← hc x hx, Spec.knot, show j - m.order - 1 + 1 = j - m.order by omega]

theorem basis_dual (m : Spec) (hm : Good m) :
    (∀ c : ℕ → ℝ, ∃ z : ℕ → ℝ, ∀ x, m.Dom x →
      ∑ j ∈ range m.npar, z j * gen m.order m.knots j x = ∑ k ∈ range m.npar, c k * m.fn x k) ∧
    ∀ c : ℕ → ℝ, (∀ x, m.Dom x → ∑ k ∈ range m.npar, c k * m.fn x k = 0) → ∀ k < m.npar, c k = 0 := by
  have hn : m.npar = m.knots.length + m.order - 1 := by
    unfold Spec.npar
    omega
  obtain ⟨ha, hb⟩ := span_dual (α := { x : ℝ // m.Dom x }) m.npar (fun k x => m.fn x k)
    (fun j x => gen m.order m.knots j x) (by
      intro j hj
      obtain ⟨c, hc⟩ := gen_span m hm j hj
      exact ⟨c, fun x => hc x x.2⟩) (by
      intro z hz
      rw [hn] at hz ⊢
      exact gen_indep m hm z fun x hx => hz ⟨x, hx⟩)
  constructor
  · intro c
    obtain ⟨z, hz⟩ := ha c
    exact ⟨z, fun x hx => hz ⟨x, hx⟩⟩
  · intro c hc
    exact hb c fun x => hc x x.2

/-- C81: over the domain the functions of a B-splines model are exactly those of a splines model of the same order
with the same knots. -/
theorem C81_same (m : Spec) (hm : Good m) (f : ℝ → ℝ) :
    (∃ p : ℕ → ℝ, ∀ x, m.knot 0 ≤ x → x ≤ m.knot (m.knots.length - 1) → m.result x p = some (f x)) ↔
      ∃ p : ℕ → ℝ, ∀ x, m.knot 0 ≤ x → x ≤ m.knot (m.knots.length - 1) →
        splineResult m.order m.knots x p = some (f x) := by
  have h2 := hm.1
  have hs : m.knots.Pairwise (· ≤ ·) := hm.2.imp le_of_lt
  have hn : m.npar = m.knots.length + m.order - 1 := by
    unfold Spec.npar
    omega
  constructor
  · rintro ⟨p, hp⟩
    obtain ⟨z, hz⟩ := (basis_dual m hm).1 p
    obtain ⟨q, hq⟩ := (splines_all m.order m.knots h2 hs
      (fun x => ∑ j ∈ range m.npar, z j * gen m.order m.knots j x)).2
      ((spline_gen m.order m.knots h2 _).2 ⟨z, fun x => by rw [hn]⟩)
    refine ⟨q, fun x h0 h1 => ?_⟩
    rw [hq x, hz x ⟨h0, h1⟩, ← hp x h0 h1, result_eq m hm x h0 h1]
  · rintro ⟨p, hp⟩
    obtain ⟨z, hz⟩ := (spline_gen m.order m.knots h2 (fun x => (splineResult m.order m.knots x p).getD 0)).1
      ((splines_all m.order m.knots h2 hs _).1 ⟨p, fun x => by
        rw [splineResult_sum m.order m.knots h2 hs]
        rfl⟩)
    have hg : ∀ j, ∃ c : ℕ → ℝ, j < m.npar → ∀ x, m.Dom x →
        gen m.order m.knots j x = ∑ i ∈ range m.npar, c i * m.fn x i := by
      intro j
      by_cases hj : j < m.npar
      · obtain ⟨c, hc⟩ := gen_span m hm j hj
        exact ⟨c, fun _ => hc⟩
      · exact ⟨fun _ => 0, fun h => absurd h hj⟩
    choose c hc using hg
    refine ⟨fun i => ∑ j ∈ range m.npar, z j * c j i, fun x h0 h1 => ?_⟩
    rw [result_eq m hm x h0 h1]
    congr 1
    have h3 := hz x
    rw [hp x h0 h1, Option.getD_some] at h3
    rw [h3, ← hn]
    simp only [sum_mul]
    rw [sum_comm]
    apply sum_congr rfl
    intro j hj
    rw [hc j (mem_range.1 hj) x ⟨h0, h1⟩, mul_sum]
    exact sum_congr rfl fun i _ => by ring

/-- C81: the parameters are unique: no two sets of them give the same function over the domain. -/
theorem C81_unique (m : Spec) (hm : Good m) (p p' : ℕ → ℝ)
    (h : ∀ x, m.knot 0 ≤ x → x ≤ m.knot (m.knots.length - 1) → m.result x p = m.result x p') :
    ∀ k < m.npar, p k = p' k := by
  intro k hk
  have := (basis_dual m hm).2 (fun k => p k - p' k) (by
    intro x hx
    have h1 := h x hx.1 hx.2
    rw [result_eq m hm x hx.1 hx.2, result_eq m hm x hx.1 hx.2] at h1
    have h3 := Option.some.inj h1
    simp only [sub_mul, sum_sub_distrib]
    linarith) k hk
  linarith

/-- C81: for order n+1 the result is n times continuously differentiable, also at the knots: over the domain it is
equal to such a function. -/
theorem C81_smooth (m : Spec) (hm : Good m) (n : ℕ) (ho : m.order = n + 1) (p : ℕ → ℝ) :
    ∃ f : ℝ → ℝ, ContDiff ℝ n f ∧
      ∀ x, m.knot 0 ≤ x → x ≤ m.knot (m.knots.length - 1) → m.result x p = some (f x) := by
  have h2 := hm.1
  have hn : m.npar = m.knots.length + m.order - 1 := by
    unfold Spec.npar
    omega
  obtain ⟨z, hz⟩ := (basis_dual m hm).1 p
  refine ⟨fun x => ∑ j ∈ range m.npar, z j * gen m.order m.knots j x, ?_, fun x h0 h1 => ?_⟩
  · refine spline_smooth n m.knots _ ?_
    rw [← ho]
    exact (spline_gen m.order m.knots h2 _).2 ⟨z, fun x => by rw [hn]⟩
  · rw [result_eq m hm x h0 h1, ← hz x ⟨h0, h1⟩]

end BF.BSplines
