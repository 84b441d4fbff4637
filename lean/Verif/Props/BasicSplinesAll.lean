import Verif.Props.BasicSplines
import Mathlib.Algebra.Polynomial.Derivative
import Mathlib.Algebra.Polynomial.FieldDivision
import Mathlib.Algebra.Polynomial.BigOperators

/-!
# C76: basic splines are all splines

Each of the parameters has influence. Would one of them have none, then the other ones still add up to 1. A bilinear
form on polynomials that does not depend on the point where it is taken then gives a contradiction, with a
polynomial that is zero at the knots of that parameter.
-/

namespace BF.BasicSplines

open BF.Poly BF.Splines BF.Fitters Finset Polynomial

/-! ## The bilinear form -/

noncomputable def form (n : ℕ) (p q : ℝ[X]) : ℝ[X] :=
  ∑ i ∈ range (n + 1), C ((-1) ^ i) * (derivative^[i] p * derivative^[n - i] q)

theorem form_deriv (n : ℕ) (p q : ℝ[X]) (hp : p.natDegree ≤ n) (hq : q.natDegree ≤ n) : derivative (form n p q) = 0 := by
  have h : ∀ i ∈ range (n + 1), derivative (C ((-1) ^ i) * (derivative^[i] p * derivative^[n - i] q))
      = C ((-1) ^ i) * (derivative^[i] p * derivative^[n + 1 - i] q)
        - C ((-1) ^ (i + 1)) * (derivative^[i + 1] p * derivative^[n + 1 - (i + 1)] q) := by
    intro i hi
    have hi' := mem_range.1 hi
    have hd : ∀ (r : ℝ[X]) (i : ℕ), derivative (derivative^[i] r) = derivative^[i + 1] r :=
      fun r i => (Function.iterate_succ_apply' _ _ _).symm
    rw [derivative_mul, derivative_C, zero_mul, zero_add, derivative_mul, hd, hd, show n - i + 1 = n + 1 - i by omega, show n + 1 - (i + 1) = n - i by omega,
      pow_succ, C_mul]
    simp only [C_neg, C_1]
    ring
  rw [form, derivative_sum, sum_congr rfl h,
    sum_range_sub' (fun i => C ((-1) ^ i) * (derivative^[i] p * derivative^[n + 1 - i] q)),
    iterate_derivative_eq_zero (show p.natDegree < n + 1 by omega), Nat.sub_zero,
    iterate_derivative_eq_zero (show q.natDegree < n + 1 by omega)]
  simp

/-- It does not depend on the point. -/
theorem form_eval (n : ℕ) (p q : ℝ[X]) (hp : p.natDegree ≤ n) (hq : q.natDegree ≤ n) (s t : ℝ) :
    (form n p q).eval s = (form n p q).eval t := by
  have h := natDegree_eq_zero_of_derivative_eq_zero (form_deriv n p q hp hq)
  rw [eq_C_of_natDegree_eq_zero h]
  simp

theorem form_add (n : ℕ) (p p' q : ℝ[X]) : form n (p + p') q = form n p q + form n p' q := by
  simp only [form, iterate_map_add, add_mul, mul_add, sum_add_distrib]

/-- It is zero for polynomials that have together more zeros at a point than the degree. -/
theorem form_zero (n l k : ℕ) (p q : ℝ[X]) (t : ℝ) (hp : (X - C t) ^ l ∣ p) (hq : (X - C t) ^ k ∣ q)
    (h : n < l + k) : (form n p q).eval t = 0 := by
  have key : ∀ (r : ℝ[X]) (a i : ℕ), (X - C t) ^ a ∣ r → i < a → (derivative^[i] r).eval t = 0 := by
    intro r a i hr hi
    have h1 := pow_sub_dvd_iterate_derivative_of_pow_dvd i hr
    have h2 : (X - C t) ∣ derivative^[i] r := (dvd_pow_self _ (by omega)).trans h1
    exact (dvd_iff_isRoot.1 h2)
  rw [form, eval_finset_sum]
  apply sum_eq_zero
  intro i hi
  have hi' := mem_range.1 hi
  rw [eval_mul, eval_mul]
  rcases Nat.lt_or_ge i l with h1 | h1
  · rw [key p l i hp h1]
    ring
  · rw [key q k (n - i) hq (by omega)]
    ring

theorem form_one (n : ℕ) (q : ℝ[X]) (hm : q.Monic) (hq : q.natDegree = n) (t : ℝ) : (form n 1 q).eval t ≠ 0 := by
  have h1 : form n 1 q = derivative^[n] q := by
    rw [form, sum_range_succ', sum_eq_zero]
    · simp
    · intro i _
      rw [iterate_derivative_eq_zero (show (1 : ℝ[X]).natDegree < i + 1 by simp)]
      simp
  rw [form_eval n 1 q (by simp) hq.le t 0, h1, ← coeff_zero_eq_eval_zero, coeff_iterate_derivative, zero_add,
    Nat.descFactorial_self, ← hq, coeff_natDegree, hm.leadingCoeff, nsmul_eq_mul, mul_one]
  exact_mod_cast (Nat.factorial_pos _).ne'

/-! ## Pieces as polynomials -/

noncomputable def piece (m : Spec) (a : ℕ → ℕ → ℝ) (q : ℕ) : ℝ[X] :=
  ∑ j ∈ range (m.order + 1), C (a q j) * (X - C (m.knots.getD q 0)) ^ j

theorem piece_eval (m : Spec) (a : ℕ → ℕ → ℝ) (q : ℕ) (x : ℝ) : (piece m a q).eval x
    = ∑ j ∈ range (m.order + 1), a q j * (x - m.knots.getD q 0) ^ j := by
  simp [piece, eval_finset_sum]

theorem piece_degree (m : Spec) (a : ℕ → ℕ → ℝ) (q : ℕ) : (piece m a q).natDegree ≤ m.order := by
  refine natDegree_sum_le_of_forall_le _ _ fun j hj => ?_
  refine (natDegree_C_mul_le _ _).trans ?_
  rw [natDegree_pow, natDegree_X_sub_C, mul_one]
  have := mem_range.1 hj
  omega

theorem piece_next (m : Spec) (a : ℕ → ℕ → ℝ)
    (hj : ∀ q, q + 2 < m.knots.length →
      Joined m.order (m.knots.getD (q + 1) 0 - m.knots.getD q 0) (a q) (a (q + 1))) (q : ℕ)
    (hq : q + 2 < m.knots.length) : piece m a (q + 1)
      = piece m a q + C (a (q + 1) m.order - a q m.order) * (X - C (m.knots.getD (q + 1) 0)) ^ m.order := by
  apply Polynomial.funext
  intro x
  rw [eval_add, piece_eval, piece_eval, joined _ _ _ _ (hj q hq)]
  simp

theorem piece_zero (m : Spec) (a : ℕ → ℕ → ℝ) (q : ℕ) (h : ∀ j < m.order + 1, a q j = 0) : piece m a q = 0 := by
  apply sum_eq_zero
  intro j hj
  rw [h j (mem_range.1 hj), C_0, zero_mul]

theorem piece_left (m : Spec) (a : ℕ → ℕ → ℝ) (q k : ℕ) (h : ∀ j < k, j < m.order + 1 → a q j = 0) :
    (X - C (m.knots.getD q 0)) ^ k ∣ piece m a q := by
  apply dvd_sum
  intro j hj
  rcases Nat.lt_or_ge j k with h1 | h1
  · rw [h j h1 (mem_range.1 hj), C_0, zero_mul]
    exact dvd_zero _
  · exact (pow_dvd_pow _ h1).mul_left _

theorem piece_right (m : Spec) (a : ℕ → ℕ → ℝ) (q k : ℕ) (T : ℝ)
    (h : ∀ i < k, i < m.order + 1 → ∑ j ∈ range (m.order + 1), (j.choose i : ℝ) * (T - m.knots.getD q 0) ^ (j - i) * a q j = 0) :
    (X - C T) ^ k ∣ piece m a q := by
  have e : piece m a q = ∑ i ∈ range (m.order + 1),
      C (∑ j ∈ range (m.order + 1), (j.choose i : ℝ) * (T - m.knots.getD q 0) ^ (j - i) * a q j) * (X - C T) ^ i := by
    apply Polynomial.funext
    intro x
    rw [piece_eval]
    have := shift m.order (a q) (x - T) (T - m.knots.getD q 0)
    rw [show x - T + (T - m.knots.getD q 0) = x - m.knots.getD q 0 by ring] at this
    rw [this, eval_finset_sum]
    simp only [eval_mul, eval_C, eval_pow, eval_sub, eval_X]
  rw [e]
  apply dvd_sum
  intro i hi
  rcases Nat.lt_or_ge i k with h1 | h1
  · rw [h i h1 (mem_range.1 hi), C_0, zero_mul]
    exact dvd_zero _
  · exact (pow_dvd_pow _ h1).mul_left _

/-! ## The edges of the blobs -/

theorem basis_raw (solve : Solver) (m : Spec) (basis : ℕ → ℕ → ℕ → ℝ) (hb : m.makeBasis solve = some basis) :
    ∃ (raw : ℕ → ℕ → ℕ → ℝ) (bpar : ℕ → ℝ), m.rawBasis solve = some raw ∧ basis = fun q j k => raw q j k * bpar k := by
  unfold Spec.makeBasis at hb
  obtain ⟨raw, hraw, hn⟩ := Option.bind_eq_some_iff.1 hb
  unfold Spec.normalizeBasis at hn
  obtain ⟨bpar, -, rfl⟩ := Option.map_eq_some_iff.1 hn
  exact ⟨raw, bpar, hraw, rfl⟩

theorem basis_support (solve : Solver) (m : Spec) (h2 : 2 ≤ m.knots.length) (basis : ℕ → ℕ → ℕ → ℝ)
    (hb : m.makeBasis solve = some basis) (q j k : ℕ) (h : ¬ (q ≤ k ∧ k ≤ q + m.order)) : basis q j k = 0 := by
  obtain ⟨raw, bpar, hraw, rfl⟩ := basis_raw solve m basis hb
  unfold Spec.rawBasis at hraw
  split_ifs at hraw
  cases hraw
  dsimp only
  rw [window_eq m h2 k, if_neg (by dsimp only; omega), zero_mul]

theorem basis_left (solve : Solver) (hsolve : SolveSpec solve) (m : Spec) (h2 : 2 ≤ m.knots.length)
    (basis : ℕ → ℕ → ℕ → ℝ) (hb : m.makeBasis solve = some basis) (j k : ℕ) (hk : k < m.npmax) (h : j < m.order)
    (hjk : j < k) : basis 0 j k = 0 := by
  have hnp : m.npmax = m.knots.length + m.order - 1 := rfl
  obtain ⟨raw, bpar, hraw, rfl⟩ := basis_raw solve m basis hb
  unfold Spec.rawBasis at hraw
  split_ifs at hraw with hall
  cases hraw
  have hsome := List.all_eq_true.1 hall k (List.mem_range.2 hk)
  obtain ⟨p, hp⟩ := Option.isSome_iff_exists.1 hsome
  simp only [hp, Option.getD_some]
  unfold Spec.blobPar at hp
  simp only [window_eq m h2 k] at hp ⊢
  obtain ⟨hL, -, -⟩ := find_spec solve hsolve m _ (by omega) _ k p hp
  have hne : m.ne1 k = min m.order k := rfl
  split_ifs with h1
  · rw [Nat.zero_sub, zero_mul, zero_add, hL j (by omega), zero_mul]
  · rw [zero_mul]

theorem basis_right (solve : Solver) (hsolve : SolveSpec solve) (m : Spec) (h2 : 2 ≤ m.knots.length)
    (basis : ℕ → ℕ → ℕ → ℝ) (hb : m.makeBasis solve = some basis) (i k : ℕ) (hk : k < m.npmax) (h : i < m.order)
    (hik : i + k + 1 < m.npmax) : ∑ j ∈ range (m.order + 1), (j.choose i : ℝ)
      * (m.knots.getD (m.knots.length - 1) 0 - m.knots.getD (m.knots.length - 2) 0) ^ (j - i)
      * basis (m.knots.length - 2) j k = 0 := by
  have hnp : m.npmax = m.knots.length + m.order - 1 := rfl
  by_cases hkn : k + 2 < m.knots.length
  · apply sum_eq_zero
    intro j _
    rw [basis_support solve m h2 basis hb _ j k (by omega), mul_zero]
  · obtain ⟨raw, bpar, hraw, rfl⟩ := basis_raw solve m basis hb
    unfold Spec.rawBasis at hraw
    split_ifs at hraw with hall
    cases hraw
    have hsome := List.all_eq_true.1 hall k (List.mem_range.2 hk)
    obtain ⟨p, hp⟩ := Option.isSome_iff_exists.1 hsome
    simp only [hp, Option.getD_some]
    unfold Spec.blobPar at hp
    simp only [window_eq m h2 k, min_eq_left (show m.knots.length ≤ k + 2 by omega)] at hp ⊢
    obtain ⟨-, -, hR⟩ := find_spec solve hsolve m _ (by omega) _ k p hp
    have hne : m.ne1 k = min m.order k := rfl
    have := hR i (by omega) h
    have e1 : k - m.order + (m.knots.length - (k - m.order) - 2) = m.knots.length - 2 := by omega
    have e2 : m.knots.length - 2 + 1 = m.knots.length - 1 := by omega
    simp only [Spec.dist, e1, e2] at this
    have e3 : m.knots.length - (k - m.order) - 2 = m.knots.length - 2 - (k - m.order) := by omega
    rw [e3] at this
    have e4 : (k - m.order ≤ m.knots.length - 2 ∧ m.knots.length - 2 + 1 < m.knots.length) := by omega
    simp only [if_pos e4, ← mul_assoc]
    rw [← sum_mul, this, zero_mul]

/-! ## Every parameter has influence -/

/-- The polynomial that is zero at the knots of blob `k`. -/
noncomputable def dual (m : Spec) (k : ℕ) : ℝ[X] :=
  (X - C (m.knots.getD 0 0)) ^ (m.order - k)
    * ((∏ i ∈ Ico (max 1 (k + 1 - m.order)) (min k (m.knots.length - 2) + 1), (X - C (m.knots.getD i 0)))
    * (X - C (m.knots.getD (m.knots.length - 1) 0)) ^ (k + 2 - m.knots.length))

theorem dual_monic (m : Spec) (k : ℕ) : (dual m k).Monic :=
  ((monic_X_sub_C _).pow _).mul ((monic_prod_of_monic _ _ fun _ _ => monic_X_sub_C _).mul ((monic_X_sub_C _).pow _))

theorem dual_degree (m : Spec) (h2 : 2 ≤ m.knots.length) (k : ℕ) (hk : k < m.npmax) : (dual m k).natDegree = m.order := by
  have hnp : m.npmax = m.knots.length + m.order - 1 := rfl
  have hm : (∏ i ∈ Ico (max 1 (k + 1 - m.order)) (min k (m.knots.length - 2) + 1), (X - C (m.knots.getD i 0))).Monic :=
    monic_prod_of_monic _ _ fun _ _ => monic_X_sub_C _
  rw [dual, ((monic_X_sub_C _).pow _).natDegree_mul (hm.mul ((monic_X_sub_C _).pow _)),
    hm.natDegree_mul ((monic_X_sub_C _).pow _), natDegree_prod_of_monic _ _ fun _ _ => monic_X_sub_C _]
  simp only [natDegree_pow, natDegree_X_sub_C, mul_one, sum_const, Nat.card_Ico, smul_eq_mul]
  omega

/-- The coefficients of the pieces of a result. -/
noncomputable def coefs (m : Spec) (basis : ℕ → ℕ → ℕ → ℝ) (p : ℕ → ℝ) (q j : ℕ) : ℝ :=
  ∑ l ∈ range m.npmax, basis q j l * p l

theorem coefs_add (m : Spec) (basis : ℕ → ℕ → ℕ → ℝ) (p p' : ℕ → ℝ) (q : ℕ) :
    piece m (coefs m basis fun l => p l + p' l) q = piece m (coefs m basis p) q + piece m (coefs m basis p') q := by
  simp only [piece, coefs, mul_add, sum_add_distrib, C_add, add_mul]

theorem result_piece (m : Spec) (basis : ℕ → ℕ → ℕ → ℝ) (p : ℕ → ℝ) (x : ℝ) :
    m.result basis x p = (piece m (coefs m basis p) (m.knotIndex x)).eval x := by
  rw [result_blobs, piece_eval]
  simp only [blob_pieces]
  rw [← pieces_sum]
  rfl

/-- A piece is known by its values. -/
theorem piece_unique (m : Spec) (h2 : 2 ≤ m.knots.length) (hs : m.knots.Pairwise (· < ·)) (basis : ℕ → ℕ → ℕ → ℝ)
    (p : ℕ → ℝ) (q : ℕ) (hq : q + 1 < m.knots.length) (P : ℝ[X]) (h : ∀ x, m.result basis x p = P.eval x) :
    piece m (coefs m basis p) q = P := by
  have hlt : ∀ i, i + 1 < m.knots.length → m.knots.getD i 0 < m.knots.getD (i + 1) 0 := by
    intro i hi
    rw [List.pairwise_iff_getElem] at hs
    have := hs i (i + 1) (by omega) hi (by omega)
    simpa [List.getD_eq_getElem?_getD, List.getElem?_eq_getElem, hi, show i < m.knots.length by omega] using this
  have hmono : ∀ i j, i ≤ j → j < m.knots.length → m.knots.getD i 0 ≤ m.knots.getD j 0 := by
    intro i j hij hj
    induction j, hij using Nat.le_induction with
    | base => exact le_rfl
    | succ j hij ih => exact (ih (by omega)).trans (hlt j hj).le
  apply eq_of_infinite_eval_eq
  apply (Set.Ico_infinite (hlt q hq)).mono
  intro x hx
  obtain ⟨h3, h4⟩ := knotIndex_spec m h2 (hs.imp le_of_lt) x
  have hi : m.knotIndex x = q := by
    rcases lt_trichotomy (m.knotIndex x) q with h | h | h
    · exfalso
      have := (h4 (q - 1) (by omega)).1 (by rw [show q - 1 + 1 = q by omega]; exact hx.1)
      omega
    · exact h
    · exfalso
      have := (h4 q (by omega)).2 h
      exact absurd hx.2 (not_lt.2 this)
  show (piece m (coefs m basis p) q).eval x = P.eval x
  rw [← h x, result_piece, hi]

/-- C76: each of the parameters has influence. -/
theorem C76_influence (solve : Solver) (hsolve : SolveSpec solve) (hregular : SolveRegular solve) (m : Spec)
    (h2 : 2 ≤ m.knots.length) (hs : m.knots.Pairwise (· < ·)) (basis : ℕ → ℕ → ℕ → ℝ)
    (hb : m.makeBasis solve = some basis) (k : ℕ) (hk : k < m.npmax) :
    ∃ x, m.result basis x (fun n => if n = k then 1 else 0) ≠ 0 := by
  by_contra hcon
  push Not at hcon
  have hnp : m.npmax = m.knots.length + m.order - 1 := rfl
  set pS : ℕ → ℝ := fun l => if l < k then 1 else 0 with hpS
  set pR : ℕ → ℝ := fun l => if k < l then 1 else 0 with hpR
  have hdeg := dual_degree m h2 k hk
  have hmon := dual_monic m k
  -- the sum of the other ones is 1
  have hone : ∀ x, m.result basis x (fun l => pS l + pR l) = 1 := by
    intro x
    have h1 := C76_unity solve hsolve hregular m h2 (hs.imp le_of_lt) basis hb x
    have h3 := hcon x
    rw [result_blobs] at h1 h3 ⊢
    rw [← h1, ← add_zero (∑ k ∈ range m.npmax, _), ← h3, ← sum_add_distrib]
    apply sum_congr rfl
    intro l _
    rw [← mul_add]
    congr 1
    simp only [hpS, hpR]
    split_ifs <;> first | omega | norm_num
  have hjoin : ∀ p : ℕ → ℝ, ∀ q, q + 2 < m.knots.length → Joined m.order (m.knots.getD (q + 1) 0 - m.knots.getD q 0)
      (coefs m basis p q) (coefs m basis p (q + 1)) := fun p q hq =>
    joined_sum _ _ _ (fun j k => basis q j k) (fun j k => basis (q + 1) j k) p
      fun k hk => basis_joined solve hsolve m h2 basis hb k hk q hq
  set F : ℝ[X] → ℝ := fun p => (form m.order p (dual m k)).eval 0 with hF
  have hFadd : ∀ p p', F (p + p') = F p + F p' := fun p p' => by simp only [hF, form_add, eval_add]
  have hFzero : ∀ (p : ℝ[X]) (t : ℝ) (a b : ℕ), p.natDegree ≤ m.order → (X - C t) ^ a ∣ p → (X - C t) ^ b ∣ dual m k →
      m.order < a + b → F p = 0 := by
    intro p t a b h1 h3 h4 h5
    show (form m.order p (dual m k)).eval 0 = 0
    rw [form_eval _ _ _ h1 hdeg.le 0 t]
    exact form_zero _ _ _ _ _ _ h3 h4 h5
  -- the first piece
  have hfirst : F (piece m (coefs m basis pS) (k - m.order)) ≠ 0 := by
    have h1 := coefs_add m basis pS pR (k - m.order)
    rw [piece_unique m h2 hs basis _ (k - m.order) (by omega) 1 (fun x => by rw [hone x, eval_one])] at h1
    have h3 : F (piece m (coefs m basis pR) (k - m.order)) = 0 := by
      rcases Nat.lt_or_ge k m.order with h | h
      · rw [show k - m.order = 0 by omega]
        refine hFzero _ (m.knots.getD 0 0) (k + 1) (m.order - k) (piece_degree _ _ _) ?_ (dvd_mul_right _ _) (by omega)
        apply piece_left
        intro j hj _
        apply sum_eq_zero
        intro l hl
        by_cases hkl : k < l
        · rw [basis_left solve hsolve m h2 basis hb j l (mem_range.1 hl) (by omega) (by omega), zero_mul]
        · simp only [hpR, if_neg hkl, mul_zero]
      · rw [piece_zero]
        · refine hFzero 0 0 (m.order + 1) 0 (by simp) (dvd_zero _) (by simp) (by omega)
        · intro j _
          apply sum_eq_zero
          intro l _
          by_cases hkl : k < l
          · rw [basis_support solve m h2 basis hb _ j l (by omega), zero_mul]
          · simp only [hpR, if_neg hkl, mul_zero]
    have h4 : F 1 ≠ 0 := form_one _ _ hmon hdeg 0
    rw [h1, hFadd, h3, add_zero] at h4
    exact h4
  -- the other pieces
  have hnext : ∀ q, k - m.order ≤ q → q ≤ min k (m.knots.length - 2) → F (piece m (coefs m basis pS) q) ≠ 0 := by
    intro q hq hq'
    induction q, hq using Nat.le_induction with
    | base => exact hfirst
    | succ q hq ih =>
      rw [piece_next m _ (hjoin pS) q (by omega), hFadd]
      have : F (C (coefs m basis pS (q + 1) m.order - coefs m basis pS q m.order)
          * (X - C (m.knots.getD (q + 1) 0)) ^ m.order) = 0 := by
        refine hFzero _ (m.knots.getD (q + 1) 0) m.order 1 ?_ (dvd_mul_left _ _) ?_ (by omega)
        · refine (natDegree_C_mul_le _ _).trans ?_
          rw [natDegree_pow, natDegree_X_sub_C, mul_one]
        · rw [pow_one]
          refine Dvd.dvd.mul_left (Dvd.dvd.mul_right ?_ _) _
          exact dvd_prod_of_mem (fun i => (X - C (m.knots.getD i 0) : ℝ[X])) (mem_Ico.2 (by omega))
      rw [this, add_zero]
      exact ih (by omega)
  have hlast := hnext (min k (m.knots.length - 2)) (by omega) le_rfl
  apply hlast
  rcases Nat.lt_or_ge k (m.knots.length - 1) with h | h
  · rw [min_eq_left (by omega), piece_zero]
    · refine hFzero 0 0 (m.order + 1) 0 (by simp) (dvd_zero _) (by simp) (by omega)
    · intro j _
      apply sum_eq_zero
      intro l _
      by_cases hkl : l < k
      · rw [basis_support solve m h2 basis hb _ j l (by omega), zero_mul]
      · simp only [hpS, if_neg hkl, mul_zero]
  · rw [min_eq_right (by omega)]
    refine hFzero _ (m.knots.getD (m.knots.length - 1) 0) (m.npmax - k) (k + 2 - m.knots.length) (piece_degree _ _ _) ?_
      ((dvd_mul_left _ _).mul_left _) (by omega)
    apply piece_right
    intro i hi _
    have hsum : ∀ j, coefs m basis pS (m.knots.length - 2) j = ∑ l ∈ range m.npmax, basis (m.knots.length - 2) j l * pS l :=
      fun _ => rfl
    simp only [hsum, mul_sum]
    rw [sum_comm]
    apply sum_eq_zero
    intro l hl
    by_cases hkl : l < k
    · have := basis_right solve hsolve m h2 basis hb i l (mem_range.1 hl) (by omega) (by omega)
      simp only [← mul_assoc]
      rw [← sum_mul, this, zero_mul]
    · apply sum_eq_zero
      intro j _
      simp only [hpS, if_neg hkl, mul_zero]

/-- C76: every spline of that order over the knots is the result for some parameters. -/
theorem C76_all (solve : Solver) (hsolve : SolveSpec solve) (hregular : SolveRegular solve) (m : Spec)
    (h2 : 2 ≤ m.knots.length) (hs : m.knots.Pairwise (· < ·)) (basis : ℕ → ℕ → ℕ → ℝ)
    (hb : m.makeBasis solve = some basis) (f : ℝ → ℝ) (hf : IsSpline m.order m.knots f) :
    ∃ p : ℕ → ℝ, ∀ x, m.result basis x p = f x :=
  all_influence solve hsolve hregular m h2 (hs.imp le_of_lt) basis hb
    (fun k hk => C76_influence solve hsolve hregular m h2 hs basis hb k hk) f hf

/-- C76: the functions of a basic splines model are exactly those of a splines model of the same order over the same
knots. -/
theorem C76_same (solve : Solver) (hsolve : SolveSpec solve) (hregular : SolveRegular solve) (m : Spec)
    (h2 : 2 ≤ m.knots.length) (hs : m.knots.Pairwise (· < ·)) (basis : ℕ → ℕ → ℕ → ℝ)
    (hb : m.makeBasis solve = some basis) (f : ℝ → ℝ) :
    (∃ p : ℕ → ℝ, ∀ x, m.result basis x p = f x) ↔
      ∃ p : ℕ → ℝ, ∀ x, splineResult m.order m.knots x p = some (f x) := by
  have hs' : m.knots.Pairwise (· ≤ ·) := hs.imp le_of_lt
  rw [splines_all m.order m.knots h2 hs']
  constructor
  · rintro ⟨p, hp⟩
    have : f = fun x => m.result basis x p := by
      funext x
      rw [hp]
    rw [this]
    exact C75_spline solve hsolve m h2 hs' basis hb p
  · exact C76_all solve hsolve hregular m h2 hs basis hb f

/-- The parameters are unique. -/
theorem C76_unique (solve : Solver) (hsolve : SolveSpec solve) (hregular : SolveRegular solve) (m : Spec)
    (h2 : 2 ≤ m.knots.length) (hs : m.knots.Pairwise (· < ·)) (basis : ℕ → ℕ → ℕ → ℝ)
    (hb : m.makeBasis solve = some basis) (p p' : ℕ → ℝ) (h : ∀ x, m.result basis x p = m.result basis x p') :
    ∀ k < m.npmax, p k = p' k := by
  have hinf := fun k hk => C76_influence solve hsolve hregular m h2 hs basis hb k hk
  unfold Spec.makeBasis at hb
  obtain ⟨raw, hraw, hn⟩ := Option.bind_eq_some_iff.1 hb
  unfold Spec.normalizeBasis at hn
  obtain ⟨bpar, hbpar, rfl⟩ := Option.map_eq_some_iff.1 hn
  have hreg := hregular _ _ _ _ hbpar
  have hscale : ∀ k x, m.basicBlob m.order (fun q j => raw q j k * bpar k) x
      = m.basicBlob m.order (fun q j => raw q j k) x * bpar k := by
    intro k x
    rw [blob_pieces, blob_pieces]
    unfold pieces
    rw [sum_mul]
    exact sum_congr rfl fun j _ => by ring
  intro k hk
  have h0 := hreg (fun k => bpar k * (p k - p' k)) (by
    intro r _
    have := h (m.points r)
    rw [result_blobs, result_blobs, ← sub_eq_zero, ← sum_sub_distrib] at this
    rw [← this]
    apply sum_congr rfl
    intro l _
    rw [hscale]
    ring) k hk
  rcases mul_eq_zero.1 h0 with h1 | h1
  · exfalso
    obtain ⟨x, hx⟩ := hinf k hk
    apply hx
    rw [result_blobs]
    apply sum_eq_zero
    intro n _
    by_cases hn : n = k
    · rw [if_pos hn, hn, hscale, h1]
      simp
    · rw [if_neg hn, mul_zero]
  · linarith

/-- The hypotheses of these theorems are met by splines of order 1 on three knots. -/
example : ∃ basis, three.makeBasis exactSolve = some basis ∧ SolveSpec exactSolve ∧ SolveRegular exactSolve ∧
    2 ≤ three.knots.length ∧ three.knots.Pairwise (· < ·) ∧ three.npmax = 3 := by
  obtain ⟨basis, hb, -⟩ := three_basis
  exact ⟨basis, hb, exact_spec, exact_regular, by simp [three], by simp [three], rfl⟩

end BF.BasicSplines
