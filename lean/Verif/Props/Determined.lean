import Verif.LinearModels
import Verif.Props.Fitters
import Verif.Props.Poly
import Verif.Props.Splines
import Verif.Props.BSplines
import Verif.Props.SplineRank
import Mathlib.Algebra.Polynomial.Roots
import Mathlib.RingTheory.Polynomial.Chebyshev
import Mathlib.LinearAlgebra.FiniteDimensional.Lemmas
import Mathlib.LinearAlgebra.Dimension.Finrank
import Mathlib.Analysis.SpecialFunctions.Complex.Circle

/-!
# C119: data that determine the parameters of a linear model
-/

namespace BF.LinearModels

open BF.Fitters BF.Poly Finset

variable {X : Type*}

/-! ## Specification -/

/-- No two different sets of parameters, with the kept values, have the same results at all data. -/
def Determine (m : Lin X) (d : Data X) (keep : List (ℤ × ℝ)) : Prop :=
  ∀ p q : ℕ → ℝ, Agrees keep p → Agrees keep q → (∀ i < d.n, m.result (d.x i) p = m.result (d.x i) q) →
    ∀ k < m.np, p k = q k

/-- What is asked of `numpy.linalg.solve` as well: it has a result for all matrices that are not singular. -/
def SolveComplete (solve : ℕ → (ℕ → ℕ → ℝ) → (ℕ → ℝ) → Option (ℕ → ℝ)) : Prop :=
  ∀ (K : ℕ) (A : ℕ → ℕ → ℝ) (v : ℕ → ℝ),
    (∀ z : ℕ → ℝ, (∀ a < K, ∑ b ∈ range K, A a b * z b = 0) → ∀ b < K, z b = 0) → ∃ x, solve K A v = some x

/-- All weights are positive. -/
def Positive (d : Data X) : Prop :=
  (∀ w, d.weights = some w → ∀ i < d.n, 0 < w i) ∧ ∀ a, d.accuracy = some a → ∀ i < d.n, a i ≠ 0

/-- The number of different x. -/
noncomputable def different (d : Data ℝ) : ℕ := ((range d.n).image d.x).card

/-- The range of function i of a BSplines model of order 1 and up: strictly between knots i - order and i + 1, as far
as these exist; the first and the last function are not zero at the first and the last knot. -/
def InRange (order : ℕ) (knots : List ℝ) (i : ℕ) (x : ℝ) : Prop :=
  (knots.getD (i - order) 0 < x ∨ (i = 0 ∧ x = knots.getD 0 0)) ∧
  (x < knots.getD (min (i + 1) (knots.length - 1)) 0 ∨
    (i + 2 = order + knots.length ∧ x = knots.getD (knots.length - 1) 0))

/-- All data are between the first and the last knot. -/
def Within (knots : List ℝ) (d : Data ℝ) : Prop :=
  ∀ i < d.n, knots.getD 0 0 ≤ d.x i ∧ d.x i ≤ knots.getD (knots.length - 1) 0

/-! ## The matrix -/

theorem wgts_pos (d : Data X) (h : Positive d) (i : ℕ) (hi : i < d.n) : 0 < d.fitWgts i := by
  unfold Data.fitWgts
  rcases hw : d.weights with _ | w <;> rcases ha : d.accuracy with _ | a <;> simp only []
  · norm_num
  · exact div_pos (by norm_num) (mul_self_pos.2 (h.2 a ha i hi))
  · simpa using h.1 w hw i hi
  · exact div_pos (by simpa using h.1 w hw i hi) (mul_self_pos.2 (h.2 a ha i hi))

/-- No combination of the columns of the fitted parameters is zero at all data. -/
def Free (m : Lin X) (d : Data X) (f : ℕ → Bool) : Prop :=
  ∀ v : ℕ → ℝ, (∀ k < m.np, f k = false → v k = 0) → (∀ i < d.n, ∑ k ∈ range m.np, v k * m.part (d.x i) k = 0) →
    ∀ k < m.np, v k = 0

theorem sum_free (m : Lin X) (f : ℕ → Bool) (x : X) (v : ℕ → ℝ) (hv : ∀ k < m.np, f k = false → v k = 0) :
    ∑ k ∈ range m.np, v k * m.part x k = ∑ a ∈ range (indexOf m.np f).length,
      v (((List.range m.np).filter f).getD a 0) * m.part x (((List.range m.np).filter f).getD a 0) := by
  rw [index_length, ← sum_index m.np f fun k => v k * m.part x k]
  apply sum_congr rfl
  intro k hk
  rcases hf : f k with _ | _
  · rw [hv k (mem_range.1 hk) hf, zero_mul]
    rfl
  · rfl

theorem design_eq (m : Lin X) (d : Data X) (s : Fitter) (f : ℕ → Bool) (i a : ℕ) (hi : i < d.n) :
    getDesign m d s (indexOf m.np f) i a = m.part (d.x i) (((List.range m.np).filter f).getD a 0) := by
  simp only [getDesign, if_pos hi, index_at]

theorem hessian_apply (m : Lin X) (d : Data X) (s : Fitter) (f : ℕ → Bool) (hn : s.nnorm = 0) (z : ℕ → ℝ) (a : ℕ) :
    ∑ b ∈ range (indexOf m.np f).length, getHessian m d s (indexOf m.np f) a b * z b
      = ∑ i ∈ range d.n, d.fitWgts i * (getDesign m d s (indexOf m.np f) i a
        * ∑ b ∈ range (indexOf m.np f).length, z b * getDesign m d s (indexOf m.np f) i b) := by
  simp only [getHessian, hn, add_zero, sum_mul, mul_sum]
  rw [sum_comm]
  apply sum_congr rfl
  intro i hi
  apply sum_congr rfl
  intro b _
  rw [allWgts, if_pos (mem_range.1 hi)]
  ring

theorem regular_iff (m : Lin X) (d : Data X) (hd : Positive d) (s : Fitter) (f : ℕ → Bool) (hn : s.nnorm = 0) :
    (∀ z : ℕ → ℝ, (∀ a < (indexOf m.np f).length, ∑ b ∈ range (indexOf m.np f).length,
      getHessian m d s (indexOf m.np f) a b * z b = 0) → ∀ b < (indexOf m.np f).length, z b = 0) ↔ Free m d f := by
  constructor
  · intro h v hv hz k hk
    rcases hf : f k with _ | _
    · exact hv k hk hf
    · have h1 := h (fun a => v (((List.range m.np).filter f).getD a 0)) (by
        intro a _
        rw [hessian_apply m d s f hn]
        apply sum_eq_zero
        intro i hi
        have hi := mem_range.1 hi
        have h2 := hz i hi
        rw [sum_free m f _ v hv] at h2
        simp only [design_eq m d s f i _ hi]
        rw [h2, mul_zero, mul_zero])
      have hmem : k ∈ (List.range m.np).filter f := by simp [hk, hf]
      obtain ⟨a, ha, hka⟩ := List.getElem_of_mem hmem
      have := h1 a (by rw [index_length]; exact ha)
      rwa [List.getD_eq_getElem?_getD, List.getElem?_eq_getElem ha, Option.getD_some, hka] at this
  · intro h z hz b hb
    have hsum : ∑ i ∈ range d.n, d.fitWgts i
        * (∑ b ∈ range (indexOf m.np f).length, z b * getDesign m d s (indexOf m.np f) i b) ^ 2 = 0 := by
      have e1 : ∑ a ∈ range (indexOf m.np f).length, z a * ∑ b ∈ range (indexOf m.np f).length,
          getHessian m d s (indexOf m.np f) a b * z b = 0 :=
        sum_eq_zero fun a ha => by rw [hz a (mem_range.1 ha), mul_zero]
      rw [← e1]
      simp only [hessian_apply m d s f hn, mul_sum]
      rw [sum_comm]
      apply sum_congr rfl
      intro i _
      rw [sq, sum_mul, mul_sum]
      apply sum_congr rfl
      intro a _
      simp only [mul_sum]
      apply sum_congr rfl
      intro b _
      ring
    have heach : ∀ i < d.n, ∑ b ∈ range (indexOf m.np f).length, z b * getDesign m d s (indexOf m.np f) i b = 0 := by
      intro i hi
      have := (sum_eq_zero_iff_of_nonneg (fun i hi => mul_nonneg (wgts_pos d hd i (mem_range.1 hi)).le
        (sq_nonneg _))).1 hsum i (mem_range.2 hi)
      exact pow_eq_zero_iff two_ne_zero |>.1 ((mul_eq_zero.1 this).resolve_left (wgts_pos d hd i hi).ne')
    obtain ⟨hins, hkept⟩ := insert_spec m.np f (fun _ => 0) z
    have hv : ∀ k < m.np, f k = false → insertParameters m.np (fun _ => 0) z (indexOf m.np f) k = 0 := by
      intro k hk hf
      rw [hkept k hk (by simp [indexOf, hf])]
    have hF : ∀ a < (indexOf m.np f).length,
        insertParameters m.np (fun _ => 0) z (indexOf m.np f) (((List.range m.np).filter f).getD a 0) = z a :=
      fun a ha => hins a _ (filter_at m.np f a ha)
    have := h _ hv (fun i hi => by
      rw [sum_free m f _ _ hv]
      refine Eq.trans (sum_congr rfl ?_) (heach i hi)
      intro a ha
      rw [hF a (mem_range.1 ha), design_eq m d s f i a hi]) (((List.range m.np).filter f).getD b 0) (by
        have hb' : b < ((List.range m.np).filter f).length := by rw [← index_length]; exact hb
        rw [List.getD_eq_getElem?_getD, List.getElem?_eq_getElem hb', Option.getD_some]
        have := List.getElem_mem hb'
        rw [List.mem_filter, List.mem_range] at this
        exact this.1)
    rwa [hF b hb] at this

theorem result_sub (m : Lin X) (x : X) (p q : ℕ → ℝ) :
    m.result x p = m.result x q ↔ ∑ k ∈ range m.np, (p k - q k) * m.part x k = 0 := by
  simp only [Lin.result, sub_mul, sum_sub_distrib]
  constructor <;> intro h <;> linarith

theorem determine_iff (m : Lin X) (d : Data X) (keep : List (ℤ × ℝ)) (hk : ProperKeep m.np keep) :
    Determine m d keep ↔ Free m d fun k => decide ((k : ℤ) ∉ keep.map Prod.fst) := by
  constructor
  · intro h v hv hz k hkn
    have hst := store_kept m.np keep hk fun _ => 0
    have := h (fun k => storeKept m.np (fun _ => 0) keep k + v k) (storeKept m.np (fun _ => 0) keep) (by
      intro kv hkv
      have hr := hk.2 kv hkv
      have hv0 := hv kv.1.toNat (by omega) (by
        rw [decide_eq_false_iff_not, not_not, show ((kv.1.toNat : ℕ) : ℤ) = kv.1 by omega]
        exact List.mem_map_of_mem hkv)
      show _ + v _ = _
      rw [hv0, add_zero]
      exact hst kv hkv) hst (fun i hi => by
      rw [result_sub]
      simp only [add_sub_cancel_left]
      exact hz i hi) k hkn
    linarith
  · intro h p q hp hq hr k hkn
    have := h (fun k => p k - q k) (fun k hk0 hf => by rw [agree_of m.np keep hk q p hq hp k hf, sub_self])
      (fun i hi => (result_sub m _ p q).1 (hr i hi)) k hkn
    linarith

/-- C119: with parameters kept in the call, `Fitter.fit` succeeds if and only if the data determine the parameters. -/
theorem C119_fit (solve : ℕ → (ℕ → ℕ → ℝ) → (ℕ → ℝ) → Option (ℕ → ℝ)) (hreg : SolveRegular solve)
    (hcom : SolveComplete solve) (m : Lin X) (d : Data X) (hd : Positive d) (s : Fitter) (hn : s.nnorm = 0)
    (keep : List (ℤ × ℝ)) (hk : ProperKeep m.np keep) :
    (∃ s', fit solve m d s (some keep) = some s') ↔ Determine m d keep := by
  rw [determine_iff m d keep hk]
  unfold fit
  rw [prolog_keep m.np s keep hk]
  dsimp only
  rw [← regular_iff m d hd { s with
    npfit := keep.length
    params := storeKept m.np s.params keep } (fun k => decide ((k : ℤ) ∉ keep.map Prod.fst)) hn]
  constructor
  · rintro ⟨s', h⟩
    obtain ⟨x, hx, -⟩ := Option.map_eq_some_iff.1 h
    exact hreg _ _ _ _ hx
  · intro h
    obtain ⟨x, hx⟩ := hcom _ _ (getVector m d { s with
      npfit := keep.length
      params := storeKept m.np s.params keep } (indexOf m.np fun k => decide ((k : ℤ) ∉ keep.map Prod.fst)) fun i =>
        if i < d.n then (d.y i - m.result (d.x i) (zeroed m.np (storeKept m.np s.params keep)
          (indexOf m.np fun k => decide ((k : ℤ) ∉ keep.map Prod.fst)))) * d.fitWgts i
        else s.normdata (i - d.n) * s.normweight (i - d.n)) h
    exact ⟨_, Option.map_eq_some_iff.2 ⟨x, hx, rfl⟩⟩

/-- C119: without kept parameters `Fitter.fit` succeeds if and only if the data determine the parameters. -/
theorem C119_fit_all (solve : ℕ → (ℕ → ℕ → ℝ) → (ℕ → ℝ) → Option (ℕ → ℝ)) (hreg : SolveRegular solve)
    (hcom : SolveComplete solve) (m : Lin X) (d : Data X) (hd : Positive d) (p0 : ℕ → ℝ) :
    (∃ s', fit solve m d (initFitter m.np p0 none) none = some s') ↔ Determine m d [] := by
  rw [determine_iff m d [] ⟨by simp, by simp⟩]
  have e : (fun k : ℕ => decide ((k : ℤ) ∉ ([] : List (ℤ × ℝ)).map Prod.fst)) = fun _ => true := by
    funext k
    simp
  rw [e, ← regular_iff m d hd { initFitter m.np p0 none with npfit := m.np } (fun _ => true) rfl]
  unfold fit
  simp only [fitprolog, show (initFitter m.np p0 none).fitIndex = none from rfl, index_all]
  constructor
  · rintro ⟨s', h⟩
    obtain ⟨x, hx, -⟩ := Option.map_eq_some_iff.1 h
    exact hreg _ _ _ _ hx
  · intro h
    obtain ⟨x, hx⟩ := hcom _ _ (getVector m d { initFitter m.np p0 none with npfit := m.np }
      (indexOf m.np fun _ => true) fun i =>
        if i < d.n then (d.y i - m.result (d.x i) (zeroed m.np (initFitter m.np p0 none).params
          (indexOf m.np fun _ => true))) * d.fitWgts i
        else (initFitter m.np p0 none).normdata (i - d.n) * (initFitter m.np p0 none).normweight (i - d.n)) h
    exact ⟨_, Option.map_eq_some_iff.2 ⟨x, hx, rfl⟩⟩

/-- Data that determine all parameters, determine those that are left when others are kept. -/
theorem C119_kept (m : Lin X) (d : Data X) (keep : List (ℤ × ℝ)) (h : Determine m d []) : Determine m d keep :=
  fun p q _ _ hr => h p q (by intro kv hkv; simp at hkv) (by intro kv hkv; simp at hkv) hr

/-! ## Counting -/

/-- More functions than points: a combination of them is zero at all points. -/
theorem dependent (K : ℕ) (S : Finset ℝ) (g : ℕ → ℝ → ℝ) (h : S.card < K) :
    ∃ v : ℕ → ℝ, (∃ k < K, v k ≠ 0) ∧ ∀ x ∈ S, ∑ k ∈ range K, v k * g k x = 0 := by
  let L : (Fin K → ℝ) →ₗ[ℝ] (S → ℝ) :=
    { toFun := fun v x => ∑ k : Fin K, v k * g k x
      map_add' := fun v w => by
        funext x
        simp only [Pi.add_apply, add_mul, sum_add_distrib]
      map_smul' := fun c v => by
        funext x
        simp only [Pi.smul_apply, smul_eq_mul, mul_sum, mul_assoc, RingHom.id_apply] }
  have hL := LinearMap.ker_ne_bot_of_finrank_lt (f := L) (by simpa using h)
  obtain ⟨v, hv, hv0⟩ := Submodule.exists_mem_ne_zero_of_ne_bot hL
  rw [LinearMap.mem_ker] at hv
  refine ⟨fun k => if h : k < K then v ⟨k, h⟩ else 0, ?_, ?_⟩
  · by_contra hcon
    push Not at hcon
    apply hv0
    funext k
    have := hcon k k.2
    simpa using this
  · intro x hx
    have := congrFun hv ⟨x, hx⟩
    simp only [L, LinearMap.coe_mk, AddHom.coe_mk, Pi.zero_apply] at this
    rw [← this, Finset.sum_range]
    apply sum_congr rfl
    intro k _
    simp

/-- When the points determine the combination, as many of them as there are functions do so. -/
theorem choose (K : ℕ) (S : Finset ℝ) (g : ℕ → ℝ → ℝ)
    (h : ∀ v : ℕ → ℝ, (∀ x ∈ S, ∑ k ∈ range K, v k * g k x = 0) → ∀ k < K, v k = 0) :
    ∃ τ : ℕ → ℝ, (∀ i < K, τ i ∈ S) ∧ (∀ i j, i < j → j < K → τ i < τ j) ∧
      ∀ v : ℕ → ℝ, (∀ i < K, ∑ k ∈ range K, v k * g k (τ i) = 0) → ∀ k < K, v k = 0 := by
  classical
  let r : ℝ → (Fin K → ℝ) := fun x k => g k x
  have hform : ∀ (φ : (Fin K → ℝ) →ₗ[ℝ] ℝ) (w : Fin K → ℝ), φ w = ∑ k, φ (Pi.single k 1) * w k := by
    intro φ w
    conv_lhs => rw [← Finset.univ_sum_single w]
    rw [map_sum]
    apply sum_congr rfl
    intro k _
    rw [show (Pi.single k (w k) : Fin K → ℝ) = w k • Pi.single k 1 by
      rw [← Pi.single_smul, smul_eq_mul, mul_one], map_smul, smul_eq_mul, mul_comm]
  have htop : Submodule.span ℝ (r '' S) = ⊤ := by
    by_contra hne
    obtain ⟨φ, hφ, hle⟩ := Submodule.exists_le_ker_of_lt_top _ (lt_top_iff_ne_top.2 hne)
    apply hφ
    ext k
    have := h (fun k => if h : k < K then φ (Pi.single ⟨k, h⟩ 1) else 0) (by
      intro x hx
      have hx := hle (Submodule.subset_span (Set.mem_image_of_mem r hx))
      rw [LinearMap.mem_ker, hform] at hx
      rw [Finset.sum_range, ← hx]
      apply sum_congr rfl
      intro k _
      simp [r]) k k.2
    simpa using this
  obtain ⟨f, hf, hspan, hind⟩ := Submodule.exists_fun_fin_finrank_span_eq ℝ (r '' (S : Set ℝ))
  have hK : Module.finrank ℝ (Submodule.span ℝ (r '' (S : Set ℝ))) = K := by
    rw [htop, finrank_top, Module.finrank_fin_fun]
  choose y hy hry using hf
  have hinj : Function.Injective y := by
    intro a b hab
    apply hind.injective
    rw [← hry, ← hry, hab]
  have hcard : (univ.image y).card = K := by
    rw [card_image_of_injective _ hinj, card_univ, Fintype.card_fin, hK]
  refine ⟨fun i => if h : i < K then (univ.image y).orderEmbOfFin hcard ⟨i, h⟩ else 0, ?_, ?_, ?_⟩
  · intro i hi
    dsimp only
    rw [dif_pos hi]
    obtain ⟨a, -, ha⟩ := mem_image.1 ((univ.image y).orderEmbOfFin_mem hcard ⟨i, hi⟩)
    rw [← ha]
    exact hy a
  · intro i j hij hj
    dsimp only
    rw [dif_pos hj, dif_pos (hij.trans hj)]
    exact ((univ.image y).orderEmbOfFin hcard).strictMono hij
  · intro v hv k hk
    let φ : (Fin K → ℝ) →ₗ[ℝ] ℝ :=
      { toFun := fun w => ∑ k : Fin K, v k * w k
        map_add' := fun a b => by simp only [Pi.add_apply, mul_add, sum_add_distrib]
        map_smul' := fun c a => by
          simp only [Pi.smul_apply, smul_eq_mul, mul_sum, RingHom.id_apply, mul_left_comm] }
    have hle : Submodule.span ℝ (Set.range f) ≤ LinearMap.ker φ := by
      rw [Submodule.span_le]
      rintro _ ⟨a, rfl⟩
      rw [SetLike.mem_coe, LinearMap.mem_ker, ← hry]
      have hmem : y a ∈ Set.range ((univ.image y).orderEmbOfFin hcard) := by
        rw [range_orderEmbOfFin]
        simp
      obtain ⟨i, hi⟩ := hmem
      have := hv i i.2
      dsimp only at this
      rw [dif_pos i.2, Finset.sum_range] at this
      rw [show (⟨(i : ℕ), i.2⟩ : Fin K) = i from rfl, hi] at this
      exact this
    rw [hspan, htop] at hle
    have := hle (Submodule.mem_top (x := (Pi.single ⟨k, hk⟩ 1 : Fin K → ℝ)))
    rw [LinearMap.mem_ker] at this
    simp only [φ, LinearMap.coe_mk, AddHom.coe_mk] at this
    rw [sum_eq_single ⟨k, hk⟩ (fun b _ hb => by rw [Pi.single_eq_of_ne hb, mul_zero])
      (fun h => absurd (mem_univ _) h), Pi.single_eq_same, mul_one] at this
    exact this

/-- All values of x. -/
theorem determine_all (m : Lin ℝ) (d : Data ℝ) : Determine m d [] ↔
    ∀ v : ℕ → ℝ, (∀ x ∈ (range d.n).image d.x, ∑ k ∈ range m.np, v k * m.part x k = 0) → ∀ k < m.np, v k = 0 := by
  rw [determine_iff m d [] ⟨by simp, by simp⟩]
  constructor
  · intro h v hv
    exact h v (fun k _ hf => by simp at hf) fun i hi => hv _ (mem_image_of_mem _ (mem_range.2 hi))
  · intro h v _ hv
    refine h v fun x hx => ?_
    obtain ⟨i, hi, rfl⟩ := mem_image.1 hx
    exact hv i (mem_range.1 hi)

/-- C119: data at fewer different x than there are parameters determine them of no model. -/
theorem C119_few (m : Lin ℝ) (d : Data ℝ) (h : Determine m d []) : m.np ≤ different d := by
  by_contra hlt
  obtain ⟨v, ⟨k, hk, hv⟩, hz⟩ := dependent m.np _ (fun k x => m.part x k) (not_le.1 hlt)
  exact hv ((determine_all m d).1 h v hz k hk)

/-! ## Polynomials -/

theorem part_map (np : ℕ) (f : ℕ → ℝ) (k : ℕ) (hk : k < np) : ((List.range np).map f).getD k 0 = f k := by
  rw [List.getD_eq_getElem?_getD, List.getElem?_map, List.getElem?_range hk]
  rfl

/-- Polynomials of each degree, at more points than their number. -/
theorem basis_points (n : ℕ) (P : ℕ → Polynomial ℝ) (hP : ∀ k, (P k).natDegree = k) (hP0 : ∀ k, P k ≠ 0)
    (S : Finset ℝ) (hS : n < S.card) (v : ℕ → ℝ) (hz : ∀ x ∈ S, ∑ k ∈ range (n + 1), v k * (P k).eval x = 0) :
    ∀ k < n + 1, v k = 0 := by
  have h0 : ∑ k ∈ range (n + 1), Polynomial.C (v k) * P k = 0 := by
    refine Polynomial.eq_zero_of_natDegree_lt_card_of_eval_eq_zero' _ S (fun x hx => ?_) (lt_of_le_of_lt ?_ hS)
    · rw [Polynomial.eval_finsetSum, ← hz x hx]
      simp
    · refine Polynomial.natDegree_sum_le_of_forall_le _ _ fun k hk => ?_
      refine (Polynomial.natDegree_C_mul_le _ _).trans ?_
      rw [hP]
      have := mem_range.1 hk
      omega
  clear hz hS
  induction n with
  | zero =>
    intro k hk
    obtain rfl : k = 0 := by omega
    simpa [hP0] using h0
  | succ n ih =>
    have hlast : v (n + 1) = 0 := by
      have := congrArg (fun p => p.coeff (n + 1)) h0
      simp only [Polynomial.finsetSum_coeff, Polynomial.coeff_C_mul, Polynomial.coeff_zero] at this
      rw [sum_eq_single (n + 1)] at this
      · refine (mul_eq_zero.1 this).resolve_right ?_
        have := Polynomial.leadingCoeff_ne_zero.2 (hP0 (n + 1))
        rwa [Polynomial.leadingCoeff, hP] at this
      · intro k hk hne
        rw [Polynomial.coeff_eq_zero_of_natDegree_lt, mul_zero]
        rw [hP]
        have := mem_range.1 hk
        omega
      · intro h
        simp at h
    rw [sum_range_succ, hlast, Polynomial.C_0, zero_mul, add_zero] at h0
    intro k hk
    rcases Nat.lt_succ_iff_lt_or_eq.1 hk with h | rfl
    · exact ih h0 k h
    · exact hlast

/-- C119: a polynomial is determined if and only if there are data at more different x than its degree. -/
theorem C119_polynomial (degree : ℕ) (d : Data ℝ) : Determine (polynomial degree) d [] ↔ degree < different d := by
  constructor
  · exact C119_few _ d
  · intro h
    rw [determine_all]
    intro v hz
    refine basis_points degree (fun k => Polynomial.X ^ k) (fun k => Polynomial.natDegree_X_pow k)
      (fun k => pow_ne_zero _ Polynomial.X_ne_zero) _ h v fun x hx => ?_
    rw [← hz x hx]
    apply sum_congr rfl
    intro k hk
    show _ = v k * (polyPartial degree x).getD k 0
    rw [(C35_poly degree x v).2, part_map _ _ _ (mem_range.1 hk), Polynomial.eval_pow, Polynomial.eval_X]

/-- C119: the same holds for a Chebyshev polynomial. -/
theorem C119_chebyshev (degree : ℕ) (d : Data ℝ) : Determine (chebyshev degree) d [] ↔ degree < different d := by
  constructor
  · exact C119_few _ d
  · intro h
    rw [determine_all]
    intro v hz
    refine basis_points degree (fun k => Polynomial.Chebyshev.T ℝ k) (fun k => by
        rw [Polynomial.Chebyshev.natDegree_T]; simp)
      (fun k hk => by
        have := Polynomial.Chebyshev.T_eval_one ℝ (k : ℤ)
        rw [hk] at this
        simp at this) _ h v fun x hx => ?_
    rw [← hz x hx]
    apply sum_congr rfl
    intro k hk
    show _ = v k * (chebPartial degree x).getD k 0
    rw [(C35_chebyshev degree x v).2, part_map _ _ _ (mem_range.1 hk)]

/-! ## B-splines -/

open BF.Cox BF.BSplines in
theorem strict_left {T : ℕ → ℝ} {e : ℕ} (hT : Knots T e) (hsm : Simple T e) (p : ℕ) (ho : ∀ i, T i = T 0 ↔ i ≤ p + 1)
    (x : ℝ) (hx0 : T 0 ≤ x) (hx1 : x ≤ T (e + 1)) (i : ℕ) (hi : 0 < i) (h : cox T (zeroth T e x) x (p + 1) i ≠ 0) :
    T i < x := by
  obtain ⟨-, h1, -, -⟩ := support hT x (p + 1) i h
  rcases h1.lt_or_eq with h2 | h2
  · exact h2
  · exfalso
    rcases hx0.lt_or_eq with h3 | h3
    · rcases hx1.lt_or_eq with h4 | h4
      · have h5 := hsm x h3 h4 i h2
        apply h
        rw [cox, h2, sub_self, zero_div, zero_mul, zero_add]
        have : cox T (zeroth T e x) x p (i + 1) = 0 := by
          by_contra hc
          obtain ⟨-, h6, -, -⟩ := support hT x p (i + 1) hc
          exact h5 (le_antisymm h6 (h2 ▸ hT.mono (Nat.le_succ i)))
        rw [this, mul_zero]
      · subst h4
        have := right_end hT (p + 1) i h
        subst this
        have := hT.lt
        linarith
    · subst h3
      have hpe : p + 1 ≤ e := by
        by_contra hc
        have h6 := (ho (e + 1)).2 (by omega)
        have h7 := hT.lt
        have h8 := hT.mono (Nat.zero_le e)
        linarith
      have := left_end hT (p + 1) ho hpe (p + 1) i h
      omega

open BF.Cox BF.BSplines in
theorem aug_simple (m : Spec) (hm : Good m) : Simple (aug m) (lastInt m) := by
  intro x h0 h1 i hi hi1
  have h2 := hm.1
  have hne : aug m i < aug m (i + 1) := by
    have hio : m.order ≤ i := by
      by_contra hc
      have := (aug_first m hm (i + 1)).2 (by omega)
      linarith
    have hle : i - m.order + 1 < m.knots.length := by
      by_contra hc
      have h3 := aug_last m hm
      have h4 : aug m i = m.knot (m.knots.length - 1) := by
        unfold aug
        congr 1
        omega
      linarith
    exact knot_lt hm (by omega) (by omega)
  linarith

open BF.Cox BF.BSplines in
theorem bsplines_part (order : ℕ) (knots : List ℝ) (hm : Good (makeSpec knots order)) (x : ℝ) (k : ℕ)
    (hk : k < (bsplines order knots).np) :
    (bsplines order knots).part x k = (makeSpec knots order).fn x k := by
  show ((makeSpec knots order).bspline.call x).getD k 0 = _
  rw [call_eq _ hm]
  exact part_map _ _ _ hk

open BF.Cox BF.BSplines in
/-- C119: a BSplines model of order 1 and up is determined if and only if among the data there are, in ascending
order, as many as it has parameters, each in the range of its function. -/
theorem C119_bsplines (order : ℕ) (h1 : 1 ≤ order) (knots : List ℝ) (h2 : 2 ≤ knots.length)
    (hs : knots.Pairwise (· < ·)) (d : Data ℝ) (hd : Within knots d) :
    Determine (bsplines order knots) d [] ↔ ∃ σ : ℕ → ℕ, ∀ i < order + knots.length - 1,
      σ i < d.n ∧ InRange order knots i (d.x (σ i)) ∧ ∀ j < i, d.x (σ j) < d.x (σ i) := by
  obtain ⟨p, rfl⟩ : ∃ p, order = p + 1 := ⟨order - 1, by omega⟩
  have hm : Good (makeSpec knots (p + 1)) := ⟨h2, hs⟩
  have hT := aug_knots _ hm
  have hsm := aug_simple _ hm
  have ho := aug_first _ hm
  have he : (bsplines (p + 1) knots).np = lastInt (makeSpec knots (p + 1)) + 1 := by
    show p + 1 + knots.length - 1 = knots.length + (p + 1) - 2 + 1
    omega
  have he' : p + 1 + knots.length - 1 = lastInt (makeSpec knots (p + 1)) + 1 := he
  have hl : ∀ i, aug (makeSpec knots (p + 1)) i = knots.getD (min (i - (p + 1)) (knots.length - 1)) 0 := fun i => rfl
  have h0 : aug (makeSpec knots (p + 1)) 0 = knots.getD 0 0 := aug_zero _
  have hlast : aug (makeSpec knots (p + 1)) (lastInt (makeSpec knots (p + 1)) + 1) = knots.getD (knots.length - 1) 0 :=
    aug_last _ hm
  have hleft : ∀ i, i ≤ lastInt (makeSpec knots (p + 1)) →
      aug (makeSpec knots (p + 1)) i = knots.getD (i - (p + 1)) 0 := by
    intro i hi
    rw [hl, min_eq_left (by omega)]
  have hright : ∀ i, aug (makeSpec knots (p + 1)) (i + p + 2) = knots.getD (min (i + 1) (knots.length - 1)) 0 := by
    intro i
    rw [hl, show i + p + 2 - (p + 1) = i + 1 by omega]
  have hpart := bsplines_part (p + 1) knots hm
  rw [determine_all, he', he]
  generalize hTT : aug (makeSpec knots (p + 1)) = T at *
  have hfn : ∀ x k, (makeSpec knots (p + 1)).fn x k
      = cox T (zeroth T (lastInt (makeSpec knots (p + 1))) x) x (p + 1) k := by
    intro x k
    rw [← hTT]
    rfl
  generalize hee : lastInt (makeSpec knots (p + 1)) = e at *
  have hsum : ∀ (v : ℕ → ℝ) (x : ℝ), ∑ k ∈ range (e + 1), v k * (bsplines (p + 1) knots).part x k
      = spl T e (p + 1) (e + 1) v x := by
    intro v x
    rw [spl]
    apply sum_congr rfl
    intro k hk
    rw [hpart x k (by rw [he]; exact mem_range.1 hk), hfn]
  simp only [hsum]
  constructor
  · intro h
    obtain ⟨τ, hτS, hτ, hz⟩ := choose (e + 1) ((range d.n).image d.x)
      (fun k x => cox T (zeroth T e x) x (p + 1) k) h
    have hin : ∀ i, i < e + 1 → T 0 ≤ τ i ∧ τ i ≤ T (e + 1) := by
      intro i hi
      obtain ⟨j, hj, hji⟩ := mem_image.1 (hτS i hi)
      rw [← hji, h0, hlast]
      exact hd j (mem_range.1 hj)
    have hmono : ∀ i j, i ≤ j → j < e + 1 → τ i ≤ τ j := by
      intro i j hij hj
      rcases hij.lt_or_eq with h | h
      · exact (hτ i j h hj).le
      · rw [h]
    have hr : ∀ i, i < e + 1 → InRange (p + 1) knots i (τ i) := by
      intro i hi
      constructor
      · by_contra hc
        push Not at hc
        rw [← hleft i (by omega), ← h0] at hc
        have hi0 : 0 < i := by
          rcases Nat.eq_zero_or_pos i with h | h
          · subst h
            exact absurd (le_antisymm hc.1 (hin 0 hi).1) (hc.2 rfl)
          · exact h
        obtain ⟨u, ⟨k, hk, hu⟩, hS⟩ := dependent (e + 1 - i) ((Ico (i + 1) (e + 1)).image τ)
          (fun k x => cox T (zeroth T e x) x (p + 1) (i + k))
          (lt_of_le_of_lt card_image_le (by rw [Nat.card_Ico]; omega))
        apply hu
        have := hz (fun k => if i ≤ k then u (k - i) else 0) (by
          intro j hj
          rw [show e + 1 = i + (e + 1 - i) by omega, sum_range_add, sum_eq_zero, zero_add]
          · rcases Nat.lt_or_ge i j with hij | hij
            · rw [← hS (τ j) (mem_image_of_mem _ (mem_Ico.2 ⟨hij, hj⟩))]
              apply sum_congr rfl
              intro b _
              rw [if_pos (by omega), show i + b - i = b by omega]
            · apply sum_eq_zero
              intro b _
              by_cases hne : cox T (zeroth T e (τ j)) (τ j) (p + 1) (i + b) = 0
              · rw [hne, mul_zero]
              · exfalso
                have h5 := strict_left hT hsm p ho (τ j) (hin j hj).1 (hin j hj).2 (i + b) (by omega) hne
                have h6 := hT.mono (Nat.le_add_right i b)
                have h7 := hmono j i hij hi
                linarith [hc.1]
          · intro b hb
            rw [if_neg (by have := mem_range.1 hb; omega), zero_mul]) (i + k) (by omega)
        rwa [if_pos (by omega), show i + k - i = k by omega] at this
      · by_contra hc
        push Not at hc
        rw [← hright i, ← hlast] at hc
        have hie : i < e := by
          rcases Nat.lt_or_ge i e with h | h
          · exact h
          · have : i = e := by omega
            subst this
            have h5 := hT.stop (i + p + 2) (by omega)
            exact absurd (le_antisymm (hin i hi).2 (h5 ▸ hc.1)) (hc.2 (by omega))
        obtain ⟨u, ⟨k, hk, hu⟩, hS⟩ := dependent (i + 1) ((range i).image τ)
          (fun k x => cox T (zeroth T e x) x (p + 1) k)
          (lt_of_le_of_lt card_image_le (by rw [card_range]; omega))
        apply hu
        have := hz (fun k => if k ≤ i then u k else 0) (by
          intro j hj
          rw [show e + 1 = (i + 1) + (e - i) by omega, sum_range_add, sum_eq_zero (s := range (e - i)), add_zero]
          · rcases Nat.lt_or_ge j i with hij | hij
            · rw [← hS (τ j) (mem_image_of_mem _ (mem_range.2 hij))]
              apply sum_congr rfl
              intro b hb
              rw [if_pos (by have := mem_range.1 hb; omega)]
            · apply sum_eq_zero
              intro b hb
              have hb := mem_range.1 hb
              by_cases hne : cox T (zeroth T e (τ j)) (τ j) (p + 1) b = 0
              · rw [hne, mul_zero]
              · exfalso
                obtain ⟨-, -, h5, h6⟩ := support hT (τ j) (p + 1) b hne
                have h7 := hmono i j hij hj
                have h8 := hT.mono (show b + (p + 1) + 1 ≤ i + p + 2 by omega)
                rcases h6 with h6 | h6
                · linarith [hc.1]
                · rw [h6] at hne
                  have := right_end hT (p + 1) b hne
                  omega
          · intro b hb
            rw [if_neg (by omega), zero_mul]) k (by omega)
        rwa [if_pos (by omega)] at this
    have hex : ∀ i, ∃ j, i < e + 1 → j < d.n ∧ d.x j = τ i := by
      intro i
      by_cases hi : i < e + 1
      · obtain ⟨j, hj, hji⟩ := mem_image.1 (hτS i hi)
        exact ⟨j, fun _ => ⟨mem_range.1 hj, hji⟩⟩
      · exact ⟨0, fun h => absurd h hi⟩
    choose σ hσ using hex
    refine ⟨σ, fun i hi => ⟨(hσ i hi).1, ?_, fun j hj => ?_⟩⟩
    · rw [(hσ i hi).2]
      exact hr i hi
    · rw [(hσ i hi).2, (hσ j (by omega)).2]
      exact hτ j i hj hi
  · rintro ⟨σ, hσ⟩ v hv k hk
    let c : ℕ → ℝ := fun j => if j < e + 1 then v j else 0
    have hcv : ∀ x, spl T e (p + 1) (e + 1) c x = spl T e (p + 1) (e + 1) v x := by
      intro x
      rw [spl, spl]
      apply sum_congr rfl
      intro j hj
      simp only [c, if_pos (mem_range.1 hj)]
    have hz : ∀ i, i ≤ e → spl T e (p + 1) (e + 1) c (d.x (σ i)) = 0 := by
      intro i hi
      rw [hcv]
      exact hv _ (mem_image_of_mem _ (mem_range.2 (hσ i (by omega)).1))
    have hP : T (p + 1) = T 0 := (ho _).2 le_rfl
    have := whitney hT hsm p hP (fun i => d.x (σ i)) (fun i j hij hj => (hσ j (by omega)).2.2 i hij) c (by
      intro i hi
      have hie : i < e + 1 := by
        by_contra hcon
        exact hi (if_neg hcon)
      obtain ⟨-, ⟨ha, hb⟩, -⟩ := hσ i hie
      constructor
      · rcases ha with ha | ⟨ha, hx⟩
        · rw [hleft i (by omega)]
          exact ha
        · exfalso
          subst ha
          apply hi
          have h3 := hz 0 (by omega)
          rw [hx, ← h0, SplineLab.spl_first T e (p + 1) hT hP] at h3
          · exact h3
          · refine lt_of_le_of_ne (hT.mono (Nat.zero_le _)) fun h => ?_
            have : p + 1 + 1 ≤ p + 1 := (ho (p + 1 + 1)).1 h.symm
            omega
      · rcases hb with hb | ⟨hb, hx⟩
        · rw [hright i]
          exact hb
        · exfalso
          apply hi
          have : i = e := by omega
          subst this
          have h3 := hz i le_rfl
          rw [hx, ← hlast, SplineLab.spl_last T i (p + 1) hT hP] at h3
          exact h3) (fun j hj => if_neg (by omega)) hz k
    simp only [c, if_pos hk] at this
    exact this

open BF.Cox BF.BSplines in
/-- C119: one of order 0 is determined if and only if there are data in each interval. (With two knots there is one
parameter only, and the column of the design matrix has become a row: `C80_counterexample_single`.) -/
theorem C119_bsplines_steps (knots : List ℝ) (h3 : 3 ≤ knots.length) (hs : knots.Pairwise (· < ·)) (d : Data ℝ) :
    Determine (bsplines 0 knots) d [] ↔ ∀ i, i + 1 < knots.length → ∃ j < d.n, knots.getD i 0 ≤ d.x j ∧
      (d.x j < knots.getD (i + 1) 0 ∨ (i + 2 = knots.length ∧ d.x j = knots.getD (i + 1) 0)) := by
  have h2 : 2 ≤ knots.length := by omega
  have hm : Good (makeSpec knots 0) := ⟨h2, hs⟩
  have hnp : (bsplines 0 knots).np = knots.length - 1 := by
    show 0 + knots.length - 1 = _
    omega
  have haug : ∀ i, i < knots.length → aug (makeSpec knots 0) i = knots.getD i 0 := by
    intro i hi
    show knots.getD (min (i - 0) (knots.length - 1)) 0 = _
    rw [Nat.sub_zero, min_eq_left (by omega)]
  have hpart : ∀ x k, k < knots.length - 1 → (bsplines 0 knots).part x k = if knots.getD k 0 ≤ x ∧
      (x < knots.getD (k + 1) 0 ∨ (k + 2 = knots.length ∧ x = knots.getD (k + 1) 0)) then 1 else 0 := by
    intro x k hk
    rw [bsplines_part 0 knots hm x k (by omega)]
    show zeroth (aug (makeSpec knots 0)) (lastInt (makeSpec knots 0)) x k = _
    rw [zeroth, haug k (by omega), haug (k + 1) (by omega)]
    have : (k = lastInt (makeSpec knots 0)) ↔ k + 2 = knots.length := by
      show k = knots.length + 0 - 2 ↔ _
      omega
    simp only [this]
  have hlt : ∀ i j, i < j → j < knots.length → knots.getD i 0 < knots.getD j 0 :=
    fun i j hij hj => knot_lt hm hij hj
  rw [determine_all, hnp]
  constructor
  · intro h i hi
    by_contra hcon
    push Not at hcon
    have := h (fun k => if k = i then 1 else 0) (by
      intro x hx
      obtain ⟨j, hj, rfl⟩ := mem_image.1 hx
      rw [sum_eq_single i (fun k _ hk => by rw [if_neg hk, zero_mul]) (fun h => absurd (mem_range.2 (by omega)) h),
        hpart _ i (by omega), if_neg (c := _ ∧ _), mul_zero]
      rintro ⟨a, b⟩
      have := hcon j (mem_range.1 hj) a
      rcases b with b | ⟨b, c⟩
      · exact absurd b (not_lt.2 this.1)
      · exact this.2 b c) i (by omega)
    simp at this
  · intro h v hv i hi
    obtain ⟨j, hj, hx⟩ := h i (by omega)
    have := hv (d.x j) (mem_image_of_mem _ (mem_range.2 hj))
    rw [sum_eq_single i, hpart _ i hi, if_pos hx, mul_one] at this
    · exact this
    · intro k hk hne
      have hk := mem_range.1 hk
      rw [hpart _ k hk, if_neg, mul_zero]
      rintro ⟨a, b⟩
      obtain ⟨a', b'⟩ := hx
      rcases Nat.lt_or_ge k i with g | g
      · have g1 : knots.getD (k + 1) 0 ≤ knots.getD i 0 := by
          rcases Nat.lt_or_ge (k + 1) i with g2 | g2
          · exact (hlt _ _ g2 (by omega)).le
          · rw [show k + 1 = i by omega]
        rcases b with b | ⟨b, -⟩
        · linarith
        · omega
      · have g0 : i < k := by omega
        have g1 : knots.getD (i + 1) 0 ≤ knots.getD k 0 := by
          rcases Nat.lt_or_ge (i + 1) k with g2 | g2
          · exact (hlt _ _ g2 (by omega)).le
          · rw [show i + 1 = k by omega]
        rcases b' with b' | ⟨b', -⟩
        · linarith
        · omega
    · intro h
      exact absurd (mem_range.2 hi) h

/-! ## Splines -/

open BF.Splines in
theorem splines_part (order : ℕ) (knots : List ℝ) (h2 : 2 ≤ knots.length) (hs : knots.Pairwise (· ≤ ·)) (x : ℝ)
    (v : ℕ → ℝ) : ∑ k ∈ range (order + knots.length - 1), v k * (splines order knots).part x k
      = ∑ i ∈ range order, v i * x ^ i +
        ∑ j ∈ range (knots.length - 1), v (order + j) * (bump order knots j x - bump order knots (j + 1) x) := by
  have hp : ∀ k, (splines order knots).part x k = (((List.range order).map fun i => x ^ i) ++
      (List.range (knots.length - 1)).map fun j => bump order knots j x - bump order knots (j + 1) x).getD k 0 := by
    intro k
    show ((splinePartial order knots x).getD []).getD k 0 = _
    rw [C36_columns order knots h2 hs x, Option.getD_some]
  rw [show order + knots.length - 1 = order + (knots.length - 1) by omega, sum_range_add]
  congr 1
  · apply sum_congr rfl
    intro i hi
    have hi := mem_range.1 hi
    rw [hp, List.getD_eq_getElem?_getD, List.getElem?_append_left (by simpa using hi), ← List.getD_eq_getElem?_getD,
      part_map _ _ _ hi]
  · apply sum_congr rfl
    intro j hj
    have hj := mem_range.1 hj
    rw [hp, List.getD_eq_getElem?_getD, List.getElem?_append_right (by simp), ← List.getD_eq_getElem?_getD]
    simp only [List.length_map, List.length_range, Nat.add_sub_cancel_left]
    rw [part_map _ _ _ hj]

open BF.Splines in
/-- C119: a Splines model is determined by data at more different x than its order in its first interval, and at one x in
each of the following. (This is enough, not needed: `C119_splines` says what is.) -/
theorem C119_splines_enough (order : ℕ) (h1 : 1 ≤ order) (knots : List ℝ) (h2 : 2 ≤ knots.length)
    (hs : knots.Pairwise (· < ·)) (d : Data ℝ)
    (hfirst : order < (((range d.n).image d.x).filter fun x => knots.length = 2 ∨ x ≤ knots.getD 1 0).card)
    (hnext : ∀ j, 1 ≤ j → j + 1 < knots.length → ∃ i < d.n, knots.getD j 0 < d.x i ∧
      (j + 2 = knots.length ∨ d.x i ≤ knots.getD (j + 1) 0)) :
    Determine (splines order knots) d [] := by
  have hle : knots.Pairwise (· ≤ ·) := hs.imp le_of_lt
  have hmono : ∀ a b, a ≤ b → b < knots.length → knots.getD a 0 ≤ knots.getD b 0 := by
    intro a b hab hb
    rcases hab.lt_or_eq with h | h
    · exact (BSplines.knot_lt (m := BSplines.makeSpec knots 0) ⟨h2, hs⟩ h hb).le
    · rw [h]
  have hbump : ∀ J x, J + 1 < knots.length → (J + 2 = knots.length ∨ x ≤ knots.getD (J + 1) 0) →
      ∀ j, J < j → bump order knots j x = 0 := by
    intro J x hJ hx j hj
    rw [bump, if_neg (by omega)]
    split_ifs with h
    · rcases hx with hx | hx
      · omega
      · have h3 := hmono (J + 1) j (by omega) (by omega)
        rw [trunc]
        split_ifs with h4
        · rw [show x = knots.getD j 0 by linarith, sub_self, zero_pow (by omega)]
        · rfl
    · rfl
  rw [determine_all]
  intro v hz
  have hz : ∀ x ∈ (range d.n).image d.x, ∑ i ∈ range order, v i * x ^ i +
        ∑ j ∈ range (knots.length - 1), v (order + j) * (bump order knots j x - bump order knots (j + 1) x) = 0 := by
    intro x hx
    rw [← splines_part order knots h2 hle]
    exact hz x hx
  have hA : ∀ k < order + 1, v k = 0 := by
    refine basis_points order (fun k => Polynomial.X ^ k) (fun k => Polynomial.natDegree_X_pow k)
      (fun k => pow_ne_zero _ Polynomial.X_ne_zero) _ hfirst v fun x hx => ?_
    obtain ⟨hx, hx1⟩ := mem_filter.1 hx
    have hb := hbump 0 x (by omega) (by
      rcases hx1 with h | h
      · left; omega
      · right; exact h)
    rw [← hz x hx, sum_range_succ]
    congr 1
    · simp
    · rw [sum_eq_single 0]
      · rw [hb 1 (by omega), bump, if_pos rfl]
        simp
      · intro j _ hj
        rw [hb j (by omega), hb (j + 1) (by omega), sub_zero, mul_zero]
      · intro h
        exact absurd (mem_range.2 (by omega)) h
  have hB : ∀ J, J + 1 < knots.length → v (order + J) = 0 := by
    intro J
    induction J using Nat.strong_induction_on with
    | _ J ih =>
      intro hJ
      rcases Nat.eq_zero_or_pos J with h0 | h0
      · subst h0
        exact hA order (by omega)
      · obtain ⟨i, hi, hx, hx1⟩ := hnext J h0 hJ
        have hb := hbump J (d.x i) hJ hx1
        have := hz (d.x i) (mem_image_of_mem _ (mem_range.2 hi))
        rw [sum_eq_zero (s := range order), zero_add, sum_eq_single J] at this
        · rw [hb (J + 1) (by omega), sub_zero, bump, if_neg (by omega), if_pos hJ, trunc, if_pos hx.le] at this
          exact (mul_eq_zero.1 this).resolve_right (pow_ne_zero _ (by linarith))
        · intro j hj hne
          have hj := mem_range.1 hj
          rcases Nat.lt_or_ge j J with h | h
          · rw [ih j h (by omega), zero_mul]
          · rw [hb j (by omega), hb (j + 1) (by omega), sub_zero, mul_zero]
        · intro h
          exact absurd (mem_range.2 (by omega)) h
        · intro k hk
          rw [hA k (by have := mem_range.1 hk; omega), zero_mul]
  intro k hk
  have hk : k < order + knots.length - 1 := hk
  rcases Nat.lt_or_ge k order with h | h
  · exact hA k (by omega)
  · obtain ⟨J, rfl⟩ : ∃ J, k = order + J := ⟨k - order, by omega⟩
    exact hB J (by omega)

/-! ## Harmonics -/

/-- The number of different phases. -/
noncomputable def phases (period : ℝ) (d : Data ℝ) : ℕ := ((range d.n).image fun i => Int.fract (d.x i / period)).card

theorem harmonic_sum (order : ℕ) (period x : ℝ) (v : ℕ → ℝ) :
    ∑ k ∈ range (2 * order), v k * (harmonic order period).part x k = ∑ j ∈ range order,
      (v (2 * j) * Real.cos ((j + 1) * (2 * Real.pi * x / period))
        + v (2 * j + 1) * Real.sin ((j + 1) * (2 * Real.pi * x / period))) := by
  rw [← C34_harmonic_result]
  have h : harmonicResult order period x v = linearResult v (harmonicPartial order period x) := rfl
  rw [h]
  have hl : harmonicPartial order period x = (List.range (2 * order)).map fun k =>
      (harmonicPartial order period x).getD k 0 := by
    apply List.ext_getElem?
    intro k
    have hlen : (harmonicPartial order period x).length = 2 * order := by simp [harmonicPartial]
    rw [List.getElem?_map]
    rcases Nat.lt_or_ge k (2 * order) with hk | hk
    · rw [List.getElem?_range hk, Option.map_some, List.getD_eq_getElem?_getD, List.getElem?_eq_getElem (by omega)]
      rfl
    · rw [List.getElem?_eq_none (by omega), List.getElem?_eq_none (by simpa using hk)]
      rfl
  rw [hl, linear_range]
  rfl

/-- C119: a Harmonic model is determined by data at more different phases than its number of parameters. -/
theorem C119_harmonic_enough (order : ℕ) (period : ℝ) (d : Data ℝ) (h : 2 * order < phases period d) :
    Determine (harmonic order period) d [] := by
  classical
  rw [determine_all]
  intro v hz
  have hz : ∀ i < d.n, ∑ j ∈ range order,
      (v (2 * j) * Real.cos ((j + 1) * (2 * Real.pi * d.x i / period))
        + v (2 * j + 1) * Real.sin ((j + 1) * (2 * Real.pi * d.x i / period))) = 0 := by
    intro i hi
    rw [← harmonic_sum]
    exact hz _ (mem_image_of_mem _ (mem_range.2 hi))
  let P : Polynomial ℂ := ∑ j ∈ range order,
    (Polynomial.C ((v (2 * j) : ℂ) - v (2 * j + 1) * Complex.I) * Polynomial.X ^ (order + j + 1)
      + Polynomial.C ((v (2 * j) : ℂ) + v (2 * j + 1) * Complex.I) * Polynomial.X ^ (order - j - 1))
  let u : ℝ → ℂ := fun t => Complex.exp (2 * Real.pi * t * Complex.I)
  have hdeg : P.natDegree ≤ 2 * order := by
    refine Polynomial.natDegree_sum_le_of_forall_le _ _ fun j hj => ?_
    have hj := mem_range.1 hj
    refine (Polynomial.natDegree_add_le _ _).trans (max_le ?_ ?_)
    · exact (Polynomial.natDegree_C_mul_X_pow_le _ _).trans (by omega)
    · exact (Polynomial.natDegree_C_mul_X_pow_le _ _).trans (by omega)
  have hroot : ∀ i < d.n, P.eval (u (Int.fract (d.x i / period))) = 0 := by
    intro i hi
    have hu : u (Int.fract (d.x i / period)) = Complex.exp ((2 * Real.pi * d.x i / period : ℝ) * Complex.I) := by
      simp only [u]
      rw [Complex.exp_eq_exp_iff_exists_int]
      refine ⟨-⌊d.x i / period⌋, ?_⟩
      rw [Int.fract]
      push_cast
      ring
    rw [hu]
    have hy := hz i hi
    generalize 2 * Real.pi * d.x i / period = y at hy
    have hE : Complex.exp (y * Complex.I) ≠ 0 := Complex.exp_ne_zero _
    have hpow : ∀ n : ℕ, Complex.exp (y * Complex.I) ^ n
        = (Real.cos (n * y) : ℂ) + (Real.sin (n * y) : ℂ) * Complex.I := by
      intro n
      rw [← Complex.exp_nat_mul, ← mul_assoc, Complex.exp_mul_I]
      push_cast
      rfl
    have hterm : ∀ j ∈ range order,
        (Polynomial.C ((v (2 * j) : ℂ) - v (2 * j + 1) * Complex.I) * Polynomial.X ^ (order + j + 1)
          + Polynomial.C ((v (2 * j) : ℂ) + v (2 * j + 1) * Complex.I) * Polynomial.X ^ (order - j - 1)).eval
            (Complex.exp (y * Complex.I))
        = 2 * Complex.exp (y * Complex.I) ^ order * ((v (2 * j) * Real.cos ((j + 1) * y)
          + v (2 * j + 1) * Real.sin ((j + 1) * y) : ℝ) : ℂ) := by
      intro j hj
      have hj := mem_range.1 hj
      have e1 : Complex.exp (y * Complex.I) ^ order
          = Complex.exp (y * Complex.I) ^ (order - j - 1) * Complex.exp (y * Complex.I) ^ (j + 1) := by
        rw [← pow_add]
        congr 1
        omega
      have e2 := hpow (j + 1)
      push_cast at e2
      have e3 : Complex.cos ((j + 1) * y) ^ 2 + Complex.sin ((j + 1) * y) ^ 2 = 1 := by
        rw [add_comm]
        exact Complex.sin_sq_add_cos_sq _
      simp only [Polynomial.eval_add, Polynomial.eval_mul, Polynomial.eval_C, Polynomial.eval_pow, Polynomial.eval_X]
      rw [show order + j + 1 = order + (j + 1) by omega, pow_add, e1, e2]
      push_cast
      generalize Complex.exp (y * Complex.I) ^ (order - j - 1) = F
      generalize Complex.cos ((j + 1) * y) = cc at *
      generalize Complex.sin ((j + 1) * y) = ss at *
      have hI : Complex.I ^ 2 = -1 := Complex.I_sq
      linear_combination (-(F * ((v (2 * j) : ℂ) + v (2 * j + 1) * Complex.I))) * e3
        + F * ss * (v (2 * j) * ss + v (2 * j + 1) * ss * Complex.I) * hI
        - 2 * v (2 * j + 1) * F * ss * (cc + Complex.I * ss) * hI
    rw [Polynomial.eval_finsetSum, sum_congr rfl hterm, ← mul_sum, ← Complex.ofReal_sum, hy, Complex.ofReal_zero,
      mul_zero]
  have hcard : ((((range d.n).image fun i => Int.fract (d.x i / period))).image u).card = phases period d := by
    rw [card_image_of_injOn]
    · rfl
    · intro a ha b hb hab
      obtain ⟨i, -, rfl⟩ := mem_image.1 (mem_coe.1 ha)
      obtain ⟨j, -, rfl⟩ := mem_image.1 (mem_coe.1 hb)
      simp only [u] at hab
      rw [Complex.exp_eq_exp_iff_exists_int] at hab
      obtain ⟨n, hn⟩ := hab
      have hpi : (2 * Real.pi * Complex.I : ℂ) ≠ 0 := Complex.two_pi_I_ne_zero
      have h1 : ((Int.fract (d.x i / period) : ℝ) : ℂ) = ((Int.fract (d.x j / period) + n : ℝ) : ℂ) := by
        apply mul_left_cancel₀ hpi
        push_cast
        linear_combination hn
      have h2 := Complex.ofReal_injective h1
      have a0 := Int.fract_nonneg (d.x i / period)
      have a1 := Int.fract_lt_one (d.x i / period)
      have b0 := Int.fract_nonneg (d.x j / period)
      have b1 := Int.fract_lt_one (d.x j / period)
      have c1 : (n : ℝ) < 1 := by linarith
      have c2 : (-1 : ℝ) < n := by linarith
      have d1 : n < 1 := by exact_mod_cast c1
      have d2 : -1 < n := by exact_mod_cast c2
      have : n = 0 := by omega
      rw [h2, this]
      simp
  have hP : P = 0 := by
    refine Polynomial.eq_zero_of_natDegree_lt_card_of_eval_eq_zero' _
      (((range d.n).image fun i => Int.fract (d.x i / period)).image u) (fun z hz => ?_) ?_
    · obtain ⟨t, ht, rfl⟩ := mem_image.1 hz
      obtain ⟨i, hi, rfl⟩ := mem_image.1 ht
      exact hroot i (mem_range.1 hi)
    · rw [hcard]
      omega
  have hpair : ∀ j < order, v (2 * j) = 0 ∧ v (2 * j + 1) = 0 := by
    intro j hj
    have hc := congrArg (fun p => p.coeff (order + j + 1)) hP
    simp only [P, Polynomial.finsetSum_coeff, Polynomial.coeff_add, Polynomial.coeff_C_mul, Polynomial.coeff_X_pow,
      Polynomial.coeff_zero] at hc
    rw [sum_eq_single j] at hc
    · rw [if_pos rfl, if_neg (by omega), mul_one, mul_zero, add_zero] at hc
      have hre := congrArg Complex.re hc
      have him := congrArg Complex.im hc
      simp at hre him
      exact ⟨hre, him⟩
    · intro k _ hk
      rw [if_neg (by omega), if_neg (by omega), mul_zero, mul_zero, add_zero]
    · intro h
      exact absurd (mem_range.2 hj) h
  intro k hk
  have hk : k < 2 * order := hk
  rcases Nat.even_or_odd' k with ⟨j, rfl | rfl⟩
  · exact (hpair j (by omega)).1
  · exact (hpair j (by omega)).2

/-- C119 is not only a matter of numbers: the first harmonic has two parameters, yet data at two phases do not determine
them when these are half a period apart. -/
theorem C119_counterexample_harmonic : ∃ d : Data ℝ, phases 4 d = 2 ∧ (harmonic 1 4).np = 2 ∧
    ¬ Determine (harmonic 1 4) d [] := by
  refine ⟨⟨2, fun i => 2 * i, fun _ => 0, none, none⟩, ?_, rfl, ?_⟩
  · have e : (range 2).image (fun i : ℕ => Int.fract (2 * (i : ℝ) / 4)) = {0, 1 / 2} := by
      have : Int.fract ((2 : ℝ) / 4) = 1 / 2 := by
        rw [Int.fract_eq_iff]
        refine ⟨by norm_num, by norm_num, 0, by norm_num⟩
      simp [range_add_one, this, pair_comm]
    show ((range 2).image (fun i : ℕ => Int.fract (2 * (i : ℝ) / 4))).card = 2
    rw [e, card_pair (by norm_num)]
  · intro h
    have := (determine_all _ _).1 h (fun k => if k = 1 then 1 else 0) (by
      intro x hx
      rw [show (harmonic 1 4).np = 2 * 1 from rfl, harmonic_sum]
      obtain ⟨i, hi, rfl⟩ := mem_image.1 hx
      have : i = 0 ∨ i = 1 := by
        have : i < 2 := mem_range.1 hi
        omega
      rcases this with rfl | rfl
      · simp
      · simp only [range_one, sum_singleton, Nat.cast_zero, Nat.cast_one, mul_one, zero_add]
        rw [show 1 * (2 * Real.pi * 2 / 4) = Real.pi by ring, Real.sin_pi]
        simp) 1 (by show 1 < 2; omega)
    simp at this

/-- C119 with kept parameters is not a matter of numbers either: of a parabola without slope the two other parameters
are not determined by data at two different x. -/
theorem C119_counterexample_kept : ∃ d : Data ℝ, different d = 2 ∧ ¬ Determine (polynomial 2) d [(1, 0)] := by
  refine ⟨⟨2, fun i => 2 * i - 1, fun _ => 0, none, none⟩, ?_, ?_⟩
  · show ((range 2).image (fun i : ℕ => 2 * (i : ℝ) - 1)).card = 2
    have e : (range 2).image (fun i : ℕ => 2 * (i : ℝ) - 1) = {-1, 1} := by
      simp [range_add_one]
      norm_num [pair_comm]
    rw [e, card_pair (by norm_num)]
  · rw [determine_iff _ _ _ ⟨by simp, by simp [polynomial, ofPartial]⟩]
    intro h
    have := h (fun k => if k = 0 then 1 else if k = 2 then -1 else 0) (by
      intro k hk hf
      have : k = 1 := by
        simp only [List.map_cons, List.map_nil, List.mem_singleton, decide_eq_false_iff_not, not_not] at hf
        exact_mod_cast hf
      subst this
      simp) (by
      intro i hi
      have hp : ∀ k < 3, ∀ x, (polynomial 2).part x k = x ^ k := by
        intro k hk x
        show (polyPartial 2 x).getD k 0 = _
        rw [(C35_poly 2 x fun _ => 0).2, part_map _ _ _ hk]
      have hi : i < 2 := hi
      rw [show (polynomial 2).np = 3 from rfl, sum_range_succ, sum_range_succ, sum_range_one, hp 0 (by omega),
        hp 1 (by omega), hp 2 (by omega)]
      rcases (show i = 0 ∨ i = 1 by omega) with rfl | rfl <;> norm_num) 0 (by show 0 < 3; omega)
    simp at this

/-! ## Instances -/

/-- There is a `solve` that does what is asked of it. -/
theorem solve_exists : ∃ solve, SolveSpec solve ∧ SolveRegular solve ∧ SolveComplete solve := by
  classical
  have key : ∀ (K : ℕ) (A : ℕ → ℕ → ℝ) (v : ℕ → ℝ),
      (∀ z : ℕ → ℝ, (∀ a < K, ∑ b ∈ range K, A a b * z b = 0) → ∀ b < K, z b = 0) →
      ∃ x : ℕ → ℝ, ∀ a < K, ∑ b ∈ range K, A a b * x b = v a := by
    intro K A v h
    let L : (Fin K → ℝ) →ₗ[ℝ] (Fin K → ℝ) :=
      { toFun := fun z a => ∑ b : Fin K, A a b * z b
        map_add' := fun z w => by
          funext x
          simp only [Pi.add_apply, mul_add, sum_add_distrib]
        map_smul' := fun c z => by
          funext x
          simp only [Pi.smul_apply, smul_eq_mul, mul_sum, RingHom.id_apply, mul_left_comm] }
    have hinj : Function.Injective L := by
      rw [← LinearMap.ker_eq_bot, LinearMap.ker_eq_bot']
      intro z hz
      funext b
      have := h (fun k => if h : k < K then z ⟨k, h⟩ else 0) (by
        intro a ha
        have := congrFun hz ⟨a, ha⟩
        simp only [L, LinearMap.coe_mk, AddHom.coe_mk, Pi.zero_apply] at this
        rw [← this, Finset.sum_range]
        apply sum_congr rfl
        intro k _
        simp) b b.2
      simpa using this
    obtain ⟨x, hx⟩ := (LinearMap.injective_iff_surjective.1 hinj) fun a => v a
    refine ⟨fun k => if h : k < K then x ⟨k, h⟩ else 0, fun a ha => ?_⟩
    have := congrFun hx ⟨a, ha⟩
    simp only [L, LinearMap.coe_mk, AddHom.coe_mk] at this
    rw [← this, Finset.sum_range]
    apply sum_congr rfl
    intro k _
    simp
  refine ⟨fun K A v => if h : (∀ z : ℕ → ℝ, (∀ a < K, ∑ b ∈ range K, A a b * z b = 0) → ∀ b < K, z b = 0) then
    some (key K A v h).choose else none, ?_, ?_, ?_⟩
  · intro K A v x hx
    dsimp only at hx
    split_ifs at hx with h
    rw [← Option.some.inj hx]
    exact (key K A v h).choose_spec
  · intro K A v x hx
    dsimp only at hx
    split_ifs at hx with h
    exact h
  · intro K A v h
    exact ⟨_, dif_pos h⟩

/-- A fit of a parabola to four points, of which two are at the same x. -/
example (solve : ℕ → (ℕ → ℕ → ℝ) → (ℕ → ℝ) → Option (ℕ → ℝ)) (hreg : SolveRegular solve) (hcom : SolveComplete solve) :
    (∃ s', fit solve (polynomial 2) ⟨4, fun i => if i = 3 then 0 else i, fun i => i, none, none⟩
      (initFitter 3 (fun _ => 0) none) none = some s') ∧
    ¬ ∃ s', fit solve (polynomial 3) ⟨4, fun i => if i = 3 then 0 else i, fun i => i, none, none⟩
      (initFitter 4 (fun _ => 0) none) none = some s' := by
  have e : different ⟨4, fun i => if i = 3 then 0 else i, fun i => i, none, none⟩ = 3 := by
    show ((range 4).image fun i : ℕ => if i = 3 then (0 : ℝ) else i).card = 3
    have e : ((range 4).image fun i : ℕ => if i = 3 then (0 : ℝ) else i) = {0, 1, 2} := by
      simp [range_add_one, insert_comm]
      ext x
      simp
      tauto
    rw [e]
    norm_num
  constructor
  · exact (C119_fit_all solve hreg hcom (polynomial 2) _ ⟨by simp, by simp⟩ _).2 ((C119_polynomial 2 _).2 (by rw [e]; omega))
  · intro h
    have := (C119_polynomial 3 _).1 ((C119_fit_all solve hreg hcom (polynomial 3) _ ⟨by simp, by simp⟩ _).1 h)
    rw [e] at this
    omega

/-- A parabola at four points, of which two are the same. -/
example : Determine (polynomial 2) ⟨4, fun i => if i = 3 then 0 else i, fun i => i, none, none⟩ [] := by
  rw [C119_polynomial]
  show 2 < ((range 4).image fun i : ℕ => if i = 3 then (0 : ℝ) else i).card
  have e : ((range 4).image fun i : ℕ => if i = 3 then (0 : ℝ) else i) = {0, 1, 2} := by
    simp [range_add_one, insert_comm]
    ext x
    simp
    tauto
  rw [e]
  norm_num

/-- Three points do not determine a cubic. -/
example : ¬ Determine (polynomial 3) ⟨3, fun i => i, fun i => i, none, none⟩ [] := by
  rw [C119_polynomial]
  have : ((range 3).image fun i : ℕ => (i : ℝ)).card ≤ 3 := card_image_le.trans (by simp)
  exact not_lt.2 this

/-- B-splines of order 1 on three knots, with data at the knots. -/
example : Determine (bsplines 1 [0, 1, 2]) ⟨3, fun i => i, fun i => i, none, none⟩ [] := by
  rw [C119_bsplines 1 le_rfl [0, 1, 2] (by simp) (by norm_num)]
  · refine ⟨id, fun i hi => ?_⟩
    have hi : i < 3 := hi
    refine ⟨hi, ?_, fun j hj => Nat.cast_lt.2 hj⟩
    rcases (show i = 0 ∨ i = 1 ∨ i = 2 by omega) with rfl | rfl | rfl <;> norm_num [InRange]
  · intro i hi
    have hi : i < 3 := hi
    rcases (show i = 0 ∨ i = 1 ∨ i = 2 by omega) with rfl | rfl | rfl <;> norm_num

/-- Splines of order 1 on three knots. -/
example : Determine (splines 1 [0, 1, 2]) ⟨3, fun i => i, fun i => i, none, none⟩ [] := by
  refine C119_splines_enough 1 le_rfl [0, 1, 2] (by simp) (by norm_num) _ ?_ ?_
  · have e : (((range 3).image fun i : ℕ => (i : ℝ)).filter fun x => ([0, 1, 2] : List ℝ).length = 2 ∨
        x ≤ ([0, 1, 2] : List ℝ).getD 1 0) = {0, 1} := by
      ext x
      simp [range_add_one]
      constructor
      · rintro ⟨rfl | rfl | rfl, h⟩
        · norm_num at h
        · simp
        · simp
      · rintro (rfl | rfl) <;> norm_num
    show 1 < (((range 3).image fun i : ℕ => (i : ℝ)).filter fun x => ([0, 1, 2] : List ℝ).length = 2 ∨
        x ≤ ([0, 1, 2] : List ℝ).getD 1 0).card
    rw [e, card_pair (by norm_num)]
    norm_num
  · intro j h1 h2
    have h2 : j + 1 < 3 := h2
    obtain rfl : j = 1 := by omega
    exact ⟨2, by show 2 < 3; omega, by norm_num, Or.inl rfl⟩

/-- The first harmonic at three phases. -/
example : Determine (harmonic 1 3) ⟨3, fun i => i, fun i => i, none, none⟩ [] := by
  apply C119_harmonic_enough
  have e1 : Int.fract ((1 : ℝ) / 3) = 1 / 3 := by
    rw [Int.fract_eq_iff]
    exact ⟨by norm_num, by norm_num, 0, by norm_num⟩
  have e2 : Int.fract ((2 : ℝ) / 3) = 2 / 3 := by
    rw [Int.fract_eq_iff]
    exact ⟨by norm_num, by norm_num, 0, by norm_num⟩
  have e : ((range 3).image fun i : ℕ => Int.fract ((i : ℝ) / 3)) = {2 / 3, 1 / 3, 0} := by
    simp only [range_add_one, range_zero, insert_empty_eq, image_insert, image_singleton, Nat.cast_zero, Nat.cast_one,
      Nat.cast_ofNat, e1, e2, zero_div, Int.fract_zero]
  show 2 * 1 < ((range 3).image fun i : ℕ => Int.fract ((i : ℝ) / 3)).card
  rw [e]
  norm_num

end BF.LinearModels
