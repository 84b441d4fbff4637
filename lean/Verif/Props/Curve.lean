import Verif.Curve
import Verif.Props.Fitters
import Mathlib.Analysis.Calculus.Deriv.Add
import Mathlib.Analysis.Calculus.Deriv.Mul

/-!
# C93: a fit by `curve_fit` minimises chi squared
-/

noncomputable section

namespace BF.Curve

open Finset BF.Fitters BF.LM

variable {X : Type*}

/-- What `curve_fit` minimises, by its documentation. -/
def squares (rows : ℕ) (f : (ℕ → ℝ) → ℕ → ℝ) (y sigma q : ℕ → ℝ) : ℝ :=
  ∑ i ∈ range rows, ((f q i - y i) / sigma i) ^ 2

/-- The parameters are within the bounds. -/
def Bounds.Within (b : Bounds) (n : ℕ) (q : ℕ → ℝ) : Prop := ∀ a < n, b.low a ≤ q a ∧ (q a : EReal) ≤ b.high a

/-- What is asked of `curve_fit`: arrays of bounds have the length of the parameters; the parameters it returns are
within the bounds; provided that the jacobian is that of the function, they are a minimum of the sum of squares over
the parameters within the bounds in some neighbourhood. -/
structure CurveSpec (cf : CurveFit) : Prop where
  shape : ∀ rows n f jac y sg p0 lo hi, (lo.length ≠ n ∨ hi.length ≠ n) →
    cf rows n f jac y sg p0 (.arrays lo hi) = none
  within : ∀ rows n f jac y sg p0 b q, cf rows n f jac y sg p0 b = some q → b.Within n q
  least : ∀ rows n f jac y sg p0 b q,
    (∀ p, ∀ i < rows, ∀ a < n, HasDerivAt (fun t => f (Function.update p a t) i) (jac p i a) (p a)) →
    cf rows n f jac y sg p0 b = some q →
    ∃ ε > 0, ∀ p, b.Within n p → (∀ a < n, |p a - q a| < ε) → squares rows f y sg q ≤ squares rows f y sg p

/-- A model: its result depends on its own parameters only, and its partials are the derivatives. -/
structure Proper (m : Nl X) : Prop where
  local_ : ∀ x p q, (∀ k < m.np, p k = q k) → m.result x p = m.result x q
  deriv : ∀ x p, ∀ k < m.np, HasDerivAt (fun t => m.result x (Function.update p k t)) (m.part x p k) (p k)

/-- Chi squared of the data, and of the extra measurements of `normalize`. -/
def chi (m : Nl X) (d : Data X) (s : Fitter) (p : ℕ → ℝ) : ℝ := chisq m d p + chinorm m.np s p

theorem sigma_sq (d : Data X) (s : Fitter) (hw : ∀ i < d.n, 0 < d.fitWgts i) (hn : ∀ j < s.nnorm, 0 < s.normweight j)
    (i : ℕ) (hi : i < d.n + s.nnorm) (v : ℝ) :
    (v / sigma d s i) ^ 2 = v ^ 2 * (if i < d.n then d.fitWgts i else s.normweight (i - d.n)) := by
  unfold sigma
  simp only
  by_cases h : i < d.n
  · have := hw i h
    rw [if_pos h, if_pos h, if_neg this.ne', div_div_eq_mul_div, div_one, mul_pow, Real.sq_sqrt this.le]
  · have := hn (i - d.n) (by omega)
    rw [if_neg h, if_neg h, if_neg this.ne', show (1.0 : ℝ) = 1 by norm_num, div_div_eq_mul_div, div_one, mul_pow,
      Real.sq_sqrt this.le]

/-- The sum of squares of the function that is handed over is chi squared. -/
theorem squares_eq (m : Nl X) (d : Data X) (s : Fitter) (hw : ∀ i < d.n, 0 < d.fitWgts i)
    (hn : ∀ j < s.nnorm, 0 < s.normweight j) (s0 : Fitter) (h1 : s0.nnorm = s.nnorm) (h2 : s0.normweight = s.normweight)
    (q : ℕ → ℝ) :
    squares (d.n + s.nnorm) (result m d s) (ydat d s) (sigma d s0) q = chi m d s (inserted m.np s q) := by
  unfold squares chi chisq chinorm
  rw [sum_range_add]
  congr 1
  · apply sum_congr rfl
    intro i hi
    have hi := mem_range.1 hi
    rw [sigma_sq d s0 hw (by rwa [h1, h2]) i (by omega), if_pos hi]
    simp only [result, ydat, if_pos hi]
    ring
  · apply sum_congr rfl
    intro j hj
    have hj := mem_range.1 hj
    have hlt : ¬ d.n + j < d.n := by omega
    rw [sigma_sq d s0 hw (by rwa [h1, h2]) (d.n + j) (by omega), if_neg hlt]
    simp only [result, ydat, if_neg hlt, Nat.add_sub_cancel_left, h2]

theorem mem_index (np : ℕ) (f : ℕ → Bool) (k : ℕ) (hk : k < np) : (k : ℤ) ∈ indexOf np f ↔ f k = true := by
  simp [indexOf, hk]

theorem getD_lt (np : ℕ) (f : ℕ → Bool) (a : ℕ) (ha : a < (indexOf np f).length) :
    ((List.range np).filter f).getD a 0 < np ∧ f (((List.range np).filter f).getD a 0) = true := by
  have ha' : a < ((List.range np).filter f).length := by simpa [indexOf] using ha
  have : ((List.range np).filter f).getD a 0 ∈ (List.range np).filter f := by
    rw [List.getD_eq_getElem?_getD, List.getElem?_eq_getElem ha', Option.getD_some]
    exact List.getElem_mem ha'
  simpa using this

theorem getD_inj (np : ℕ) (f : ℕ → Bool) (a b : ℕ) (ha : a < (indexOf np f).length) (hb : b < (indexOf np f).length)
    (h : ((List.range np).filter f).getD a 0 = ((List.range np).filter f).getD b 0) : a = b := by
  have ha' : a < ((List.range np).filter f).length := by simpa [indexOf] using ha
  have hb' : b < ((List.range np).filter f).length := by simpa [indexOf] using hb
  have hnd : ((List.range np).filter f).Nodup := List.nodup_range.filter _
  rw [List.getD_eq_getElem?_getD, List.getD_eq_getElem?_getD, List.getElem?_eq_getElem ha',
    List.getElem?_eq_getElem hb', Option.getD_some, Option.getD_some] at h
  exact (hnd.getElem_inj_iff).1 h

theorem place_of (np : ℕ) (f : ℕ → Bool) (k : ℕ) (hk : k < np) (hf : f k = true) :
    ∃ a < (indexOf np f).length, ((List.range np).filter f).getD a 0 = k := by
  have : k ∈ (List.range np).filter f := by simp [hk, hf]
  obtain ⟨a, ha, e⟩ := List.getElem_of_mem this
  refine ⟨a, by simpa [indexOf] using ha, ?_⟩
  rw [List.getD_eq_getElem?_getD, List.getElem?_eq_getElem ha, Option.getD_some, e]

/-- Values of inserted parameters. -/
theorem insert_at (np : ℕ) (f : ℕ → Bool) (p q : ℕ → ℝ) :
    (∀ a < (indexOf np f).length, insertParameters np p q (indexOf np f) (((List.range np).filter f).getD a 0) = q a) ∧
    (∀ k < np, f k = false → insertParameters np p q (indexOf np f) k = p k) := by
  obtain ⟨h1, h2⟩ := insert_spec np f p q
  refine ⟨fun a ha => h1 a _ (filter_at np f a ha), fun k hk hf => h2 k hk ?_⟩
  rw [mem_index np f k hk, hf]
  simp

/-- The jacobian that is handed over is that of the function. -/
theorem jacobian_deriv (m : Nl X) (hm : Proper m) (d : Data X) (s : Fitter) (f : ℕ → Bool)
    (hs : s.fitIndex = some (indexOf m.np f) ∨ (s.fitIndex = none ∧ ∀ k, f k = true)) (p : ℕ → ℝ) (i a : ℕ)
    (ha : a < (indexOf m.np f).length) :
    HasDerivAt (fun t => result m d s (Function.update p a t) i) (jacobian m d s p i a) (p a) := by
  set k := ((List.range m.np).filter f).getD a 0 with hk
  obtain ⟨hkn, hkf⟩ := getD_lt m.np f a ha
  rw [← hk] at hkn
  have hins : ∀ t, ∀ j < m.np, inserted m.np s (Function.update p a t) j
      = Function.update (inserted m.np s p) k t j := by
    intro t j hj
    rcases hs with hs | ⟨hs, hall⟩
    · simp only [inserted, hs]
      obtain ⟨u1, u2⟩ := insert_at m.np f s.params (Function.update p a t)
      obtain ⟨w1, w2⟩ := insert_at m.np f s.params p
      cases hf : f j with
      | false =>
        have : j ≠ k := by intro e; rw [e, hk, hkf] at hf; simp at hf
        rw [u2 j hj hf, Function.update_of_ne this, w2 j hj hf]
      | true =>
        obtain ⟨b, hb, e⟩ := place_of m.np f j hj hf
        rw [← e, u1 b hb]
        by_cases hab : b = a
        · subst hab; simp [hk]
        · have hne : ((List.range m.np).filter f).getD b 0 ≠ k := by
            intro e'; exact hab (getD_inj m.np f b a hb ha (e'.trans hk))
          rw [Function.update_of_ne hab, Function.update_of_ne hne, w1 b hb]
    · have hka : k = a := by
        have : (List.range m.np).filter f = List.range m.np := by
          rw [List.filter_eq_self]; intro x _; exact hall x
        have ha' : a < m.np := by simpa [indexOf, this] using ha
        rw [hk, this]
        simp [List.getD_eq_getElem?_getD, ha']
      simp only [inserted, hs, hka]
  have hval : inserted m.np s p k = p a := by
    have := hins (p a) k hkn
    rw [Function.update_eq_self, Function.update_self] at this
    exact this
  have hjac : jacobian m d s p i a
      = if i < d.n then m.part (d.x i) (inserted m.np s p) k else s.normdfdp (i - d.n) k := by
    rcases hs with hs | ⟨hs, hall⟩
    · unfold jacobian
      simp only [hs]
      simp only [design, index_at, hk]
    · have hka : k = a := by
        have : (List.range m.np).filter f = List.range m.np := by
          rw [List.filter_eq_self]; intro x _; exact hall x
        have ha' : a < m.np := by simpa [indexOf, this] using ha
        rw [hk, this]
        simp [List.getD_eq_getElem?_getD, ha']
      unfold jacobian
      simp only [hs, hka]
  rw [hjac, ← hval]
  by_cases hi : i < d.n
  · rw [if_pos hi]
    refine (hm.deriv (d.x i) (inserted m.np s p) k hkn).congr_of_eventuallyEq (Filter.Eventually.of_forall fun t => ?_)
    simp only [result, if_pos hi]
    exact hm.local_ _ _ _ fun j hj => hins t j hj
  · rw [if_neg hi]
    have hsum : ∀ t, result m d s (Function.update p a t) i
        = ∑ j ∈ range m.np, s.normdfdp (i - d.n) j * Function.update (inserted m.np s p) k t j := by
      intro t
      simp only [result, if_neg hi]
      exact sum_congr rfl fun j hj => by rw [hins t j (mem_range.1 hj)]
    simp only [hsum]
    have hd : HasDerivAt (fun t => ∑ j ∈ range m.np, s.normdfdp (i - d.n) j * Function.update (inserted m.np s p) k t j)
        (∑ j ∈ range m.np, s.normdfdp (i - d.n) j * (if j = k then 1 else 0)) (inserted m.np s p k) := by
      apply HasDerivAt.fun_sum
      intro j _
      apply HasDerivAt.const_mul
      by_cases hjk : j = k
      · rw [hjk]
        simpa using hasDerivAt_id' (inserted m.np s p k)
      · simpa [Function.update, hjk] using hasDerivAt_const (inserted m.np s p k) (inserted m.np s p j)
    refine hd.congr_deriv ?_
    simp [hkn]

theorem chi_congr (m : Nl X) (hm : Proper m) (d : Data X) (s : Fitter) (p q : ℕ → ℝ) (h : ∀ k < m.np, p k = q k) :
    chi m d s p = chi m d s q := by
  unfold chi chisq chinorm
  congr 1
  · exact sum_congr rfl fun i _ => by rw [hm.local_ _ p q h]
  · refine sum_congr rfl fun i _ => ?_
    rw [sum_congr rfl fun k hk => by rw [h k (mem_range.1 hk)]]

theorem index_true (np : ℕ) (f : ℕ → Bool) (hall : ∀ k, f k = true) : (List.range np).filter f = List.range np := by
  rw [List.filter_eq_self]; intro x _; exact hall x

theorem inserted_eq (m : Nl X) (s : Fitter) (f : ℕ → Bool)
    (hs : s.fitIndex = some (indexOf m.np f) ∨ (s.fitIndex = none ∧ ∀ k, f k = true)) (q : ℕ → ℝ) :
    inserted m.np s q = insertParameters m.np s.params q (indexOf m.np f) := by
  rcases hs with hs | ⟨hs, hall⟩
  · simp only [inserted, hs]
  · have : (indexOf m.np f).length = m.np := by simp [indexOf, index_true m.np f hall]
    simp only [inserted, hs, insertParameters, if_pos this]

/-- The heart of the matter. -/
theorem core (cf : CurveFit) (hcf : CurveSpec cf) (m : Nl X) (hm : Proper m) (d : Data X)
    (hw : ∀ i < d.n, 0 < d.fitWgts i) (s s0 : Fitter) (hn : ∀ j < s.nnorm, 0 < s.normweight j)
    (h1 : s0.nnorm = s.nnorm) (h2 : s0.normweight = s.normweight) (f : ℕ → Bool)
    (hs : s.fitIndex = some (indexOf m.np f) ∨ (s.fitIndex = none ∧ ∀ k, f k = true)) (p0 : ℕ → ℝ) (b : Bounds)
    (q : ℕ → ℝ) (h : cf (d.n + s.nnorm) (indexOf m.np f).length (result m d s) (jacobian m d s) (ydat d s) (sigma d s0)
      p0 b = some q) :
    let p := insertParameters m.np s.params q (indexOf m.np f)
    let free := fun a => ((List.range m.np).filter f).getD a 0
    (∀ k < m.np, f k = false → p k = s.params k) ∧
    b.Within (indexOf m.np f).length (fun a => p (free a)) ∧
    ∃ ε > 0, ∀ r : ℕ → ℝ, (∀ k < m.np, f k = false → r k = s.params k) →
      b.Within (indexOf m.np f).length (fun a => r (free a)) → (∀ k < m.np, |r k - p k| < ε) →
      chi m d s p ≤ chi m d s r := by
  simp only
  obtain ⟨i1, i2⟩ := insert_at m.np f s.params q
  refine ⟨i2, fun a ha => ?_, ?_⟩
  · simp only [i1 a ha]
    exact hcf.within _ _ _ _ _ _ _ _ _ h a ha
  · obtain ⟨ε, hε, hmin⟩ := hcf.least _ _ _ _ _ _ _ _ _
      (fun p i _ a ha => jacobian_deriv m hm d s f hs p i a ha) h
    refine ⟨ε, hε, fun r hr hb hd => ?_⟩
    set r' : ℕ → ℝ := fun a => r (((List.range m.np).filter f).getD a 0) with hr'
    have key := hmin r' hb fun a ha => by
      have := hd _ (getD_lt m.np f a ha).1
      rwa [i1 a ha] at this
    rw [squares_eq m d s hw hn s0 h1 h2, squares_eq m d s hw hn s0 h1 h2, inserted_eq m s f hs, inserted_eq m s f hs]
      at key
    refine key.trans (le_of_eq (chi_congr m hm d s _ _ fun k hk => ?_))
    obtain ⟨j1, j2⟩ := insert_at m.np f s.params r'
    cases hf : f k with
    | false => rw [j2 k hk hf, hr k hk hf]
    | true =>
      obtain ⟨a, ha, e⟩ := place_of m.np f k hk hf
      rw [← e, j1 a ha]

/-- C93: without kept parameters a fit ends in a minimum of chi squared, including the extra measurements of
`normalize`, within the limits. Missing: data with weight 0 (`C93_counterexample_weights`). -/
theorem C93_minimum_partial (cf : CurveFit) (hcf : CurveSpec cf) (m : Nl X) (hm : Proper m) (d : Data X)
    (hw : ∀ i < d.n, 0 < d.fitWgts i) (s s' : Fitter) (hn : ∀ j < s.nnorm, 0 < s.normweight j)
    (hi : s.fitIndex = none) (inipar : Option (ℕ → ℝ)) (b : Bounds) (prior : Option Bounds)
    (h : fit cf m d s inipar none (some b) prior = some s') :
    s'.fitIndex = none ∧ b.Within m.np s'.params ∧
    ∃ ε > 0, ∀ r : ℕ → ℝ, b.Within m.np r → (∀ k < m.np, |r k - s'.params k| < ε) →
      chi m d s s'.params ≤ chi m d s r := by
  unfold fit at h
  simp only [fitprolog, hi, index_all, Option.map_eq_some_iff] at h
  obtain ⟨q, hq, rfl⟩ := h
  set s1 : Fitter := { s with npfit := m.np, fitIndex := none } with hs1
  obtain ⟨_, c2, ε, hε, c3⟩ := core cf hcf m hm d hw s1 s1 hn rfl rfl (fun _ => true) (Or.inr ⟨rfl, fun _ => rfl⟩) _ b q hq
  have hl : (indexOf m.np fun _ => true).length = m.np := by simp [indexOf]
  have hfree : ∀ a < m.np, ((List.range m.np).filter fun _ => true).getD a 0 = a := by
    intro a ha
    simp [List.getD_eq_getElem?_getD, ha]
  have hwith : ∀ r : ℕ → ℝ, b.Within (indexOf m.np fun _ => true).length
      (fun a => r (((List.range m.np).filter fun _ => true).getD a 0)) ↔ b.Within m.np r := by
    intro r
    rw [hl]
    constructor
    · intro hr a ha; have := hr a ha; simpa only [hfree a ha] using this
    · intro hr a ha; simpa only [hfree a ha] using hr a ha
  exact ⟨rfl, (hwith _).1 c2, ε, hε, fun r hr hd => c3 r (by simp) ((hwith r).2 hr) hd⟩

/-- C93: with limits in two lists, one number for each parameter, each parameter is within its own limits. -/
theorem C93_limits_partial (cf : CurveFit) (hcf : CurveSpec cf) (m : Nl X) (hm : Proper m) (d : Data X)
    (hw : ∀ i < d.n, 0 < d.fitWgts i) (s s' : Fitter) (hn : ∀ j < s.nnorm, 0 < s.normweight j)
    (hi : s.fitIndex = none) (inipar : Option (ℕ → ℝ)) (low high : List ℝ) (hl : low.length = m.np)
    (hh : high.length = m.np) (prior : Option Bounds)
    (h : fit cf m d s inipar none (some (.arrays (low.map fun v : ℝ => (v : EReal)) (high.map fun v : ℝ => (v : EReal)))) prior
      = some s') (k : ℕ) (hk : k < m.np) :
    low[k] ≤ s'.params k ∧ s'.params k ≤ high[k] := by
  obtain ⟨-, h2, -⟩ := C93_minimum_partial cf hcf m hm d hw s s' hn hi inipar _ prior h
  have := h2 k hk
  simp only [Bounds.low, Bounds.high, List.getD_eq_getElem?_getD, List.getElem?_map,
    List.getElem?_eq_getElem (show k < low.length by omega), List.getElem?_eq_getElem (show k < high.length by omega),
    Option.map_some, Option.getD_some, EReal.coe_le_coe_iff] at this
  exact this

/-- C93: with kept parameters and one pair of limits for all: the kept parameters have their values and the others
are a minimum of chi squared, within the limits. -/
theorem C93_kept_partial (cf : CurveFit) (hcf : CurveSpec cf) (m : Nl X) (hm : Proper m) (d : Data X)
    (hw : ∀ i < d.n, 0 < d.fitWgts i) (s s' : Fitter) (hn : ∀ j < s.nnorm, 0 < s.normweight j)
    (keep : List (ℤ × ℝ)) (hk : ProperKeep m.np keep) (inipar : Option (ℕ → ℝ)) (lo hi : EReal) (prior : Option Bounds)
    (h : fit cf m d s inipar (some keep) (some (.scalars lo hi)) prior = some s') :
    Agrees keep s'.params ∧
    (∀ k < m.np, (∀ v, ((k : ℤ), v) ∉ keep) → lo ≤ s'.params k ∧ (s'.params k : EReal) ≤ hi) ∧
    ∃ ε > 0, ∀ r : ℕ → ℝ, Agrees keep r →
      (∀ k < m.np, (∀ v, ((k : ℤ), v) ∉ keep) → lo ≤ r k ∧ (r k : EReal) ≤ hi) →
      (∀ k < m.np, |r k - s'.params k| < ε) → chi m d s s'.params ≤ chi m d s r := by
  unfold fit at h
  rw [prolog_keep m.np s keep hk] at h
  have hkk : ∀ k ∈ keep.map Prod.fst, 0 ≤ k ∧ k < m.np := by
    intro k hk'
    obtain ⟨kv, hkv, rfl⟩ := List.mem_map.1 hk'
    exact hk.2 kv hkv
  simp only [keepFixed, setxor_index m.np _ hkk, Option.map_eq_some_iff] at h
  obtain ⟨q, hq, rfl⟩ := h
  set f : ℕ → Bool := fun k => decide ((k : ℤ) ∉ keep.map Prod.fst) with hf
  obtain ⟨c1, c2, ε, hε, c3⟩ := core cf hcf m hm d hw
    { s with
      params := storeKept m.np (storeKept m.np s.params keep) keep
      fitIndex := some (indexOf m.np f), npfit := keep.length } _ hn rfl rfl f (Or.inl rfl) _ _ q hq
  have hst : Agrees keep (storeKept m.np (storeKept m.np s.params keep) keep) := store_kept m.np keep hk _
  have hff : ∀ k : ℕ, f k = true ↔ ∀ v, ((k : ℤ), v) ∉ keep := by
    intro k
    simp [hf]
  have hkept : ∀ kv ∈ keep, kv.1.toNat < m.np ∧ f kv.1.toNat = false := by
    intro kv hkv
    have hr := hk.2 kv hkv
    refine ⟨by omega, ?_⟩
    have e : ((kv.1.toNat : ℕ) : ℤ) = kv.1 := by omega
    simp only [hf, e, decide_eq_false_iff_not, not_not]
    exact List.mem_map_of_mem hkv
  have hwith : ∀ r : ℕ → ℝ, (Bounds.scalars lo hi).Within (indexOf m.np f).length
      (fun a => r (((List.range m.np).filter f).getD a 0)) ↔
      ∀ k < m.np, (∀ v, ((k : ℤ), v) ∉ keep) → lo ≤ r k ∧ (r k : EReal) ≤ hi := by
    intro r
    constructor
    · intro hr k hk' hv
      obtain ⟨a, ha, e⟩ := place_of m.np f k hk' ((hff k).2 hv)
      have := hr a ha
      simp only [e] at this
      exact this
    · intro hr a ha
      obtain ⟨g1, g2⟩ := getD_lt m.np f a ha
      exact hr _ g1 ((hff _).1 g2)
  refine ⟨fun kv hkv => ?_, (hwith _).1 c2, ε, hε, fun r hr hb hd => ?_⟩
  · obtain ⟨g1, g2⟩ := hkept kv hkv
    exact (c1 _ g1 g2).trans (hst kv hkv)
  · exact c3 r (fun k _ hfk => agree_of m.np keep hk _ _ hst hr k hfk) ((hwith r).2 hb) hd

theorem kept_false (keep : List (ℤ × ℝ)) (np : ℕ) (hk : ProperKeep np keep) (kv : ℤ × ℝ) (hkv : kv ∈ keep) :
    kv.1.toNat < np ∧ decide (((kv.1.toNat : ℕ) : ℤ) ∉ keep.map Prod.fst) = false := by
  have hr := hk.2 kv hkv
  refine ⟨by omega, ?_⟩
  have e : ((kv.1.toNat : ℕ) : ℤ) = kv.1 := by omega
  simp only [e, decide_eq_false_iff_not, not_not]
  exact List.mem_map_of_mem hkv

/-- C93, counterexample: parameters kept in one call of `fit` are said to be kept in that call only. They are kept in
the next one, too, as the list of parameters to be fitted is stored in the fitter. -/
theorem C93_counterexample_keep (cf cf' : CurveFit) (m : Nl X) (d d' : Data X) (s s1 s2 : Fitter)
    (keep : List (ℤ × ℝ)) (hk : ProperKeep m.np keep) (inipar inipar' : Option (ℕ → ℝ)) (b prior b' prior' : Option Bounds)
    (h1 : fit cf m d s inipar (some keep) b prior = some s1) (h2 : fit cf' m d' s1 inipar' none b' prior' = some s2) :
    Agrees keep s1.params ∧ Agrees keep s2.params := by
  have hkk : ∀ k ∈ keep.map Prod.fst, 0 ≤ k ∧ k < m.np := by
    intro k hk'
    obtain ⟨kv, hkv, rfl⟩ := List.mem_map.1 hk'
    exact hk.2 kv hkv
  set f : ℕ → Bool := fun k => decide ((k : ℤ) ∉ keep.map Prod.fst) with hf
  have key : s1.fitIndex = some (indexOf m.np f) ∧ Agrees keep s1.params := by
    unfold fit at h1
    rw [prolog_keep m.np s keep hk] at h1
    simp only [keepFixed, setxor_index m.np _ hkk, Option.map_eq_some_iff] at h1
    obtain ⟨q, _, rfl⟩ := h1
    refine ⟨rfl, fun kv hkv => ?_⟩
    obtain ⟨g1, g2⟩ := kept_false keep m.np hk kv hkv
    exact ((insert_at m.np f _ q).2 _ g1 g2).trans (store_kept m.np keep hk _ kv hkv)
  refine ⟨key.2, ?_⟩
  unfold fit at h2
  simp only [fitprolog, key.1, Option.map_eq_some_iff] at h2
  obtain ⟨q, _, rfl⟩ := h2
  intro kv hkv
  obtain ⟨g1, g2⟩ := kept_false keep m.np hk kv hkv
  exact ((insert_at m.np f _ q).2 _ g1 g2).trans (key.2 kv hkv)

/-- C93, counterexample: with a parameter kept in the call, and the limits of the priors of the model, which are arrays
for all parameters, the fit is impossible: `curve_fit` gets more limits than parameters. -/
theorem C93_counterexample_limits (cf : CurveFit) (hcf : CurveSpec cf) (m : Nl X) (d : Data X) (s : Fitter)
    (keep : List (ℤ × ℝ)) (hk : ProperKeep m.np keep) (hne : keep ≠ []) (inipar : Option (ℕ → ℝ)) (lo hi : List EReal)
    (hlo : lo.length = m.np) : fit cf m d s inipar (some keep) none (some (.arrays lo hi)) = none := by
  have hlt : (indexOf m.np fun k => decide ((k : ℤ) ∉ keep.map Prod.fst)).length < m.np := by
    obtain ⟨kv, hkv⟩ := List.exists_mem_of_ne_nil keep hne
    obtain ⟨g1, g2⟩ := kept_false keep m.np hk kv hkv
    rw [index_length]
    have h : ((List.range m.np).filter fun k : ℕ => decide ((k : ℤ) ∉ keep.map Prod.fst)).length
        < (List.range m.np).length := by
      apply List.length_filter_lt_length_iff_exists.2
      exact ⟨kv.1.toNat, by simpa using g1, by simpa using g2⟩
    simpa using h
  unfold fit
  rw [prolog_keep m.np s keep hk]
  simp only
  rw [hcf.shape _ _ _ _ _ _ _ _ _ (Or.inl (by omega))]
  rfl

/-- A constant. -/
def constant : Nl ℝ := ⟨1, fun _ p => p 0, fun _ _ _ => 1⟩

theorem constant_proper : Proper constant := by
  refine ⟨fun _ p q h => h 0 (by simp [constant]), fun x p k hk => ?_⟩
  obtain rfl : k = 0 := by simp [constant] at hk; exact hk
  simpa [constant] using hasDerivAt_id' (p 0)

/-- Two data, of which the second, 1e20, has weight 0. -/
def twoData : Data ℝ := ⟨2, fun _ => 0, fun i => if i = 0 then 0 else 1e20, some (fun i => if i = 0 then 1 else 0), none⟩

theorem squares_two (s : Fitter) (hn : s.nnorm = 0) (hi : s.fitIndex = none) (q : ℕ → ℝ) :
    squares (twoData.n + s.nnorm) (result constant twoData s) (ydat twoData s) (sigma twoData s) q
      = q 0 ^ 2 + (q 0 - 1e20) ^ 2 * 1e-20 := by
  have h0 : sigma twoData s 0 = 1 := by
    simp [sigma, twoData, Data.fitWgts]
  have h1 : sigma twoData s 1 = 1 / √1e-20 := by
    simp [sigma, twoData, Data.fitWgts]
  have hs : (√(1e-20 : ℝ)) ^ 2 = 1e-20 := Real.sq_sqrt (by norm_num)
  unfold squares
  rw [hn]
  simp only [twoData, Nat.add_zero, sum_range_succ, sum_range_zero, zero_add]
  rw [show (⟨2, fun _ => 0, fun i => if i = 0 then 0 else 1e20, some (fun i => if i = 0 then 1 else 0), none⟩ : Data ℝ)
    = twoData from rfl, h0, h1, div_div_eq_mul_div, div_one, div_one, mul_pow, hs]
  simp [result, ydat, twoData, inserted, hi, constant]

/-- C93, counterexample: a datum with weight zero does take part: it gets the weight 1e-20. For data 0 and 1e20, the
latter with weight 0, every fit by `curve_fit` returns 1/(1 + 1e-20) and not 0, where chi squared is zero. -/
theorem C93_counterexample_weights (cf : CurveFit) (hcf : CurveSpec cf) (s s' : Fitter) (hn : s.nnorm = 0)
    (hi : s.fitIndex = none) (h : fit cf constant twoData s none none none none = some s') :
    s'.params 0 = 1 / (1 + 1e-20) ∧ chisq constant twoData (fun _ => 0) = 0 ∧ 0 < chisq constant twoData s'.params := by
  have hc : ∀ p : ℕ → ℝ, chisq constant twoData p = p 0 ^ 2 := by
    intro p
    simp [chisq, twoData, constant, Data.fitWgts, sum_range_succ]
  have hp : s'.params 0 = 1 / (1 + 1e-20) := by
    unfold fit at h
    simp only [fitprolog, hi, index_all, Option.map_eq_some_iff] at h
    obtain ⟨q, hq, rfl⟩ := h
    have hl : (indexOf constant.np fun _ => true).length = 1 := by simp [indexOf, constant]
    set s1 : Fitter := { s with npfit := constant.np, fitIndex := none } with hs1
    obtain ⟨ε, hε, hmin⟩ := hcf.least _ _ _ _ _ _ _ _ _ (fun p i _ a ha =>
      jacobian_deriv constant constant_proper twoData s1 (fun _ => true) (Or.inr ⟨rfl, fun _ => rfl⟩) p i a ha) hq
    have hq0 : insertParameters constant.np s.params q (indexOf constant.np fun _ => true) 0 = q 0 := by
      unfold insertParameters
      rw [if_pos (by rw [hl]; rfl)]
    show insertParameters constant.np s.params q (indexOf constant.np fun _ => true) 0 = _
    rw [hq0]
    have step : ∀ δ : ℝ, |δ| < ε → 0 ≤ (1 + 1e-20) * δ ^ 2 + 2 * δ * (q 0 * (1 + 1e-20) - 1) := by
      intro δ hδ
      have := hmin (fun _ => q 0 + δ) (fun a _ => ⟨by simp [Bounds.low], by simp [Bounds.high]⟩) (fun a ha => by
        rw [hl] at ha
        obtain rfl : a = 0 := by omega
        simpa using hδ)
      rw [show (s.nnorm : ℕ) = s1.nnorm from rfl, squares_two s1 hn rfl, squares_two s1 hn rfl] at this
      norm_num at this ⊢
      nlinarith
    set g := q 0 * (1 + 1e-20) - 1 with hg
    have hg0 : g = 0 := by
      by_contra hne
      set δ : ℝ := -(min (|g| / 2) (ε / 2)) * (g / |g|) with hδ
      have hgp : 0 < |g| := abs_pos.2 hne
      have hm0 : 0 < min (|g| / 2) (ε / 2) := by positivity
      have hm1 : min (|g| / 2) (ε / 2) ≤ |g| / 2 := min_le_left _ _
      have hm2 : min (|g| / 2) (ε / 2) ≤ ε / 2 := min_le_right _ _
      generalize min (|g| / 2) (ε / 2) = μ at *
      have hab : |δ| = μ := by
        rw [hδ, abs_mul, abs_div, abs_abs, div_self hgp.ne', mul_one, abs_neg, abs_of_pos hm0]
      have := step δ (by rw [hab]; linarith)
      have e1 : δ ^ 2 = μ ^ 2 := by rw [← sq_abs, hab]
      have e2 : δ * g = -(μ * |g|) := by
        rw [hδ]
        have : g * g = |g| * |g| := (abs_mul_abs_self g).symm
        field_simp
        nlinarith
      rw [e1, mul_assoc, e2] at this
      have : μ * |g| ≥ 2 * μ ^ 2 := by nlinarith
      norm_num at *
      nlinarith
    rw [eq_div_iff (by norm_num)]
    linarith
  refine ⟨hp, by simp [hc], ?_⟩
  rw [hc, hp]
  positivity

/-- A `curve_fit` as documented exists, and it finds the constant of the counterexample, and of the same data with
proper weights. -/
theorem curve_exists : ∃ cf, CurveSpec cf ∧ ∀ (rows n : ℕ) (f : (ℕ → ℝ) → ℕ → ℝ) jac y sg p0 q,
    (∀ p, squares rows f y sg q ≤ squares rows f y sg p) → ∃ q', cf rows n f jac y sg p0 (.scalars ⊥ ⊤) = some q' := by
  classical
  let good : ℕ → ℕ → ((ℕ → ℝ) → ℕ → ℝ) → (ℕ → ℝ) → (ℕ → ℝ) → Bounds → (ℕ → ℝ) → Prop := fun rows n f y sg b q =>
    (∀ lo hi, b = .arrays lo hi → lo.length = n ∧ hi.length = n) ∧ b.Within n q ∧
      ∀ p, b.Within n p → squares rows f y sg q ≤ squares rows f y sg p
  refine ⟨fun rows n f _ y sg _ b => if h : ∃ q, good rows n f y sg b q then some h.choose else none, ⟨?_, ?_, ?_⟩, ?_⟩
  · intro rows n f jac y sg p0 lo hi hl
    rw [dif_neg]
    rintro ⟨q, h, _⟩
    have := h lo hi rfl
    omega
  · intro rows n f jac y sg p0 b q h
    split at h
    · rename_i he
      have := he.choose_spec
      rw [Option.some.inj h] at this
      exact this.2.1
    · simp at h
  · intro rows n f jac y sg p0 b q _ h
    split at h
    · rename_i he
      have := he.choose_spec
      rw [Option.some.inj h] at this
      exact ⟨1, one_pos, fun p hp _ => this.2.2 p hp⟩
    · simp at h
  · intro rows n f jac y sg p0 q hq
    have : ∃ q, good rows n f y sg (.scalars ⊥ ⊤) q :=
      ⟨q, by simp, fun a _ => ⟨by simp [Bounds.low], by simp [Bounds.high]⟩, fun p _ => hq p⟩
    exact ⟨_, dif_pos this⟩

example : ∃ cf, CurveSpec cf ∧
    (fit cf constant twoData (initFitter 1 (fun _ => 5) none) none none none none).isSome = true := by
  obtain ⟨cf, hcf, hx⟩ := curve_exists
  have e := squares_two ({ initFitter 1 (fun _ => 5) none with npfit := constant.np, fitIndex := none }) rfl rfl
  obtain ⟨q', hq'⟩ := hx _ (indexOf constant.np fun _ => true).length _ (jacobian constant twoData
    { initFitter 1 (fun _ => 5) none with npfit := constant.np, fitIndex := none }) _ _ (fun a =>
      (none : Option (ℕ → ℝ)).getD (fun _ => 5) (pyIdx constant.np ((indexOf constant.np fun _ => true).getD a 0)))
    (fun _ => 1 / (1 + 1e-20)) (by
      intro p
      rw [e, e]
      have : 0 ≤ (p 0 - 1 / (1 + 1e-20)) ^ 2 := sq_nonneg _
      norm_num at this ⊢
      nlinarith)
  refine ⟨cf, hcf, ?_⟩
  unfold fit
  simp only [fitprolog, initFitter, keepFixed, index_all]
  simp only [initFitter, keepFixed] at hq'
  rw [hq']
  rfl

end BF.Curve
