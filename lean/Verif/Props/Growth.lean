import Verif.Growth
import Verif.Props.Dynamic
import Verif.Props.Poly
import Verif.Props.PriorsCirc
import Mathlib.MeasureTheory.Measure.Lebesgue.Basic
import Mathlib.Data.Nat.Choose.Basic

/-!
# C91 and C92: growing polynomials and harmonics; the rates of births and deaths
-/

noncomputable section

namespace BF.Growth

open Dynamic Poly Priors Finset

/-! ## What the models are, after any history -/

theorem own_eq (s : Dyn ℝ) (pre mine post : List ℝ) (hp : s.params = pre ++ mine ++ post) (k : ℕ)
    (hk : k < mine.length) : own s pre.length k = mine.getD k 0 := by
  have h : (pre ++ mine ++ post)[pre.length + k]? = mine[k]? := by
    rw [List.append_assoc, List.getElem?_append_right (by omega), Nat.add_sub_cancel_left,
      List.getElem?_append_left hk]
  simp only [own, hp, List.getD_eq_getElem?_getD, h]

theorem poly_sum (s : Dyn ℝ) (pre mine post : List ℝ) (hp : s.params = pre ++ mine ++ post)
    (hn : mine.length = s.npbase) (x : ℝ) :
    polyDynResult s pre.length x = ∑ k ∈ range s.npbase, mine.getD k 0 * x ^ k := by
  unfold polyDynResult
  rw [linear_sum, powers_range]
  simp only [List.length_map, List.length_range]
  apply sum_congr rfl
  intro k hk
  rw [mem_range] at hk
  rw [own_eq s pre mine post hp k (by omega)]
  simp [List.getD_eq_getElem?_getD, List.getElem?_map, List.getElem?_range hk]

theorem harm_sum (period : ℝ) (order : ℕ) (s : Dyn ℝ) (pre mine post : List ℝ)
    (hp : s.params = pre ++ mine ++ post) (hn : mine.length = s.npbase) (ho : s.npbase = 2 * order) (x : ℝ) :
    harmDynResult period s pre.length x = ∑ j ∈ range order,
      (mine.getD (2 * j) 0 * Real.cos ((j + 1) * (2 * Real.pi * x / period))
        + mine.getD (2 * j + 1) 0 * Real.sin ((j + 1) * (2 * Real.pi * x / period))) := by
  have h := C34_harmonic_result order period x (own s pre.length)
  have e : harmDynResult period s pre.length x = harmonicResult order period x (own s pre.length) := by
    unfold harmDynResult harmonicResult harmonicPartial
    rw [ho]
  rw [e, h]
  apply sum_congr rfl
  intro j hj
  rw [mem_range] at hj
  rw [own_eq s pre mine post hp (2 * j) (by omega), own_eq s pre mine post hp (2 * j + 1) (by omega)]

theorem total_one (n : ℕ) : total 1 1 n = n := by
  induction n with
  | zero => rfl
  | succ n ih => rw [total_succ, ih]; simp [compSize]

theorem total_two (n : ℕ) : total 2 2 n = 2 * n := by
  induction n with
  | zero => rfl
  | succ n ih => rw [total_succ, ih]; simp [compSize]; omega

/-- The model as a part of a chain, with the parameters `pre` before and `post` behind its own. -/
def inChain (s : Dyn ℝ) (pre post : List ℝ) : Dyn ℝ :=
  { s with
    params := pre ++ s.params ++ post, npchain := (pre ++ s.params ++ post).length }

/-- C91: after any history of births, of any values, and deaths a dynamic polynomial is a polynomial, with a degree
between its limits, and its own parameters are all the coefficients, of the powers from 0 upward. The parameters of
the other models of the chain are as they were. -/
theorem C91_polynomial (degree lo : ℕ) (hi : Option ℕ) (s : Dyn ℝ) (h0 : polyInit degree lo hi = some s)
    (pre post : List ℝ) (acts : List (Act ℝ)) :
    ∃ s' c n, runAll 1 1 pre.length (inChain s pre post) acts = some s' ∧ s'.params = pre ++ c ++ post ∧
      s'.npchain = s'.params.length ∧ c.length = n + 1 ∧ s'.npbase = n + 1 ∧ s'.ncomp = n + 1 ∧ lo ≤ n ∧
      (∀ m, hi = some m → n ≤ m) ∧
      ∀ x, polyDynResult s' pre.length x = ∑ k ∈ range (n + 1), c.getD k 0 * x ^ k := by
  unfold polyInit at h0
  split at h0
  · simp at h0
  rename_i hc
  push Not at hc
  have hs := (Option.some.inj h0).symm
  obtain ⟨s', c, h1, h2, h3, h4, h5, h6, h7, h8, h9⟩ := C23_history 1 1 pre post acts
    (inChain s pre post) s.params rfl (by simp [inChain, hs]) (by simp [inChain, hs, total_one])
    (by simp [inChain]) (by simp [inChain, hs]; omega)
    (by
      intro m hm
      simp only [inChain, hs, Option.map_eq_some_iff] at hm
      obtain ⟨a, ha, rfl⟩ := hm
      have := hc.2 a ha
      simp [inChain, hs]; omega)
  rw [total_one] at h4
  have h6' : s'.minComp = lo + 1 := by rw [h6, hs]; rfl
  have h7' : s'.maxComp = hi.map (· + 1) := by rw [h7, hs]; rfl
  refine ⟨s', c, s'.ncomp - 1, h1, h2, h5, by omega, by omega, by omega, by omega, ?_, ?_⟩
  · intro m hm
    have := h9 (m + 1) (by rw [h7', hm]; rfl)
    omega
  · intro x
    rw [poly_sum s' pre c post h2 h3, show s'.ncomp - 1 + 1 = s'.npbase by omega]

/-- C91: the same for a dynamic harmonic model: a sum of cosines and sines of 1, 2, … order times the basic frequency,
two own parameters for each. -/
theorem C91_harmonic (order lo : ℕ) (hi : Option ℕ) (period : ℝ) (s : Dyn ℝ) (h0 : harmInit order lo hi = some s)
    (pre post : List ℝ) (acts : List (Act ℝ)) :
    ∃ s' c n, runAll 2 2 pre.length (inChain s pre post) acts = some s' ∧ s'.params = pre ++ c ++ post ∧
      s'.npchain = s'.params.length ∧ c.length = 2 * n ∧ s'.npbase = 2 * n ∧ s'.ncomp = n ∧ lo ≤ n ∧
      (∀ m, hi = some m → n ≤ m) ∧
      ∀ x, harmDynResult period s' pre.length x = ∑ j ∈ range n,
        (c.getD (2 * j) 0 * Real.cos ((j + 1) * (2 * Real.pi * x / period))
          + c.getD (2 * j + 1) 0 * Real.sin ((j + 1) * (2 * Real.pi * x / period))) := by
  unfold harmInit at h0
  split at h0
  · simp at h0
  rename_i hc
  push Not at hc
  have hs := (Option.some.inj h0).symm
  obtain ⟨s', c, h1, h2, h3, h4, h5, h6, h7, h8, h9⟩ := C23_history 2 2 pre post acts
    (inChain s pre post) s.params rfl (by simp [inChain, hs]) (by simp [inChain, hs, total_two])
    (by simp [inChain]) (by simp [inChain, hs]; omega)
    (by
      intro m hm
      simp only [inChain, hs] at hm
      have := hc.2 m hm
      simp [inChain, hs]; omega)
  rw [total_two] at h4
  have h6' : s'.minComp = lo := by rw [h6, hs]; rfl
  have h7' : s'.maxComp = hi := by rw [h7, hs]; rfl
  refine ⟨s', c, s'.ncomp, h1, h2, h5, by omega, by omega, by omega, by omega, ?_, ?_⟩
  · intro m hm
    exact h9 m (by rw [h7', hm])
  · intro x
    exact harm_sum period s'.ncomp s' pre c post h2 h3 h4 x

/-- C91: a birth with value `v` adds `v·x^(degree+1)` to the polynomial; with the value zero, as `grow` does without a
random generator, the model has the same values everywhere. -/
theorem C91_birth (s : Dyn ℝ) (pre mine post : List ℝ) (v : ℝ) (hp : s.params = pre ++ mine ++ post)
    (hn : mine.length = s.npbase) (hmax : ∀ m, s.maxComp = some m → s.ncomp < m) :
    ∃ s', grow s pre.length [v] = some (s', true) ∧ s'.ncomp = s.ncomp + 1 ∧
      ∀ x, polyDynResult s' pre.length x = polyDynResult s pre.length x + v * x ^ s.npbase := by
  obtain ⟨s', h1, h2, h3, h4, _⟩ := (C23_grow s pre mine post [v] hp hn).2 hmax
  refine ⟨s', h1, h2, fun x => ?_⟩
  rw [poly_sum s' pre (mine ++ [v]) post h3 (by simp [h4, hn]), poly_sum s pre mine post hp hn, h4,
    List.length_singleton, sum_range_succ]
  congr 1
  · apply sum_congr rfl
    intro k hk
    rw [mem_range] at hk
    simp [List.getD_eq_getElem?_getD, List.getElem?_append_left (show k < mine.length by omega)]
  · simp [List.getD_eq_getElem?_getD, ← hn]

/-- C91: a death drops the term of the highest degree and nothing else. -/
theorem C91_death (s : Dyn ℝ) (pre mine post : List ℝ) (v : ℝ) (hp : s.params = pre ++ (mine ++ [v]) ++ post)
    (hn : mine.length + 1 = s.npbase) (hmin : s.minComp < s.ncomp) :
    ∃ s', shrink s pre.length 1 = some (s', true) ∧ s'.ncomp + 1 = s.ncomp ∧ s'.params = pre ++ mine ++ post ∧
      ∀ x, polyDynResult s' pre.length x = polyDynResult s pre.length x - v * x ^ (s.npbase - 1) := by
  obtain ⟨s', h1, h2, h3, h4, _⟩ := (C23_shrink s pre (mine ++ [v]) post 1 hp (by simp [hn]) (by omega)).2 hmin
  have h3' : s'.params = pre ++ mine ++ post := by simpa using h3
  refine ⟨s', h1, h2, h3', fun x => ?_⟩
  rw [poly_sum s' pre mine post h3' (by omega), poly_sum s pre (mine ++ [v]) post hp (by simp [hn]), ← h4,
    sum_range_succ]
  have e : s'.npbase = mine.length := by omega
  rw [e, Nat.add_sub_cancel]
  have : ∀ k ∈ range mine.length, (mine ++ [v]).getD k 0 * x ^ k = mine.getD k 0 * x ^ k := by
    intro k hk
    rw [mem_range] at hk
    simp [List.getD_eq_getElem?_getD, List.getElem?_append_left hk]
  rw [sum_congr rfl this]
  simp [List.getD_eq_getElem?_getD]

/-- C91: a harmonic birth with values `a` and `b` adds the next harmonic. -/
theorem C91_birth_harmonic (period : ℝ) (order : ℕ) (s : Dyn ℝ) (pre mine post : List ℝ) (a b : ℝ)
    (hp : s.params = pre ++ mine ++ post) (hn : mine.length = s.npbase) (ho : s.npbase = 2 * order)
    (hmax : ∀ m, s.maxComp = some m → s.ncomp < m) :
    ∃ s', grow s pre.length [a, b] = some (s', true) ∧ s'.ncomp = s.ncomp + 1 ∧
      ∀ x, harmDynResult period s' pre.length x = harmDynResult period s pre.length x
        + (a * Real.cos ((order + 1) * (2 * Real.pi * x / period))
          + b * Real.sin ((order + 1) * (2 * Real.pi * x / period))) := by
  obtain ⟨s', h1, h2, h3, h4, _⟩ := (C23_grow s pre mine post [a, b] hp hn).2 hmax
  refine ⟨s', h1, h2, fun x => ?_⟩
  rw [harm_sum period (order + 1) s' pre (mine ++ [a, b]) post h3 (by simp [h4, hn]) (by simp [h4, ho]; ring),
    harm_sum period order s pre mine post hp hn ho, sum_range_succ]
  have hl : mine.length = 2 * order := by omega
  congr 1
  · apply sum_congr rfl
    intro k hk
    rw [mem_range] at hk
    simp [List.getD_eq_getElem?_getD, List.getElem?_append_left (show 2 * k < mine.length by omega),
      List.getElem?_append_left (show 2 * k + 1 < mine.length by omega)]
  · simp [List.getD_eq_getElem?_getD, ← hl]

/-- C91: a dynamic polynomial can be copied after any history; a dynamic harmonic model as long as it has a
component. -/
theorem C91_copy_partial (s : Dyn ℝ) : polyCopy s = some s ∧ (1 ≤ s.ncomp → harmCopy s = some s) := by
  constructor
  · simp [polyCopy, polyInit]
  · intro h
    simp [harmCopy, harmInit, show s.ncomp ≠ 0 by omega]

/-- C91, counterexample: a dynamic harmonic model that may have no harmonic at all, `minOrder=0`, and that has lost
them, cannot be copied: the constructor in `copy` is called without `minOrder`, which is 1 by default, and raises a
ValueError. -/
theorem C91_counterexample_copy : ∃ s s' : Dyn ℝ, harmInit 1 0 (some 6) = some s ∧
    runAll 2 2 0 s [.death] = some s' ∧ s'.ncomp = 0 ∧ harmCopy s' = none := by
  refine ⟨_, ⟨0, 0, some 6, 0, 0, []⟩, rfl, ?_, rfl, ?_⟩
  · simp [runAll, Act.run, compSize, shrink, deletePars]
  · simp [harmCopy, harmInit]

/-- C91, counterexample: the example of the manual, `HarmonicDynamicModel( 0, maxOrder=6 )`, raises a ValueError, as
the minimum order is 1 by default. -/
theorem C91_counterexample_manual : harmInit 0 1 (some 6) = none := by simp [harmInit]

example : ∃ s, polyInit 2 1 (some 5) = some s := ⟨_, if_neg (by simp)⟩

/-! ## How often births and deaths happen -/

/-- The probability of an event that depends on one uniformly distributed random number between 0 and 1. -/
def prob (p : ℝ → Prop) : ℝ := (MeasureTheory.volume {u : ℝ | 0 ≤ u ∧ u < 1 ∧ p u}).toReal

/-- The probability that a component is added. -/
def birthRate (q : Prior) (s : Dyn ℝ) (offset : ℕ) (value : List ℝ) : ℝ :=
  prob fun u => ∃ s', birth q s offset value u = some (s', true)

/-- The probability that a component is removed. -/
def deathRate (q : Prior) (s : Dyn ℝ) (offset n : ℕ) : ℝ :=
  prob fun u => ∃ s', death q s offset n u = some (s', true)

theorem prob_ge (p : ℝ → Prop) (c : ℝ) (h0 : 0 ≤ c) (h1 : c ≤ 1) (h : ∀ u, 0 ≤ u → u < 1 → (p u ↔ c < u)) :
    prob p = 1 - c := by
  have e : {u : ℝ | 0 ≤ u ∧ u < 1 ∧ p u} = Set.Ioo c 1 := by
    ext u
    simp only [Set.mem_setOf_eq, Set.mem_Ioo]
    constructor
    · rintro ⟨a, b, d⟩; exact ⟨(h u a b).1 d, b⟩
    · rintro ⟨a, b⟩; exact ⟨by linarith, b, (h u (by linarith) b).2 a⟩
  rw [prob, e, Real.volume_Ioo, ENNReal.toReal_ofReal (by linarith)]

theorem prob_lt (p : ℝ → Prop) (c : ℝ) (h0 : 0 ≤ c) (h1 : c ≤ 1) (h : ∀ u, 0 ≤ u → u < 1 → (p u ↔ u < c)) :
    prob p = c := by
  have e : {u : ℝ | 0 ≤ u ∧ u < 1 ∧ p u} = Set.Ico 0 c := by
    ext u
    simp only [Set.mem_setOf_eq, Set.mem_Ico]
    constructor
    · rintro ⟨a, b, d⟩; exact ⟨a, (h u a b).1 d⟩
    · rintro ⟨a, b⟩; exact ⟨a, by linarith, (h u a (by linarith)).2 b⟩
  rw [prob, e, Real.volume_Ico, ENNReal.toReal_ofReal (by linarith), sub_zero]

theorem prob_never (p : ℝ → Prop) (h : ∀ u, ¬ p u) : prob p = 0 := by
  simp [prob, h]

theorem birth_true (q : Prior) (s : Dyn ℝ) (pre mine post value : List ℝ) (u d : ℝ)
    (hd : q.unit2Domain u = some d) (hp : s.params = pre ++ mine ++ post) (hn : mine.length = s.npbase)
    (hmax : ∀ m, s.maxComp = some m → s.ncomp < m) :
    (∃ s', birth q s pre.length value u = some (s', true)) ↔ (s.ncomp : ℝ) < d := by
  obtain ⟨s', h1, _⟩ := (C23_grow s pre mine post value hp hn).2 hmax
  unfold birth
  simp only [hd]
  by_cases hc : (s.ncomp : ℝ) < d
  · simp only [if_pos hc, h1, hc, iff_true]; exact ⟨s', rfl⟩
  · simp [if_neg hc, hc]

theorem death_true (q : Prior) (s : Dyn ℝ) (pre mine post : List ℝ) (n : ℕ) (u d : ℝ)
    (hd : q.unit2Domain u = some d) (hp : s.params = pre ++ mine ++ post) (hn : mine.length = s.npbase)
    (hnn : n ≤ s.npbase) (hmin : s.minComp < s.ncomp) :
    (∃ s', death q s pre.length n u = some (s', true)) ↔ d < (s.ncomp : ℝ) := by
  obtain ⟨s', h1, _⟩ := (C23_shrink s pre mine post n hp hn hnn).2 hmin
  unfold death
  simp only [hd]
  by_cases hc : d < (s.ncomp : ℝ)
  · simp only [if_pos hc, h1, hc, iff_true]; exact ⟨s', rfl⟩
  · simp [if_neg hc, hc]

theorem uniform_map (lo M : ℕ) (h : lo ≤ M) : ∃ q, growPrior lo (some M) = some q ∧
    ∀ u, q.unit2Domain u = some (u * ((M : ℝ) + 1 - lo) + lo) := by
  have hlt : (lo : ℝ) < (M : ℝ) + 1 := by exact_mod_cast Nat.lt_succ_of_le h
  have e := start_set .uniform 0 1 none lo ((M : ℝ) + 1) lo ((M : ℝ) + 1) hlt (by simp) rfl rfl
  refine ⟨between .uniform 0 1 none lo ((M : ℝ) + 1) lo ((M : ℝ) + 1), ?_, fun u => ?_⟩
  · simp only [growPrior, construct, Kind.hasCenter, Prior.setPriorAttributes, e, Bool.false_eq_true, if_false]
  · simp [Prior.unit2Domain, between, Prior.limitU, Kind.inv, start]

theorem exponential_map (lo : ℕ) : ∃ q, growPrior lo none = some q ∧
    ∀ u, 0 ≤ u → u < 1 → q.unit2Domain u = some (-2 * Real.log (1 - u)) := by
  have c0 : Kind.laplace.cumE 0 2 0 = some (1 / 2 : ℝ) := by
    change Kind.laplace.cum 0 2 0 = _
    simp only [Kind.cum]
    norm_num
  have c1 : Kind.laplace.cumE 0 2 ⊤ = some (1 : ℝ) := rfl
  have hli : limitedIntegral .laplace 2 0 0 (some (some 0, some ⊤)) .no = some (1 / 2 : ℝ) := by
    simp only [limitedIntegral, Option.bind_some, c0, c1]
    norm_num
  set q0 := start .laplace 0 2 (some (1 / 2 : ℝ)) with hq0
  have hset : q0.setLimits (some (some 0, some ⊤)) =
      ({ q0 with low := 0, high := ⊤, umin := 1 / 2, urng := some (1 - 1 / 2), maps := .limited, hasBase := true },
        false) := by
    have hr : ({ q0 with low := 0, high := ⊤ } : Prior).setRange =
        { q0 with low := 0, high := ⊤, umin := 1 / 2, urng := some (1 - 1 / 2) } := by
      have k1 : Kind.laplace.cumE q0.center q0.scale ⊤ = some 1 := c1
      have k0 : Kind.laplace.cumE q0.center q0.scale 0 = some (1 / 2 : ℝ) := c0
      simp only [Prior.setRange, Prior.domain2UnitE, Prior.applyD, hq0, start] at *
      simp only [c0, c1]
    unfold Prior.setLimits
    simp only [Option.bind_some, Option.getD_some, hr]
    rw [if_pos (by simp [hq0, start])]
    simp [hq0, start]
  refine ⟨{ (q0.setLimits (some (some 0, some ⊤))).1 with lowDomain := 0 }, ?_, fun u h0 h1 => ?_⟩
  · simp only [growPrior, exponential, construct, Kind.hasCenter, recenter, if_true, hli, Prior.setPriorAttributes]
    rw [if_neg (by norm_num)]
    simp only [← hq0, hset]
    rfl
  · rw [hset]
    simp only [Prior.unit2Domain, Prior.limitU, if_true, hq0, start, Kind.inv]
    have e : 2 * (u * (1 - 1 / 2) + 1 / 2) = u + 1 := by ring
    rw [e, if_neg (by push Not; constructor <;> linarith), if_neg (by linarith), if_neg (by linarith)]
    by_cases hu : u = 0
    · subst hu; simp
    · have : 0 < u := lt_of_le_of_ne h0 (Ne.symm hu)
      rw [if_neg (by linarith)]
      congr 1
      rw [show 2 - (u + 1) = 1 - u by ring]
      ring

/-- C92: what happens with a model of `n` components, in the default case of a maximum: the grow prior is uniform
between its limits `lo` and `M + 1`. A component is added with probability `(M+1-n)/(M+1-lo)`, unless there are as many
as allowed, and removed with probability `(n-lo)/(M+1-lo)`, unless there are as few as allowed. -/
theorem C92_rates_uniform (lo M : ℕ) (s : Dyn ℝ) (pre mine post value : List ℝ) (k : ℕ)
    (hp : s.params = pre ++ mine ++ post) (hn : mine.length = s.npbase) (hk : k ≤ s.npbase)
    (h1 : lo ≤ s.ncomp) (h2 : s.ncomp ≤ M + 1) (hM : lo ≤ M) :
    ∃ q, growPrior lo (some M) = some q ∧
      ((∀ m, s.maxComp = some m → s.ncomp < m) →
        birthRate q s pre.length value = ((M : ℝ) + 1 - s.ncomp) / (M + 1 - lo)) ∧
      ((∃ m, s.maxComp = some m ∧ m ≤ s.ncomp) → birthRate q s pre.length value = 0) ∧
      (s.minComp < s.ncomp → deathRate q s pre.length k = ((s.ncomp : ℝ) - lo) / (M + 1 - lo)) ∧
      (s.ncomp ≤ s.minComp → deathRate q s pre.length k = 0) := by
  obtain ⟨q, hq, hu⟩ := uniform_map lo M hM
  have hw : (0 : ℝ) < (M : ℝ) + 1 - lo := by
    have : (lo : ℝ) ≤ M := by exact_mod_cast hM
    linarith
  have a1 : (lo : ℝ) ≤ s.ncomp := by exact_mod_cast h1
  have a2 : (s.ncomp : ℝ) ≤ M + 1 := by exact_mod_cast h2
  have b0 : 0 ≤ ((s.ncomp : ℝ) - lo) / (M + 1 - lo) := div_nonneg (by linarith) hw.le
  have b1 : ((s.ncomp : ℝ) - lo) / (M + 1 - lo) ≤ 1 := (div_le_one hw).2 (by linarith)
  refine ⟨q, hq, fun hmax => ?_, fun hmax => ?_, fun hmin => ?_, fun hmin => ?_⟩
  · unfold birthRate
    rw [prob_ge _ (((s.ncomp : ℝ) - lo) / (M + 1 - lo)) b0 b1]
    · field_simp; ring
    · intro u _ _
      rw [birth_true q s pre mine post value u _ (hu u) hp hn hmax, div_lt_iff₀ hw]
      constructor <;> intro h <;> linarith
  · apply prob_never
    rintro u ⟨s', hs'⟩
    unfold birth at hs'
    simp only [hu, (C23_grow s pre mine post value hp hn).1 hmax] at hs'
    split_ifs at hs' <;> simp at hs'
  · unfold deathRate
    apply prob_lt _ _ b0 b1
    intro u _ _
    rw [death_true q s pre mine post k u _ (hu u) hp hn hk hmin, lt_div_iff₀ hw]
    constructor <;> intro h <;> linarith
  · apply prob_never
    rintro u ⟨s', hs'⟩
    unfold death at hs'
    simp only [hu, (C23_shrink s pre mine post k hp hn hk).1 hmin] at hs'
    split_ifs at hs' <;> simp at hs'

/-- C92: the same without a maximum: the grow prior is exponential with scale 2. -/
theorem C92_rates_exponential (lo : ℕ) (s : Dyn ℝ) (pre mine post value : List ℝ) (k : ℕ)
    (hp : s.params = pre ++ mine ++ post) (hn : mine.length = s.npbase) (hk : k ≤ s.npbase)
    (hmax : s.maxComp = none) :
    ∃ q, growPrior lo none = some q ∧
      birthRate q s pre.length value = Real.exp (-(s.ncomp : ℝ) / 2) ∧
      (s.minComp < s.ncomp → deathRate q s pre.length k = 1 - Real.exp (-(s.ncomp : ℝ) / 2)) := by
  obtain ⟨q, hq, hu⟩ := exponential_map lo
  have hx0 : 0 < Real.exp (-(s.ncomp : ℝ) / 2) := Real.exp_pos _
  have hx1 : Real.exp (-(s.ncomp : ℝ) / 2) ≤ 1 := by
    rw [Real.exp_le_one_iff]
    have : (0 : ℝ) ≤ s.ncomp := Nat.cast_nonneg _
    linarith
  have key : ∀ u, u < 1 → ((s.ncomp : ℝ) < -2 * Real.log (1 - u) ↔ 1 - Real.exp (-(s.ncomp : ℝ) / 2) < u) := by
    intro u h1
    have h : Real.log (1 - u) < -(s.ncomp : ℝ) / 2 ↔ 1 - u < Real.exp (-(s.ncomp : ℝ) / 2) :=
      Real.log_lt_iff_lt_exp (by linarith)
    constructor
    · intro h2; have := h.1 (by linarith); linarith
    · intro h2; have := h.2 (by linarith); linarith
  have key2 : ∀ u, u < 1 → (-2 * Real.log (1 - u) < (s.ncomp : ℝ) ↔ u < 1 - Real.exp (-(s.ncomp : ℝ) / 2)) := by
    intro u h1
    have h : -(s.ncomp : ℝ) / 2 < Real.log (1 - u) ↔ Real.exp (-(s.ncomp : ℝ) / 2) < 1 - u :=
      Real.lt_log_iff_exp_lt (by linarith)
    constructor
    · intro h2; have := h.1 (by linarith); linarith
    · intro h2; have := h.2 (by linarith); linarith
  refine ⟨q, hq, ?_, fun hmin => ?_⟩
  · unfold birthRate
    rw [prob_ge _ (1 - Real.exp (-(s.ncomp : ℝ) / 2)) (by linarith) (by linarith)]
    · ring
    · intro u h0 h1
      rw [birth_true q s pre mine post value u _ (hu u h0 h1) hp hn (by simp [hmax]), key u h1]
  · unfold deathRate
    apply prob_lt _ _ (by linarith) (by linarith)
    intro u h0 h1
    rw [death_true q s pre mine post k u _ (hu u h0 h1) hp hn hk hmin, key2 u h1]

/-- C92: the weights of the numbers of components that births and deaths keep in balance, when nothing else decides:
as many births from `n` as deaths from `n + 1`. They are the binomial coefficients of `n - lo` out of `M + 1 - lo`. -/
theorem C92_balance_partial (lo M : ℕ) (s t : Dyn ℝ) (pre mine post pre' mine' post' value : List ℝ) (k : ℕ)
    (hp : s.params = pre ++ mine ++ post) (hn : mine.length = s.npbase)
    (hp' : t.params = pre' ++ mine' ++ post') (hn' : mine'.length = t.npbase) (hk : k ≤ t.npbase)
    (ht : t.ncomp = s.ncomp + 1) (h1 : lo ≤ s.ncomp) (h2 : s.ncomp ≤ M) (hmin : t.minComp ≤ s.ncomp)
    (hmax : ∀ m, s.maxComp = some m → s.ncomp < m) :
    ∃ q, growPrior lo (some M) = some q ∧
      ((M + 1 - lo).choose (s.ncomp - lo) : ℝ) * birthRate q s pre.length value
        = ((M + 1 - lo).choose (s.ncomp + 1 - lo) : ℝ) * deathRate q t pre'.length k := by
  obtain ⟨q, hq, r1, _⟩ := C92_rates_uniform lo M s pre mine post value 0 hp hn (Nat.zero_le _) h1 (by omega) (by omega)
  obtain ⟨q', hq', _, _, r2, _⟩ := C92_rates_uniform lo M t pre' mine' post' [] k hp' hn' hk (by omega) (by omega)
    (by omega)
  obtain rfl : q = q' := by rw [hq] at hq'; exact Option.some.inj hq'
  refine ⟨q, hq, ?_⟩
  rw [r1 hmax, r2 (by omega), ht]
  obtain ⟨j, hj⟩ := Nat.exists_eq_add_of_le h1
  obtain ⟨N, hN⟩ := Nat.exists_eq_add_of_le (show s.ncomp ≤ M from h2)
  have e1 : M + 1 - lo = j + N + 1 := by omega
  have e2 : s.ncomp - lo = j := by omega
  have e3 : s.ncomp + 1 - lo = j + 1 := by omega
  have hw : (M : ℝ) + 1 - lo = j + N + 1 := by rw [hN, hj]; push_cast; ring
  have hc := Nat.choose_succ_right_eq (j + N + 1) j
  have hc' : ((j + N + 1).choose (j + 1) : ℝ) * (j + 1) = ((j + N + 1).choose j : ℝ) * (N + 1) := by
    have : j + N + 1 - j = N + 1 := by omega
    rw [this] at hc
    exact_mod_cast hc
  rw [e1, e2, e3, hw]
  have a : (M : ℝ) + 1 - s.ncomp = N + 1 := by rw [hN]; push_cast; ring
  have b : ((s.ncomp + 1 : ℕ) : ℝ) - lo = j + 1 := by rw [hj]; push_cast; ring
  rw [a, b, ← mul_div_assoc, ← mul_div_assoc, hc']

/-- C92, counterexample: with the uniform grow prior all numbers of components are meant to be equally probable. For
whatever limits, at the lower one a component is always added and the new one is removed with probability
`1/(M+1-lo)` only. -/
theorem C92_counterexample_uniform (lo M : ℕ) (hM : lo < M) : ∃ (q : Prior) (s t : Dyn ℝ),
    growPrior lo (some M) = some q ∧ s.ncomp = lo ∧ grow s 0 [0] = some (t, true) ∧ t.ncomp = lo + 1 ∧
    birthRate q s 0 [0] = 1 ∧ deathRate q t 0 1 = 1 / ((M : ℝ) + 1 - lo) ∧
    deathRate q t 0 1 < birthRate q s 0 [0] := by
  set s : Dyn ℝ := ⟨lo, lo, some M, lo, lo, List.replicate lo 0⟩ with hs
  have hp : s.params = [] ++ List.replicate lo 0 ++ [] := by simp [hs]
  have hn : (List.replicate lo (0 : ℝ)).length = s.npbase := by simp [hs]
  have hmax : ∀ m, s.maxComp = some m → s.ncomp < m := by
    intro m hm
    simp only [hs, Option.some.injEq] at hm ⊢
    omega
  obtain ⟨t, g1, g2, g3, g4, _⟩ := (C23_grow s [] (List.replicate lo 0) [] [0] hp hn).2 hmax
  have hf : t.minComp = lo := by
    simp only [grow] at g1
    split at g1
    · exact absurd g1 (by simp)
    · split at g1
      · exact absurd g1 (by simp)
      · have := (Prod.mk.inj (Option.some.inj g1)).1
        rw [← this]
  have hsn : s.ncomp = lo := rfl
  obtain ⟨q, hq, r1, _⟩ := C92_rates_uniform lo M s [] (List.replicate lo 0) [] [0] 0 hp hn (Nat.zero_le _)
    (by omega) (by omega) (by omega)
  obtain ⟨q', hq', _, _, r2, _⟩ := C92_rates_uniform lo M t [] (List.replicate lo 0 ++ [0]) [] [0] 1 g3
    (by simp [g4, hs]) (by simp [g4]) (by omega) (by omega) (by omega)
  obtain rfl : q = q' := by rw [hq] at hq'; exact Option.some.inj hq'
  have hw : (1 : ℝ) < (M : ℝ) + 1 - lo := by
    have : (lo : ℝ) < M := by exact_mod_cast hM
    linarith
  have e1 : birthRate q s 0 [0] = 1 := by
    rw [show (0 : ℕ) = ([] : List ℝ).length from rfl, r1 hmax, hsn, div_self (by linarith)]
  have e2 : deathRate q t 0 1 = 1 / ((M : ℝ) + 1 - lo) := by
    rw [show (0 : ℕ) = ([] : List ℝ).length from rfl, r2 (by omega), g2, hsn]
    congr 1
    push_cast; ring
  refine ⟨q, s, t, hq, hsn, g1, by omega, e1, e2, ?_⟩
  rw [e1, e2, div_lt_one (by linarith)]
  exact hw

/-- C92, counterexample: the exponential grow prior falls with the number of components. With births and deaths in
balance one component is more than twice as probable as none. -/
theorem C92_counterexample_exponential : ∃ (q : Prior) (s t : Dyn ℝ), growPrior 0 none = some q ∧
    s.ncomp = 0 ∧ grow s 0 [0] = some (t, true) ∧ t.ncomp = 1 ∧
    ∀ w : ℕ → ℝ, 0 < w 0 → w 0 * birthRate q s 0 [0] = w 1 * deathRate q t 0 1 → 2 * w 0 < w 1 := by
  set s : Dyn ℝ := ⟨0, 0, none, 0, 0, []⟩ with hs
  set t : Dyn ℝ := ⟨1, 0, none, 1, 1, [0]⟩ with ht
  obtain ⟨q, hq, r1, _⟩ := C92_rates_exponential 0 s [] [] [] [0] 0 rfl rfl (Nat.zero_le _) rfl
  obtain ⟨q', hq', _, r2⟩ := C92_rates_exponential 0 t [] [0] [] [0] 1 rfl rfl (by simp [ht]) rfl
  obtain rfl : q = q' := by rw [hq] at hq'; exact Option.some.inj hq'
  refine ⟨q, s, t, hq, rfl, by simp [grow, hs, ht, insertPars], rfl, fun w hw hb => ?_⟩
  have r2' := r2 (by simp [ht])
  simp only [List.length_nil] at r1 r2'
  rw [r1, r2'] at hb
  simp only [hs, ht, Nat.cast_zero, Nat.cast_one, neg_zero, zero_div, Real.exp_zero, mul_one] at hb
  have hx0 : 0 < Real.exp (-1 / 2 : ℝ) := Real.exp_pos _
  have hx1 : Real.exp (-1 / 2 : ℝ) < 1 := by rw [Real.exp_lt_one_iff]; norm_num
  have hx : 1 / 2 < Real.exp (-1 / 2 : ℝ) := by
    have := Real.add_one_lt_exp (show (-1 / 2 : ℝ) ≠ 0 by norm_num)
    linarith
  nlinarith

end BF.Growth
