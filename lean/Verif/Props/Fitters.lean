import Verif.Fitters
import Mathlib.Algebra.BigOperators.Ring.Finset
import Mathlib.Algebra.BigOperators.Group.Finset.Piecewise
import Mathlib.Algebra.Order.BigOperators.Group.Finset
import Mathlib.Algebra.BigOperators.Group.List.Lemmas
import Mathlib.Data.List.Perm.Lattice
import Mathlib.Tactic.Linarith
import Mathlib.Tactic.Ring
import Mathlib.Tactic.NormNum
import Mathlib.Tactic.FieldSimp
import Mathlib.Tactic.Positivity
import Mathlib.Data.Real.Sqrt
import Mathlib.Algebra.BigOperators.Field
import Mathlib.Tactic.IntervalCases

/-!
# C30, C31, C33: linear fitters and kept parameters
-/

namespace BF.Fitters

open Finset

variable {X : Type*}

/-- A proper dictionary of parameters to keep: distinct numbers of parameters. -/
def ProperKeep (np : ℕ) (keep : List (ℤ × ℝ)) : Prop :=
  (keep.map Prod.fst).Nodup ∧ ∀ kv ∈ keep, 0 ≤ kv.1 ∧ kv.1 < np

/-- The parameters `p` have the kept values. -/
def Agrees (keep : List (ℤ × ℝ)) (p : ℕ → ℝ) : Prop := ∀ kv ∈ keep, p kv.1.toNat = kv.2

/-- What is asked of `numpy.linalg.solve`: what it returns is a solution. -/
def SolveSpec (solve : ℕ → (ℕ → ℕ → ℝ) → (ℕ → ℝ) → Option (ℕ → ℝ)) : Prop :=
  ∀ K A v x, solve K A v = some x → ∀ a < K, ∑ b ∈ range K, A a b * x b = v a

/-- And it only returns something for a matrix that is not singular. -/
def SolveRegular (solve : ℕ → (ℕ → ℕ → ℝ) → (ℕ → ℝ) → Option (ℕ → ℝ)) : Prop :=
  ∀ K A v x, solve K A v = some x →
    ∀ z : ℕ → ℝ, (∀ a < K, ∑ b ∈ range K, A a b * z b = 0) → ∀ b < K, z b = 0

/-! ## The index of fitted parameters -/

/-- The increasing list of the parameters below `np` for which `f` holds. -/
def indexOf (np : ℕ) (f : ℕ → Bool) : List ℤ := ((List.range np).filter f).map fun k : ℕ => (k : ℤ)

theorem setxor_index (np : ℕ) (keys : List ℤ) (h : ∀ k ∈ keys, 0 ≤ k ∧ k < np) :
    setxor1d ((List.range np).map fun k : ℕ => (k : ℤ)) keys
      = indexOf np fun k => decide ((k : ℤ) ∉ keys) := by
  unfold setxor1d
  set R := (List.range np).map fun k : ℕ => (k : ℤ) with hR
  have hmem : ∀ k : ℤ, k ∈ R ↔ 0 ≤ k ∧ k < np := by
    intro k
    simp only [hR, List.mem_map, List.mem_range]
    constructor
    · rintro ⟨a, ha, rfl⟩
      omega
    · rintro ⟨h0, h1⟩
      exact ⟨k.toNat, by omega, by omega⟩
  set L := (R ++ keys).dedup.filter fun k => (decide (k ∈ R)) != (decide (k ∈ keys)) with hL
  have hnd : L.Nodup := (List.nodup_dedup _).filter _
  have hsorted : (L.mergeSort).Pairwise (· ≤ ·) := by
    have := List.pairwise_mergeSort (le := fun a b : ℤ => decide (a ≤ b))
      (fun a b c => by simp; omega) (fun a b => by simp; omega) L
    simpa using this
  have hlt : (indexOf np fun k => decide ((k : ℤ) ∉ keys)).Pairwise (· < ·) := by
    unfold indexOf
    rw [List.pairwise_map]
    exact (List.pairwise_lt_range.filter _).imp fun h => by exact_mod_cast h
  refine List.Perm.eq_of_pairwise' (r := (· ≤ ·)) hsorted (hlt.imp fun h => le_of_lt h) ?_
  refine (List.mergeSort_perm L _).trans ?_
  rw [List.perm_ext_iff_of_nodup hnd (hlt.imp fun h => ne_of_lt h)]
  intro k
  simp only [hL, List.mem_filter, List.mem_dedup, List.mem_append, indexOf, List.mem_map,
    List.mem_range]
  constructor
  · rintro ⟨h1, h2⟩
    have hk : k ∈ R := by
      rcases h1 with h1 | h1
      · exact h1
      · exact (hmem k).2 (h k h1)
    have hnk : k ∉ keys := by
      intro hk'
      simp [hk, hk'] at h2
    have := (hmem k).1 hk
    exact ⟨k.toNat, ⟨by omega, by rw [Int.toNat_of_nonneg this.1]; simpa using hnk⟩, by omega⟩
  · rintro ⟨a, ⟨ha, hk⟩, rfl⟩
    have hr : (a : ℤ) ∈ R := (hmem _).2 (by omega)
    simp only [decide_not, Bool.not_eq_true', decide_eq_false_iff_not] at hk
    exact ⟨Or.inl hr, by simp [hr, hk]⟩

theorem pyIdx_cast (np k : ℕ) : pyIdx np (k : ℤ) = k := by simp [pyIdx]

theorem index_map (np : ℕ) (f : ℕ → Bool) :
    (indexOf np f).map (pyIdx np) = (List.range np).filter f := by
  unfold indexOf
  rw [List.map_map]
  conv_rhs => rw [← List.map_id ((List.range np).filter f)]
  apply List.map_congr_left
  intro k _
  simp [pyIdx_cast]

theorem index_at (np : ℕ) (f : ℕ → Bool) (a : ℕ) :
    pyIdx np ((indexOf np f).getD a 0) = ((List.range np).filter f).getD a 0 := by
  unfold indexOf
  rw [List.getD_eq_getElem?_getD, List.getElem?_map, List.getD_eq_getElem?_getD]
  rcases ((List.range np).filter f)[a]? with _ | k
  · simp [pyIdx]
  · simp [pyIdx_cast]

/-- Inserted parameters: the fitted ones come at their own place, others are not changed. -/
theorem insert_spec (np : ℕ) (f : ℕ → Bool) (params fitpar : ℕ → ℝ) :
    (∀ (a k : ℕ), (indexOf np f)[a]? = some (k : ℤ) →
      insertParameters np params fitpar (indexOf np f) k = fitpar a) ∧
    (∀ k < np, (k : ℤ) ∉ indexOf np f →
      insertParameters np params fitpar (indexOf np f) k = params k) := by
  have hmem : ∀ k : ℕ, (k : ℤ) ∈ indexOf np f ↔ k ∈ (List.range np).filter f := by
    intro k
    simp [indexOf]
  have hget : ∀ (a k : ℕ), (indexOf np f)[a]? = some (k : ℤ) ↔ ((List.range np).filter f)[a]? = some k := by
    intro a k
    simp [indexOf, List.getElem?_map]
  unfold insertParameters
  by_cases hlen : (indexOf np f).length = np
  · have hall : (List.range np).filter f = List.range np := by
      apply List.Sublist.eq_of_length (List.filter_sublist)
      simpa [indexOf] using hlen
    simp only [if_pos hlen]
    constructor
    · intro a k h
      rw [hget, hall] at h
      obtain ⟨_, h⟩ := List.getElem?_eq_some_iff.1 h
      rw [List.getElem_range] at h
      rw [h]
    · intro k hk h
      rw [hmem, hall] at h
      simp [hk] at h
  · simp only [if_neg hlen]
    constructor
    · intro a k h
      set l := (List.range (indexOf np f).length).filter
        fun i => decide (pyIdx np ((indexOf np f).getD i 0) = k) with hl
      have hal : a < (indexOf np f).length := (List.getElem?_eq_some_iff.1 h).1
      have ha : a ∈ l := by
        simp only [hl, List.mem_filter, List.mem_range, decide_eq_true_eq]
        refine ⟨hal, ?_⟩
        rw [List.getD_eq_getElem?_getD, h]
        simp [pyIdx_cast]
      rcases hg : l.getLast? with _ | i
      · rw [List.getLast?_eq_none_iff] at hg
        rw [hg] at ha
        simp at ha
      · have hi : i ∈ l := List.mem_of_getLast? hg
        simp only [hl, List.mem_filter, List.mem_range, decide_eq_true_eq] at hi
        have hnd : ((List.range np).filter f).Nodup := List.nodup_range.filter _
        have e : i = a := by
          rw [hget] at h
          have hi2 := hi.2
          rw [index_at] at hi2
          have hil : i < ((List.range np).filter f).length := by simpa [indexOf] using hi.1
          rw [List.getD_eq_getElem?_getD, List.getElem?_eq_getElem hil, Option.getD_some] at hi2
          obtain ⟨hal', h⟩ := List.getElem?_eq_some_iff.1 h
          exact (hnd.getElem_inj_iff (hi := hil) (hj := hal')).1 (hi2.trans h.symm)
        simp only [e]
    · intro k hk h
      have : ((List.range (indexOf np f).length).filter
          fun i => decide (pyIdx np ((indexOf np f).getD i 0) = k)) = [] := by
        rw [List.filter_eq_nil_iff]
        intro i hi
        simp only [decide_eq_true_eq]
        intro hc
        rw [index_at] at hc
        apply h
        rw [hmem]
        have hil : i < ((List.range np).filter f).length := by
          simpa [indexOf] using List.mem_range.1 hi
        rw [List.getD_eq_getElem?_getD, List.getElem?_eq_getElem hil, Option.getD_some] at hc
        rw [← hc]
        exact List.getElem_mem hil
      simp only [this]
      rfl

theorem store_other (np : ℕ) (keep : List (ℤ × ℝ)) (params : ℕ → ℝ) (j : ℕ)
    (h : ∀ kv ∈ keep, pyIdx np kv.1 ≠ j) : storeKept np params keep j = params j := by
  induction keep generalizing params with
  | nil => rfl
  | cons kv l ih =>
    obtain ⟨k, v⟩ := kv
    rw [storeKept, ih _ fun kv hkv => h kv (by simp [hkv]), if_neg]
    exact fun e => h (k, v) (by simp) e.symm

theorem pyIdx_nonneg (np : ℕ) (k : ℤ) (h : 0 ≤ k) : pyIdx np k = k.toNat := by simp [pyIdx, h]

theorem store_kept (np : ℕ) (keep : List (ℤ × ℝ)) (h : ProperKeep np keep) (params : ℕ → ℝ) :
    Agrees keep (storeKept np params keep) := by
  induction keep generalizing params with
  | nil => intro kv h; simp at h
  | cons kv l ih =>
    obtain ⟨k, v⟩ := kv
    obtain ⟨hnd, hr⟩ := h
    rw [List.map_cons, List.nodup_cons] at hnd
    have hr' : ∀ kv ∈ l, 0 ≤ kv.1 ∧ kv.1 < np := fun kv hkv => hr kv (by simp [hkv])
    intro kv hkv
    rcases List.mem_cons.1 hkv with rfl | hkv
    · have h0 := hr (k, v) (by simp)
      rw [storeKept, store_other]
      · rw [pyIdx_nonneg np k h0.1]
        simp
      · intro kv' hkv' e
        have h1 := hr' kv' hkv'
        rw [pyIdx_nonneg np _ h1.1] at e
        apply hnd.1
        rw [List.mem_map]
        refine ⟨kv', hkv', ?_⟩
        have := h0.1
        have := h1.1
        simp only at *
        omega
    · exact ih ⟨hnd.2, hr'⟩ _ kv hkv

/-! ## C33 -/

/-- With kept parameters in the call of `fit`: the fit index is the increasing list of the others, the
kept parameters get their value and the others stay as they are. -/
theorem C33_index (np : ℕ) (s : Fitter) (keep : List (ℤ × ℝ)) (h : ProperKeep np keep) :
    let r := fitprolog np s (some keep)
    r.1.Pairwise (· < ·) ∧
    (∀ k : ℤ, k ∈ r.1 ↔ (0 ≤ k ∧ k < np) ∧ ∀ v, (k, v) ∉ keep) ∧
    Agrees keep r.2.params ∧
    ∀ j : ℕ, (∀ v, ((j : ℤ), v) ∉ keep) → r.2.params j = s.params j := by
  have hk : ∀ k ∈ keep.map Prod.fst, 0 ≤ k ∧ k < np := by
    intro k hk
    obtain ⟨kv, hkv, rfl⟩ := List.mem_map.1 hk
    exact h.2 kv hkv
  have e : (fitprolog np s (some keep)).1 = indexOf np fun k => decide ((k : ℤ) ∉ keep.map Prod.fst) := by
    simp only [fitprolog, keepFixed, Option.getD_some]
    exact setxor_index np _ hk
  refine ⟨?_, ?_, ?_, ?_⟩
  · rw [e, indexOf, List.pairwise_map]
    exact (List.pairwise_lt_range.filter _).imp fun h => by exact_mod_cast h
  · intro k
    rw [e]
    simp only [indexOf, List.mem_map, List.mem_filter, List.mem_range, decide_eq_true_eq, Prod.exists,
      exists_and_right, exists_eq_right, not_exists]
    constructor
    · rintro ⟨a, ⟨h1, h2⟩, rfl⟩
      exact ⟨by omega, h2⟩
    · rintro ⟨⟨h0, h1⟩, h2⟩
      refine ⟨k.toNat, ⟨by omega, ?_⟩, by omega⟩
      rw [Int.toNat_of_nonneg h0]
      exact h2
  · exact store_kept np keep h _
  · intro j hj
    apply store_other
    intro kv hkv e
    have := (h.2 kv hkv).1
    rw [pyIdx_nonneg np _ this] at e
    apply hj kv.2
    have e2 : (j : ℤ) = kv.1 := by omega
    rw [e2]
    exact hkv

/-- The same for parameters to be kept that were given to the constructor, in all later calls without
any. Here the number of fitted parameters is right too. -/
theorem C33_constructor (np : ℕ) (params : ℕ → ℝ) (keep : List (ℤ × ℝ)) (h : ProperKeep np keep) :
    let r := fitprolog np (initFitter np params (some keep)) none
    r.1 = (fitprolog np (initFitter np params none) (some keep)).1 ∧
    Agrees keep r.2.params ∧
    r.2.npfit + keep.length = np := by
  have hk : ∀ k ∈ keep.map Prod.fst, 0 ≤ k ∧ k < np := by
    intro k hk
    obtain ⟨kv, hkv, rfl⟩ := List.mem_map.1 hk
    exact h.2 kv hkv
  refine ⟨rfl, store_kept np keep h _, ?_⟩
  show (setxor1d ((List.range np).map fun k : ℕ => (k : ℤ)) (keep.map Prod.fst)).length + _ = _
  rw [setxor_index np _ hk, indexOf, List.length_map]
  have h1 : (((List.range np).filter fun k : ℕ => decide ((k : ℤ) ∉ keep.map Prod.fst)).length
      + ((List.range np).filter fun k : ℕ => !decide ((k : ℤ) ∉ keep.map Prod.fst)).length) = np := by
    rw [← List.length_eq_length_filter_add, List.length_range]
  have h2 : ((List.range np).filter fun k : ℕ => !decide ((k : ℤ) ∉ keep.map Prod.fst)).length
      = keep.length := by
    have hp : (((List.range np).filter fun k : ℕ => !decide ((k : ℤ) ∉ keep.map Prod.fst)).map
        fun k : ℕ => (k : ℤ)).Perm (keep.map Prod.fst) := by
      rw [List.perm_ext_iff_of_nodup]
      · intro k
        simp only [List.mem_map, List.mem_filter, List.mem_range]
        constructor
        · rintro ⟨a, ⟨_, h2⟩, rfl⟩
          simpa using h2
        · intro hm
          have := hk k (by simpa using hm)
          refine ⟨k.toNat, ⟨by omega, ?_⟩, by omega⟩
          rw [Int.toNat_of_nonneg this.1]
          simpa using hm
      · exact (List.nodup_range.filter _).map fun a b h => by exact_mod_cast h
      · exact h.1
    have := hp.length_eq
    simpa using this
  omega

/-- Fitted values come in order at the places of the fit index, all others are not touched. -/
theorem C33_insert (np : ℕ) (s : Fitter) (keep : List (ℤ × ℝ)) (h : ProperKeep np keep)
    (params fitpar : ℕ → ℝ) :
    let fi := (fitprolog np s (some keep)).1
    (∀ (a k : ℕ), fi[a]? = some (k : ℤ) → insertParameters np params fitpar fi k = fitpar a) ∧
    (∀ k < np, (k : ℤ) ∉ fi → insertParameters np params fitpar fi k = params k) := by
  have hk : ∀ k ∈ keep.map Prod.fst, 0 ≤ k ∧ k < np := by
    intro k hk
    obtain ⟨kv, hkv, rfl⟩ := List.mem_map.1 hk
    exact h.2 kv hkv
  have e : (fitprolog np s (some keep)).1 = indexOf np fun k => decide ((k : ℤ) ∉ keep.map Prod.fst) := by
    simp only [fitprolog, keepFixed, Option.getD_some]
    exact setxor_index np _ hk
  simp only [e]
  exact insert_spec np _ params fitpar

/-- With parameters kept in the call, the number of fitted parameters is set to the number of kept
ones. -/
theorem C33_counterexample_number (np : ℕ) (s : Fitter) (keep : List (ℤ × ℝ)) :
    (fitprolog np s (some keep)).2.npfit = keep.length := rfl

/-- Of three parameters one is kept: two are fitted, but the number reported is one. -/
theorem C33_counterexample : ∃ s keep, ProperKeep 3 keep ∧
    (fitprolog 3 s (some keep)).2.npfit = 1 ∧ (fitprolog 3 s (some keep)).1 = [0, 2] := by
  refine ⟨initFitter 3 (fun _ => 0) none, [(1, 5)], ⟨by simp, by simp⟩, rfl, ?_⟩
  have : (fitprolog 3 (initFitter 3 (fun _ => 0) none) (some [(1, 5)])).1
      = setxor1d ((List.range 3).map fun k : ℕ => (k : ℤ)) [1] := rfl
  rw [this, setxor_index 3 [1] (by simp)]
  decide

/-- A negative number is accepted as key, and its value is given to the parameter counted from the end, but then that
parameter is fitted nevertheless. -/
theorem C33_counterexample_negative : ∃ (s : Fitter) (keep : List (ℤ × ℝ)),
    (-1, 5) ∈ keep ∧ (fitprolog 3 s (some keep)).2.params 2 = 5 ∧ s.params 2 ≠ 5 ∧
    (2 : ℤ) ∈ (fitprolog 3 s (some keep)).1 := by
  refine ⟨initFitter 3 (fun _ => 0) none, [(-1, 5)], by simp, ?_, by simp [initFitter, keepFixed], ?_⟩
  · simp [fitprolog, keepFixed, initFitter, storeKept, pyIdx]
  have : (fitprolog 3 (initFitter 3 (fun _ => 0) none) (some [(-1, 5)])).1
      = setxor1d ((List.range 3).map fun k : ℕ => (k : ℤ)) [-1] := rfl
  rw [this]
  unfold setxor1d
  rw [(List.mergeSort_perm _ _).mem_iff]
  decide

example : ProperKeep 4 [(2, 1), (0, -3)] := ⟨by simp, by simp⟩

/-! ## The normal equations -/

theorem normal_square (n K : ℕ) (D : ℕ → ℕ → ℝ) (w e δ : ℕ → ℝ)
    (hn : ∀ a < K, ∑ i ∈ range n, D i a * (w i * e i) = 0) :
    ∑ i ∈ range n, (e i - ∑ a ∈ range K, δ a * D i a) ^ 2 * w i
      = ∑ i ∈ range n, e i ^ 2 * w i + ∑ i ∈ range n, (∑ a ∈ range K, δ a * D i a) ^ 2 * w i := by
  have hz : ∑ i ∈ range n, w i * e i * ∑ a ∈ range K, δ a * D i a = 0 := by
    simp only [mul_sum]
    rw [sum_comm]
    apply sum_eq_zero
    intro a ha
    have := hn a (mem_range.1 ha)
    calc ∑ i ∈ range n, w i * e i * (δ a * D i a)
        = δ a * ∑ i ∈ range n, D i a * (w i * e i) := by
          rw [mul_sum]
          exact sum_congr rfl fun i _ => by ring
      _ = 0 := by rw [this, mul_zero]
  have : ∀ i, (e i - ∑ a ∈ range K, δ a * D i a) ^ 2 * w i
      = (e i ^ 2 * w i + (∑ a ∈ range K, δ a * D i a) ^ 2 * w i)
        - 2 * (w i * e i * ∑ a ∈ range K, δ a * D i a) := fun i => by ring
  simp only [this]
  rw [sum_sub_distrib, sum_add_distrib, ← mul_sum, hz]
  ring

theorem normal_min (n K : ℕ) (D : ℕ → ℕ → ℝ) (w e δ : ℕ → ℝ) (hw : ∀ i < n, 0 ≤ w i)
    (hn : ∀ a < K, ∑ i ∈ range n, D i a * (w i * e i) = 0) :
    ∑ i ∈ range n, e i ^ 2 * w i ≤ ∑ i ∈ range n, (e i - ∑ a ∈ range K, δ a * D i a) ^ 2 * w i := by
  rw [normal_square n K D w e δ hn]
  have : 0 ≤ ∑ i ∈ range n, (∑ a ∈ range K, δ a * D i a) ^ 2 * w i :=
    sum_nonneg fun i hi => mul_nonneg (sq_nonneg _) (hw i (mem_range.1 hi))
  linarith

theorem sum_index (np : ℕ) (f : ℕ → Bool) (h : ℕ → ℝ) :
    ∑ k ∈ range np, (if f k then h k else 0)
      = ∑ a ∈ range ((List.range np).filter f).length, h (((List.range np).filter f).getD a 0) := by
  set F := (List.range np).filter f with hF
  have hnd : F.Nodup := List.nodup_range.filter _
  have h1 : ∑ a ∈ range F.length, h (F.getD a 0) = (F.map h).sum := by
    have e : range F.length = (List.range F.length).toFinset := by
      ext k
      simp
    rw [e, List.sum_toFinset _ List.nodup_range]
    congr 1
    apply List.ext_getElem
    · simp
    · intro i h1 h2
      have hi : i < F.length := by simpa using h2
      simp [List.getD_eq_getElem?_getD, hi]
  rw [h1, ← List.sum_toFinset h hnd, ← sum_filter]
  congr 1
  ext k
  simp [hF]

theorem index_length (np : ℕ) (f : ℕ → Bool) :
    (indexOf np f).length = ((List.range np).filter f).length := by simp [indexOf]

theorem mem_zeroed (np : ℕ) (f : ℕ → Bool) (params : ℕ → ℝ) (k : ℕ) (hk : k < np) :
    zeroed np params (indexOf np f) k = if f k then 0 else params k := by
  unfold zeroed
  rw [index_map]
  simp [hk]

/-- Two parameter vectors that differ only in fitted parameters. -/
theorem result_diff (m : Lin X) (f : ℕ → Bool) (params q : ℕ → ℝ) (x : X)
    (hq : ∀ k < m.np, f k = false → q k = params k) :
    m.result x q = m.result x (zeroed m.np params (indexOf m.np f))
      + ∑ a ∈ range (indexOf m.np f).length,
          q (((List.range m.np).filter f).getD a 0) * m.part x (((List.range m.np).filter f).getD a 0) := by
  rw [index_length, ← sum_index m.np f fun k => q k * m.part x k]
  unfold Lin.result
  rw [add_assoc, ← sum_add_distrib]
  congr 1
  apply sum_congr rfl
  intro k hk
  have hk := mem_range.1 hk
  rw [mem_zeroed m.np f params k hk]
  rcases hf : f k with _ | _
  · simp [hq k hk hf]
  · simp

theorem filter_at (np : ℕ) (f : ℕ → Bool) (a : ℕ) (ha : a < (indexOf np f).length) :
    (indexOf np f)[a]? = some ((((List.range np).filter f).getD a 0 : ℕ) : ℤ) := by
  have ha' : a < ((List.range np).filter f).length := by simpa [indexOf] using ha
  simp [indexOf, List.getElem?_map, List.getD_eq_getElem?_getD, List.getElem?_eq_getElem ha']

/-- The heart of the matter: the normal equations hold for the residuals of the returned parameters. -/
theorem fit_normal (m : Lin X) (d : Data X) (s : Fitter) (f : ℕ → Bool)
    (x : ℕ → ℝ) (hfree : s.nnorm = 0 ∨ ∀ k < m.np, f k = true)
    (hx : ∀ a < (indexOf m.np f).length, ∑ b ∈ range (indexOf m.np f).length,
        getHessian m d s (indexOf m.np f) a b * x b
      = getVector m d s (indexOf m.np f) (fun i =>
          if i < d.n then (d.y i - m.result (d.x i) (zeroed m.np s.params (indexOf m.np f))) * d.fitWgts i
          else s.normdata (i - d.n) * s.normweight (i - d.n)) a)
    (q : ℕ → ℝ) (hq : ∀ k < m.np, f k = false → q k = s.params k) :
    let p := insertParameters m.np s.params x (indexOf m.np f)
    let e := fun i => if i < d.n then d.y i - m.result (d.x i) p
      else s.normdata (i - d.n) - ∑ k ∈ range m.np, p k * s.normdfdp (i - d.n) k
    let δ := fun a => q (((List.range m.np).filter f).getD a 0) - x a
    (∀ a < (indexOf m.np f).length, ∑ i ∈ range (d.n + s.nnorm),
      getDesign m d s (indexOf m.np f) i a * (allWgts d s i * e i) = 0) ∧
    (∀ i < d.n, d.y i - m.result (d.x i) q
      = e i - ∑ a ∈ range (indexOf m.np f).length, δ a * getDesign m d s (indexOf m.np f) i a) ∧
    (∀ i, d.n ≤ i → i < d.n + s.nnorm →
      s.normdata (i - d.n) - ∑ k ∈ range m.np, q k * s.normdfdp (i - d.n) k
      = e i - ∑ a ∈ range (indexOf m.np f).length, δ a * getDesign m d s (indexOf m.np f) i a) := by
  intro p e δ
  set fi := indexOf m.np f with hfi
  set F := (List.range m.np).filter f with hF
  obtain ⟨hins, hkept⟩ := insert_spec m.np f s.params x
  have hpF : ∀ a < fi.length, p (F.getD a 0) = x a := fun a ha => hins a _ (filter_at m.np f a ha)
  have hpk : ∀ k < m.np, f k = false → p k = s.params k := by
    intro k hk hf
    apply hkept k hk
    simp [indexOf, hf]
  have hD1 : ∀ i a, i < d.n → getDesign m d s fi i a = m.part (d.x i) (F.getD a 0) := by
    intro i a hi
    simp only [getDesign, if_pos hi, hfi, index_at, hF]
  have hD2 : ∀ i a, ¬ i < d.n → getDesign m d s fi i a = s.normdfdp (i - d.n) (F.getD a 0) := by
    intro i a hi
    simp only [getDesign, if_neg hi, hfi, index_at, hF]
  have hresp : ∀ i, i < d.n → m.result (d.x i) p
      = m.result (d.x i) (zeroed m.np s.params fi) + ∑ a ∈ range fi.length, x a * getDesign m d s fi i a := by
    intro i hi
    rw [result_diff m f s.params p (d.x i) hpk]
    congr 1
    apply sum_congr rfl
    intro a ha
    rw [hpF a (mem_range.1 ha), hD1 i a hi]
  have hresq : ∀ i, i < d.n → m.result (d.x i) q
      = m.result (d.x i) (zeroed m.np s.params fi)
        + ∑ a ∈ range fi.length, q (F.getD a 0) * getDesign m d s fi i a := by
    intro i hi
    rw [result_diff m f s.params q (d.x i) hq]
    congr 1
    apply sum_congr rfl
    intro a ha
    rw [hD1 i a hi]
  have hall : ∀ i, d.n ≤ i → i < d.n + s.nnorm → ∀ z : ℕ → ℝ,
      ∑ k ∈ range m.np, z k * s.normdfdp (i - d.n) k
        = ∑ a ∈ range fi.length, z (F.getD a 0) * getDesign m d s fi i a := by
    intro i h1 h2 z
    rcases hfree with h0 | hf
    · omega
    · simp only [hD2 i _ (not_lt.2 h1)]
      rw [hfi, index_length, ← sum_index m.np f fun k => z k * s.normdfdp (i - d.n) k]
      apply sum_congr rfl
      intro k hk
      rw [if_pos (hf k (mem_range.1 hk))]
  refine ⟨?_, ?_, ?_⟩
  · intro a ha
    have h := hx a ha
    simp only [getHessian, getVector] at h
    have h1 : ∑ b ∈ range fi.length, (∑ i ∈ range (d.n + s.nnorm), getDesign m d s fi i a *
        (getDesign m d s fi i b * allWgts d s i)) * x b
        = ∑ i ∈ range (d.n + s.nnorm), getDesign m d s fi i a * (allWgts d s i *
          ∑ b ∈ range fi.length, x b * getDesign m d s fi i b) := by
      simp only [sum_mul, mul_sum]
      rw [sum_comm]
      apply sum_congr rfl
      intro i _
      apply sum_congr rfl
      intro b _
      ring
    rw [h1] at h
    rw [← sub_eq_zero, ← sum_sub_distrib] at h
    rw [← neg_eq_zero, ← sum_neg_distrib, ← h]
    apply sum_congr rfl
    intro i hi
    have hi := mem_range.1 hi
    by_cases hlt : i < d.n
    · simp only [e, if_pos hlt, hresp i hlt, allWgts]
      ring
    · have : ∑ k ∈ range m.np, p k * s.normdfdp (i - d.n) k
          = ∑ b ∈ range fi.length, x b * getDesign m d s fi i b := by
        rw [hall i (not_lt.1 hlt) hi p]
        apply sum_congr rfl
        intro b hb
        rw [hpF b (mem_range.1 hb)]
      simp only [e, if_neg hlt, this, allWgts]
      ring
  · intro i hi
    simp only [e, if_pos hi, hresp i hi, hresq i hi, δ, sub_mul, sum_sub_distrib]
    ring
  · intro i h1 h2
    have hlt := not_lt.2 h1
    simp only [e, if_neg hlt, hall i h1 h2, δ, sub_mul, sum_sub_distrib]
    have : ∑ b ∈ range fi.length, p (F.getD b 0) * getDesign m d s fi i b
        = ∑ b ∈ range fi.length, x b * getDesign m d s fi i b :=
      sum_congr rfl fun b hb => by rw [hpF b (mem_range.1 hb)]
    rw [this]
    ring

/-- The weights are not negative. -/
def Data.Good (d : Data X) : Prop := ∀ w, d.weights = some w → ∀ i < d.n, 0 ≤ w i

theorem wgts_nonneg (d : Data X) (h : d.Good) (i : ℕ) (hi : i < d.n) : 0 ≤ d.fitWgts i := by
  unfold Data.fitWgts
  rcases hw : d.weights with _ | w <;> rcases d.accuracy with _ | a <;> simp only []
  · norm_num
  · exact div_nonneg (by norm_num) (mul_self_nonneg _)
  · simpa using h w hw i hi
  · exact div_nonneg (by simpa using h w hw i hi) (mul_self_nonneg _)

/-- Chi squared including the extra measurements of `normalize`. -/
noncomputable def chiTotal (m : Lin X) (d : Data X) (s : Fitter) (p : ℕ → ℝ) : ℝ :=
  chiSquared m d p + ∑ i ∈ range s.nnorm,
    (s.normdata i - ∑ k ∈ range m.np, p k * s.normdfdp i k) ^ 2 * s.normweight i

theorem chiTotal_eq (m : Lin X) (d : Data X) (s : Fitter) (p : ℕ → ℝ) :
    chiTotal m d s p = ∑ i ∈ range (d.n + s.nnorm),
      (if i < d.n then d.y i - m.result (d.x i) p
        else s.normdata (i - d.n) - ∑ k ∈ range m.np, p k * s.normdfdp (i - d.n) k) ^ 2
      * allWgts d s i := by
  rw [sum_range_add, chiTotal, chiSquared]
  congr 1
  · apply sum_congr rfl
    intro i hi
    simp [mem_range.1 hi, allWgts]
  · apply sum_congr rfl
    intro i _
    simp [allWgts]

theorem core_min (m : Lin X) (d : Data X) (hd : d.Good) (s : Fitter) (f : ℕ → Bool)
    (x : ℕ → ℝ) (hfree : s.nnorm = 0 ∨ ∀ k < m.np, f k = true) (hnw : ∀ i < s.nnorm, 0 ≤ s.normweight i)
    (hx : ∀ a < (indexOf m.np f).length, ∑ b ∈ range (indexOf m.np f).length,
        getHessian m d s (indexOf m.np f) a b * x b
      = getVector m d s (indexOf m.np f) (fun i =>
          if i < d.n then (d.y i - m.result (d.x i) (zeroed m.np s.params (indexOf m.np f))) * d.fitWgts i
          else s.normdata (i - d.n) * s.normweight (i - d.n)) a)
    (q : ℕ → ℝ) (hq : ∀ k < m.np, f k = false → q k = s.params k) :
    chiTotal m d s (insertParameters m.np s.params x (indexOf m.np f)) ≤ chiTotal m d s q := by
  obtain ⟨h1, h2, h3⟩ := fit_normal m d s f x hfree hx q hq
  rw [chiTotal_eq, chiTotal_eq]
  refine le_trans (normal_min (d.n + s.nnorm) _ (getDesign m d s (indexOf m.np f)) (allWgts d s) _
    (fun a => q (((List.range m.np).filter f).getD a 0) - x a) ?_ h1) (le_of_eq ?_)
  · intro i hi
    unfold allWgts
    split_ifs with h
    · exact wgts_nonneg d hd i h
    · exact hnw _ (by omega)
  · apply sum_congr rfl
    intro i hi
    have hi := mem_range.1 hi
    congr 2
    by_cases hlt : i < d.n
    · rw [← h2 i hlt, if_pos hlt]
    · rw [← h3 i (not_lt.1 hlt) hi, if_neg hlt]

/-! ## C30 -/

theorem prolog_keep (np : ℕ) (s : Fitter) (keep : List (ℤ × ℝ)) (h : ProperKeep np keep) :
    fitprolog np s (some keep) = (indexOf np fun k => decide ((k : ℤ) ∉ keep.map Prod.fst),
      { s with
        npfit := keep.length
        params := storeKept np s.params keep }) := by
  have hk : ∀ k ∈ keep.map Prod.fst, 0 ≤ k ∧ k < np := by
    intro k hk
    obtain ⟨kv, hkv, rfl⟩ := List.mem_map.1 hk
    exact h.2 kv hkv
  simp only [fitprolog, keepFixed, Option.getD_some, setxor_index np _ hk]

theorem agree_of (np : ℕ) (keep : List (ℤ × ℝ)) (h : ProperKeep np keep) (p q : ℕ → ℝ)
    (hp : Agrees keep p) (hq : Agrees keep q) (k : ℕ)
    (hf : decide ((k : ℤ) ∉ keep.map Prod.fst) = false) : q k = p k := by
  simp only [decide_eq_false_iff_not, not_not, List.mem_map] at hf
  obtain ⟨kv, hkv, e⟩ := hf
  have h1 := hp kv hkv
  have h2 := hq kv hkv
  have : kv.1.toNat = k := by omega
  rw [this] at h1 h2
  rw [h1, h2]

theorem chiTotal_zero (m : Lin X) (d : Data X) (s : Fitter) (h : s.nnorm = 0) (p : ℕ → ℝ) :
    chiTotal m d s p = chiSquared m d p := by
  simp [chiTotal, h]

/-- With parameters kept in the call of `fit`. -/
theorem C30_kept (solve : ℕ → (ℕ → ℕ → ℝ) → (ℕ → ℝ) → Option (ℕ → ℝ)) (hsolve : SolveSpec solve)
    (m : Lin X) (d : Data X) (hd : d.Good) (s s' : Fitter) (hn : s.nnorm = 0)
    (keep : List (ℤ × ℝ)) (hk : ProperKeep m.np keep) (h : fit solve m d s (some keep) = some s') :
    Agrees keep s'.params ∧
    ∀ q, Agrees keep q → chiSquared m d s'.params ≤ chiSquared m d q := by
  unfold fit at h
  rw [prolog_keep m.np s keep hk] at h
  simp only [Option.map_eq_some_iff] at h
  obtain ⟨x, hx, rfl⟩ := h
  set f : ℕ → Bool := fun k => decide ((k : ℤ) ∉ keep.map Prod.fst) with hf
  set s1 : Fitter := { s with
    npfit := keep.length
    params := storeKept m.np s.params keep } with hs1
  have hst := store_kept m.np keep hk s.params
  constructor
  · intro kv hkv
    have hr := hk.2 kv hkv
    have : kv.1.toNat < m.np := by omega
    show insertParameters m.np s1.params x (indexOf m.np f) kv.1.toNat = kv.2
    rw [(insert_spec m.np f s1.params x).2 kv.1.toNat this ?_]
    · exact hst kv hkv
    · simp only [indexOf, List.mem_map, List.mem_filter, not_exists, not_and]
      rintro a ⟨_, ha⟩ e
      have : (a : ℤ) = kv.1 := by omega
      simp only [hf, decide_eq_true_eq] at ha
      rw [this] at ha
      exact ha (List.mem_map_of_mem hkv)
  · intro q hq
    have := core_min m d hd s1 f x (Or.inl hn) (by simp [hs1, hn]) (hsolve _ _ _ _ hx) q
      (fun k _ hfk => agree_of m.np keep hk _ _ hst hq k hfk)
    rwa [chiTotal_zero m d s1 hn, chiTotal_zero m d s1 hn] at this

theorem index_all (np : ℕ) : (List.range np).map (fun k : ℕ => (k : ℤ)) = indexOf np fun _ => true := by
  simp [indexOf]

/-- Without kept parameters; with any number of extra measurements through `normalize`, which have
non-negative weights: then the minimum is of chi squared plus the weighted squares of those. -/
theorem C30_all (solve : ℕ → (ℕ → ℕ → ℝ) → (ℕ → ℝ) → Option (ℕ → ℝ)) (hsolve : SolveSpec solve)
    (m : Lin X) (d : Data X) (hd : d.Good) (s s' : Fitter) (hi : s.fitIndex = none)
    (hnw : ∀ i < s.nnorm, 0 ≤ s.normweight i) (h : fit solve m d s none = some s') :
    ∀ q, chiTotal m d s s'.params ≤ chiTotal m d s q := by
  unfold fit at h
  simp only [fitprolog, hi, index_all, Option.map_eq_some_iff] at h
  obtain ⟨x, hx, rfl⟩ := h
  intro q
  exact core_min m d hd { s with npfit := m.np } (fun _ => true) x (Or.inr fun _ _ => rfl) hnw
    (hsolve _ _ _ _ hx) q (by simp)

theorem chiTotal_normalize (m : Lin X) (d : Data X) (s : Fitter) (dfdp : ℕ → ℝ) (data weight : ℝ)
    (p : ℕ → ℝ) : chiTotal m d (normalize s dfdp data weight) p
      = chiTotal m d s p + (data - ∑ k ∈ range m.np, p k * dfdp k) ^ 2 * weight := by
  unfold chiTotal normalize
  simp only
  rw [sum_range_succ, add_assoc]
  congr 2
  · apply sum_congr rfl
    intro i hi
    have : i ≠ s.nnorm := (mem_range.1 hi).ne
    simp [this]
  · simp

theorem normalize_list (m : Lin X) (d : Data X) (l : List ((ℕ → ℝ) × ℝ × ℝ)) (s : Fitter)
    (hs : ∀ i < s.nnorm, 0 ≤ s.normweight i) (hl : ∀ e ∈ l, 0 ≤ e.2.2) :
    let s' := l.foldl (fun s e => normalize s e.1 e.2.1 e.2.2) s
    s'.fitIndex = s.fitIndex ∧ (∀ i < s'.nnorm, 0 ≤ s'.normweight i) ∧ ∀ p, chiTotal m d s' p
      = chiTotal m d s p
        + (l.map fun e => (e.2.1 - ∑ k ∈ range m.np, p k * e.1 k) ^ 2 * e.2.2).sum := by
  induction l generalizing s with
  | nil => exact ⟨rfl, hs, by simp⟩
  | cons e l ih =>
    have hw : ∀ i < (normalize s e.1 e.2.1 e.2.2).nnorm, 0 ≤ (normalize s e.1 e.2.1 e.2.2).normweight i := by
      intro i hi
      simp only [normalize] at hi ⊢
      by_cases h : i = s.nnorm
      · rw [if_pos h]; exact hl e (by simp)
      · rw [if_neg h]; exact hs i (by omega)
    obtain ⟨h1, h2, h3⟩ := ih (normalize s e.1 e.2.1 e.2.2) hw fun e' he' => hl e' (by simp [he'])
    simp only [List.foldl_cons]
    refine ⟨h1, h2, fun p => ?_⟩
    rw [h3 p, chiTotal_normalize, List.map_cons, List.sum_cons, add_assoc]

/-- C30: each call of `normalize` is one more measurement, of a linear combination of the parameters: the
fit is the least squares solution for the data and these measurements, each with its own weight. -/
theorem C30_normalize (solve : ℕ → (ℕ → ℕ → ℝ) → (ℕ → ℝ) → Option (ℕ → ℝ)) (hsolve : SolveSpec solve)
    (m : Lin X) (d : Data X) (hd : d.Good) (p0 : ℕ → ℝ) (l : List ((ℕ → ℝ) × ℝ × ℝ))
    (hl : ∀ e ∈ l, 0 ≤ e.2.2) (s' : Fitter)
    (h : fit solve m d (l.foldl (fun s e => normalize s e.1 e.2.1 e.2.2) (initFitter m.np p0 none)) none
      = some s') (q : ℕ → ℝ) :
    chiSquared m d s'.params
        + (l.map fun e => (e.2.1 - ∑ k ∈ range m.np, s'.params k * e.1 k) ^ 2 * e.2.2).sum
      ≤ chiSquared m d q + (l.map fun e => (e.2.1 - ∑ k ∈ range m.np, q k * e.1 k) ^ 2 * e.2.2).sum := by
  obtain ⟨h1, h2, h3⟩ := normalize_list m d l (initFitter m.np p0 none)
    (by simp [initFitter, keepFixed]) hl
  have h4 := C30_all solve hsolve m d hd _ s' (by rw [h1]; rfl) h2 h q
  rw [h3, h3] at h4
  have h5 : ∀ p, chiTotal m d (initFitter m.np p0 none) p = chiSquared m d p := by
    intro p; simp [chiTotal, initFitter, keepFixed]
  rw [h5, h5] at h4
  exact h4

/-- With parameters to be kept given to the constructor. -/
theorem C30_constructor (solve : ℕ → (ℕ → ℕ → ℝ) → (ℕ → ℝ) → Option (ℕ → ℝ))
    (hsolve : SolveSpec solve) (m : Lin X) (d : Data X) (hd : d.Good) (params : ℕ → ℝ)
    (s' : Fitter) (keep : List (ℤ × ℝ)) (hk : ProperKeep m.np keep)
    (h : fit solve m d (initFitter m.np params (some keep)) none = some s') :
    Agrees keep s'.params ∧
    ∀ q, Agrees keep q → chiSquared m d s'.params ≤ chiSquared m d q := by
  have h2 : (fit solve m d (initFitter m.np params none) (some keep)).map (·.params)
      = some s'.params := by
    have e : (fit solve m d (initFitter m.np params none) (some keep)).map (·.params)
        = (fit solve m d (initFitter m.np params (some keep)) none).map (·.params) := by
      unfold fit
      rw [Option.map_map, Option.map_map]
      rfl
    rw [e, h]
    rfl
  obtain ⟨s2, hs2, e⟩ := Option.map_eq_some_iff.1 h2
  have := C30_kept solve hsolve m d hd _ s2 rfl keep hk hs2
  rwa [e] at this

/-- The minimum is unique, when the matrix was not singular. -/
theorem C30_unique (solve : ℕ → (ℕ → ℕ → ℝ) → (ℕ → ℝ) → Option (ℕ → ℝ)) (hsolve : SolveSpec solve)
    (hreg : SolveRegular solve) (m : Lin X) (d : Data X) (hd : d.Good) (s s' : Fitter)
    (hn : s.nnorm = 0) (keep : List (ℤ × ℝ)) (hk : ProperKeep m.np keep)
    (h : fit solve m d s (some keep) = some s') (q : ℕ → ℝ) (hq : Agrees keep q)
    (hmin : chiSquared m d q = chiSquared m d s'.params) : ∀ k < m.np, q k = s'.params k := by
  unfold fit at h
  rw [prolog_keep m.np s keep hk] at h
  simp only [Option.map_eq_some_iff] at h
  obtain ⟨x, hx, rfl⟩ := h
  set f : ℕ → Bool := fun k => decide ((k : ℤ) ∉ keep.map Prod.fst) with hf
  set s1 : Fitter := { s with
    npfit := keep.length
    params := storeKept m.np s.params keep } with hs1
  have hst := store_kept m.np keep hk s.params
  have hagree : ∀ k < m.np, f k = false → q k = s1.params k :=
    fun k _ hfk => agree_of m.np keep hk _ _ hst hq k hfk
  obtain ⟨h1, h2, h3⟩ := fit_normal m d s1 f x (Or.inl hn) (hsolve _ _ _ _ hx) q hagree
  set δ := fun a => q (((List.range m.np).filter f).getD a 0) - x a with hδ
  set fi := indexOf m.np f with hfi
  have hmin' : chiTotal m d s1 q = chiTotal m d s1 (insertParameters m.np s1.params x fi) := by
    rw [chiTotal_zero m d s1 hn, chiTotal_zero m d s1 hn]
    exact hmin
  have hsq := normal_square (d.n + s1.nnorm) _ (getDesign m d s1 fi) (allWgts d s1) _ δ h1
  have hnn : ∀ i ∈ range (d.n + s1.nnorm), 0 ≤ allWgts d s1 i := by
    intro i hi
    have hi := mem_range.1 hi
    have : i < d.n := by
      have : s1.nnorm = 0 := hn
      omega
    simp only [allWgts, if_pos this]
    exact wgts_nonneg d hd i this
  have hzero : ∑ i ∈ range (d.n + s1.nnorm), (∑ a ∈ range fi.length, δ a * getDesign m d s1 fi i a) ^ 2
      * allWgts d s1 i = 0 := by
    rw [chiTotal_eq, chiTotal_eq] at hmin'
    have e : ∑ i ∈ range (d.n + s1.nnorm), (if i < d.n then d.y i - m.result (d.x i) q
        else s1.normdata (i - d.n) - ∑ k ∈ range m.np, q k * s1.normdfdp (i - d.n) k) ^ 2
        * allWgts d s1 i
        = ∑ i ∈ range (d.n + s1.nnorm), ((if i < d.n then d.y i - m.result (d.x i)
            (insertParameters m.np s1.params x fi)
        else s1.normdata (i - d.n) - ∑ k ∈ range m.np,
          insertParameters m.np s1.params x fi k * s1.normdfdp (i - d.n) k)
        - ∑ a ∈ range fi.length, δ a * getDesign m d s1 fi i a) ^ 2 * allWgts d s1 i := by
      apply sum_congr rfl
      intro i hi
      have hi := mem_range.1 hi
      congr 2
      by_cases hlt : i < d.n
      · rw [← h2 i hlt, if_pos hlt]
      · rw [← h3 i (not_lt.1 hlt) hi, if_neg hlt]
    rw [e, hsq] at hmin'
    linarith
  have hterm : ∀ i ∈ range (d.n + s1.nnorm),
      (∑ a ∈ range fi.length, δ a * getDesign m d s1 fi i a) * allWgts d s1 i = 0 := by
    intro i hi
    have := (sum_eq_zero_iff_of_nonneg
      (fun i hi => mul_nonneg (sq_nonneg _) (hnn i hi))).1 hzero i hi
    rcases mul_eq_zero.1 this with h | h
    · rw [pow_eq_zero_iff two_ne_zero] at h
      rw [h, zero_mul]
    · rw [h, mul_zero]
  have hδ0 : ∀ b < fi.length, δ b = 0 := by
    apply hreg _ _ _ _ hx
    intro a _
    simp only [getHessian, sum_mul]
    rw [sum_comm]
    apply sum_eq_zero
    intro i hi
    have := hterm i hi
    calc ∑ b ∈ range fi.length, getDesign m d s1 fi i a * (getDesign m d s1 fi i b * allWgts d s1 i) * δ b
        = getDesign m d s1 fi i a * ((∑ b ∈ range fi.length, δ b * getDesign m d s1 fi i b)
            * allWgts d s1 i) := by
          rw [sum_mul, mul_sum]
          exact sum_congr rfl fun b _ => by ring
      _ = 0 := by rw [this, mul_zero]
  intro k hkn
  show q k = insertParameters m.np s1.params x fi k
  rcases hfk : f k with _ | _
  · rw [hagree k hkn hfk, (insert_spec m.np f s1.params x).2 k hkn]
    simp [indexOf, hfk]
  · have hmem : k ∈ (List.range m.np).filter f := by simp [hkn, hfk]
    obtain ⟨a, ha, e⟩ := List.getElem_of_mem hmem
    have hget : ((List.range m.np).filter f).getD a 0 = k := by
      rw [List.getD_eq_getElem?_getD, List.getElem?_eq_getElem ha, e]
      rfl
    have hal : a < fi.length := by rw [hfi, index_length]; exact ha
    have h0 := hδ0 a hal
    simp only [hδ, hget] at h0
    have hins := (insert_spec m.np f s1.params x).1 a k (by
      rw [filter_at m.np f a hal, hget])
    rw [hins]
    linarith

/-! ### A linear solver for one unknown, for the examples -/

/-- Solves one equation with one unknown. -/
noncomputable def solveOne (K : ℕ) (A : ℕ → ℕ → ℝ) (v : ℕ → ℝ) : Option (ℕ → ℝ) :=
  if K = 1 ∧ A 0 0 ≠ 0 then some fun _ => v 0 / A 0 0 else none

theorem solveOne_spec : SolveSpec solveOne := by
  intro K A v x h a ha
  unfold solveOne at h
  split_ifs at h with hc
  obtain ⟨rfl, h0⟩ := hc
  obtain rfl := Option.some.inj h
  have : a = 0 := by omega
  subst this
  simp only [sum_range_one]
  field_simp

theorem solveOne_regular : SolveRegular solveOne := by
  intro K A v x h z hz b hb
  unfold solveOne at h
  split_ifs at h with hc
  obtain ⟨rfl, h0⟩ := hc
  have : b = 0 := by omega
  subst this
  have := hz 0 (by omega)
  simp only [sum_range_one, mul_eq_zero] at this
  exact this.resolve_left h0

/-- A straight line. -/
def line : Lin ℝ := ⟨2, fun _ => 0, fun x k => x ^ k⟩

theorem line_index (s : Fitter) (v : ℝ) : (fitprolog 2 s (some [(0, v)])).1 = [1] := by
  rw [prolog_keep 2 s [(0, v)] ⟨by simp, by simp⟩]
  simp only [indexOf, List.map_cons, List.map_nil]
  decide

/-- The theorems are about fits that can be done: a line through three points with its offset kept. -/
example : ∃ s', fit solveOne line ⟨3, fun i => i, fun i => i ^ 2, none, none⟩
    (initFitter 2 (fun _ => 0) none) (some [(0, 1)]) = some s' := by
  unfold fit
  have e : fitprolog line.np (initFitter 2 (fun _ => 0) none) (some [(0, 1)])
      = ([1], (fitprolog 2 (initFitter 2 (fun _ => 0) none) (some [(0, 1)])).2) := by
    rw [← line_index (initFitter 2 (fun _ => 0) none) 1]
    rfl
  rw [e]
  simp only [List.length_singleton, solveOne]
  rw [if_pos]
  · exact ⟨_, rfl⟩
  · refine ⟨by trivial, ?_⟩
    have hn : (fitprolog 2 (initFitter 2 (fun _ => 0) none) (some [(0, 1)])).2.nnorm = 0 := rfl
    simp only [getHessian, hn, getDesign, allWgts, Data.fitWgts, line, sum_range_succ, sum_range_zero]
    norm_num [pyIdx]

/-- With both kept parameters and an extra measurement the minimum is not found: the extra measurement
is not corrected for the kept parameters. -/
theorem C30_counterexample_normalize : ∃ (d : Data ℝ) (s s' : Fitter) (q : ℕ → ℝ),
    d.Good ∧ (∀ i < s.nnorm, 0 ≤ s.normweight i) ∧ fit solveOne line d s (some [(0, 1)]) = some s' ∧
    Agrees [(0, 1)] q ∧ chiTotal line d s q < chiTotal line d s s'.params := by
  have hn : fitprolog line.np (normalize (initFitter 2 (fun _ => 0) none) (fun _ => 1) 1 1)
      (some [(0, 1)]) = ([1], { normalize (initFitter 2 (fun _ => 0) none) (fun _ => 1) 1 1 with
          npfit := 1
          params := storeKept 2 (fun _ => 0) [(0, 1)] }) := by
    rw [← line_index (normalize (initFitter 2 (fun _ => 0) none) (fun _ => 1) 1 1) 1]
    rfl
  have hi : ∀ (p x : ℕ → ℝ), insertParameters line.np p x [1] = fun j => if j = 1 then x 0 else p j := by
    intro p x
    funext j
    unfold insertParameters
    rw [if_neg (show ¬ [(1 : ℤ)].length = line.np by decide)]
    by_cases h : j = 1
    · subst h
      simp [pyIdx]
    · have h' : ¬ 1 = j := fun e => h e.symm
      simp [pyIdx, h, h', List.range_succ]
  have hfit : ∃ s', fit solveOne line ⟨1, fun _ => 1, fun _ => 0, none, none⟩
      (normalize (initFitter 2 (fun _ => 0) none) (fun _ => 1) 1 1) (some [(0, 1)]) = some s' ∧
      s'.params 0 = 1 ∧ s'.params 1 = 0 := by
    unfold fit
    rw [hn]
    simp only [List.length_singleton, solveOne]
    rw [if_pos]
    · refine ⟨_, rfl, ?_, ?_⟩
      · simp [hi, storeKept, pyIdx]
      · simp only [hi]
        simp [Lin.result, normalize, initFitter, keepFixed, getVector, getHessian,
          getDesign, allWgts, Data.fitWgts, line, sum_range_succ, pyIdx, storeKept, zeroed]
    · refine ⟨by trivial, ?_⟩
      simp only [getHessian, normalize, initFitter, keepFixed, getDesign, allWgts, Data.fitWgts, line,
        sum_range_succ, sum_range_zero]
      simp
  obtain ⟨s', h1, h2, h3⟩ := hfit
  refine ⟨_, _, s', fun k => if k = 0 then 1 else -1 / 2, ?_, ?_, h1, ?_, ?_⟩
  · intro w h
    simp at h
  · intro i hi
    simp only [normalize]
    split_ifs <;> simp [initFitter, keepFixed]
  · intro kv h
    simp only [List.mem_singleton] at h
    subst h
    simp
  · simp [chiTotal, chiSquared, Lin.result, normalize, initFitter, keepFixed, Data.fitWgts, line,
      sum_range_succ, h2, h3]
    norm_num

/-! ## C31 -/

/-- What is asked of `numpy.linalg.qr` and `inv`: when the inverse exists then the decomposition is one
with orthonormal columns, and the inverse is a (right) inverse. -/
def QrSpec (qr : ℕ → ℕ → (ℕ → ℕ → ℝ) → (ℕ → ℕ → ℝ) × (ℕ → ℕ → ℝ))
    (inv : ℕ → (ℕ → ℕ → ℝ) → Option (ℕ → ℕ → ℝ)) : Prop :=
  ∀ rows K D ri, inv K (qr rows K D).2 = some ri →
    (∀ i < rows, ∀ a < K, ∑ b ∈ range K, (qr rows K D).1 i b * (qr rows K D).2 b a = D i a) ∧
    (∀ a < K, ∀ b < K, ∑ i ∈ range rows, (qr rows K D).1 i a * (qr rows K D).1 i b
      = if a = b then 1 else 0) ∧
    (∀ a < K, ∀ b < K, ∑ c ∈ range K, (qr rows K D).2 a c * ri c b = if a = b then 1 else 0)

/-- The solution through the decomposition obeys the normal equations. -/
theorem qr_normal (rows K : ℕ) (D q r ri : ℕ → ℕ → ℝ) (y : ℕ → ℝ)
    (h1 : ∀ i < rows, ∀ a < K, ∑ b ∈ range K, q i b * r b a = D i a)
    (h2 : ∀ a < K, ∀ b < K, ∑ i ∈ range rows, q i a * q i b = if a = b then 1 else 0)
    (h3 : ∀ a < K, ∀ b < K, ∑ c ∈ range K, r a c * ri c b = if a = b then 1 else 0) :
    let x := fun a => ∑ i ∈ range rows, (∑ b ∈ range K, ri a b * q i b) * y i
    ∀ a < K, ∑ b ∈ range K, (∑ i ∈ range rows, D i a * D i b) * x b = ∑ i ∈ range rows, D i a * y i := by
  intro x a ha
  set t := fun c => ∑ j ∈ range rows, q j c * y j with ht
  have hx : ∀ b, x b = ∑ c ∈ range K, ri b c * t c := by
    intro b
    simp only [x, ht, sum_mul, mul_sum]
    rw [sum_comm]
    exact sum_congr rfl fun c _ => sum_congr rfl fun j _ => by ring
  have hrx : ∀ c < K, ∑ b ∈ range K, r c b * x b = t c := by
    intro c hc
    simp only [hx, mul_sum]
    rw [sum_comm]
    calc ∑ e ∈ range K, ∑ b ∈ range K, r c b * (ri b e * t e)
        = ∑ e ∈ range K, (∑ b ∈ range K, r c b * ri b e) * t e := by
          apply sum_congr rfl
          intro e _
          rw [sum_mul]
          exact sum_congr rfl fun b _ => by ring
      _ = ∑ e ∈ range K, (if c = e then 1 else 0) * t e :=
          sum_congr rfl fun e he => by rw [h3 c hc e (mem_range.1 he)]
      _ = t c := by simp [hc]
  have hDx : ∀ i < rows, ∑ b ∈ range K, D i b * x b = ∑ c ∈ range K, q i c * t c := by
    intro i hi
    calc ∑ b ∈ range K, D i b * x b
        = ∑ b ∈ range K, (∑ c ∈ range K, q i c * r c b) * x b :=
          sum_congr rfl fun b hb => by rw [h1 i hi b (mem_range.1 hb)]
      _ = ∑ c ∈ range K, q i c * ∑ b ∈ range K, r c b * x b := by
          simp only [sum_mul, mul_sum]
          rw [sum_comm]
          exact sum_congr rfl fun b _ => sum_congr rfl fun c _ => by ring
      _ = _ := sum_congr rfl fun c hc => by rw [hrx c (mem_range.1 hc)]
  have hDy : ∑ i ∈ range rows, D i a * y i = ∑ c ∈ range K, r c a * t c := by
    calc ∑ i ∈ range rows, D i a * y i
        = ∑ i ∈ range rows, (∑ c ∈ range K, q i c * r c a) * y i :=
          sum_congr rfl fun i hi => by rw [h1 i (mem_range.1 hi) a ha]
      _ = _ := by
          simp only [ht, sum_mul, mul_sum]
          rw [sum_comm]
          exact sum_congr rfl fun c _ => sum_congr rfl fun i _ => by ring
  have hqq : ∀ c < K, ∑ i ∈ range rows, q i c * ∑ e ∈ range K, q i e * t e = t c := by
    intro c hc
    simp only [mul_sum]
    rw [sum_comm]
    calc ∑ e ∈ range K, ∑ i ∈ range rows, q i c * (q i e * t e)
        = ∑ e ∈ range K, (∑ i ∈ range rows, q i c * q i e) * t e := by
          apply sum_congr rfl
          intro e _
          rw [sum_mul]
          exact sum_congr rfl fun i _ => by ring
      _ = ∑ e ∈ range K, (if c = e then 1 else 0) * t e :=
          sum_congr rfl fun e he => by rw [h2 c hc e (mem_range.1 he)]
      _ = t c := by simp [hc]
  rw [hDy]
  calc ∑ b ∈ range K, (∑ i ∈ range rows, D i a * D i b) * x b
      = ∑ i ∈ range rows, D i a * ∑ b ∈ range K, D i b * x b := by
        simp only [sum_mul, mul_sum]
        rw [sum_comm]
        exact sum_congr rfl fun i _ => sum_congr rfl fun b _ => by ring
    _ = ∑ i ∈ range rows, (∑ c ∈ range K, q i c * r c a) * (fun i => ∑ e ∈ range K, q i e * t e) i :=
        sum_congr rfl fun i hi => by rw [hDx i (mem_range.1 hi), h1 i (mem_range.1 hi) a ha]
    _ = ∑ c ∈ range K, r c a * ∑ i ∈ range rows, q i c * (fun i => ∑ e ∈ range K, q i e * t e) i := by
        generalize (fun i => ∑ e ∈ range K, q i e * t e) = S
        simp only [sum_mul]
        rw [sum_comm]
        refine sum_congr rfl fun c _ => ?_
        rw [mul_sum]
        exact sum_congr rfl fun i _ => by ring
    _ = _ := sum_congr rfl fun c hc => by rw [hqq c (mem_range.1 hc)]

/-- The same data with the squares of the weights as weights. -/
noncomputable def Data.squared (d : Data X) : Data X :=
  ⟨d.n, d.x, d.y, some fun i => d.fitWgts i ^ 2, none⟩

theorem squared_wgts (d : Data X) (i : ℕ) : d.squared.fitWgts i = d.fitWgts i ^ 2 := by
  simp [Data.squared, Data.fitWgts]

theorem squared_chi (m : Lin X) (d : Data X) (p : ℕ → ℝ) : chiSquared m d.squared p
    = ∑ i ∈ range d.n, (d.y i - m.result (d.x i) p) ^ 2 * d.fitWgts i ^ 2 := by
  simp only [chiSquared, squared_wgts]
  rfl

theorem squared_good (d : Data X) : d.squared.Good := by
  intro w h i _
  simp only [Data.squared, Option.some.injEq] at h
  rw [← h]
  exact sq_nonneg _

theorem qr_core (m : Lin X) (d : Data X) (s : Fitter) (hn : s.nnorm = 0) (f : ℕ → Bool)
    (q r ri : ℕ → ℕ → ℝ) (wgts : ℕ → ℝ) (hwg : ∀ i < d.n, wgts i = d.fitWgts i)
    (y : ℕ → ℝ) (hy : ∀ i < d.n, y i
      = (d.y i - m.result (d.x i) (zeroed m.np s.params (indexOf m.np f))) * wgts i)
    (h1 : ∀ i < d.n + s.nnorm, ∀ a < (indexOf m.np f).length,
      ∑ b ∈ range (indexOf m.np f).length, q i b * r b a = getDesign m d s (indexOf m.np f) i a * wgts i)
    (h2 : ∀ a < (indexOf m.np f).length, ∀ b < (indexOf m.np f).length,
      ∑ i ∈ range (d.n + s.nnorm), q i a * q i b = if a = b then 1 else 0)
    (h3 : ∀ a < (indexOf m.np f).length, ∀ b < (indexOf m.np f).length,
      ∑ c ∈ range (indexOf m.np f).length, r a c * ri c b = if a = b then 1 else 0)
    (p : ℕ → ℝ) (hp : ∀ k < m.np, f k = false → p k = s.params k) :
    chiSquared m d.squared (insertParameters m.np s.params
      (fun a => ∑ i ∈ range (d.n + s.nnorm),
        (∑ b ∈ range (indexOf m.np f).length, ri a b * q i b) * y i) (indexOf m.np f))
      ≤ chiSquared m d.squared p := by
  have hq := qr_normal (d.n + s.nnorm) _ (fun i a => getDesign m d s (indexOf m.np f) i a * wgts i)
    q r ri y h1 h2 h3
  have := core_min m d.squared (squared_good d) s f
    (fun a => ∑ i ∈ range (d.n + s.nnorm),
        (∑ b ∈ range (indexOf m.np f).length, ri a b * q i b) * y i) (Or.inl hn) (by simp [hn]) ?_ p hp
  · rwa [chiTotal_zero m _ s hn, chiTotal_zero m _ s hn] at this
  · intro a ha
    have := hq a ha
    simp only [getHessian, getVector, hn, add_zero] at this ⊢
    have hdn : d.squared.n = d.n := rfl
    have hdes : ∀ i c, getDesign m d.squared s (indexOf m.np f) i c
        = getDesign m d s (indexOf m.np f) i c := fun i c => rfl
    simp only [hdn, hdes]
    refine Eq.trans (sum_congr rfl fun b _ => ?_) (this.trans (sum_congr rfl fun i hi => ?_))
    · congr 1
      apply sum_congr rfl
      intro i hi
      have hi := mem_range.1 hi
      have : allWgts d.squared s i = d.fitWgts i ^ 2 := by
        simp only [allWgts, hdn, if_pos hi, squared_wgts]
      rw [this, hwg i hi]
      ring
    · have hi := mem_range.1 hi
      have e1 : d.squared.y = d.y := rfl
      have e2 : d.squared.x = d.x := rfl
      simp only [if_pos hi, squared_wgts, e1, e2]
      rw [hy i hi, hwg i hi]
      ring

/-- The parameters that the QR fitter returns minimise the sum of the squares of weight times residual.
Not proved, as it does not hold: that they minimise chi squared, where the weights are not squared. Also
only proved for a decomposition that is made in the same call, see the counterexamples. -/
theorem C31_kept_partial (qr : ℕ → ℕ → (ℕ → ℕ → ℝ) → (ℕ → ℕ → ℝ) × (ℕ → ℕ → ℝ))
    (inv : ℕ → (ℕ → ℕ → ℝ) → Option (ℕ → ℕ → ℝ)) (sqrt : ℝ → ℝ) (hqr : QrSpec qr inv)
    (m : Lin X) (d : Data X) (t t' : Qr) (hn : t.base.nnorm = 0)
    (hfresh : t.needs = true ∨ ∃ w, d.weights = some w)
    (keep : List (ℤ × ℝ)) (hk : ProperKeep m.np keep)
    (h : qrFit qr inv sqrt m d t (some keep) = some t') :
    Agrees keep t'.base.params ∧
    ∀ p, Agrees keep p →
      ∑ i ∈ range d.n, (d.y i - m.result (d.x i) t'.base.params) ^ 2 * d.fitWgts i ^ 2
        ≤ ∑ i ∈ range d.n, (d.y i - m.result (d.x i) p) ^ 2 * d.fitWgts i ^ 2 := by
  unfold qrFit at h
  rw [prolog_keep m.np t.base keep hk] at h
  have hb : (t.needs || d.weights.isSome) = true := by
    rcases hfresh with h | ⟨w, h⟩ <;> simp [h]
  simp only [hb, if_true, Option.map_map, Option.map_eq_some_iff] at h
  obtain ⟨ri, hri, rfl⟩ := h
  set f : ℕ → Bool := fun k => decide ((k : ℤ) ∉ keep.map Prod.fst) with hf
  set s1 : Fitter := { t.base with
    npfit := keep.length
    params := storeKept m.np t.base.params keep } with hs1
  have hst := store_kept m.np keep hk t.base.params
  obtain ⟨h1, h2, h3⟩ := hqr _ _ _ _ hri
  constructor
  · intro kv hkv
    have hr := hk.2 kv hkv
    have : kv.1.toNat < m.np := by omega
    show insertParameters m.np s1.params _ (indexOf m.np f) kv.1.toNat = kv.2
    rw [(insert_spec m.np f s1.params _).2 kv.1.toNat this ?_]
    · exact hst kv hkv
    · simp only [indexOf, List.mem_map, List.mem_filter, not_exists, not_and]
      rintro a ⟨_, ha⟩ e
      have : (a : ℤ) = kv.1 := by omega
      simp only [hf, decide_eq_true_eq] at ha
      rw [this] at ha
      exact ha (List.mem_map_of_mem hkv)
  · intro p hp
    have := qr_core m d s1 hn f _ _ ri
      (fun i => if i < d.n then d.fitWgts i else sqrt (t.base.normweight (i - d.n)))
      (fun i hi => if_pos hi) (fun i => (if i < d.n then d.y i
          - m.result (d.x i) (zeroed m.np s1.params (indexOf m.np f)) else s1.normdata (i - d.n))
        * (if i < d.n then d.fitWgts i else sqrt (t.base.normweight (i - d.n))))
      (fun i hi => by simp only [if_pos hi]) h1 h2 h3 p
      (fun k _ hfk => agree_of m.np keep hk _ _ hst hp k hfk)
    rwa [squared_chi, squared_chi] at this

/-- Without kept parameters. -/
theorem C31_all_partial (qr : ℕ → ℕ → (ℕ → ℕ → ℝ) → (ℕ → ℕ → ℝ) × (ℕ → ℕ → ℝ))
    (inv : ℕ → (ℕ → ℕ → ℝ) → Option (ℕ → ℕ → ℝ)) (sqrt : ℝ → ℝ) (hqr : QrSpec qr inv)
    (m : Lin X) (d : Data X) (t t' : Qr) (hn : t.base.nnorm = 0) (hi : t.base.fitIndex = none)
    (hfresh : t.needs = true ∨ ∃ w, d.weights = some w)
    (h : qrFit qr inv sqrt m d t none = some t') (p : ℕ → ℝ) :
    ∑ i ∈ range d.n, (d.y i - m.result (d.x i) t'.base.params) ^ 2 * d.fitWgts i ^ 2
      ≤ ∑ i ∈ range d.n, (d.y i - m.result (d.x i) p) ^ 2 * d.fitWgts i ^ 2 := by
  unfold qrFit at h
  have hb : (t.needs || d.weights.isSome) = true := by
    rcases hfresh with h | ⟨w, h⟩ <;> simp [h]
  simp only [fitprolog, hi, index_all, hb, if_true, Option.map_map, Option.map_eq_some_iff] at h
  obtain ⟨ri, hri, rfl⟩ := h
  obtain ⟨h1, h2, h3⟩ := hqr _ _ _ _ hri
  have := qr_core m d { t.base with npfit := m.np } hn (fun _ => true) _ _ ri
    (fun i => if i < d.n then d.fitWgts i else sqrt (t.base.normweight (i - d.n)))
    (fun i hi => if_pos hi) (fun i => (if i < d.n then d.y i
        - m.result (d.x i) (zeroed m.np t.base.params (indexOf m.np fun _ => true))
        else t.base.normdata (i - d.n))
      * (if i < d.n then d.fitWgts i else sqrt (t.base.normweight (i - d.n))))
    (fun i hi => by simp only [if_pos hi]) h1 h2 h3 p (by simp)
  rwa [squared_chi, squared_chi] at this

/-- When there are no weights and no accuracies, or the weights are all zero or one, then chi squared is
minimal. -/
theorem C31_unit_partial (qr : ℕ → ℕ → (ℕ → ℕ → ℝ) → (ℕ → ℕ → ℝ) × (ℕ → ℕ → ℝ))
    (inv : ℕ → (ℕ → ℕ → ℝ) → Option (ℕ → ℕ → ℝ)) (sqrt : ℝ → ℝ) (hqr : QrSpec qr inv)
    (m : Lin X) (d : Data X) (t t' : Qr) (hn : t.base.nnorm = 0) (hi : t.base.fitIndex = none)
    (hfresh : t.needs = true ∨ ∃ w, d.weights = some w)
    (hacc : d.accuracy = none) (hw : ∀ w, d.weights = some w → ∀ i < d.n, w i = 0 ∨ w i = 1)
    (h : qrFit qr inv sqrt m d t none = some t') (p : ℕ → ℝ) :
    chiSquared m d t'.base.params ≤ chiSquared m d p := by
  have := C31_all_partial qr inv sqrt hqr m d t t' hn hi hfresh h p
  have e : ∀ i < d.n, d.fitWgts i ^ 2 = d.fitWgts i := by
    intro i hi
    unfold Data.fitWgts
    rw [hacc]
    rcases hw' : d.weights with _ | w
    · simp
    · rcases hw w hw' i hi with h | h <;> simp [h]
  unfold chiSquared
  have e2 : ∀ q : ℕ → ℝ, ∑ i ∈ range d.n, (d.y i - m.result (d.x i) q) ^ 2 * d.fitWgts i ^ 2
      = ∑ i ∈ range d.n, (d.y i - m.result (d.x i) q) ^ 2 * d.fitWgts i :=
    fun q => sum_congr rfl fun i hi => by rw [e i (mem_range.1 hi)]
  rwa [e2, e2] at this

/-- A decomposition for one column, for the examples. -/
noncomputable def qrOne (rows _K : ℕ) (D : ℕ → ℕ → ℝ) : (ℕ → ℕ → ℝ) × (ℕ → ℕ → ℝ) :=
  let r := Real.sqrt (∑ i ∈ range rows, D i 0 ^ 2)
  (fun i a => D i a / r, fun _ _ => r)

/-- The inverse of a one by one matrix. -/
noncomputable def invOne (K : ℕ) (r : ℕ → ℕ → ℝ) : Option (ℕ → ℕ → ℝ) :=
  if K = 1 ∧ r 0 0 ≠ 0 then some fun a b => 1 / r a b else none

theorem qrOne_spec : QrSpec qrOne invOne := by
  intro rows K D ri h
  unfold invOne at h
  split_ifs at h with hc
  obtain ⟨rfl, h0⟩ := hc
  obtain rfl := Option.some.inj h
  simp only [qrOne] at h0 ⊢
  have hs : Real.sqrt (∑ i ∈ range rows, D i 0 ^ 2) ^ 2 = ∑ i ∈ range rows, D i 0 ^ 2 :=
    Real.sq_sqrt (sum_nonneg fun i _ => sq_nonneg _)
  refine ⟨?_, ?_, ?_⟩
  · intro i _ a ha
    have : a = 0 := by omega
    subst this
    simp only [sum_range_one]
    field_simp
  · intro a ha b hb
    have ha : a = 0 := by omega
    have hb : b = 0 := by omega
    subst ha hb
    simp only [if_true]
    have : ∀ i, D i 0 / Real.sqrt (∑ i ∈ range rows, D i 0 ^ 2) *
        (D i 0 / Real.sqrt (∑ i ∈ range rows, D i 0 ^ 2))
        = D i 0 ^ 2 / Real.sqrt (∑ i ∈ range rows, D i 0 ^ 2) ^ 2 := fun i => by ring
    simp only [this]
    rw [← Finset.sum_div, hs]
    refine div_self ?_
    rw [← hs]
    exact pow_ne_zero 2 h0
  · intro a ha b hb
    have ha : a = 0 := by omega
    have hb : b = 0 := by omega
    subst ha hb
    simp only [sum_range_one, if_true]
    field_simp

/-- A constant model. -/
def constant : Lin ℝ := ⟨1, fun _ => 0, fun _ _ => 1⟩

/-- The state of a new fitter. -/
noncomputable def newQr : Qr := ⟨initFitter 1 (fun _ => 0) none, true, fun _ _ => 0⟩

theorem insert_constant (p x : ℕ → ℝ) :
    insertParameters constant.np p x (indexOf constant.np fun _ => true) = x := by
  unfold insertParameters
  rw [if_pos (show (indexOf constant.np fun _ => true).length = constant.np by decide)]

theorem qrFit_constant (d : Data ℝ) (hd : d.n = 2) (h : 0 < d.fitWgts 0 ^ 2 + d.fitWgts 1 ^ 2)
    (t : Qr) (hn : t.base.nnorm = 0) (hi : t.base.fitIndex = none)
    (hf : (t.needs || d.weights.isSome) = true) :
    ∃ t', qrFit qrOne invOne Real.sqrt constant d t none = some t' ∧
      t'.needs = false ∧ t'.base.nnorm = 0 ∧ t'.base.fitIndex = none ∧
      (∀ i, i < 2 → t'.qrmat 0 i = d.fitWgts i / (d.fitWgts 0 ^ 2 + d.fitWgts 1 ^ 2)) ∧
      t'.base.params 0 = (d.fitWgts 0 ^ 2 * d.y 0 + d.fitWgts 1 ^ 2 * d.y 1)
        / (d.fitWgts 0 ^ 2 + d.fitWgts 1 ^ 2) := by
  have hsq : Real.sqrt (d.fitWgts 0 ^ 2 + d.fitWgts 1 ^ 2) ≠ 0 := (Real.sqrt_pos.2 h).ne'
  have hsq2 : Real.sqrt (d.fitWgts 0 ^ 2 + d.fitWgts 1 ^ 2) ^ 2 = d.fitWgts 0 ^ 2 + d.fitWgts 1 ^ 2 :=
    Real.sq_sqrt h.le
  have hne := h.ne'
  obtain ⟨⟨params, fitIndex, npfit, nnorm, ndf, nda, nwg⟩, needs, qrmat⟩ := t
  simp only at hn hi hf
  subst hn hi
  have hD : ∀ s' i a, i < d.n → getDesign constant d s' (indexOf constant.np fun _ => true) i a = 1 := by
    intro s' i a hi
    simp [getDesign, hi, constant]
  have hr : ∀ s', Real.sqrt (∑ i ∈ range (d.n + 0), (getDesign constant d s'
      (indexOf constant.np fun _ => true) i 0 *
        (if i < d.n then d.fitWgts i else Real.sqrt (nwg (i - d.n)))) ^ 2)
      = Real.sqrt (d.fitWgts 0 ^ 2 + d.fitWgts 1 ^ 2) := by
    intro s'
    congr 1
    simp [hd, sum_range_succ, getDesign, constant]
  have hlen : (indexOf constant.np fun _ => true).length = 1 := by decide
  unfold qrFit
  simp only [fitprolog, index_all, hf, if_true, qrOne, invOne, hr]
  rw [if_pos ⟨hlen, hsq⟩]
  clear hr
  generalize Real.sqrt (d.fitWgts 0 ^ 2 + d.fitWgts 1 ^ 2) = R at *
  rw [← hsq2]
  refine ⟨_, rfl, rfl, rfl, rfl, ?_, ?_⟩
  · intro i hi
    have : i < d.n := by omega
    simp only [hlen, sum_range_one, if_pos this, hD _ _ _ this]
    field_simp
  · have hz : ∀ i, i < d.n → constant.result (d.x i)
        (zeroed constant.np params (indexOf constant.np fun _ => true)) = 0 := by
      intro i hi
      simp [constant, Lin.result, zeroed, indexOf, pyIdx]
    have h0 : 0 < d.n := by omega
    have h1 : 1 < d.n := by omega
    have e : ∀ g : ℕ → ℝ, ∑ i ∈ range (d.n + 0), g i = g 0 + g 1 := by
      intro g
      rw [hd, add_zero, sum_range_succ, sum_range_one]
    simp only [insert_constant, e, hlen, sum_range_one, h0, h1, if_true, hD _ _ _ h0, hD _ _ _ h1, hz 0 h0, hz 1 h1]
    field_simp
    ring

/-- Weights 1 and 2 on two measurements of a constant: the QR fitter does not find the minimum. -/
theorem C31_counterexample : ∃ (d : Data ℝ) (t' : Qr) (p : ℕ → ℝ), d.Good ∧
    qrFit qrOne invOne Real.sqrt constant d newQr none = some t' ∧
    chiSquared constant d p < chiSquared constant d t'.base.params := by
  obtain ⟨t', h1, -, -, -, -, h2⟩ := qrFit_constant
    ⟨2, fun i => i, fun i => if i = 0 then 0 else 3, some fun i => i + 1, none⟩ rfl
    (by simp [Data.fitWgts]; norm_num) newQr rfl rfl rfl
  refine ⟨_, t', fun _ => 2, ?_, h1, ?_⟩
  · intro w h i _
    simp only [Option.some.injEq] at h
    rw [← h]
    positivity
  · simp only [Data.fitWgts] at h2
    norm_num at h2
    simp [chiSquared, Lin.result, constant, sum_range_succ, Data.fitWgts, h2]
    norm_num

/-- The decomposition of an earlier fit is used in a later one without weights, although it was made with
the weights of the earlier one: the minimum is not found. -/
theorem C31_counterexample_stale : ∃ (d d' : Data ℝ) (t t' : Qr) (p : ℕ → ℝ), d.Good ∧
    d'.weights = none ∧ d'.accuracy = none ∧
    qrFit qrOne invOne Real.sqrt constant d newQr none = some t ∧
    qrFit qrOne invOne Real.sqrt constant d' t none = some t' ∧
    chiSquared constant d' p < chiSquared constant d' t'.base.params := by
  obtain ⟨t, h1, hneeds, hn, hi, hq, -⟩ := qrFit_constant
    ⟨2, fun i => i, fun i => if i = 0 then 0 else 2, some fun i => if i = 0 then 1 else 0, none⟩ rfl
    (by simp [Data.fitWgts]) newQr rfl rfl rfl
  have hlen : (indexOf constant.np fun _ => true).length = 1 := by decide
  have q0 := hq 0 (by norm_num)
  have q1 := hq 1 (by norm_num)
  simp [Data.fitWgts] at q0 q1
  have hex : ∃ t', qrFit qrOne invOne Real.sqrt constant
      ⟨2, fun i => i, fun i => if i = 0 then 0 else 2, none, none⟩ t none = some t' ∧
      t'.base.params 0 = 0 := by
    unfold qrFit
    simp only [fitprolog, hi, index_all, hneeds, Option.isSome_none, Bool.or_self, Bool.false_eq_true,
      if_false, Option.map_some, insert_constant]
    refine ⟨_, rfl, ?_⟩
    simp [sum_range_succ, hn, q1, constant, Lin.result, zeroed, indexOf, pyIdx]
  obtain ⟨t', h2, h3⟩ := hex
  refine ⟨_, _, t, t', fun _ => 1, ?_, rfl, rfl, h1, h2, ?_⟩
  · intro w h i _
    simp only [Option.some.injEq] at h
    rw [← h]
    simp only
    split_ifs <;> norm_num
  · simp [chiSquared, Lin.result, constant, sum_range_succ, Data.fitWgts, h3]
    norm_num

end BF.Fitters
