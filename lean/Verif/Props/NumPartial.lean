import Verif.NumPartial
import Verif.Props.Fixed
import Mathlib.Analysis.Calculus.MeanValue
import Mathlib.Analysis.Calculus.Deriv.Pow
import Mathlib.Analysis.Calculus.Deriv.Mul
import Mathlib.Analysis.Calculus.Deriv.Add
import Mathlib.Analysis.Calculus.Deriv.Comp

/-!
# Numeric derivatives (C103)
-/

namespace BF.NumPartial

open BF.Arr BF.Fixed BF.Combi BF.Dynamic Set

noncomputable section

/-! ## Specification -/

/-- The symmetric difference quotient of `g` at `v` over `v - h` to `v + h`. -/
def central (g : ℝ → ℝ) (v h : ℝ) : ℝ := (g (v + h) - g (v - h)) / (2 * h)

/-- `g` has derivative `d` at `v`, it is three times differentiable from `v - h` to `v + h`, and there its
third derivative is at most `M` in size. -/
def Smooth (g : ℝ → ℝ) (v h d M : ℝ) : Prop :=
  ∃ g1 g2 g3 : ℝ → ℝ, g1 v = d ∧ ∀ t ∈ Icc (v - h) (v + h),
    HasDerivAt g (g1 t) t ∧ HasDerivAt g1 (g2 t) t ∧ HasDerivAt g2 (g3 t) t ∧ |g3 t| ≤ M

/-- The step for the parameter at place `i`: the `i`-th item of `deltaP`, or the last one when the list is
shorter. -/
def step (delta : List ℝ) (i : ℕ) : ℝ :=
  if h : i < delta.length then delta[i] else delta.getLastD 0

/-! ## The error of the symmetric difference -/

theorem grow_bound (u u' : ℝ → ℝ) (h c : ℝ) (n : ℕ) (h0 : u 0 = 0)
    (hu : ∀ t ∈ Icc 0 h, HasDerivAt u (u' t) t) (hb : ∀ t ∈ Icc 0 h, |u' t| ≤ c * t ^ n) :
    ∀ t ∈ Icc 0 h, |u t| ≤ c * t ^ (n + 1) / (n + 1) := by
  intro t ht
  have hn : ((n : ℝ) + 1) ≠ 0 := by positivity
  have := image_norm_le_of_norm_deriv_right_le_deriv_boundary (f := u) (f' := u') (a := 0) (b := h)
    (B := fun t => c * t ^ (n + 1) / (n + 1)) (B' := fun t => c * t ^ n)
    (fun t ht => (hu t ht).continuousAt.continuousWithinAt)
    (fun t ht => (hu t ⟨ht.1, ht.2.le⟩).hasDerivWithinAt)
    (by simp [h0]) (fun t => by
      have := ((hasDerivAt_pow (n + 1) t).const_mul c).div_const ((n : ℝ) + 1)
      refine this.congr_deriv ?_
      push_cast
      field_simp)
    (fun t ht => hb t ⟨ht.1, ht.2.le⟩) ht
  simpa using this

/-- The symmetric difference is within `M h² / 6` of the derivative. -/
theorem central_bound (g : ℝ → ℝ) (v h d M : ℝ) (hh : 0 < h) (hg : Smooth g v h d M) :
    |central g v h - d| ≤ M * h ^ 2 / 6 := by
  obtain ⟨g1, g2, g3, rfl, hg⟩ := hg
  have hp : ∀ t ∈ Icc 0 h, v + t ∈ Icc (v - h) (v + h) := fun t ht =>
    ⟨by linarith [ht.1], by linarith [ht.2]⟩
  have hm : ∀ t ∈ Icc 0 h, v - t ∈ Icc (v - h) (v + h) := fun t ht =>
    ⟨by linarith [ht.2], by linarith [ht.1]⟩
  have dp : ∀ (f : ℝ → ℝ) (f' t : ℝ), HasDerivAt f f' (v + t) →
      HasDerivAt (fun s => f (v + s)) f' t := fun f f' t hf => by
    have := hf.comp t ((hasDerivAt_id t).const_add v)
    rw [mul_one] at this
    exact this
  have dm : ∀ (f : ℝ → ℝ) (f' t : ℝ), HasDerivAt f f' (v - t) →
      HasDerivAt (fun s => f (v - s)) (-f') t := fun f f' t hf => by
    have := hf.comp t ((hasDerivAt_id t).const_sub v)
    rw [mul_neg, mul_one] at this
    exact this
  have b2 := grow_bound (fun s => g2 (v + s) - g2 (v - s)) (fun s => g3 (v + s) + g3 (v - s)) h
    (2 * M) 0 (by simp)
    (fun t ht => ((dp _ _ _ (hg _ (hp t ht)).2.2.1).sub (dm _ _ _ (hg _ (hm t ht)).2.2.1)).congr_deriv
      (by ring))
    (fun t ht => by
      have h1 := (hg _ (hp t ht)).2.2.2
      have h2 := (hg _ (hm t ht)).2.2.2
      have := abs_add_le (g3 (v + t)) (g3 (v - t))
      simp only [pow_zero, mul_one]
      linarith)
  have b1 := grow_bound (fun s => g1 (v + s) + g1 (v - s) - 2 * g1 v)
    (fun s => g2 (v + s) - g2 (v - s)) h (2 * M) 1 (by simp; ring)
    (fun t ht => (((dp _ _ _ (hg _ (hp t ht)).2.1).add (dm _ _ _ (hg _ (hm t ht)).2.1)).sub_const
      _).congr_deriv (by ring))
    (fun t ht => by simpa using b2 t ht)
  have b0 := grow_bound (fun s => g (v + s) - g (v - s) - s * (2 * g1 v))
    (fun s => g1 (v + s) + g1 (v - s) - 2 * g1 v) h M 2 (by simp)
    (fun t ht => (((dp _ _ _ (hg _ (hp t ht)).1).sub (dm _ _ _ (hg _ (hm t ht)).1)).sub
      ((hasDerivAt_id t).mul_const (2 * g1 v))).congr_deriv (by ring))
    (fun t ht => by
      have := b1 t ht
      norm_num at this ⊢
      linarith) h ⟨hh.le, le_refl _⟩
  have e : central g v h - g1 v = (g (v + h) - g (v - h) - h * (2 * g1 v)) / (2 * h) := by
    unfold central
    field_simp
  rw [e, abs_div, abs_of_pos (show (0 : ℝ) < 2 * h by linarith), div_le_iff₀ (by linarith)]
  norm_num at b0
  calc _ ≤ M * h ^ 3 / 3 := b0
    _ = _ := by ring

/-! ## The loop -/

theorem makeNext_eq (delta : List ℝ) (i : ℕ) : makeNext delta i = step delta i := by
  unfold makeNext step
  split
  · next h => simp [List.getD, List.getElem?_eq_getElem h]
  · next h => simp [List.getD, List.getElem?_eq_none (not_lt.1 h)]

theorem step_pos (delta : List ℝ) (hd : delta ≠ []) (hp : ∀ d ∈ delta, 0 < d) (i : ℕ) :
    0 < step delta i := by
  unfold step
  split
  · exact hp _ (List.getElem_mem _)
  · rw [List.getLastD_eq_getLast?, List.getLast?_eq_getLast_of_ne_nil hd]
    exact hp _ (List.getLast_mem hd)

theorem numLoop_strict (m : Mdl) (x : ℝ) (params : List ℝ) (ks : List ℕ) (i : ℕ) (par : List ℝ) :
    numLoop m x params ks i par = strictLoop (m.result x) m.delta params ks i par := by
  induction ks generalizing i par with
  | nil => rfl
  | cons k ks ih =>
    simp only [numLoop, strictLoop]
    split
    · rfl
    · split
      · rfl
      · split
        · rfl
        · rw [ih]

theorem modify_some (l : List ℝ) (k : ℕ) (v : ℝ) (hv : l[k]? = some v) (φ : ℝ → ℝ) :
    l.modify k φ = l.set k (φ v) := by
  apply List.ext_getElem?
  intro j
  rw [List.getElem?_modify, List.getElem?_set]
  by_cases h : k = j
  · subst h
    have := (List.getElem?_eq_some_iff.1 hv).1
    simp only [if_true, hv, Option.map_some, this, Functor.map]
  · simp [h]

theorem set_back (l : List ℝ) (k : ℕ) (v t : ℝ) (hv : l[k]? = some v) : (l.set k t).set k v = l := by
  rw [List.set_set]
  obtain ⟨h1, rfl⟩ := List.getElem?_eq_some_iff.1 hv
  simp

theorem strictLoop_eq (res : List ℝ → Option (ℝ × List ℝ)) (delta params : List ℝ) (G : List ℝ → ℝ)
    (ks : List ℕ) (i : ℕ)
    (hk : ∀ (j k : ℕ), ks[j]? = some k → ∃ v, params[k]? = some v ∧
      ∀ s, s = makeNext delta (i + j) / 2 ∨ s = - (makeNext delta (i + j) / 2) →
        res (params.set k (v + s)) = some (G (params.set k (v + s)), params.set k (v + s))) :
    ∃ c, strictLoop res delta params ks i params = some c ∧ c.length = ks.length ∧
      ∀ (j k : ℕ) (v : ℝ), ks[j]? = some k → params[k]? = some v →
        c[j]? = some (central (fun t => G (params.set k t)) v (makeNext delta (i + j) / 2)) := by
  induction ks generalizing i with
  | nil => exact ⟨[], rfl, rfl, by simp⟩
  | cons k ks ih =>
    obtain ⟨c, h1, h2, h3⟩ := ih (i + 1) (fun j k' hj => by
      have := hk (j + 1) k' (by simpa using hj)
      rwa [show i + (j + 1) = i + 1 + j by ring] at this)
    obtain ⟨v, hv, hs⟩ := hk 0 k (by simp)
    simp only [Nat.add_zero] at hs
    have hlen := (List.getElem?_eq_some_iff.1 hv).1
    have e1 : params.modify k (· + 0.5 * makeNext delta i) =
        params.set k (v + makeNext delta i / 2) := by
      rw [modify_some _ _ _ hv]; congr 1; ring
    have e2 : (params.set k (v + makeNext delta i / 2)).modify k (· - makeNext delta i) =
        params.set k (v + - (makeNext delta i / 2)) := by
      rw [modify_some _ _ (v + makeNext delta i / 2) (by simp [hlen]), List.set_set]; congr 1; ring
    refine ⟨(G (params.set k (v + makeNext delta i / 2)) -
        G (params.set k (v + - (makeNext delta i / 2)))) / makeNext delta i :: c, ?_, ?_, ?_⟩
    · simp only [strictLoop]
      rw [e1, hs _ (Or.inl rfl)]
      simp only
      rw [e2, hs _ (Or.inr rfl)]
      simp only [hv]
      rw [set_back _ _ _ _ hv, h1]
      rfl
    · simp [h2]
    · intro j k' v' hj hv'
      cases j with
      | zero =>
        obtain rfl : k = k' := by simpa using hj
        obtain rfl : v = v' := by rw [hv] at hv'; simpa using hv'
        simp only [List.getElem?_cons_zero, Nat.add_zero, central]
        congr 2
        ring
      | succ j =>
        rw [show i + (j + 1) = i + 1 + j by ring]
        simpa using h3 j k' v' (by simpa using hj) hv'

/-! ## Checking of parameters -/

/-- What `checkParameter` makes of parameter `k` with value `v`. -/
def corrected (m : Mdl) (k : ℕ) (v : ℝ) : ℝ :=
  let w := if k ∈ m.nonZero ∧ v = 0 then m.tiny else v
  if k ∈ m.pos then |w| else w

theorem foldl_modify (φ : ℝ → ℝ) (hφ : ∀ v, φ (φ v) = φ v) (ks : List ℕ) (l : List ℝ) (j : ℕ) :
    (ks.foldl (fun p k => p.modify k φ) l)[j]? = l[j]?.map (fun v => if j ∈ ks then φ v else v) := by
  induction ks generalizing l with
  | nil => simp
  | cons k ks ih =>
    rw [List.foldl_cons, ih, List.getElem?_modify]
    cases l[j]? with
    | none => split <;> simp
    | some v =>
      by_cases h : k = j
      · subst h
        by_cases h' : k ∈ ks <;> simp [h', hφ]
      · have h2 : ¬ j = k := fun hc => h hc.symm
        simp [h, h2]

theorem check_get (m : Mdl) (l : List ℝ) (j : ℕ) : (m.check l)[j]? = l[j]?.map (corrected m j) := by
  unfold Mdl.check Mdl.checkPositive Mdl.checkZero
  rw [foldl_modify _ (fun v => abs_abs v), foldl_modify _ (fun v => by split_ifs <;> simp_all)]
  cases l[j]? with
  | none => rfl
  | some v =>
    simp only [Option.map_some, corrected]
    by_cases h : j ∈ m.nonZero <;> simp [h]

theorem check_length (m : Mdl) (l : List ℝ) : (m.check l).length = l.length := by
  have key : ∀ (φ : ℝ → ℝ) (ks : List ℕ) (l : List ℝ),
      (ks.foldl (fun p k => p.modify k φ) l).length = l.length := by
    intro φ ks
    induction ks with
    | nil => intro l; rfl
    | cons k ks ih => intro l; simp [ih]
  unfold Mdl.check Mdl.checkPositive Mdl.checkZero
  rw [key, key]

theorem corrected_idem (m : Mdl) (k : ℕ) (v : ℝ) : corrected m k (corrected m k v) = corrected m k v := by
  unfold corrected
  dsimp only
  by_cases h1 : k ∈ m.nonZero <;> by_cases h2 : k ∈ m.pos <;> by_cases h3 : v = 0 <;>
    by_cases h4 : m.tiny = 0 <;> simp [h1, h2, h3, h4]

theorem check_idem (m : Mdl) (l : List ℝ) : m.check (m.check l) = m.check l := by
  apply List.ext_getElem?
  intro j
  rw [check_get, check_get, Option.map_map]
  congr 1
  funext v
  exact corrected_idem m j v

/-- The parameters are allowed, also one step off: those that should be positive are at least half a step
from zero, and those that may not be zero even more. `d k` is the step for parameter `k`. -/
def Allowed (m : Mdl) (d : ℕ → ℝ) (k : ℕ) (v : ℝ) : Prop :=
  (k ∈ m.pos → d k / 2 ≤ v) ∧ (k ∈ m.nonZero → d k / 2 < |v|)

theorem corrected_allowed (m : Mdl) (d : ℕ → ℝ) (k : ℕ) (v s : ℝ) (hd : 0 < d k)
    (h : Allowed m d k v) (hs : |s| ≤ d k / 2) : corrected m k (v + s) = v + s := by
  have hs' := abs_le.1 hs
  have hz : k ∈ m.nonZero → v + s ≠ 0 := by
    intro hk hc
    have h1 := h.2 hk
    rw [show v = -s by linarith, abs_neg] at h1
    linarith
  unfold corrected
  dsimp only
  rw [if_neg (show ¬ (k ∈ m.nonZero ∧ v + s = 0) from fun hc => hz hc.1 hc.2)]
  split
  · next hk => exact abs_of_nonneg (by linarith [h.1 hk])
  · rfl

theorem check_id (m : Mdl) (l : List ℝ)
    (h : ∀ (j : ℕ) (v : ℝ), l[j]? = some v → corrected m j v = v) : m.check l = l := by
  apply List.ext_getElem?
  intro j
  rw [check_get]
  cases hv : l[j]? with
  | none => rfl
  | some v => simp [h j v hv]

theorem npbase_plain (m : Mdl) (n : ℕ) (hf : m.fm = ⟨n, []⟩) : m.npbase = n := by
  simp [Mdl.npbase, hf, FM.npbase, FM.npb]

theorem result_plain (m : Mdl) (n : ℕ) (hf : m.fm = ⟨n, []⟩) (x : ℝ) (p : List ℝ)
    (hn : p.length = n) : m.result x p = some (m.base x (m.check p), m.check p) := by
  subst hn
  simp [Mdl.result, Mdl.expand, hf]

theorem set_get (l : List ℝ) (k : ℕ) (t : ℝ) (j : ℕ) (w : ℝ) (h : (l.set k t)[j]? = some w) :
    (j = k ∧ w = t) ∨ (j ≠ k ∧ l[j]? = some w) := by
  rw [List.getElem?_set] at h
  by_cases hj : k = j
  · subst hj
    simp only [if_true] at h
    split at h
    · left; exact ⟨rfl, by simpa using h.symm⟩
    · simp at h
  · right
    rw [if_neg hj] at h
    exact ⟨fun hc => hj hc.symm, h⟩

/-- C103. A model that has no partial derivatives of its own (and no fixed parameters) gets numeric ones.
For every parameter list, of which the parameters that must be positive or non-zero are so by more than
half a step, `partial` has one column for each parameter; column `k` is the symmetric difference over the
`k`-th step in `deltaP` (the last one when there are less), and it is within `M dp² / 24` of the true
partial derivative when the third derivative of the result to the parameter is at most `M`. -/
theorem C103_partials (m : Mdl) (n : ℕ) (hf : m.fm = ⟨n, []⟩) (hd : m.delta ≠ [])
    (hpos : ∀ d ∈ m.delta, 0 < d) (x : ℝ) (p : List ℝ) (hn : p.length = n)
    (hall : ∀ (k : ℕ) (v : ℝ), p[k]? = some v → Allowed m (step m.delta) k v) :
    ∃ c, m.partials x p = some c ∧ c.length = n ∧
      ∀ (k : ℕ) (v : ℝ), p[k]? = some v → ∃ a, c[k]? = some a ∧
        a = central (fun t => m.base x (p.set k t)) v (step m.delta k / 2) ∧
        ∀ d M, Smooth (fun t => m.base x (p.set k t)) v (step m.delta k / 2) d M →
          |a - d| ≤ M * step m.delta k ^ 2 / 24 := by
  have hst := step_pos m.delta hd hpos
  have hval : ∀ (k : ℕ) (v s : ℝ), p[k]? = some v → |s| ≤ step m.delta k / 2 →
      m.check (p.set k (v + s)) = p.set k (v + s) := by
    intro k v s hv hs
    apply check_id
    intro j w hw
    rcases set_get _ _ _ _ _ hw with ⟨rfl, rfl⟩ | ⟨_, hw⟩
    · exact corrected_allowed m _ j v s (hst j) (hall j v hv) hs
    · have := corrected_allowed m _ j w 0 (hst j) (hall j w hw) (by simpa using (half_pos (hst j)).le)
      simpa using this
  have hid : m.check p = p := check_id _ _ fun j w hw => by
    simpa using corrected_allowed m _ j w 0 (hst j) (hall j w hw) (by simpa using (half_pos (hst j)).le)
  obtain ⟨c, h1, h2, h3⟩ := strictLoop_eq (m.result x) m.delta p (m.base x) (List.range n) 0 (by
    intro j k hj
    obtain ⟨hj1, hj2⟩ := List.getElem?_eq_some_iff.1 hj
    simp only [List.length_range] at hj1
    simp only [List.getElem_range] at hj2
    subst hj2
    have hl : j < p.length := by omega
    refine ⟨p[j], List.getElem?_eq_getElem hl, ?_⟩
    intro s hs
    rw [result_plain m n hf _ _ (by simpa using hn), hval j _ s (List.getElem?_eq_getElem hl)]
    rw [makeNext_eq, Nat.zero_add] at hs
    have := hst j
    rcases hs with rfl | rfl
    · rw [abs_of_pos (by linarith)]
    · rw [abs_neg, abs_of_pos (by linarith)])
  have hmn : m.numPartial x p none = some c := by
    unfold Mdl.numPartial
    rw [Option.getD_none, npbase_plain m n hf, numLoop_strict, h1]
    simp only [h2, List.length_range, le_refl, if_true, Nat.sub_self, List.replicate_zero,
      List.append_nil]
  refine ⟨c, ?_, by simpa using h2, ?_⟩
  · unfold Mdl.partials Mdl.expand
    rw [hf]
    simp only [if_true]
    rw [if_pos (by rfl), hid]
    exact hmn
  · intro k v hv
    have hk : k < n := by have := (List.getElem?_eq_some_iff.1 hv).1; omega
    have := h3 k k v (by simp [hk]) hv
    rw [Nat.zero_add, makeNext_eq] at this
    refine ⟨_, this, rfl, ?_⟩
    intro d M hS
    have hb := central_bound _ _ _ _ _ (by linarith [hst k]) hS
    calc _ ≤ _ := hb
      _ = _ := by ring

/-! ## Fixed parameters -/

theorem set_update (T : ℕ) (p : ℕ → ℝ) (k : ℕ) (t : ℝ) :
    ((List.range T).map p).set k t = (List.range T).map (Function.update p k t) := by
  apply List.ext_getElem?
  intro j
  rw [List.getElem?_set]
  by_cases h : k = j
  · subst h
    by_cases hk : k < T <;> simp [hk]
  · have h' : ¬ j = k := fun hc => h hc.symm
    by_cases hj : j < T <;> simp [h, hj, Function.update_of_ne h']

theorem result_fixed (m : Mdl) (n : ℕ) (ks : List ℕ) (F : ℕ → Fix ℝ) (hf : m.fm = fm n ks F)
    (h : ∀ i ∈ ks, i < n) (hnd : ks.Nodup) (h0 : ks ≠ []) (x : ℝ) (p : ℕ → ℝ) :
    m.result x ((List.range (total n ks F)).map p) =
      some (m.base x (m.check (full n ks F x p)), (List.range (total n ks F)).map p) := by
  have hne : (fm n ks F).fixed ≠ [] := by simpa [fm] using h0
  unfold Mdl.result Mdl.expand
  rw [hf, if_neg hne, expand_eq n ks F h hnd]
  simp only [Option.map_some, if_neg hne]
  rw [← List.map_take, List.take_range, show (fm n ks F).npmax = n from rfl,
    min_eq_left (Nat.le_add_right _ _)]
  rfl

/-- C103. The numeric partials (`numPartial`) of a model of which parameters are fixed, at numbers or
replaced by models, for all values of the parameters that are left: there is one column for each of those,
in their order, and it is within `M dp² / 24` of the true derivative of the result to that parameter, when
the third derivative is at most `M`. The result is that of the model with the fixed values, or the results
of the models, filled in (`full`), after correction of its positive and non-zero parameters. -/
theorem C103_fixed (m : Mdl) (n : ℕ) (ks : List ℕ) (F : ℕ → Fix ℝ) (hf : m.fm = fm n ks F)
    (h : ∀ i ∈ ks, i < n) (hnd : ks.Nodup) (h0 : ks ≠ []) (hd : m.delta ≠ [])
    (hpos : ∀ d ∈ m.delta, 0 < d) (x : ℝ) (p : ℕ → ℝ) :
    ∃ c, m.numPartial x ((List.range (total n ks F)).map p) none = some c ∧
      c.length = total n ks F ∧
      ∀ k, k < total n ks F → ∃ a, c[k]? = some a ∧
        a = central (fun t => m.base x (m.check (full n ks F x (Function.update p k t)))) (p k)
          (step m.delta k / 2) ∧
        ∀ d M, Smooth (fun t => m.base x (m.check (full n ks F x (Function.update p k t)))) (p k)
            (step m.delta k / 2) d M → |a - d| ≤ M * step m.delta k ^ 2 / 24 := by
  have hst := step_pos m.delta hd hpos
  set T := total n ks F with hT
  have hnb : m.npbase = T := by rw [Mdl.npbase, hf]; exact (C22_result n ks F h hnd (fun _ => 0) x p).1
  obtain ⟨c, h1, h2, h3⟩ := strictLoop_eq (m.result x) m.delta ((List.range T).map p)
    (fun q => ((m.result x q).map Prod.fst).getD 0) (List.range T) 0 (by
    intro j k hj
    obtain ⟨hj1, hj2⟩ := List.getElem?_eq_some_iff.1 hj
    simp only [List.length_range] at hj1
    simp only [List.getElem_range] at hj2
    subst hj2
    refine ⟨p j, by simp [hj1], ?_⟩
    intro s _
    rw [set_update, result_fixed m n ks F hf h hnd h0]
    rfl)
  refine ⟨c, ?_, by simpa using h2, ?_⟩
  · unfold Mdl.numPartial
    rw [Option.getD_none, hnb, numLoop_strict, h1]
    simp only [h2, List.length_range, le_refl, if_true, Nat.sub_self, List.replicate_zero,
      List.append_nil]
  · intro k hk
    have := h3 k k (p k) (by simp [hk]) (by simp [hk])
    rw [Nat.zero_add, makeNext_eq] at this
    have e : (fun t => ((m.result x (((List.range T).map p).set k t)).map Prod.fst).getD 0) =
        fun t => m.base x (m.check (full n ks F x (Function.update p k t))) := by
      funext t
      rw [set_update, result_fixed m n ks F hf h hnd h0]
      rfl
    rw [e] at this
    refine ⟨_, this, rfl, ?_⟩
    intro d M hS
    have hb := central_bound _ _ _ _ _ (by linarith [hst k]) hS
    calc _ ≤ _ := hb
      _ = _ := by ring

theorem gather_free (m : Mdl) (n : ℕ) (ks : List ℕ) (F : ℕ → Fix ℝ)
    (h : ∀ i ∈ ks, i < n) (hnd : ks.Nodup) (hv : ∀ i ∈ ks, (F i).isModel = false) (x : ℝ) (p : ℕ → ℝ)
    (hok : ∀ i, i < n → i ∉ ks → corrected m i (p (rank ks i)) = p (rank ks i)) :
    gather (m.check (full n ks F x p)) (fm n ks F).parlist = some ((List.range (total n ks F)).map p) := by
  have hx := extra_vals ks F hv
  have hmem : ∀ i ∈ (fm n ks F).parlist, i < n ∧ i ∉ ks := by
    intro i hi
    rw [parlist_eq n ks F h, List.mem_filter, hx] at hi
    simpa using hi
  have hlen : (m.check (full n ks F x p)).length = n := by rw [check_length]; simp [full]
  obtain ⟨vs, g1, g2, g3⟩ := gather_spec (m.check (full n ks F x p)) (fm n ks F).parlist
    (fun i hi => by rw [hlen]; exact (hmem i hi).1)
  rw [g1]
  congr 1
  apply List.ext_getElem?
  intro j
  rw [parlist_length n ks F h hnd] at g2
  by_cases hj : j < total n ks F
  · have hj' : j < (fm n ks F).parlist.length := by rwa [parlist_length n ks F h hnd]
    set i := (fm n ks F).parlist[j] with hi
    obtain ⟨hin, hik⟩ := hmem i (List.getElem_mem hj')
    have hget : (fm n ks F).parlist[j]? = some i := List.getElem?_eq_getElem hj'
    have hr := parlist_get n ks F h i (by omega) hik
    have hnd' : (fm n ks F).parlist.Nodup := by
      rw [parlist_eq n ks F h]; exact List.nodup_range.filter _
    have hj2 : rank ks i = j := by
      obtain ⟨hr1, hr2⟩ := List.getElem?_eq_some_iff.1 hr
      exact (List.Nodup.getElem_inj_iff hnd').1 (hr2.trans hi)
    rw [g3 j i hget, check_get]
    have := hok i hin hik
    simp only [full, List.getElem?_map, List.getElem?_range hin, Option.map_some, Fixed.fullPar, if_neg hik,
      List.getElem?_range hj, hj2]
    rw [← hj2, this]
  · rw [List.getElem?_eq_none (by omega), List.getElem?_eq_none (by simpa using hj)]

/-- C103. When the fixed parameters are numbers, and the other ones that must be positive (non-zero) are
not negative (not zero), the default `partial` of a model without partials is the same as `numPartial`, so
`C103_fixed` tells what it is. -/
theorem C103_fixed_partials (m : Mdl) (n : ℕ) (ks : List ℕ) (F : ℕ → Fix ℝ) (hf : m.fm = fm n ks F)
    (h : ∀ i ∈ ks, i < n) (hnd : ks.Nodup) (h0 : ks ≠ []) (hv : ∀ i ∈ ks, (F i).isModel = false)
    (x : ℝ) (p : ℕ → ℝ)
    (hok : ∀ i, i < n → i ∉ ks → (i ∈ m.pos → 0 ≤ p (rank ks i)) ∧ (i ∈ m.nonZero → p (rank ks i) ≠ 0)) :
    m.partials x ((List.range (total n ks F)).map p) =
      m.numPartial x ((List.range (total n ks F)).map p) none := by
  have hne : (fm n ks F).fixed ≠ [] := by simpa [fm] using h0
  have hnb : m.npbase = total n ks F := by
    rw [Mdl.npbase, hf]; exact (C22_result n ks F h hnd (fun _ => 0) x p).1
  have hfull : (List.range (n + extra ks F)).map (fullPar n ks F x p) = full n ks F x p := by
    rw [extra_vals ks F hv]; rfl
  unfold Mdl.partials Mdl.expand
  rw [hf, if_neg hne, expand_eq n ks F h hnd, hfull]
  simp only
  rw [if_pos ((mlist_nil n ks F).2 hv), if_neg hne]
  unfold Mdl.basePartial
  simp only
  rw [gather_free m n ks F h hnd hv x p (by
    intro i hi hk
    obtain ⟨h1, h2⟩ := hok i hi hk
    unfold corrected
    dsimp only
    rw [if_neg (show ¬ (i ∈ m.nonZero ∧ p (rank ks i) = 0) from fun hc => h2 hc.1 hc.2)]
    split
    · next hp => exact abs_of_nonneg (h1 hp)
    · rfl)]
  simp only [Mdl.numPartial, Option.getD_some, Option.getD_none, hnb, List.length_map,
    List.length_range]

/-! ## Derivative to x -/

/-- C103. The numeric derivative to `x`, without fixed parameters: for every list of parameters it is the
symmetric difference of the result over the first item in `deltaP`, and within `M dx² / 6` of the true
derivative. -/
theorem C103_derivative (m : Mdl) (n : ℕ) (hf : m.fm = ⟨n, []⟩) (dx : ℝ) (hd : m.delta[0]? = some dx)
    (hpos : 0 < dx) (x : ℝ) (p : List ℝ) (hn : p.length = n) :
    ∃ a, m.numDerivative x p = some a ∧ a = central (fun t => m.base t (m.check p)) x dx ∧
      ∀ d M, Smooth (fun t => m.base t (m.check p)) x dx d M → |a - d| ≤ M * dx ^ 2 / 6 := by
  refine ⟨_, ?_, rfl, fun d M hS => central_bound _ _ _ _ _ hpos hS⟩
  unfold Mdl.numDerivative
  rw [hd]
  simp only
  rw [result_plain m n hf _ p hn]
  simp only
  rw [result_plain m n hf _ _ (by rw [check_length]; exact hn), check_idem]
  rfl

/-- C103. The same with fixed parameters. Models among them are evaluated at the moved `x` too: it is the
total derivative. -/
theorem C103_fixed_derivative (m : Mdl) (n : ℕ) (ks : List ℕ) (F : ℕ → Fix ℝ) (hf : m.fm = fm n ks F)
    (h : ∀ i ∈ ks, i < n) (hnd : ks.Nodup) (h0 : ks ≠ []) (dx : ℝ) (hd : m.delta[0]? = some dx)
    (hpos : 0 < dx) (x : ℝ) (p : ℕ → ℝ) :
    ∃ a, m.numDerivative x ((List.range (total n ks F)).map p) = some a ∧
      a = central (fun t => m.base t (m.check (full n ks F t p))) x dx ∧
      ∀ d M, Smooth (fun t => m.base t (m.check (full n ks F t p))) x dx d M →
        |a - d| ≤ M * dx ^ 2 / 6 := by
  refine ⟨_, ?_, rfl, fun d M hS => central_bound _ _ _ _ _ hpos hS⟩
  unfold Mdl.numDerivative
  rw [hd]
  simp only
  rw [result_fixed m n ks F hf h hnd h0]
  simp only
  rw [result_fixed m n ks F hf h hnd h0]
  rfl

/-! ## Whole models and likelihoods -/

/-- C103. The strictly numeric partials of a (compound) model, with any result that leaves its parameters
alone: one column for each parameter in the list `ks`, within `M dp² / 24` of the true derivative to that
parameter; the steps are those in `deltaP`, in the order of the list. -/
theorem C103_strict (res : List ℝ → ℝ) (delta : List ℝ) (hd : delta ≠ []) (hpos : ∀ d ∈ delta, 0 < d)
    (p : List ℝ) (ks : List ℕ) (hk : ∀ k ∈ ks, k < p.length) :
    ∃ c, strictLoop (fun q => some (res q, q)) delta p ks 0 p = some c ∧ c.length = ks.length ∧
      ∀ (j k : ℕ) (v : ℝ), ks[j]? = some k → p[k]? = some v → ∃ a, c[j]? = some a ∧
        a = central (fun t => res (p.set k t)) v (step delta j / 2) ∧
        ∀ d M, Smooth (fun t => res (p.set k t)) v (step delta j / 2) d M →
          |a - d| ≤ M * step delta j ^ 2 / 24 := by
  obtain ⟨c, h1, h2, h3⟩ := strictLoop_eq (fun q => some (res q, q)) delta p res ks 0 (by
    intro j k hj
    have hl : k < p.length := hk k (List.mem_of_getElem? hj)
    exact ⟨p[k], List.getElem?_eq_getElem hl, fun s _ => rfl⟩)
  refine ⟨c, h1, h2, ?_⟩
  intro j k v hj hv
  have := h3 j k v hj hv
  rw [Nat.zero_add, makeNext_eq] at this
  refine ⟨_, this, rfl, ?_⟩
  intro d M hS
  have hb := central_bound _ _ _ _ _ (by linarith [step_pos delta hd hpos j]) hS
  calc _ ≤ _ := hb
    _ = _ := by ring

theorem numLogLoop_eq (logL : List ℝ → ℝ) (delta : ℝ) (p : List ℝ) (ks : List ℕ)
    (hk : ∀ k ∈ ks, k < p.length) :
    ∃ c, numLogLoop logL delta p ks p = some c ∧ c.length = ks.length ∧
      ∀ (j k : ℕ) (v : ℝ), ks[j]? = some k → p[k]? = some v →
        c[j]? = some (central (fun t => logL (p.set k t)) v delta) := by
  induction ks with
  | nil => exact ⟨[], rfl, rfl, by simp⟩
  | cons k ks ih =>
    obtain ⟨c, h1, h2, h3⟩ := ih fun k' h' => hk k' (by simp [h'])
    have hl : k < p.length := hk k (by simp)
    have hv : p[k]? = some p[k] := List.getElem?_eq_getElem hl
    refine ⟨central (fun t => logL (p.set k t)) p[k] delta :: c, ?_, by simp [h2], ?_⟩
    · simp only [numLogLoop, hv]
      rw [List.set_set, set_back _ _ _ _ hv, h1]
      simp only [Option.map_some, central]
      congr 2
      ring
    · intro j k' v' hj hv'
      cases j with
      | zero =>
        obtain rfl : k = k' := by simpa using hj
        rw [hv] at hv'
        obtain rfl := Option.some.inj hv'
        rfl
      | succ j => simpa using h3 j k' v' (by simpa using hj) hv'

/-- C103. The numeric partials of the log-likelihood, which are used whenever the exact calculation raises
an exception: for every list of fitted parameters one item for each, within `M deltaP² / 6` of the true
derivative of the log-likelihood. -/
theorem C103_likelihood (logL : List ℝ → ℝ) (delta : ℝ) (hd : 0 < delta) (p : List ℝ) (ks : List ℕ)
    (hk : ∀ k ∈ ks, k < p.length) :
    ∃ c, partialLogL none logL delta p ks = some c ∧ c.length = ks.length ∧
      ∀ (j k : ℕ) (v : ℝ), ks[j]? = some k → p[k]? = some v → ∃ a, c[j]? = some a ∧
        a = central (fun t => logL (p.set k t)) v delta ∧
        ∀ d M, Smooth (fun t => logL (p.set k t)) v delta d M → |a - d| ≤ M * delta ^ 2 / 6 := by
  obtain ⟨c, h1, h2, h3⟩ := numLogLoop_eq logL delta p ks hk
  exact ⟨c, h1, h2, fun j k v hj hv =>
    ⟨_, h3 j k v hj hv, rfl, fun d M hS => central_bound _ _ _ _ _ hd hS⟩⟩

/-! ## UserModel -/

theorem rows_spec (f : ℝ → Option (List ℝ)) (xs : List ℝ) (t : List (List ℝ)) (h : rows f xs = some t) :
    t.length = xs.length ∧ ∀ (i : ℕ) (x : ℝ), xs[i]? = some x → f x = t[i]? := by
  induction xs generalizing t with
  | nil => simp [rows] at h; simp [← h]
  | cons x xs ih =>
    simp only [rows] at h
    split at h
    · rename_i r rs h1 h2
      obtain rfl := Option.some.inj h
      obtain ⟨a, b⟩ := ih rs h2
      refine ⟨by simp [a], ?_⟩
      intro i y hy
      cases i with
      | zero => obtain rfl : x = y := by simpa using hy
                simpa using h1
      | succ i => simpa using b i y (by simpa using hy)
    · simp at h

theorem rows_some (f : ℝ → Option (List ℝ)) (xs : List ℝ) (h : ∀ x ∈ xs, ∃ c, f x = some c) :
    ∃ t, rows f xs = some t := by
  induction xs with
  | nil => exact ⟨[], rfl⟩
  | cons x xs ih =>
    obtain ⟨c, hc⟩ := h x (by simp)
    obtain ⟨t, ht⟩ := ih fun y hy => h y (by simp [hy])
    exact ⟨c :: t, by simp [rows, hc, ht]⟩

/-- C103. A `UserModel` without partials, and without fixed parameters: the table has a row for each data
point, which is the row of numeric partials at that point (see `C103_partials`). -/
theorem C103_user (m : Mdl) (n : ℕ) (hf : m.fm = ⟨n, []⟩) (hd : m.delta ≠ [])
    (hpos : ∀ d ∈ m.delta, 0 < d) (xs : List ℝ) (p : List ℝ) (hn : p.length = n)
    (hall : ∀ (k : ℕ) (v : ℝ), p[k]? = some v → Allowed m (step m.delta) k v) :
    ∃ t, userNumPartials m xs p = some t ∧ t.length = xs.length ∧
      ∀ (i : ℕ) (x : ℝ), xs[i]? = some x → m.partials x p = t[i]? := by
  have he : ∀ x, m.partials x p = m.numPartial x ((m.check p).take m.npbase) none := by
    intro x
    unfold Mdl.partials Mdl.expand
    rw [npbase_plain m n hf, List.take_of_length_le (by rw [check_length]; omega), hf]
    simp only [if_true]
    rw [if_pos (by rfl)]
    rfl
  have hu : userNumPartials m xs p = rows (fun x => m.partials x p) xs := by
    unfold userNumPartials
    rw [if_pos (by rw [hf])]
    congr 1
    funext x
    exact (he x).symm
  obtain ⟨t, ht⟩ := rows_some (fun x => m.partials x p) xs fun x _ => by
    obtain ⟨c, hc, _⟩ := C103_partials m n hf hd hpos x p hn hall
    exact ⟨c, hc⟩
  obtain ⟨a, b⟩ := rows_spec _ _ _ ht
  exact ⟨t, hu.trans ht, a, b⟩

/-- C103, where it fails. A `UserModel` with partials of the user, with numbers as fixed parameters: what
`partial` returns has not one row for each data point and one column for each free parameter. It has one
row for each *free parameter*, which is the full row (with the fixed parameters) at the data point with
the number of that parameter; when there are not that many data points there is an IndexError. -/
theorem C103_counterexample_rows (n : ℕ) (ks : List ℕ) (F : ℕ → Fix ℝ)
    (h : ∀ i ∈ ks, i < n) (hnd : ks.Nodup) (h0 : ks ≠ []) (hv : ∀ i ∈ ks, (F i).isModel = false)
    (user : List ℝ → List ℝ → List (List ℝ)) (xs : List ℝ) (p : ℕ → ℝ) :
    (∀ t, userPartials (fm n ks F) user xs ((List.range (total n ks F)).map p) = some t →
      t.length = total n ks F ∧
      ∀ i, i < n → i ∉ ks → t[rank ks i]? = (user xs (full n ks F 0 p))[i]?) ∧
    ((user xs (full n ks F 0 p)).length = xs.length → (∃ i, xs.length ≤ i ∧ i < n ∧ i ∉ ks) →
      userPartials (fm n ks F) user xs ((List.range (total n ks F)).map p) = none) := by
  have hne : (fm n ks F).fixed ≠ [] := by simpa [fm] using h0
  have hx := extra_vals ks F hv
  have he : userPartials (fm n ks F) user xs ((List.range (total n ks F)).map p) =
      gather (user xs (full n ks F 0 p)) (fm n ks F).parlist := by
    unfold userPartials
    rw [if_neg hne, expand_eq n ks F h hnd, hx]
    rfl
  rw [he]
  have hspec := fun t ht => gather_some (user xs (full n ks F 0 p)) (fm n ks F).parlist t ht
  refine ⟨?_, ?_⟩
  · intro t ht
    obtain ⟨a, b⟩ := hspec t ht
    obtain ⟨vs, g1, _, g3⟩ := gather_spec _ _ b
    rw [ht] at g1
    obtain rfl := Option.some.inj g1
    rw [parlist_length n ks F h hnd] at a
    exact ⟨a, fun i hi hk => g3 _ _ (parlist_get n ks F h i (by omega) hk)⟩
  · rintro hl ⟨i, h1, h2, h3⟩
    cases ht : gather (user xs (full n ks F 0 p)) (fm n ks F).parlist with
    | none => rfl
    | some t =>
      have := (hspec t ht).2 i (List.mem_of_getElem? (parlist_get n ks F h i (by omega) h3))
      omega

/-- A line with parameters `p0 + p1 x`. -/
def line (fixed : List (ℕ × Fix ℝ)) (pos : List ℕ) : Mdl :=
  ⟨fun x p => p.getD 0 0 + p.getD 1 0 * x, ⟨2, fixed⟩, pos, [], 1, [1]⟩

/-- C103, where it fails. The derivative to `x` of a `UserModel` (a line of which the first parameter is
fixed at 1) without derivative of the user: the slope is `b`, but the derivative is 1 for every `b`, as
the fixed value is taken for the free parameter. -/
theorem C103_counterexample_user (x b : ℝ) :
    (line [(0, .val 1)] []).result x [b] = some (1 + b * x, [b]) ∧
    userNumDerivative (line [(0, .val 1)] []) x [b] = some 1 := by
  have hp : (FM.mk 2 [(0, Fix.val (1 : ℝ))]).parlist = [1] := by
    exact (parlist_eq 2 [0] (fun _ => Fix.val (1 : ℝ)) (by simp)).trans (by decide)
  refine ⟨?_, ?_⟩
  · simp [Mdl.result, Mdl.expand, line, FM.expand, hp, FM.npb, scatter, FM.mlist, values, Mdl.check,
      Mdl.checkPositive, Mdl.checkZero, Fix.isModel, Fix.np]
  · simp [userNumDerivative, Mdl.numDerivative, Mdl.npbase, FM.npbase, Mdl.result, Mdl.expand, line,
      FM.expand, hp, FM.npb, scatter, FM.mlist, values, Mdl.check,
      Mdl.checkPositive, Mdl.checkZero, Fix.isModel, Fix.np]
    ring

/-- C103, where it fails. A `UserModel` without partials that has been extended in place with another model
(that has parameters) raises an IndexError on every call of `partial`: for its own part it asks the numeric
partials of the whole chain, with only its own parameters. -/
theorem C103_counterexample_chain (x : ℝ) (user other : Mdl) (rest : List Mdl) (p : List ℝ)
    (ho : other.npbase ≠ 0) :
    userChainPartial x user (other :: rest) p = none := by
  have hdrop : (user.check (p.take user.npbase)).drop user.npbase = [] := by
    rw [List.drop_eq_nil_iff, check_length]
    simp
  have h1 : other.numPartial x [] none = none := by
    obtain ⟨k, hk⟩ := Nat.exists_eq_succ_of_ne_zero ho
    unfold Mdl.numPartial
    rw [Option.getD_none, hk, List.range_succ_eq_map]
    simp only [numLoop]
    cases hr1 : other.result x (List.modify [] 0 (· + 0.5 * makeNext other.delta 0)) with
    | none => rfl
    | some r1 =>
      obtain ⟨r1, p1⟩ := r1
      simp only
      cases hr2 : other.result x (p1.modify 0 (· - makeNext other.delta 0)) with
      | none => rfl
      | some r2 => rfl
  have h2 : chainNumPartial x (user :: other :: rest) (user.check (p.take user.npbase)) = none := by
    simp only [chainNumPartial]
    cases user.numPartial x ((user.check (p.take user.npbase)).take user.npbase) none with
    | none => rfl
    | some c =>
      simp only [hdrop, List.take_nil, h1, Option.map_none]
  unfold userChainPartial
  rw [h2]

/-! ## Positive parameters -/

/-- C103, where it fails. Evaluating a model changes the array of parameters of the caller: negative
values of parameters that should be positive are replaced there. -/
theorem C103_counterexample_array (x b : ℝ) :
    (line [] [0]).result x [-1, b] = some (1 + b * x, [1, b]) := by
  simp [Mdl.result, Mdl.expand, line, Mdl.check, Mdl.checkPositive, Mdl.checkZero]

/-- C103, where it fails. The condition on the positive parameters in `C103_partials` is needed. Closer to
zero than half a step the numeric partial goes down to zero (here `2 v / dp` with step 1, where it should
be 1); and for a negative value `numPartial` has the wrong sign: the result is `- v + b x`, with
derivative -1, the numeric one is +1. -/
theorem C103_counterexample_positive (x b v : ℝ) :
    (0 ≤ v → v ≤ 1 / 2 → ((line [] [0]).partials x [v, b]).bind (·[0]?) = some (2 * v)) ∧
    (v ≤ - (3 / 2) → ((line [] [0]).result x [v, b]).map Prod.fst = some (- v + b * x) ∧
      ((line [] [0]).numPartial x [v, b] none).bind (·[0]?) = some 1) := by
  have hr : List.range 2 = [0, 1] := rfl
  refine ⟨?_, ?_⟩
  · intro h1 h2
    have a1 : |v| = v := abs_of_nonneg h1
    have a2 : |v + 1 / 2| = v + 1 / 2 := abs_of_nonneg (by linarith)
    have a3 : |v + 1 / 2 - 1| = 1 / 2 - v := by rw [abs_of_nonpos (by linarith)]; ring
    norm_num [Mdl.partials, Mdl.basePartial, Mdl.numPartial, Mdl.npbase, FM.npbase, FM.npb, numLoop,
      makeNext, Mdl.result, Mdl.expand, line, Mdl.check, Mdl.checkPositive, Mdl.checkZero, FM.mlist, hr,
      a1, a2, a3]
    ring
  · intro h1
    have a1 : |v| = - v := abs_of_nonpos (by linarith)
    have a2 : |v + 1 / 2| = - v - 1 / 2 := by rw [abs_of_nonpos (by linarith)]; ring
    have a3 : |- v - 1 / 2 - 1| = - v - 3 / 2 := by rw [abs_of_nonneg (by linarith)]; ring
    norm_num [Mdl.partials, Mdl.basePartial, Mdl.numPartial, Mdl.npbase, FM.npbase, FM.npb, numLoop,
      makeNext, Mdl.result, Mdl.expand, line, Mdl.check, Mdl.checkPositive, Mdl.checkZero, FM.mlist, hr,
      a1, a2, a3]

/-! ## Models among the fixed parameters -/

/-- The model `c x` with one parameter, and the line `c + d x`. -/
def slope : Fix ℝ := .mdl 1 (fun x q => q.getD 0 0 * x) (fun x _ => [x])
def poly1 : Fix ℝ := .mdl 2 (fun x q => q.getD 0 0 + q.getD 1 0 * x) (fun x _ => [1, x])

/-- A product `p0 p1` of two parameters, without partials. -/
def prod (fixed : List (ℕ × Fix ℝ)) : Mdl :=
  ⟨fun _ p => p.getD 0 0 * p.getD 1 0, ⟨2, fixed⟩, [], [], 1, [1]⟩

/-- C103, where it fails. `C103_fixed_partials` does not hold for models among the fixed parameters. The
first parameter of `p0 p1` is replaced by `c x`: the result is `c x p1`, the true partials are `c x` and
`x p1`; the default `partial` returns `c x²` and `x² p1`. -/
theorem C103_counterexample_model (x c b : ℝ) :
    (prod [(0, slope)]).result x [b, c] = some (c * x * b, [b, c]) ∧
    (prod [(0, slope)]).partials x [b, c] = some [c * x * x, b * x * x] := by
  have hp : ∀ f g, (FM.mk 2 [(0, Fix.mdl (α := ℝ) 1 f g)]).parlist = [1, 2] := fun f g =>
    (parlist_eq 2 [0] (fun _ => Fix.mdl 1 f g) (by simp)).trans (by rfl)
  have hr : List.range 2 = [0, 1] := rfl
  have hr1 : List.range 1 = [0] := rfl
  refine ⟨?_, ?_⟩
  · simp [Mdl.result, Mdl.expand, prod, FM.expand, hp, FM.npb, scatter, FM.mlist, expLoop, Mdl.check,
      Mdl.checkPositive, Mdl.checkZero, Fix.isModel, Fix.np, slope]
  · norm_num [Mdl.partials, Mdl.basePartial, Mdl.numPartial, Mdl.npbase, FM.npbase, FM.npb, numLoop,
      makeNext, Mdl.result, Mdl.expand, prod, Mdl.check, Mdl.checkPositive, Mdl.checkZero, FM.mlist, hr,
      hr1, FM.expand, hp, scatter, expLoop, Fix.isModel, Fix.np, slope, gather, partLoop]
    have hrep : List.replicate 2 (0 : ℝ) = [0, 0] := rfl
    rw [hrep]
    simp only [List.set_cons_zero, List.set_cons_succ, List.cons.injEq, and_true]
    constructor <;> ring

/-- C103, where it fails. When the replacing model has two parameters the default `partial` raises for all
values of the parameters, though the result is fine. -/
theorem C103_counterexample_raises (x b c d : ℝ) :
    (prod [(0, poly1)]).result x [b, c, d] = some ((c + d * x) * b, [b, c, d]) ∧
    (prod [(0, poly1)]).partials x [b, c, d] = none := by
  have hp : ∀ f g, (FM.mk 2 [(0, Fix.mdl (α := ℝ) 2 f g)]).parlist = [1, 2, 3] := fun f g =>
    (parlist_eq 2 [0] (fun _ => Fix.mdl 2 f g) (by simp)).trans (by rfl)
  have hr : List.range 2 = [0, 1] := rfl
  refine ⟨?_, ?_⟩
  · simp [Mdl.result, Mdl.expand, prod, FM.expand, hp, FM.npb, scatter, FM.mlist, expLoop, Mdl.check,
      Mdl.checkPositive, Mdl.checkZero, Fix.isModel, Fix.np, poly1]
  · norm_num [Mdl.partials, Mdl.basePartial, Mdl.numPartial, Mdl.npbase, FM.npbase, FM.npb, numLoop,
      makeNext, Mdl.result, Mdl.expand, prod, Mdl.check, Mdl.checkPositive, Mdl.checkZero, FM.mlist, hr,
      FM.expand, hp, scatter, expLoop, Fix.isModel, Fix.np, poly1, gather, partLoop]

/-! ## AstropyModel -/

/-- C103. The partials of a wrapped astropy model with numbers as fixed parameters: for all values there is
exactly one column for each free parameter, which is the partial of the astropy model to that parameter at
the filled-in parameters. (Nothing is left of what happened to be in the new array.) -/
theorem C103_astropy (n : ℕ) (ks : List ℕ) (F : ℕ → Fix ℝ)
    (h : ∀ i ∈ ks, i < n) (hnd : ks.Nodup) (hv : ∀ i ∈ ks, (F i).isModel = false)
    (fitDeriv : List ℝ → List ℝ) (hlen : ∀ q, q.length = n → (fitDeriv q).length = n) (junk x : ℝ)
    (p : ℕ → ℝ) :
    ∃ c, astroPartials (fm n ks F) fitDeriv junk x ((List.range (total n ks F)).map p) = some c ∧
      c.length = total n ks F ∧
      ∀ i, i < n → i ∉ ks → c[rank ks i]? = (fitDeriv (full n ks F x p))[i]? := by
  have hx := extra_vals ks F hv
  have hfl : (full n ks F x p).length = n := by simp [full]
  by_cases h0 : ks = []
  · subst h0
    have hT : total n [] F = n := by simp [total, extra]
    have hfull : full n [] F x p = (List.range n).map p := by
      unfold full
      apply List.map_congr_left
      intro i hi
      simp only [Fixed.fullPar, List.not_mem_nil, if_false]
      congr 1
      simp [rank]
    refine ⟨fitDeriv ((List.range (total n [] F)).map p), ?_, ?_, ?_⟩
    · simp [astroPartials, fm, astroBasePartial]
    · rw [hlen _ (by simp [hT]), hT]
    · intro i hi _
      rw [hfull, hT]
      congr 1
      simp [rank]
  · have hne : (fm n ks F).fixed ≠ [] := by simpa [fm] using h0
    have hnb : (fm n ks F).npbase = total n ks F := (C22_result n ks F h hnd (fun _ => 0) x p).1
    obtain ⟨c, g1, g2, g3⟩ := gather_spec (fitDeriv (full n ks F x p)) (fm n ks F).parlist (by
      intro i hi
      rw [parlist_eq n ks F h, List.mem_filter, hx] at hi
      rw [hlen _ hfl]
      simpa using hi.1)
    rw [parlist_length n ks F h hnd] at g2
    refine ⟨c, ?_, g2, fun i hi hk => g3 _ _ (parlist_get n ks F h i (by omega) hk)⟩
    have hfull : (List.range (n + extra ks F)).map (fullPar n ks F x p) = full n ks F x p := by
      rw [hx]; rfl
    unfold astroPartials
    rw [if_neg hne, expand_eq n ks F h hnd, hfull, hnb]
    simp only [astroBasePartial, g1, g2, le_refl, if_true, Nat.sub_self, List.replicate_zero,
      List.append_nil]

/-- C103, where it fails. The derivative to `x` of a wrapped astropy model is never a number: when it does
not raise it is `None`. -/
theorem C103_counterexample_astropy (m : Mdl) (x : ℝ) (param : List ℝ) (d : Option ℝ)
    (h : astroDerivative m x param = some d) : d = none := by
  unfold astroDerivative at h
  split at h
  · simp at h
  · simp only [Option.map_eq_some_iff] at h
    obtain ⟨_, _, rfl⟩ := h
    rfl

/-! ## Examples -/

/-- A line with positive first parameter 3: the partials are 1 and x, with two different steps. -/
example (x : ℝ) : ∃ c, (Mdl.mk (fun x p => p.getD 0 0 + p.getD 1 0 * x) ⟨2, []⟩ [0] [] 1
    [1, 1 / 2]).partials x [3, -4] = some c ∧ c = [1, x] := by
  have hr : List.range 2 = [0, 1] := rfl
  refine ⟨_, ?_, rfl⟩
  norm_num [Mdl.partials, Mdl.basePartial, Mdl.numPartial, Mdl.npbase, FM.npbase, FM.npb, numLoop,
    makeNext, Mdl.result, Mdl.expand, line, Mdl.check, Mdl.checkPositive, Mdl.checkZero, FM.mlist, hr]
  ring

example : ∀ (k : ℕ) (v : ℝ), ([3, -4] : List ℝ)[k]? = some v → Allowed (line [] [0]) (step [1]) k v := by
  intro k v h
  match k with
  | 0 =>
    obtain rfl : (3 : ℝ) = v := by simpa using h
    norm_num [Allowed, line, step]
  | 1 => simp [Allowed, line]
  | k + 2 => simp at h

/-- A cubic is smooth: the error in the numeric derivative is `h²`, as large as the bound allows. -/
example (v h : ℝ) (hh : 0 < h) : Smooth (fun t => t ^ 3) v h (3 * v ^ 2) 6 ∧
    |central (fun t => t ^ 3) v h - 3 * v ^ 2| = 6 * h ^ 2 / 6 := by
  refine ⟨⟨fun t => 3 * t ^ 2, fun t => 6 * t, fun _ => 6, rfl, fun t _ => ⟨?_, ?_, ?_, by norm_num⟩⟩,
    ?_⟩
  · simpa using hasDerivAt_pow 3 t
  · exact ((hasDerivAt_pow 2 t).const_mul 3).congr_deriv (by norm_num; ring)
  · simpa using (hasDerivAt_id t).const_mul (6 : ℝ)
  · have : central (fun t => t ^ 3) v h - 3 * v ^ 2 = h ^ 2 := by
      unfold central
      field_simp
      ring
    rw [this, abs_of_nonneg (by positivity)]
    ring

/-- The hypotheses of the theorems about fixed parameters are met by a line with its first parameter fixed
at 1. -/
example : (line [(0, .val 1)] []).fm = fm 2 [0] (fun _ => .val 1) ∧ total 2 [0] (fun _ => Fix.val (1 : ℝ)) = 1 ∧
    rank [0] 1 = 0 := ⟨rfl, by decide, by decide⟩

end

end BF.NumPartial
