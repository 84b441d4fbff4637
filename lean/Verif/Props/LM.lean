import Verif.LM
import Verif.Props.Fitters

/-!
# C32: the Levenberg-Marquardt fitter
-/

namespace BF.LM

open Finset BF.Fitters

variable {X : Type*}

/-- The value `v` obeys the limits `l`. -/
def Lim.Within (l : Lim) (v : ℝ) : Prop :=
  (∀ lo, l.low = some lo → lo ≤ v) ∧ (∀ hi, l.high = some hi → v ≤ hi)

/-- The low limit is not above the high limit. -/
def Lim.Ok (l : Lim) : Prop := ∀ lo hi, l.low = some lo → l.high = some hi → lo ≤ hi

/-- Chi squared, with the extra measurements of `normalize`: the quantity that is minimised. -/
noncomputable def total (m : Nl X) (d : Data X) (s : Fitter) (p : ℕ → ℝ) : ℝ :=
  ∑ i ∈ range d.n, (d.y i - m.result (d.x i) p) ^ 2 * d.fitWgts i
    + ∑ i ∈ range s.nnorm, (∑ k ∈ range m.np, s.normdfdp i k * p k - s.normdata i) ^ 2 * s.normweight i

theorem chiExtra_some (m : Nl X) (d : Data X) (s : Fitter) (p : ℕ → ℝ) (c : ℝ)
    (h : chiExtra m d s p = some c) : c = total m d s p := by
  unfold chiExtra at h
  split_ifs at h
  exact (Option.some.inj h).symm

theorem clip_within (l : Lim) (h : l.Ok) (v : ℝ) : l.Within (l.clip v) := by
  obtain ⟨lo, hi⟩ := l
  unfold Lim.Within Lim.clip
  rcases lo with _ | lo <;> rcases hi with _ | hi <;> simp only [reduceCtorEq, false_implies,
    implies_true, Option.some.injEq, true_and, and_true, forall_eq']
  · split_ifs with h1
    · exact le_refl _
    · exact not_lt.1 h1
  · split_ifs with h1
    · exact le_refl _
    · exact not_lt.1 h1
  · have := h lo hi rfl rfl
    split_ifs with h1 h2
    · exact ⟨le_refl _, this⟩
    · exact ⟨this, le_refl _⟩
    · exact ⟨not_lt.1 h1, not_lt.1 h2⟩

/-! ### One trial -/

theorem trial_spec (S : Setup X) (params vec : ℕ → ℝ) (chi : ℝ) (same : Bool) (left : ℕ)
    (hes : ℕ → ℕ → ℝ) (lamda : ℝ) (mp : ℕ → ℝ) (st : Step)
    (h : trialLoop S params vec chi same left hes lamda mp = .ok st) :
    (∃ newpar, st.params = insertParameters S.m.np params (checkLimits S.m.np S.lims S.fi newpar) S.fi) ∧
    chiExtra S.m S.d S.s st.params = some st.chi ∧ st.chi ≤ chi ∧ st.left < left := by
  induction left generalizing hes lamda mp with
  | zero => simp [trialLoop] at h
  | succ left ih =>
    simp only [trialLoop] at h
    split at h
    · cases h
    · rename_i dx _
      split at h
      · cases h
      · rename_i c hc
        by_cases hle : c ≤ chi
        · rw [if_pos hle] at h
          cases h
          exact ⟨⟨_, rfl⟩, hc, hle, Nat.lt_succ_self _⟩
        · rw [if_neg hle] at h
          obtain ⟨h1, h2, h3, h4⟩ := ih _ _ _ h
          exact ⟨h1, h2, h3, by omega⟩

theorem trial_error (S : Setup X) (params vec : ℕ → ℝ) (chi : ℝ) (same : Bool) (left : ℕ)
    (hes : ℕ → ℕ → ℝ) (lamda : ℝ) (mp : ℕ → ℝ) (f : Fail)
    (h : trialLoop S params vec chi same left hes lamda mp = .error f) : f.err ≠ .fuel := by
  induction left generalizing hes lamda mp with
  | zero =>
    simp only [trialLoop, Except.error.injEq] at h
    simp [← h]
  | succ left ih =>
    simp only [trialLoop] at h
    split at h
    · simp only [Except.error.injEq] at h
      simp [← h]
    · split at h
      · simp only [Except.error.injEq] at h
        simp [← h]
      · rename_i c _
        by_cases hle : c ≤ chi
        · rw [if_pos hle] at h
          cases h
        · rw [if_neg hle] at h
          exact ih _ _ _ h

/-- An accepted step: what it comes from. -/
def Accepted (S : Setup X) (before : ℕ → ℝ) (after : (ℕ → ℝ) × ℝ) : Prop :=
  (∃ newpar, after.1
    = insertParameters S.m.np before (checkLimits S.m.np S.lims S.fi newpar) S.fi) ∧
  chiExtra S.m S.d S.s after.1 = some after.2

/-- A chain of accepted steps that starts from parameters `p` and chi squared `c`. -/
def Chain (S : Setup X) : (ℕ → ℝ) → ℝ → List ((ℕ → ℝ) × ℝ) → Prop
  | _, _, [] => True
  | p, c, st :: l => Accepted S p st ∧ st.2 ≤ c ∧ Chain S st.1 st.2 l

/-- The last chi squared before the end of a list that starts with `c`. -/
def before (c : ℝ) (l : List ((ℕ → ℝ) × ℝ)) : ℝ := (l.dropLast.getLast?.map Prod.snd).getD c

theorem main_spec (S : Setup X) (tolerance : ℝ) (fuel left : ℕ) (lamda chi : ℝ) (trypar mp : ℕ → ℝ)
    (same : Bool) (steps : List ((ℕ → ℝ) × ℝ)) (r : Done)
    (h : mainLoop S tolerance fuel left lamda chi trypar mp same steps = .ok r) :
    ∃ new, r.steps = steps ++ new ∧ new.getLast? = some (r.params, r.chi) ∧ Chain S trypar chi new ∧
      new.length + r.left ≤ left ∧
      |before chi new - r.chi|
        < (if before chi new < 1 then tolerance else tolerance * before chi new) := by
  induction fuel generalizing left lamda chi trypar mp same steps with
  | zero => simp [mainLoop] at h
  | succ fuel ih =>
    simp only [mainLoop] at h
    by_cases h0 : left = 0
    · rw [if_pos h0] at h
      cases h
    rw [if_neg h0] at h
    split at h
    · cases h
    · rename_i st hst
      obtain ⟨h1, h2, h3, h4⟩ := trial_spec S _ _ _ _ _ _ _ _ _ hst
      by_cases hc : |chi - st.chi| < (if chi < 1 then tolerance else tolerance * chi)
      · rw [if_pos hc] at h
        cases h
        refine ⟨[(st.params, st.chi)], rfl, rfl, ⟨⟨h1, h2⟩, h3, trivial⟩, ?_, hc⟩
        simp only [List.length_singleton]
        omega
      · rw [if_neg hc] at h
        obtain ⟨new, e, hl, hch, hlen, htol⟩ := ih _ _ _ _ _ _ _ h
        refine ⟨(st.params, st.chi) :: new, by simp [e], ?_, ⟨⟨h1, h2⟩, h3, hch⟩, ?_, ?_⟩
        · rcases new with _ | ⟨a, l⟩
          · simp at hl
          · simpa [List.getLast?_cons] using hl
        · simp only [List.length_cons]
          omega
        · rcases new with _ | ⟨a, l⟩
          · simp at hl
          · have : before chi ((st.params, st.chi) :: a :: l) = before st.chi (a :: l) := by
              unfold before
              rcases l with _ | ⟨b, l⟩
              · simp
              · simp [List.getLast?_cons]
            rw [this]
            exact htol

theorem main_error (S : Setup X) (tolerance : ℝ) (fuel left : ℕ) (lamda chi : ℝ) (trypar mp : ℕ → ℝ)
    (same : Bool) (steps : List ((ℕ → ℝ) × ℝ)) (f : Fail) (hf : left < fuel)
    (h : mainLoop S tolerance fuel left lamda chi trypar mp same steps = .error f) : f.err ≠ .fuel := by
  induction fuel generalizing left lamda chi trypar mp same steps with
  | zero => omega
  | succ fuel ih =>
    simp only [mainLoop] at h
    by_cases h0 : left = 0
    · rw [if_pos h0] at h
      cases h
      simp
    · rw [if_neg h0] at h
      split at h
      · rename_i f' hst
        cases h
        exact trial_error S _ _ _ _ _ _ _ _ _ hst
      · rename_i st hst
        obtain ⟨h1, h2, h3, h4⟩ := trial_spec S _ _ _ _ _ _ _ _ _ hst
        by_cases hc : |chi - st.chi| < (if chi < 1 then tolerance else tolerance * chi)
        · rw [if_pos hc] at h
          cases h
        · rw [if_neg hc] at h
          exact ih _ _ _ _ _ _ _ (by omega) h

theorem chain_facts (S : Setup X) (p : ℕ → ℝ) (c : ℝ) (l : List ((ℕ → ℝ) × ℝ)) (h : Chain S p c l) :
    (∀ st ∈ l, st.2 ≤ c) ∧ (l.map Prod.snd).Pairwise (fun a b => b ≤ a) ∧
    (∀ st ∈ l, chiExtra S.m S.d S.s st.1 = some st.2) := by
  induction l generalizing p c with
  | nil => simp
  | cons st l ih =>
    obtain ⟨h1, h2, h3⟩ := h
    obtain ⟨i1, i2, i3⟩ := ih _ _ h3
    refine ⟨?_, ?_, ?_⟩
    · intro x hx
      rcases List.mem_cons.1 hx with rfl | hx
      · exact h2
      · exact (i1 x hx).trans h2
    · rw [List.map_cons, List.pairwise_cons]
      refine ⟨?_, i2⟩
      intro b hb
      obtain ⟨x, hx, rfl⟩ := List.mem_map.1 hb
      exact i1 x hx
    · intro x hx
      rcases List.mem_cons.1 hx with rfl | hx
      · exact h1.2
      · exact i3 x hx

theorem chain_index (S : Setup X) (f : ℕ → Bool) (hfi : S.fi = indexOf S.m.np f)
    (p : ℕ → ℝ) (c : ℝ) (l : List ((ℕ → ℝ) × ℝ)) (h : Chain S p c l) :
    (∀ lims, S.lims = some lims → (∀ k, (lims k).Ok) →
      ∀ st ∈ l, ∀ k < S.m.np, f k = true → (lims k).Within (st.1 k)) ∧
    (∀ st ∈ l, ∀ k < S.m.np, f k = false → st.1 k = p k) := by
  induction l generalizing p c with
  | nil => simp
  | cons st l ih =>
    obtain ⟨⟨⟨newpar, hnew⟩, _⟩, _, h3⟩ := h
    obtain ⟨i1, i2⟩ := ih _ _ h3
    rw [hfi] at hnew
    obtain ⟨hins, hkept⟩ := insert_spec S.m.np f p (checkLimits S.m.np S.lims (indexOf S.m.np f) newpar)
    have hk0 : ∀ k < S.m.np, f k = false → st.1 k = p k := by
      intro k hk hf
      rw [hnew]
      apply hkept k hk
      simp [indexOf, hf]
    constructor
    · intro lims hl hok x hx k hk hf
      rcases List.mem_cons.1 hx with rfl | hx
      · have hmem : k ∈ (List.range S.m.np).filter f := by simp [hk, hf]
        obtain ⟨a, ha, e⟩ := List.getElem_of_mem hmem
        have hget : ((List.range S.m.np).filter f).getD a 0 = k := by
          rw [List.getD_eq_getElem?_getD, List.getElem?_eq_getElem ha, e]
          rfl
        have hal : a < (indexOf S.m.np f).length := by rw [index_length]; exact ha
        have hins := hins a k (by rw [filter_at S.m.np f a hal, hget])
        rw [hnew, hins]
        simp only [checkLimits, hl, index_at, hget]
        exact clip_within _ (hok k) _
      · exact i1 lims hl hok x hx k hk hf
    · intro x hx k hk hf
      rcases List.mem_cons.1 hx with rfl | hx
      · exact hk0 k hk hf
      · rw [i2 x hx k hk hf, hk0 k hk hf]

/-! ### The whole fit -/

theorem fit_chain (solve : ℕ → (ℕ → ℕ → ℝ) → (ℕ → ℝ) → Option (ℕ → ℝ)) (m : Nl X) (d : Data X)
    (s : Fitter) (lims : Option (ℕ → Lim)) (keep : Option (List (ℤ × ℝ))) (par0 : Option (ℕ → ℝ))
    (tolerance : ℝ) (maxiter : ℕ) (r : Done)
    (h : fit solve m d s lims keep par0 tolerance maxiter = .ok r) :
    let r0 := fitprolog m.np s keep
    let p0 := par0.getD r0.2.params
    ∃ chi0, chiExtra m d r0.2 p0 = some chi0 ∧ Chain ⟨solve, m, d, r0.2, lims, r0.1⟩ p0 (chi0 + 1) r.steps ∧
      r.steps.getLast? = some (r.params, r.chi) ∧ r.steps.length + r.left ≤ maxiter ∧
      |before (chi0 + 1) r.steps - r.chi| < (if before (chi0 + 1) r.steps < 1 then tolerance
        else tolerance * before (chi0 + 1) r.steps) := by
  intro r0 p0
  unfold fit fitLoop at h
  simp only at h
  split at h
  · cases h
  · rename_i chi0 hchi
    obtain ⟨new, e, hl, hch, hlen, htol⟩ := main_spec _ _ _ _ _ _ _ _ _ _ _ h
    rw [List.nil_append] at e
    subst e
    exact ⟨chi0, hchi, hch, hl, hlen, htol⟩

theorem prolog_norm (np : ℕ) (s : Fitter) (keep : Option (List (ℤ × ℝ))) (m : Nl X) (d : Data X)
    (p : ℕ → ℝ) : total m d (fitprolog np s keep).2 p = total m d s p := by
  unfold fitprolog keepFixed
  rcases keep with _ | k
  · rcases s.fitIndex with _ | fi <;> rfl
  · rfl

/-- After the first accepted step chi squared never increases, the first is at most one above where it
started, and the last step is what is returned. All of this for chi squared including the extra
measurements of `normalize`. -/
theorem C32_descends (solve : ℕ → (ℕ → ℕ → ℝ) → (ℕ → ℝ) → Option (ℕ → ℝ)) (m : Nl X) (d : Data X)
    (s : Fitter) (lims : Option (ℕ → Lim)) (keep : Option (List (ℤ × ℝ))) (par0 : Option (ℕ → ℝ))
    (tolerance : ℝ) (maxiter : ℕ) (r : Done)
    (h : fit solve m d s lims keep par0 tolerance maxiter = .ok r) :
    (∀ st ∈ r.steps, st.2 = total m d s st.1) ∧
    (r.steps.map Prod.snd).Pairwise (fun a b => b ≤ a) ∧
    (∀ st ∈ r.steps, st.2 ≤ total m d s (par0.getD (fitprolog m.np s keep).2.params) + 1) ∧
    r.steps.getLast? = some (r.params, r.chi) := by
  obtain ⟨chi0, h1, h2, h3, _, _⟩ := fit_chain solve m d s lims keep par0 tolerance maxiter r h
  obtain ⟨f1, f2, f3⟩ := chain_facts _ _ _ _ h2
  have e0 := chiExtra_some _ _ _ _ _ h1
  rw [prolog_norm] at e0
  refine ⟨?_, f2, ?_, h3⟩
  · intro st hst
    have := chiExtra_some _ _ _ _ _ (f3 st hst)
    rwa [prolog_norm] at this
  · intro st hst
    rw [← e0]
    exact f1 st hst

/-- So what is returned has chi squared not above that of any accepted step. -/
theorem C32_best (solve : ℕ → (ℕ → ℕ → ℝ) → (ℕ → ℝ) → Option (ℕ → ℝ)) (m : Nl X) (d : Data X)
    (s : Fitter) (lims : Option (ℕ → Lim)) (keep : Option (List (ℤ × ℝ))) (par0 : Option (ℕ → ℝ))
    (tolerance : ℝ) (maxiter : ℕ) (r : Done)
    (h : fit solve m d s lims keep par0 tolerance maxiter = .ok r) :
    r.chi = total m d s r.params ∧ ∀ st ∈ r.steps, r.chi ≤ st.2 := by
  obtain ⟨h1, h2, _, h4⟩ := C32_descends solve m d s lims keep par0 tolerance maxiter r h
  obtain ⟨init, hi⟩ := List.getLast?_eq_some_iff.1 h4
  constructor
  · exact h1 (r.params, r.chi) (by rw [hi]; simp)
  · intro st hst
    rw [hi] at hst h2
    rw [List.map_append, List.pairwise_append] at h2
    rcases List.mem_append.1 hst with hm | hm
    · exact h2.2.2 st.2 (List.mem_map_of_mem hm) r.chi (by simp)
    · simp only [List.mem_singleton] at hm
      rw [hm]

/-- Every accepted parameter vector, and so what is returned, obeys the limits in all fitted parameters. -/
theorem C32_limits (solve : ℕ → (ℕ → ℕ → ℝ) → (ℕ → ℝ) → Option (ℕ → ℝ)) (m : Nl X) (d : Data X)
    (s : Fitter) (lims : ℕ → Lim) (hok : ∀ k, (lims k).Ok) (keep : List (ℤ × ℝ))
    (hk : ProperKeep m.np keep) (par0 : Option (ℕ → ℝ)) (tolerance : ℝ) (maxiter : ℕ) (r : Done)
    (h : fit solve m d s (some lims) (some keep) par0 tolerance maxiter = .ok r) :
    ∀ st ∈ r.steps, ∀ k < m.np, (∀ v, ((k : ℤ), v) ∉ keep) → (lims k).Within (st.1 k) := by
  obtain ⟨chi0, _, h2, _, _, _⟩ := fit_chain solve m d s _ _ par0 tolerance maxiter r h
  intro st hst k hkn hnot
  refine (chain_index ⟨solve, m, d, _, some lims, _⟩ (fun k => decide ((k : ℤ) ∉ keep.map Prod.fst))
    (by rw [prolog_keep m.np s keep hk]) _ _ _ h2).1 lims rfl hok st hst k hkn ?_
  simpa using hnot

/-- The same without kept parameters. -/
theorem C32_limits_all (solve : ℕ → (ℕ → ℕ → ℝ) → (ℕ → ℝ) → Option (ℕ → ℝ)) (m : Nl X) (d : Data X)
    (s : Fitter) (hs : s.fitIndex = none) (lims : ℕ → Lim) (hok : ∀ k, (lims k).Ok)
    (par0 : Option (ℕ → ℝ)) (tolerance : ℝ) (maxiter : ℕ) (r : Done)
    (h : fit solve m d s (some lims) none par0 tolerance maxiter = .ok r) :
    ∀ st ∈ r.steps, ∀ k < m.np, (lims k).Within (st.1 k) := by
  obtain ⟨chi0, _, h2, _, _, _⟩ := fit_chain solve m d s _ _ par0 tolerance maxiter r h
  intro st hst k hkn
  exact (chain_index ⟨solve, m, d, _, some lims, _⟩ (fun _ => true)
    (by simp only [fitprolog, hs, index_all]) _ _ _ h2).1 lims rfl hok st hst k hkn rfl

/-- Kept parameters stay at their value, when the fit starts at the parameters of the model. -/
theorem C32_kept (solve : ℕ → (ℕ → ℕ → ℝ) → (ℕ → ℝ) → Option (ℕ → ℝ)) (m : Nl X) (d : Data X)
    (s : Fitter) (lims : Option (ℕ → Lim)) (keep : List (ℤ × ℝ)) (hk : ProperKeep m.np keep)
    (tolerance : ℝ) (maxiter : ℕ) (r : Done)
    (h : fit solve m d s lims (some keep) none tolerance maxiter = .ok r) :
    ∀ st ∈ r.steps, Agrees keep st.1 := by
  obtain ⟨chi0, _, h2, _, _, _⟩ := fit_chain solve m d s _ _ none tolerance maxiter r h
  intro st hst kv hkv
  have hr := hk.2 kv hkv
  have := (chain_index ⟨solve, m, d, _, lims, _⟩ (fun k => decide ((k : ℤ) ∉ keep.map Prod.fst))
    (by rw [prolog_keep m.np s keep hk]) _ _ _ h2).2 st hst kv.1.toNat
    (show kv.1.toNat < m.np by omega) (by
      rw [Int.toNat_of_nonneg hr.1]
      simp only [decide_eq_false_iff_not, not_not]
      exact List.mem_map_of_mem hkv)
  rw [this]
  exact store_kept m.np keep hk s.params kv hkv

/-- The fit ends: it never does more than `maxiter` iterations. It either converged, when the last change
in chi squared was below the tolerance, or it ends with an error. -/
theorem C32_stops (solve : ℕ → (ℕ → ℕ → ℝ) → (ℕ → ℝ) → Option (ℕ → ℝ)) (m : Nl X) (d : Data X)
    (s : Fitter) (lims : Option (ℕ → Lim)) (keep : Option (List (ℤ × ℝ))) (par0 : Option (ℕ → ℝ))
    (tolerance : ℝ) (maxiter : ℕ) :
    (∃ r, fit solve m d s lims keep par0 tolerance maxiter = .ok r ∧
      1 ≤ r.steps.length ∧ r.steps.length + r.left ≤ maxiter) ∨
    (∃ f, fit solve m d s lims keep par0 tolerance maxiter = .error f ∧
      (f.err = .convergence ∨ f.err = .linalg ∨ f.err = .value)) := by
  rcases h : fit solve m d s lims keep par0 tolerance maxiter with f | r
  · right
    refine ⟨f, rfl, ?_⟩
    have : f.err ≠ .fuel := by
      unfold fit fitLoop at h
      simp only at h
      split at h
      · cases h
        simp
      · exact main_error _ _ _ _ _ _ _ _ _ _ _ (by omega) h
    rcases hf : f.err <;> simp_all
  · left
    obtain ⟨chi0, _, _, h3, h4, _⟩ := fit_chain solve m d s lims keep par0 tolerance maxiter r h
    refine ⟨r, rfl, ?_, h4⟩
    rcases hs : r.steps with _ | ⟨a, l⟩
    · rw [hs] at h3
      simp at h3
    · simp

/-- When the fit returns after two or more steps, the last two differ by less than the tolerance; relative
to the one before the last when that is one or more. -/
theorem C32_converged (solve : ℕ → (ℕ → ℕ → ℝ) → (ℕ → ℝ) → Option (ℕ → ℝ)) (m : Nl X) (d : Data X)
    (s : Fitter) (lims : Option (ℕ → Lim)) (keep : Option (List (ℤ × ℝ))) (par0 : Option (ℕ → ℝ))
    (tolerance : ℝ) (maxiter : ℕ) (r : Done) (l : List ((ℕ → ℝ) × ℝ)) (a b : (ℕ → ℝ) × ℝ)
    (h : fit solve m d s lims keep par0 tolerance maxiter = .ok r) (hl : r.steps = l ++ [a, b]) :
    b = (r.params, r.chi) ∧ a.2 - b.2 < tolerance * max 1 a.2 := by
  obtain ⟨chi0, _, h2, h3, _, h5⟩ := fit_chain solve m d s lims keep par0 tolerance maxiter r h
  have hb : before (chi0 + 1) r.steps = a.2 := by
    have : l ++ [a, b] = (l ++ [a]) ++ [b] := by simp
    rw [hl, before, this, List.dropLast_concat]
    simp
  have e : b = (r.params, r.chi) := by
    rw [hl] at h3
    simpa using h3
  refine ⟨e, ?_⟩
  rw [hb] at h5
  rw [e]
  have := lt_of_le_of_lt (le_abs_self _) h5
  split_ifs at this with h1
  · rw [max_eq_left h1.le, mul_one]
    exact this
  · rw [max_eq_right (not_lt.1 h1)]
    exact this

/-! ### Examples and counterexamples -/

/-- The model `p - 3 p^2`. -/
noncomputable def parabola : Nl Unit := ⟨1, fun _ p => p 0 - 3 * p 0 ^ 2, fun _ p _ => 1 - 6 * p 0⟩

theorem fit_parabola (lims : Option (ℕ → Lim)) (hl : lims = none) :
    ∃ r, fit solveOne parabola ⟨1, fun _ => (), fun _ => 1, none, none⟩
      (initFitter 1 (fun _ => 0) none) lims none none 1 1 = .ok r ∧ r.params 0 = 500 / 1001 := by
  subst hl
  have hidx : (List.range parabola.np).map (fun k : ℕ => (k : ℤ)) = [0] := by decide
  have hins : ∀ p x : ℕ → ℝ, insertParameters parabola.np p x [0] = x := by
    intro p x
    unfold insertParameters
    rw [if_pos (show [(0 : ℤ)].length = parabola.np by decide)]
  have hs : ∀ (A : ℕ → ℕ → ℝ) (v : ℕ → ℝ), A 0 0 ≠ 0 → solveOne 1 A v = some fun _ => v 0 / A 0 0 := by
    intro A v h
    unfold solveOne
    rw [if_pos ⟨rfl, h⟩]
  unfold fit fitLoop
  simp only [fitprolog, initFitter, keepFixed, hidx, Option.getD_none]
  have hc0 : chiExtra parabola ⟨1, fun _ => (), fun _ => 1, none, none⟩
      ⟨fun _ => 0, none, parabola.np, 0, fun _ _ => 0, fun _ => 0, fun _ => 0⟩ (fun _ => 0)
      = some 1 := by
    unfold chiExtra
    rw [if_neg] <;> simp [chisq, chinorm, parabola, Data.fitWgts]
  rw [hc0]
  simp only [mainLoop, one_ne_zero, if_false, trialfit, trialLoop, List.length_singleton, hins]
  rw [hs _ _ (by
    simp [hessian, design, parabola, allWgts, Data.fitWgts]
    norm_num)]
  simp only [checkLimits]
  have hx : ∀ p : ℕ → ℝ, p 0 = 500 / 1001 → chiExtra parabola ⟨1, fun _ => (), fun _ => 1, none, none⟩
      ⟨fun _ => 0, none, parabola.np, 0, fun _ _ => 0, fun _ => 0, fun _ => 0⟩ p
      = some ((1 - (500 / 1001 - 3 * (500 / 1001) ^ 2)) ^ 2) := by
    intro p hp
    unfold chiExtra
    rw [if_neg] <;> simp [chisq, chinorm, parabola, Data.fitWgts, hp]
    norm_num
  rw [hx]
  · simp only
    rw [if_pos (by norm_num)]
    simp only
    rw [if_pos]
    · refine ⟨_, rfl, ?_⟩
      simp [hessian, vector, design, parabola, allWgts, Data.fitWgts, pyIdx]
      norm_num
      rfl
    · rw [if_neg (by norm_num), abs_lt]
      constructor <;> norm_num
  · simp [hessian, vector, design, parabola, allWgts, Data.fitWgts, pyIdx]
    norm_num
    rfl

/-- The fit that the theorems speak about exists. And the first step may be accepted although it is worse
than where the fit started, as chi squared is increased by one before the first step: here the fit
converges at a worse place. -/
theorem C32_counterexample_first : ∃ (m : Nl Unit) (d : Data Unit) (s : Fitter) (r : Done),
    fit solveOne m d s none none none 1 1 = .ok r ∧ total m d s s.params < total m d s r.params := by
  obtain ⟨r, h1, h2⟩ := fit_parabola none rfl
  refine ⟨_, _, _, r, h1, ?_⟩
  simp [total, parabola, initFitter, keepFixed, Data.fitWgts, h2]
  norm_num

/-- The model `p0 + p1`. -/
def sum2 : Nl Unit := ⟨2, fun _ p => p 0 + p 1, fun _ _ _ => 1⟩

/-- When the fit is started at given parameters, then a kept parameter does not get its value: the one of
the starting parameters is used. -/
theorem C32_counterexample_keep : ∃ (m : Nl Unit) (d : Data Unit) (s : Fitter) (par0 : ℕ → ℝ)
    (keep : List (ℤ × ℝ)) (r : Done), ProperKeep m.np keep ∧
    fit solveOne m d s none (some keep) (some par0) 1 1 = .ok r ∧ ¬ Agrees keep r.params := by
  have hex : ∃ r, fit solveOne sum2 ⟨1, fun _ => (), fun _ => 1, none, none⟩
      (initFitter 2 (fun _ => 0) none) none (some [(0, 5)]) (some fun _ => 0) 1 1 = .ok r ∧
      r.params 0 = 0 := by
    have hn : fitprolog sum2.np (initFitter 2 (fun _ => 0) none) (some [(0, 5)])
        = ([1], ⟨storeKept 2 (fun _ => 0) [(0, 5)], none, 1, 0, fun _ _ => 0, fun _ => 0, fun _ => 0⟩) := by
      rw [← line_index (initFitter 2 (fun _ => 0) none) 5]
      rfl
    have hins : ∀ p x : ℕ → ℝ, insertParameters sum2.np p x [1] = fun j => if j = 1 then x 0 else p j := by
      intro p x
      funext j
      unfold insertParameters
      rw [if_neg (show ¬ [(1 : ℤ)].length = sum2.np by decide)]
      by_cases h : j = 1
      · subst h
        simp [pyIdx]
      · have h' : ¬ 1 = j := fun e => h e.symm
        simp [pyIdx, h, h', List.range_succ]
    have hs : ∀ (A : ℕ → ℕ → ℝ) (v : ℕ → ℝ), A 0 0 ≠ 0 → solveOne 1 A v = some fun _ => v 0 / A 0 0 := by
      intro A v h
      unfold solveOne
      rw [if_pos ⟨rfl, h⟩]
    have hx : ∀ s : Fitter, s.nnorm = 0 → ∀ p : ℕ → ℝ, p 0 = 0 → ∀ v, p 1 = v → v ≠ 1 →
        chiExtra sum2 ⟨1, fun _ => (), fun _ => 1, none, none⟩ s p = some ((1 - v) ^ 2) := by
      intro s hs p hp v hv hne
      unfold chiExtra
      have : 1 - v ≠ 0 := fun h => hne (by linarith)
      rw [if_neg] <;> simp [chisq, chinorm, sum2, Data.fitWgts, hp, hv, hs]
      exact this
    unfold fit fitLoop
    rw [hn]
    simp only [Option.getD_some]
    rw [hx _ rfl (fun _ => 0) rfl 0 rfl (by norm_num)]
    simp only [mainLoop, one_ne_zero, if_false, trialfit, trialLoop, List.length_singleton, hins]
    rw [hs _ _ (by
      simp [hessian, design, sum2, allWgts, Data.fitWgts]
      norm_num)]
    simp only [checkLimits]
    rw [hx _ rfl _ (by simp) (500 / 1001) _ (by norm_num)]
    · simp only
      rw [if_pos (by norm_num)]
      simp only
      rw [if_pos]
      · exact ⟨_, rfl, by simp⟩
      · rw [if_neg (by norm_num), abs_lt]
        constructor <;> norm_num
    · simp [hessian, vector, design, sum2, allWgts, Data.fitWgts, pyIdx]
      norm_num
  obtain ⟨r, h1, h2⟩ := hex
  refine ⟨_, _, _, _, _, r, ⟨by simp, by simp [sum2]⟩, h1, ?_⟩
  intro h
  have := h (0, 5) (by simp)
  simp only [Int.toNat_zero, h2] at this
  norm_num at this

end BF.LM
