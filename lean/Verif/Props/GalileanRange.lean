import Verif.Props.EnginesRange
import Verif.Props.Galilean
import Mathlib.Analysis.Calculus.Deriv.Pow
import Mathlib.Analysis.Calculus.Deriv.Mul
import Mathlib.Analysis.Calculus.Deriv.Add

/-!
# C56: the Galilean engine and the range of the prior

In a step the engine moves at most its velocity. It starts with a velocity of at most half the size in each direction,
and mirroring on the contour conserves the speed. So one component can never exceed `size / 2` times the square root of
the number of fitted parameters; with the size of 0.5 that is at most 1, the size of the unit box, for up to 16
parameters.
-/

namespace BF.Engines

variable {π β : Type*}

/-! ### Speeds -/

theorem sq_le_dot_self : ∀ (u : List ℝ), ∀ x ∈ u, x * x ≤ dot u u
  | [], x, h => by simp at h
  | a :: u, x, h => by
    rw [dot_cons]
    rcases List.mem_cons.1 h with rfl | h
    · nlinarith [dot_self_nonneg u]
    · nlinarith [sq_le_dot_self u x h, mul_self_nonneg a]

theorem abs_le_one_of_dot (u : List ℝ) (h : dot u u ≤ 1) : ∀ x ∈ u, |x| ≤ 1 := by
  intro x hx
  rw [abs_le_one_iff_mul_self_le_one]
  exact (sq_le_dot_self u x hx).trans h

theorem dot_self_le : ∀ (u : List ℝ) (b : ℝ), (∀ x ∈ u, |x| ≤ b) → dot u u ≤ u.length * b ^ 2
  | [], b, _ => by simp [dot]
  | a :: u, b, h => by
    have h1 := dot_self_le u b fun x hx => h x (by simp [hx])
    have h2 : a * a ≤ b ^ 2 := by
      have := h a (by simp)
      have h3 := abs_mul_abs_self a
      nlinarith [abs_nonneg a]
    rw [dot_cons, List.length_cons, Nat.cast_succ]
    nlinarith

theorem getVelocity_bound (e : Env π β) (hr : ∀ k, 0 ≤ e.rand k ∧ e.rand k ≤ 1) (n k : ℕ) (R s : ℝ) (hR : 0 ≤ R)
    (hs : 0 ≤ s) : ∀ x ∈ getVelocity e n k R s, |x| ≤ R * s / 2 := by
  intro x hx
  obtain ⟨i, -, rfl⟩ := List.mem_map.1 hx
  have h := hr (k + i)
  rw [mul_assoc, abs_mul, abs_of_nonneg (mul_nonneg hR hs)]
  have : |e.rand (k + i) - 0.5| ≤ 1 / 2 := by
    rw [abs_le]; constructor <;> norm_num <;> linarith
  nlinarith [mul_nonneg hR hs]

theorem getVelocity_length (e : Env π β) (n k : ℕ) (R s : ℝ) : (getVelocity e n k R s).length = n := by
  simp [getVelocity]

theorem dot_mix : ∀ (v w : List ℝ), v.length = w.length →
    dot (List.zipWith (fun v w => v * (0.1 - 1) + w) v w) (List.zipWith (fun v w => v * (0.1 - 1) + w) v w) ≤
      0.9 * dot v v + 10 * dot w w
  | [], [], _ => by simp [dot]
  | [], _ :: _, h => by simp at h
  | _ :: _, [], h => by simp at h
  | a :: v, b :: w, h => by
    simp only [List.zipWith_cons_cons, dot_cons]
    have := dot_mix v w (by simpa using h)
    have : (a * (0.1 - 1) + b) * (a * (0.1 - 1) + b) ≤ 0.9 * (a * a) + 10 * (b * b) := by
      nlinarith [mul_self_nonneg (a + 10 * b)]
    linarith

/-- What the engine keeps up: the velocity has a component for each fitted parameter and a length of at most 1. -/
structure Slow (n : ℕ) (R : ℝ) (um : UM) : Prop where
  len : um.uvel.length = n
  speed : dot um.uvel um.uvel ≤ 1
  ran : um.upran = R

theorem trialStep_slow (e : Env π β) (hr : ∀ k, 0 ≤ e.rand k ∧ e.rand k ≤ 1) {n : ℕ} {R : ℝ} (um : UM) (k : ℕ)
    (f size s0 : ℝ) (hR : 0 ≤ R) (hs : 0 ≤ size) (hs0 : size ≤ s0) (hn : n * (R * s0 / 2) ^ 2 ≤ 1)
    (h : Slow n R um) (hl : um.upar.length = n) (hu : ∀ u ∈ um.upar, 0 ≤ u ∧ u ≤ 1) (hf : 0 ≤ f ∧ f ≤ 1) :
    (∀ x ∈ (um.trialStep e k f size).1.uptry, 0 ≤ x ∧ x ≤ 1) ∧ (um.trialStep e k f size).1.uptry.length = n ∧
      Slow n R (um.trialStep e k f size).1 ∧ Slow n R (um.trialStep e k f size).1.acceptTrial ∧
      (um.trialStep e k f size).1.upar = um.upar := by
  have hv : ∀ v ∈ um.uvel, |v * f| ≤ 1 := by
    intro v hv
    rw [abs_mul, abs_of_nonneg hf.1]
    have := abs_le_one_of_dot _ h.speed v hv
    nlinarith [abs_nonneg v]
  refine ⟨C10_box e um k f size hu hv, ?_, ?_, ?_, ?_⟩
  · rw [trialStep_uptry]; simp [hl, h.len]
  · simp only [UM.trialStep]
    split <;> exact ⟨h.len, h.speed, h.ran⟩
  · simp only [UM.trialStep]
    split
    · rename_i heq
      refine ⟨?_, ?_, h.ran⟩
      · simp [UM.acceptTrial, hl, h.len]
      · change dot (List.map _ _) (List.map _ _) ≤ 1
        rw [heq]; exact h.speed
    · refine ⟨by simp [UM.acceptTrial, getVelocity, hl, h.len], ?_, h.ran⟩
      refine (dot_self_le _ (R * s0 / 2) ?_).trans ?_
      · intro x hx
        simp only [UM.acceptTrial] at hx
        obtain ⟨i, hi⟩ := List.mem_iff_getElem?.1 hx
        rw [List.getElem?_zipWith] at hi
        split at hi
        · rename_i a b ha hb
          injection hi with hi
          rw [← hi, copysign_abs]
          refine (getVelocity_bound e hr _ _ _ _ (h.ran ▸ hR) hs a (List.mem_of_getElem? ha)).trans ?_
          rw [h.ran]
          nlinarith
        · cases hi
      · refine le_trans (le_of_eq ?_) hn
        simp [UM.acceptTrial, getVelocity, hl, h.len]
  · simp only [UM.trialStep]
    split <;> rfl

theorem reverse_slow (e : Env π β) (hr : ∀ k, 0 ≤ e.rand k ∧ e.rand k ≤ 1) {n : ℕ} {R : ℝ} (um : UM) (k : ℕ)
    (size s0 : ℝ) (hR : 0 ≤ R) (hs : 0 ≤ size) (hs0 : size ≤ s0) (hn : n * (R * s0 / 2) ^ 2 ≤ 1) (h : Slow n R um) :
    Slow n R (um.reverseVelocity e k size).1 := by
  refine ⟨by simp [UM.reverseVelocity, getVelocity_length, h.len], ?_, h.ran⟩
  simp only [UM.reverseVelocity]
  refine (dot_mix _ _ (by simp [getVelocity_length])).trans ?_
  have h1 := dot_self_le (getVelocity e um.uvel.length k um.upran (0.1 * size)) (R * (0.1 * s0) / 2) (by
    intro x hx
    refine (getVelocity_bound e hr _ _ _ _ (h.ran ▸ hR) (by positivity) x hx).trans ?_
    rw [h.ran]
    nlinarith)
  rw [getVelocity_length, h.len] at h1
  have h2 := h.speed
  have h3 : (n : ℝ) * (R * (0.1 * s0) / 2) ^ 2 = 0.01 * (n * (R * s0 / 2) ^ 2) := by ring
  rw [h3, ← h.len] at h1
  rw [← h.len] at hn
  norm_num at h1 ⊢
  linarith

theorem mirror_slow {n : ℕ} {R : ℝ} (um : UM) (d : List ℝ) (hd : d.length = n) (h : Slow n R um) :
    Slow n R (um.mirrorOnLowL d) := by
  refine ⟨?_, ?_, ?_⟩
  · simp only [UM.mirrorOnLowL]
    split
    · exact h.len
    · simp [h.len, hd]
  · rw [C10_mirror_speed um d (by rw [h.len, hd])]
    exact h.speed
  · simp only [UM.mirrorOnLowL]
    split <;> exact h.ran

theorem mirror_upar (um : UM) (d : List ℝ) : (um.mirrorOnLowL d).upar = um.upar := by
  simp only [UM.mirrorOnLowL]
  split <;> rfl

/-! ### Places -/

theorem gets_length : ∀ {q : List ℝ} {cs : List ℤ} {v : List ℝ}, gets q cs = some v → v.length = cs.length
  | q, [], v, h => by
    simp only [gets, Option.some.injEq] at h
    subst h; rfl
  | q, c :: cs, v, h => by
    simp only [gets] at h
    split at h
    · rename_i a b ha hb
      injection h with h
      subst h
      simp [gets_length hb]
    · cases h

theorem gets_mem : ∀ {q : List ℝ} {cs : List ℤ} {v : List ℝ}, gets q cs = some v →
    ∀ (i : ℕ) (x : ℝ) (c : ℤ), v[i]? = some x → cs[i]? = some c → get q c = some x
  | q, [], v, h, i, x, c, _, hc => by simp at hc
  | q, c :: cs, v, h, i, x, d, hx, hd => by
    simp only [gets] at h
    split at h
    · rename_i a b ha hb
      injection h with h
      subst h
      cases i with
      | zero =>
        simp only [List.getElem?_cons_zero, Option.some.injEq] at hx hd
        subst hx hd
        exact ha
      | succ i => exact gets_mem hb i x d (by simpa using hx) (by simpa using hd)
    · cases h

/-- The law of a prior, C13, and a start in its range: all parameters that can be drawn from the prior have a place
in the unit range. -/
theorem unit_of_fromPrior (e : Env π β) (p : π) (fi : List ℤ) (q0 q : List ℝ)
    (hinj : ∀ c ∈ fi, ∀ c' ∈ fi, place q0.length c = place q0.length c' → c = c')
    (hrt : ∀ c ∈ fi, ∀ u, 0 ≤ u → u ≤ 1 → e.d2u p c (e.u2d p c u) = u)
    (hst : ∀ c ∈ fi, ∀ x, get q0 c = some x → 0 ≤ e.d2u p c x ∧ e.d2u p c x ≤ 1)
    (hq : FromPrior e p fi q0 q) (fip : List ℝ) (hg : gets q fi = some fip) :
    (e.domain2Unit p fip fi).length = fi.length ∧ ∀ u ∈ e.domain2Unit p fip fi, 0 ≤ u ∧ u ≤ 1 := by
  refine ⟨by simp [Env.domain2Unit, gets_length hg], fun u hu => ?_⟩
  obtain ⟨i, hi⟩ := List.mem_iff_getElem?.1 hu
  simp only [Env.domain2Unit, List.getElem?_zipWith] at hi
  split at hi
  · rename_i c x hc hx
    injection hi with hi
    subst hi
    have hcm := List.mem_of_getElem? hc
    have h := gets_mem hg i x c hx hc
    simp only [get, Option.bind_eq_some_iff] at h
    obtain ⟨j, hj, hv⟩ := h
    rw [hq.1] at hj
    rcases hq.2 j x hv with h1 | ⟨c', u, h1, h2, h3, h4, h5⟩
    · exact hst c hcm x (by simp [get, hj, h1])
    · obtain rfl := hinj c hcm c' h1 (hj.trans h2.symm)
      rw [h5, hrt c hcm u h3 h4]
      exact ⟨h3, h4⟩
  · cases hi

/-! ### The engine -/

theorem galileanLoop_range (e : Env π ℝ) (hr : ∀ k, 0 ≤ e.rand k ∧ e.rand k ≤ 1)
    (dL : π → List ℝ → List ℤ → List ℝ) (w0 : Wk π ℝ)
    (hd : ∀ q, (dL w0.problem q w0.fitIndex).length = w0.fitIndex.length)
    (hinj : ∀ c ∈ w0.fitIndex, ∀ c' ∈ w0.fitIndex, place w0.allpars.length c = place w0.allpars.length c' → c = c')
    (hrt : ∀ c ∈ w0.fitIndex, ∀ u, 0 ≤ u → u ≤ 1 → e.d2u w0.problem c (e.u2d w0.problem c u) = u)
    (hst : ∀ c ∈ w0.fitIndex, ∀ x, get w0.allpars c = some x →
      0 ≤ e.d2u w0.problem c x ∧ e.d2u w0.problem c x ≤ 1)
    (lowL R size0 : ℝ) (hR : 0 ≤ R) (hs0 : 0 ≤ size0)
    (hn : w0.fitIndex.length * (R * size0 / 2) ^ 2 ≤ 1)
    (kw : ℕ) (append : Bool) (nstep : ℕ) (fuel : ℕ) (st st' : St π ℝ)
    (um : UM) (allpars : List ℝ) (Lhood Ltry : ℝ) (inside : ℕ) (size : ℝ) (step trial r : ℕ)
    (hs : 0 ≤ size) (hss : size ≤ size0)
    (hq : FromPrior e w0.problem w0.fitIndex w0.allpars allpars) (hum : Slow w0.fitIndex.length R um)
    (hL : lowL ≤ Lhood) (hi : inside = 0 ∨ Ltry < lowL)
    (h : galileanLoop e dL w0 lowL kw append nstep size0 fuel st um allpars Lhood Ltry inside size
      step trial = some (st', r)) :
    AllNew (FromPrior e w0.problem w0.fitIndex w0.allpars) st st' := by
  induction fuel generalizing st um allpars Lhood Ltry inside size step trial with
  | zero => simp [galileanLoop] at h
  | succ fuel ih =>
    simp only [galileanLoop] at h
    split at h
    · cases h
    · rename_i fip hfip
      obtain ⟨hl, hu⟩ := unit_of_fromPrior e _ _ _ _ hinj hrt hst hq fip hfip
      have hum' : Slow w0.fitIndex.length R
          { um with upar := e.domain2Unit w0.problem fip w0.fitIndex } := ⟨hum.len, hum.speed, hum.ran⟩
      split at h
      · cases h
      · rename_i um1 q size1 k hnext
        have hone : (0 : ℝ) ≤ 1 ∧ (1 : ℝ) ≤ 1 := by norm_num
        have key : FromPrior e w0.problem w0.fitIndex w0.allpars q ∧ Slow w0.fitIndex.length R um1 ∧
            Slow w0.fitIndex.length R um1.acceptTrial ∧ 0 ≤ size1 ∧ size1 ≤ size0 := by
          split at hnext
          · simp only [Option.map_eq_some_iff] at hnext
            obtain ⟨q', hp, heq⟩ := hnext
            simp only [Prod.mk.injEq] at heq
            obtain ⟨rfl, rfl, rfl, _⟩ := heq
            obtain ⟨a1, a2, a3, a4, a5⟩ := trialStep_slow e hr
              { um with upar := e.domain2Unit w0.problem fip w0.fitIndex } st.k 1 size size0 hR hs hss hn hum' hl
              hu hone
            exact ⟨hq.trans (FromPrior.puts (fun _ hc => hc) a1 hp), a3, a4, hs, hss⟩
          · rename_i hi0
            split at hnext
            · split at hnext
              · cases hnext
              · rename_i pmid hpmid
                split at hnext
                · cases hnext
                · rename_i pedge hpedge
                  simp only [Option.map_eq_some_iff] at hnext
                  obtain ⟨q', hp, heq⟩ := hnext
                  simp only [Prod.mk.injEq] at heq
                  obtain ⟨rfl, rfl, rfl, _⟩ := heq
                  obtain ⟨b1, b2, b3, b4, b5⟩ := trialStep_slow e hr
                    { um with upar := e.domain2Unit w0.problem fip w0.fitIndex } st.k 0.5 size size0 hR hs hss hn
                    hum' hl hu (by norm_num)
                  have hf := C11_level Lhood (e.L w0.problem pmid) Ltry lowL hL
                    (hi.resolve_left hi0)
                  obtain ⟨c1, c2, c3, c4, c5⟩ := trialStep_slow e hr _
                    (UM.trialStep e { um with upar := e.domain2Unit w0.problem fip w0.fitIndex } st.k 0.5 size).2
                    (quadinterpol Lhood (e.L w0.problem pmid) Ltry lowL) size size0 hR hs hss hn
                    b3 (by rw [b5]; exact hl) (by rw [b5]; exact hu) ⟨hf.1, hf.2.1.le⟩
                  obtain ⟨d1, d2, d3, d4, d5⟩ := trialStep_slow e hr _
                    (UM.trialStep e (UM.trialStep e
                      { um with upar := e.domain2Unit w0.problem fip w0.fitIndex } st.k 0.5 size).1
                      (UM.trialStep e { um with upar := e.domain2Unit w0.problem fip w0.fitIndex } st.k 0.5 size).2
                      (quadinterpol Lhood (e.L w0.problem pmid) Ltry lowL) size).2
                    (1 - quadinterpol Lhood (e.L w0.problem pmid) Ltry lowL) size size0 hR hs hss hn
                    (mirror_slow _ (dL w0.problem pedge w0.fitIndex) (hd pedge) c4)
                    (by rw [mirror_upar]; exact c2) (by rw [mirror_upar]; exact c1)
                    ⟨by linarith [hf.2.1], by linarith [hf.1]⟩
                  exact ⟨hq.trans (FromPrior.puts (fun _ hc => hc) d1 hp), d3, d4, hs, hss⟩
            · simp only [Option.map_eq_some_iff] at hnext
              obtain ⟨q', hp, heq⟩ := hnext
              simp only [Prod.mk.injEq] at heq
              obtain ⟨rfl, rfl, rfl, _⟩ := heq
              have hs1 : 0 ≤ size * 0.7 := by positivity
              have hs2 : size * 0.7 ≤ size0 := by norm_num; linarith
              obtain ⟨b1, b2, b3, b4, b5⟩ := trialStep_slow e hr _
                (UM.reverseVelocity e { um with upar := e.domain2Unit w0.problem fip w0.fitIndex } st.k
                  (size * 0.7)).2 1 (size * 0.7) size0 hR hs1 hs2 hn
                (reverse_slow e hr _ st.k (size * 0.7) size0 hR hs1 hs2 hn hum') hl hu hone
              exact ⟨hq.trans (FromPrior.puts (fun _ hc => hc) b1 hp), b3, b4, hs1, hs2⟩
        obtain ⟨k1, k2, k3, k4, k5⟩ := key
        split at h
        · rename_i hLt
          have a := (AllNew.refl (FromPrior e w0.problem w0.fitIndex w0.allpars) st k).trans
            (AllNew.set _ (St.target { st with k := k } append kw) w0.problem q (e.L w0.problem q) (some w0)
              w0.fitIndex k1)
          split at h
          · exact a.trans (ih _ _ _ _ _ _ _ _ _ hs0 le_rfl k1 k3 hLt (Or.inl rfl) h)
          · simp only [Option.some.injEq, Prod.mk.injEq] at h
            rw [← h.1]
            exact a
        · rename_i hLt
          split at h
          · exact (AllNew.refl _ st k).trans
              (ih _ _ _ _ _ _ _ _ _ k4 k5 hq k2 hL (Or.inr (not_le.1 hLt)) h)
          · simp only [Option.some.injEq, Prod.mk.injEq] at h
            rw [← h.1]
            exact AllNew.refl _ st k

theorem maxOf_mem : ∀ (l : List ℝ), l ≠ [] → maxOf l ∈ l
  | [], h => absurd rfl h
  | [x], _ => by simp [maxOf]
  | x :: y :: l, _ => by
    simp only [maxOf]
    rcases max_choice x (maxOf (y :: l)) with h | h <;> rw [h]
    · simp
    · exact List.mem_cons_of_mem _ (maxOf_mem (y :: l) (by simp))

/-- C56: the Galilean engine stays in the prior range for at most 16 fitted parameters, whatever the likelihood and its
gradient. Asked are the law of C13 (a parameter made of a number in the unit range has that number), a walker that is
in the range and satisfies the constraint, the bounding box in the unit range, and a size of at most 0.5, which is
where the engine starts. Missing: more than 16 parameters, for which it is false
(`C56_counterexample_galilean`). -/
theorem C56_galilean_partial (e : Env π ℝ) (hr : ∀ k, 0 ≤ e.rand k ∧ e.rand k ≤ 1)
    (dL : π → List ℝ → List ℤ → List ℝ) (fuel nstep : ℕ) (size : ℝ) (st st' : St π ℝ) (kw : ℕ) (lowL : ℝ)
    (append : Bool) (n : ℕ) (w0 : Wk π ℝ) (hw : st.walkers[kw]? = some w0) (hlow : lowL ≤ w0.logL)
    (hnum : w0.fitIndex.length ≤ 16) (hsize : 0 ≤ size) (hsize1 : size ≤ 1 / 2)
    (hd : ∀ q, (dL w0.problem q w0.fitIndex).length = w0.fitIndex.length)
    (hinj : ∀ c ∈ w0.fitIndex, ∀ c' ∈ w0.fitIndex, place w0.allpars.length c = place w0.allpars.length c' → c = c')
    (hrt : ∀ c ∈ w0.fitIndex, ∀ u, 0 ≤ u → u ≤ 1 → e.d2u w0.problem c (e.u2d w0.problem c u) = u)
    (hst : ∀ c ∈ w0.fitIndex, ∀ x, get w0.allpars c = some x →
      0 ≤ e.d2u w0.problem c x ∧ e.d2u w0.problem c x ≤ 1)
    (hbox : ∀ (i : ℕ) (lo hi : ℝ), (e.box st.phantoms w0.problem lowL).1[i]? = some lo →
      (e.box st.phantoms w0.problem lowL).2[i]? = some hi → 0 ≤ lo ∧ lo ≤ hi ∧ hi ≤ 1)
    (h : galileanExecute e dL fuel nstep size st kw lowL append = some (st', n)) :
    AllNew (FromPrior e w0.problem w0.fitIndex w0.allpars) st st' := by
  simp only [galileanExecute, hw] at h
  split at h
  · rename_i ur fip hur hfip
    have hran : 0 ≤ maxOf ur ∧ maxOf ur ≤ 1 := by
      by_cases hne : ur = []
      · rw [hne]; simp [maxOf]
      · obtain ⟨i, hi⟩ := List.mem_iff_getElem?.1 (maxOf_mem ur hne)
        have hlt : i < w0.fitIndex.length := by
          rw [← gets_length hur]; exact (List.getElem?_eq_some_iff.1 hi).1
        have hg := gets_mem hur i _ _ hi (List.getElem?_eq_getElem hlt)
        simp only [get, Option.bind_eq_some_iff, Env.getUnitRange] at hg
        obtain ⟨j, -, hj⟩ := hg
        rw [List.getElem?_zipWith] at hj
        split at hj
        · rename_i lo hi' h1 h2
          injection hj with hj
          obtain ⟨c1, c2, c3⟩ := hbox j lo hi' h1 h2
          rw [← hj, abs_of_nonneg (by linarith)]
          constructor <;> linarith
        · cases hj
    have hn : (w0.fitIndex.length : ℝ) * (maxOf ur * size / 2) ^ 2 ≤ 1 := by
      have h1 : (w0.fitIndex.length : ℝ) ≤ 16 := by exact_mod_cast hnum
      have h2 : maxOf ur * size / 2 ≤ 1 / 4 := by nlinarith
      have h3 : 0 ≤ maxOf ur * size / 2 := by have := mul_nonneg hran.1 hsize; linarith
      have h4 : (maxOf ur * size / 2) ^ 2 ≤ 1 / 16 := by nlinarith
      nlinarith [sq_nonneg (maxOf ur * size / 2)]
    refine (AllNew.refl _ st (st.k + w0.fitIndex.length)).trans
      (galileanLoop_range e hr dL w0 hd hinj hrt hst lowL (maxOf ur) size hran.1 hsize hn kw append nstep fuel _ st'
        _ _ _ _ _ _ _ _ n hsize le_rfl (FromPrior.refl ..) ?_ hlow (Or.inl rfl) h)
    refine ⟨getVelocity_length .., ?_, rfl⟩
    refine (dot_self_le _ _ (getVelocity_bound e hr _ _ _ _ hran.1 hsize)).trans ?_
    rw [getVelocity_length]
    exact hn
  · cases h

/-! ### The hypotheses can be met -/

/-- The run of the Galilean engine in `Verif/Props/Engines.lean` meets the hypotheses. -/
example (st' : St Unit ℝ) (n : ℕ) (h : galileanExecute exEnv (fun _ _ _ => [1]) 3 2 (1 / 2) exSt 0 (-(1 / 2)) true
    = some (st', n)) : AllNew (FromPrior exEnv () [0] [1 / 2, 7]) exSt st' :=
  C56_galilean_partial exEnv (fun _ => by norm_num [exEnv]) (fun _ _ _ => [1]) 3 2 (1 / 2) exSt st' 0 (-(1 / 2)) true n
    ⟨0, -1, 0, (), [1 / 2, 7], [0], -(1 / 2)⟩ rfl le_rfl (by simp) (by norm_num) (by norm_num) (by simp) (by simp)
    (by simp [exEnv])
    (by
      intro c hc x hx
      simp at hc
      subst hc
      simp [get, place] at hx
      subst hx
      norm_num [exEnv])
    (by
      intro i lo hi h1 h2
      rcases i with _ | _ | i
      · simp [exEnv] at h1 h2; subst h1 h2; norm_num
      · simp [exEnv] at h1 h2; subst h1 h2; norm_num
      · simp [exEnv] at h1)
    h

/-! ### More than 16 parameters -/

/-- The numbers `s`, `s + 1`, …, `s + n - 1`. -/
def ints (s n : ℕ) : List ℤ := (List.range' s n).map fun i : ℕ => (i : ℤ)

theorem puts_ints : ∀ (vals pre q : List ℝ), q.length = vals.length →
    puts (pre ++ q) (ints pre.length q.length) vals = some (pre ++ vals)
  | [], pre, q, h => by
    obtain rfl := List.length_eq_zero_iff.1 h
    simp [ints, puts]
  | v :: vals, pre, q, h => by
    cases q with
    | nil => simp at h
    | cons a q =>
      have h1 := puts_ints vals (pre ++ [v]) q (by simpa using h)
      simp only [List.length_append, List.length_cons, List.length_nil, List.append_assoc, List.singleton_append] at h1
      have hp : put (pre ++ a :: q) (pre.length : ℤ) v = some (pre ++ v :: q) := by
        simp [put, place]
      simp only [ints, List.length_cons, List.range'_succ, List.map_cons, puts]
      rw [hp]
      exact h1

theorem gets_ints : ∀ (q pre : List ℝ), gets (pre ++ q) (ints pre.length q.length) = some q
  | [], pre => by simp [ints, gets]
  | a :: q, pre => by
    have h1 := gets_ints q (pre ++ [a])
    simp only [List.length_append, List.length_cons, List.length_nil, List.append_assoc, List.singleton_append] at h1
    have hp : get (pre ++ a :: q) (pre.length : ℤ) = some a := by simp [get, place]
    simp only [ints, List.length_cons, List.range'_succ, List.map_cons, gets]
    rw [hp]
    have h2 : gets (pre ++ a :: q) (List.map (fun i : ℕ => (i : ℤ)) (List.range' (pre.length + 1) q.length)) = some q :=
      h1
    rw [h2]

/-- One number, and 24 times another one. -/
noncomputable def vec (a b : ℝ) : List ℝ := a :: List.replicate 24 b

/-- 25 parameters with uniform priors between 0 and 1. The log likelihood is a smooth function of them. The first 25
random numbers are 0, the others 3/4. -/
noncomputable def wideEnv : Env Unit ℝ where
  L := fun _ q => match q with | x :: r => 6 * (x - 2 / 5) ^ 2 + r.sum | [] => 0
  u2d := fun _ _ u => u
  d2u := fun _ _ d => d
  box := fun _ _ _ => (vec 0 0, vec 1 1)
  rand := fun k => if k < 25 then 0 else 3 / 4
  maxtrials := 5
  nstep := 1

/-- The gradient of the log likelihood of `wideEnv`. -/
noncomputable def wideGrad : Unit → List ℝ → List ℤ → List ℝ := fun _ q _ => match q with
  | x :: _ => vec (12 * (x - 2 / 5)) 1
  | [] => []

/-- A walker with all parameters at 9/10. -/
noncomputable def wideWk : Wk Unit ℝ := ⟨0, -1, 0, (), vec (9 / 10) (9 / 10), ints 0 25, 231 / 10⟩

/-- The gradient is the gradient. -/
theorem wideGrad_spec (r : List ℝ) (x : ℝ) (hr : r.length = 24) :
    (wideGrad () (x :: r) []).length = 25 ∧
    HasDerivAt (fun y => wideEnv.L () (y :: r)) ((wideGrad () (x :: r) []).getD 0 0) x ∧
    ∀ i, i < 24 → HasDerivAt (fun y => wideEnv.L () (x :: r.set i y)) ((wideGrad () (x :: r) []).getD (i + 1) 0)
      (r.getD i 0) := by
  refine ⟨by simp [wideGrad, vec], ?_, fun i hi => ?_⟩
  · have h : HasDerivAt (fun y : ℝ => 6 * (y - 2 / 5) ^ 2 + r.sum) (6 * (2 * (x - 2 / 5))) x := by
      have h0 : HasDerivAt (fun y : ℝ => y - 2 / 5) 1 x := (hasDerivAt_id' x).sub_const (2 / 5 : ℝ)
      have h1 : HasDerivAt (fun y : ℝ => (y - 2 / 5) ^ 2) (((2 : ℕ) : ℝ) * (x - 2 / 5) ^ (2 - 1) * 1) x := h0.pow 2
      have h2 : HasDerivAt (fun y : ℝ => 6 * (y - 2 / 5) ^ 2) (6 * (((2 : ℕ) : ℝ) * (x - 2 / 5) ^ (2 - 1) * 1)) x :=
        h1.const_mul 6
      have h3 : HasDerivAt (fun y : ℝ => 6 * (y - 2 / 5) ^ 2 + r.sum)
        (6 * (((2 : ℕ) : ℝ) * (x - 2 / 5) ^ (2 - 1) * 1)) x := h2.add_const r.sum
      convert h3 using 1
      norm_num
    have h2 : (wideGrad () (x :: r) []).getD 0 0 = 6 * (2 * (x - 2 / 5)) := by
      simp only [wideGrad, vec, List.getD_cons_zero]; ring
    rw [h2]
    exact h
  · have h1 : ∀ y, (r.set i y).sum = y + ((r.take i).sum + (r.drop (i + 1)).sum) := by
      intro y
      rw [List.set_eq_take_append_cons_drop, if_pos (by omega)]
      simp [add_left_comm]
    have h2 : (wideGrad () (x :: r) []).getD (i + 1) 0 = 1 := by
      simp only [wideGrad, vec, List.getD_eq_getElem?_getD, List.getElem?_cons_succ, List.getElem?_replicate, if_pos hi,
        Option.getD_some]
    rw [h2]
    simp only [wideEnv, h1]
    have h3 : HasDerivAt (fun y : ℝ => y + ((r.take i).sum + (r.drop (i + 1)).sum)) 1 (r.getD i 0) :=
      (hasDerivAt_id' _).add_const _
    exact h3.const_add _

theorem zipWith_vec (f : ℝ → ℝ → ℝ) (a b c d : ℝ) : List.zipWith f (vec a b) (vec c d) = vec (f a c) (f b d) := by
  simp only [vec, List.zipWith_cons_cons, List.zipWith_replicate, min_self]

theorem vec_inj {a b c d : ℝ} : vec a b = vec c d ↔ a = c ∧ b = d := by
  constructor
  · intro h
    simp only [vec, List.cons.injEq] at h
    exact ⟨h.1, by have := congrArg (fun l : List ℝ => l.headD 0) h.2; simpa [List.replicate_succ] using this⟩
  · rintro ⟨rfl, rfl⟩; rfl

theorem vec_length (a b : ℝ) : (vec a b).length = 25 := by simp [vec]

theorem dot_vec (a b c d : ℝ) : dot (vec a b) (vec c d) = a * c + 24 * (b * d) := by
  rw [dot, zipWith_vec]
  simp only [vec, List.sum_cons, List.sum_replicate, nsmul_eq_mul, Nat.cast_ofNat]

theorem wide_L (a b : ℝ) : wideEnv.L () (vec a b) = 6 * (a - 2 / 5) ^ 2 + 24 * b := by
  simp only [wideEnv, vec, List.sum_replicate, nsmul_eq_mul, Nat.cast_ofNat]

theorem wide_grad (a b : ℝ) : wideGrad () (vec a b) (ints 0 25) = vec (12 * (a - 2 / 5)) 1 := by
  simp only [wideGrad, vec]

theorem zipWith_right {α β : Type*} : ∀ (l : List α) (m : List β), l.length = m.length →
    List.zipWith (fun _ y => y) l m = m
  | [], [], _ => rfl
  | [], _ :: _, h => by simp at h
  | _ :: _, [], h => by simp at h
  | a :: l, b :: m, h => by simp [zipWith_right l m (by simpa using h)]

theorem wide_d2u (a b : ℝ) : wideEnv.domain2Unit () (vec a b) (ints 0 25) = vec a b :=
  zipWith_right _ _ (by simp [ints, vec_length])

theorem wide_u2d (a b : ℝ) : wideEnv.unit2Domain () (vec a b) (ints 0 25) = vec a b :=
  zipWith_right _ _ (by simp [ints, vec_length])

theorem wide_gets (a b : ℝ) : gets (vec a b) (ints 0 25) = some (vec a b) := by
  have := gets_ints (vec a b) []
  simpa [vec_length] using this

theorem wide_puts (a b c d : ℝ) : puts (vec a b) (ints 0 25) (vec c d) = some (vec c d) := by
  have := puts_ints (vec c d) [] (vec a b) (by simp [vec_length])
  simpa [vec_length] using this

theorem wide_velocity (k : ℕ) (r R s : ℝ) (h : ∀ i, i < 25 → wideEnv.rand (k + i) = r) :
    getVelocity wideEnv 25 k R s = vec ((r - 0.5) * R * s) ((r - 0.5) * R * s) := by
  have h1 : getVelocity wideEnv 25 k R s = List.replicate 25 ((r - 0.5) * R * s) := by
    refine List.eq_replicate_iff.2 ⟨getVelocity_length .., fun x hx => ?_⟩
    obtain ⟨i, hi, rfl⟩ := List.mem_map.1 hx
    rw [h i (List.mem_range.1 hi)]
  rw [h1, vec, List.replicate_succ]

theorem wide_bounce (a b c d f : ℝ) :
    (List.zipWith (fun u v => bounce u v f) (vec a b) (vec c d)).map Prod.fst =
      vec (bounce a c f).1 (bounce b d f).1 ∧
    (List.zipWith (fun u v => bounce u v f) (vec a b) (vec c d)).map Prod.snd =
      vec (bounce a c f).2 (bounce b d f).2 := by
  constructor <;>
  simp only [vec, List.zipWith_cons_cons, List.zipWith_replicate, min_self, List.map_cons, List.map_replicate]

/-- A trial step that reaches no edge. -/
theorem wide_free (a b c d f s R : ℝ) (t v : List ℝ) (k : ℕ) (h1 : 0 < a + c * f ∧ a + c * f < 1)
    (h2 : 0 < b + d * f ∧ b + d * f < 1) :
    UM.trialStep wideEnv ⟨vec a b, vec c d, t, v, R⟩ k f s =
      (⟨vec a b, vec c d, vec (a + c * f) (b + d * f), vec c d, R⟩, k) := by
  simp only [UM.trialStep]
  rw [(wide_bounce ..).1, (wide_bounce ..).2, bounce_free a c f h1, bounce_free b d f h2, if_pos rfl]

/-- A trial step that reaches an edge. -/
theorem wide_edge (a b c d f s R : ℝ) (t v : List ℝ) (k : ℕ) (hk : 25 ≤ k) (h : (bounce a c f).2 ≠ c) :
    UM.trialStep wideEnv ⟨vec a b, vec c d, t, v, R⟩ k f s =
      (⟨vec a b, vec c d, vec (bounce a c f).1 (bounce b d f).1,
        vec (copysign (1 / 4 * R * s) (bounce a c f).2) (copysign (1 / 4 * R * s) (bounce b d f).2), R⟩, k + 25) := by
  simp only [UM.trialStep]
  rw [(wide_bounce ..).1, (wide_bounce ..).2, if_neg (fun e => h (vec_inj.1 e).1), vec_length,
    wide_velocity k (3 / 4) _ _ (by intro i _; simp only [wideEnv]; rw [if_neg (by omega)]), zipWith_vec]
  norm_num

theorem maxOf_replicate (n : ℕ) (x : ℝ) : maxOf (List.replicate (n + 1) x) = x := by
  have h := maxOf_mem (List.replicate (n + 1) x) (by simp)
  exact (List.mem_replicate.1 h).2

/-- C56: for the Galilean engine it is false with more than 16 parameters. There are 25 of them, with uniform priors
between 0 and 1, all at 9/10; the likelihood is smooth and the gradient is the true one (`wideGrad_spec`). The first
trial, all parameters at 0.65, is below the level. The mirrored velocity is 5/4 in the first direction; from 0.9 that
leads to 2.15, which is mirrored on the upper edge only, to -0.15. The engine stores a walker there: it has a parameter
that the prior can not have. -/
theorem C56_counterexample_galilean :
    ∃ st' n, galileanExecute wideEnv wideGrad 3 2 (1 / 2) ⟨[wideWk], 1, [], 0⟩ 0 (231 / 10) true = some (st', n) ∧
      (∃ w ∈ st'.walkers, w.allpars = vec (-(3 / 20)) (9 / 10)) ∧
      ¬ AllNew (FromPrior wideEnv () wideWk.fitIndex wideWk.allpars) ⟨[wideWk], 1, [], 0⟩ st' := by
  have hr0 : ∀ i, i < 25 → wideEnv.rand (0 + i) = 0 := by
    intro i hi; simp only [wideEnv]; rw [if_pos (by omega)]
  have hsq : Real.sqrt (225 / 4) = 15 / 2 := by
    rw [show (225 / 4 : ℝ) = (15 / 2) * (15 / 2) by norm_num]
    exact Real.sqrt_mul_self (by norm_num)
  have hbox : wideEnv.getUnitRange ⟨[wideWk], 1, [], 0⟩ () (231 / 10) = (vec 1 1, vec 0 0) := by
    simp only [Env.getUnitRange, wideEnv, zipWith_vec]
    norm_num
  have hmax : maxOf (vec 1 1) = 1 := by
    rw [vec, ← List.replicate_succ]; exact maxOf_replicate 24 1
  have hlen : (ints 0 25).length = 25 := by simp [ints]
  have hq : quadinterpol (231 / 10) (wideEnv.L () (vec (31 / 40) (31 / 40))) (wideEnv.L () (vec (13 / 20) (13 / 20)))
      (231 / 10) = 0 := by
    rw [wide_L, wide_L]
    norm_num [quadinterpol, hsq]
  -- the three turns
  have t1 : UM.trialStep wideEnv ⟨vec (9 / 10) (9 / 10), vec (-(1 / 4)) (-(1 / 4)), [], [], 1⟩ 25 1 (1 / 2) =
      (⟨vec (9 / 10) (9 / 10), vec (-(1 / 4)) (-(1 / 4)), vec (13 / 20) (13 / 20), vec (-(1 / 4)) (-(1 / 4)), 1⟩,
        25) := by
    rw [wide_free _ _ _ _ _ _ _ _ _ _ (by norm_num) (by norm_num)]
    norm_num
  have t2 : UM.trialStep wideEnv ⟨vec (9 / 10) (9 / 10), vec (-(1 / 4)) (-(1 / 4)), vec (13 / 20) (13 / 20),
      vec (-(1 / 4)) (-(1 / 4)), 1⟩ 25 0.5 (1 / 2) =
      (⟨vec (9 / 10) (9 / 10), vec (-(1 / 4)) (-(1 / 4)), vec (31 / 40) (31 / 40), vec (-(1 / 4)) (-(1 / 4)), 1⟩,
        25) := by
    rw [wide_free _ _ _ _ _ _ _ _ _ _ (by norm_num) (by norm_num)]
    norm_num
  have t3 : UM.trialStep wideEnv ⟨vec (9 / 10) (9 / 10), vec (-(1 / 4)) (-(1 / 4)), vec (31 / 40) (31 / 40),
      vec (-(1 / 4)) (-(1 / 4)), 1⟩ 25 0 (1 / 2) =
      (⟨vec (9 / 10) (9 / 10), vec (-(1 / 4)) (-(1 / 4)), vec (9 / 10) (9 / 10), vec (-(1 / 4)) (-(1 / 4)), 1⟩,
        25) := by
    rw [wide_free _ _ _ _ _ _ _ _ _ _ (by norm_num) (by norm_num)]
    norm_num
  have t4 : UM.mirrorOnLowL ⟨vec (9 / 10) (9 / 10), vec (-(1 / 4)) (-(1 / 4)), vec (9 / 10) (9 / 10),
      vec (-(1 / 4)) (-(1 / 4)), 1⟩ (vec (12 * (9 / 10 - 2 / 5)) 1) =
      ⟨vec (9 / 10) (9 / 10), vec (5 / 4) 0, vec (9 / 10) (9 / 10), vec (-(1 / 4)) (-(1 / 4)), 1⟩ := by
    simp only [UM.mirrorOnLowL, dot_vec, zipWith_vec]
    norm_num
  have t5 : UM.trialStep wideEnv ⟨vec (9 / 10) (9 / 10), vec (5 / 4) 0, vec (9 / 10) (9 / 10),
      vec (-(1 / 4)) (-(1 / 4)), 1⟩ 25 (1 - 0) (1 / 2) =
      (⟨vec (9 / 10) (9 / 10), vec (5 / 4) 0, vec (-(3 / 20)) (9 / 10), vec (-(1 / 8)) (1 / 8), 1⟩, 50) := by
    rw [wide_edge _ _ _ _ _ _ _ _ _ _ le_rfl (by norm_num [bounce])]
    norm_num [bounce, copysign]
  have t6 : UM.trialStep wideEnv ⟨vec (-(3 / 20)) (9 / 10), vec (-(1 / 8)) (1 / 8), vec (-(3 / 20)) (9 / 10),
      vec (-(1 / 8)) (1 / 8), 1⟩ 50 1 (1 / 2) =
      (⟨vec (-(3 / 20)) (9 / 10), vec (-(1 / 8)) (1 / 8), vec (11 / 40) (39 / 40), vec (1 / 8) (-(1 / 8)), 1⟩, 75) := by
    rw [wide_edge _ _ _ _ _ _ _ _ _ _ (by norm_num) (by norm_num [bounce])]
    norm_num [bounce, copysign]
  have l1 : ¬ (231 / 10 : ℝ) ≤ wideEnv.L () (vec (13 / 20) (13 / 20)) := by rw [wide_L]; norm_num
  have l2 : (231 / 10 : ℝ) ≤ wideEnv.L () (vec (-(3 / 20)) (9 / 10)) := by rw [wide_L]; norm_num
  have l3 : (231 / 10 : ℝ) ≤ wideEnv.L () (vec (11 / 40) (39 / 40)) := by rw [wide_L]; norm_num
  have hv : getVelocity wideEnv 25 0 1 (1 / 2) = vec (-(1 / 4)) (-(1 / 4)) := by
    rw [wide_velocity 0 0 _ _ hr0]; norm_num
  have hk : ∀ (s : St Unit ℝ) (j : ℕ) (q : List ℝ) (l : ℝ), (s.setWalker j () q l (some wideWk) (ints 0 25)).k = s.k := by
    intro s j q l
    simp only [St.setWalker]
    split <;> rfl
  have hmt : wideEnv.maxtrials = 5 := rfl
  obtain ⟨st', hst', hmem⟩ : ∃ st', galileanExecute wideEnv wideGrad 3 2 (1 / 2) ⟨[wideWk], 1, [], 0⟩ 0 (231 / 10) true
      = some (st', 50) ∧ ∃ w ∈ st'.walkers, w.allpars = vec (-(3 / 20)) (9 / 10) := by
    refine ⟨_, by
      simp only [galileanExecute, List.getElem?_cons_zero]
      simp only [hbox, show wideWk.fitIndex = ints 0 25 from rfl, show wideWk.problem = () from rfl,
        show wideWk.allpars = vec (9 / 10) (9 / 10) from rfl, show wideWk.logL = 231 / 10 from rfl, wide_gets, hlen,
        hmax, hv, wide_d2u, Nat.zero_add]
      simp only [galileanLoop, show wideWk.fitIndex = ints 0 25 from rfl, show wideWk.problem = () from rfl, wide_gets,
        wide_d2u, t1, wide_u2d, wide_puts, Option.map_some, if_true, l1, if_false, hmt, hlen, t2, hq, t3, wide_grad, t4,
        t5, l2, UM.acceptTrial, t6, l3, hk, Nat.reduceLT, Nat.reduceAdd, and_self, false_and, one_ne_zero, Nat.reduceMul]
      rfl, ?_⟩
    refine ⟨{ wideWk with
      id := 1
      allpars := vec (-(3 / 20)) (9 / 10)
      logL := wideEnv.L () (vec (-(3 / 20)) (9 / 10)) }, ?_, rfl⟩
    simp [St.setWalker, St.target]
  refine ⟨st', 50, hst', hmem, fun h => ?_⟩
  obtain ⟨w, hw, hw1⟩ := hmem
  rcases h.1 w hw with h1 | h1
  · rw [List.mem_singleton] at h1
    rw [h1] at hw1
    have := (vec_inj.1 hw1).1
    norm_num at this
  · rw [hw1] at h1
    rcases h1.2 0 (-(3 / 20)) rfl with h2 | ⟨c, u, _, _, h3, _, h5⟩
    · have h2' : (9 / 10 : ℝ) = -(3 / 20) := Option.some.inj h2
      norm_num at h2'
    · simp only [wideEnv] at h5
      linarith

end BF.Engines
