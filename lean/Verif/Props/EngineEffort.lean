import Verif.Engines
import Verif.Props.Engines

/-!
# C142: how many moves an engine makes
-/

noncomputable section

namespace BF.Engines

open Classical

variable {π β : Type*} [LinearOrder β]

/-! ## Specification -/

/-- No parameters at all have a likelihood below the level. -/
def NoBar (e : Env π β) (lowL : β) : Prop := ∀ p a, lowL ≤ e.L p a

/-- The start engine has drawn new values `n` times, starting with the random number `k` and the parameters `a`,
and each time the likelihood was not finite. -/
inductive Refused (e : Env π β) (finite : β → Prop) (w : Wk π β) : ℕ → ℕ → List ℝ → Prop
  | zero (k : ℕ) (a : List ℝ) : Refused e finite w 0 k a
  | succ {n k : ℕ} {a a' : List ℝ} :
      puts a w.fitIndex (e.unit2Domain w.problem ((List.range w.fitIndex.length).map fun i => e.rand (k + i)) w.fitIndex)
        = some a' →
      ¬ finite (e.L w.problem a') → Refused e finite w n (k + w.fitIndex.length) a' → Refused e finite w (n + 1) k a

/-! ## RandomEngine -/

theorem randomLoop_le (e : Env π β) (w : Wk π β) (lowL : β) (kw : ℕ) (append : Bool) (um ux : List ℝ) (n : ℕ)
    (st st' : St π β) (r : ℕ) (h : randomLoop e w lowL kw append um ux n st = some (st', r)) :
    (r = 0 ∨ r = w.fitIndex.length) ∧ (0 < n → NoBar e lowL → r = w.fitIndex.length) := by
  induction n generalizing st with
  | zero =>
    simp only [randomLoop, Option.some.injEq, Prod.mk.injEq] at h
    exact ⟨Or.inl h.2.symm, fun h0 => absurd h0 (by omega)⟩
  | succ n ih =>
    simp only [randomLoop] at h
    split at h
    · cases h
    · by_cases hc : lowL ≤ e.L w.problem ‹List ℝ›
      · rw [if_pos hc] at h
        simp only [Option.some.injEq, Prod.mk.injEq] at h
        exact ⟨Or.inr h.2.symm, fun _ _ => h.2.symm⟩
      · rw [if_neg hc] at h
        exact ⟨(ih _ h).1, fun _ hb => absurd (hb _ _) hc⟩

/-- The random engine reports either no moves or one for each fitted parameter; the latter when no likelihood is
below the level and it may try at least once. -/
theorem C142_random (e : Env π β) (st st' : St π β) (kw : ℕ) (lowL : β) (append : Bool) (n : ℕ) (w : Wk π β)
    (hw : st.walkers[kw]? = some w) (h : randomExecute e st kw lowL append = some (st', n)) :
    (n = 0 ∨ n = w.fitIndex.length) ∧ (0 < e.nstep → NoBar e lowL → n = w.fitIndex.length) := by
  simp only [randomExecute, hw] at h
  exact randomLoop_le _ _ _ _ _ _ _ _ _ _ _ h

/-! ## GibbsEngine -/

theorem gibbsTry_le (e : Env π β) (p : π) (fi : List ℤ) (lowL : β) (kw : ℕ) (append : Bool) (param : List ℝ) (c : ℤ)
    (save usav step : ℝ) (fuel kk : ℕ) (utry : ℝ) (st st' : St π β) (q : List ℝ) (n : ℕ)
    (h : gibbsTry e p fi lowL kw append param c save usav step fuel kk utry st = some (st', q, n)) :
    n ≤ 1 ∧ (NoBar e lowL → n = 1) := by
  induction fuel generalizing kk utry st with
  | zero => simp [gibbsTry] at h
  | succ fuel ih =>
    simp only [gibbsTry] at h
    split at h
    · cases h
    · rename_i ptry _
      by_cases hc : lowL ≤ e.L p ptry
      · rw [if_pos hc] at h
        simp only [Option.some.injEq, Prod.mk.injEq] at h
        omega
      · rw [if_neg hc] at h
        refine ⟨?_, fun hb => absurd (hb _ _) hc⟩
        by_cases hk : kk + 1 < e.maxtrials
        · rw [if_pos hk] at h
          split at h
          · cases h
          · exact (ih _ _ _ h).1
        · rw [if_neg hk] at h
          split at h
          · cases h
          · simp only [Option.some.injEq, Prod.mk.injEq] at h
            omega

theorem gibbsLoop_le (e : Env π β) (p : π) (fi : List ℤ) (lowL : β) (kw : ℕ) (append : Bool) (ur : List ℝ) (fuel : ℕ)
    (cs : List ℤ) (param : List ℝ) (st st' : St π β) (steps n : ℕ)
    (h : gibbsLoop e p fi lowL kw append ur fuel cs param st steps = some (st', n)) :
    n ≤ steps + cs.length ∧ (NoBar e lowL → n = steps + cs.length) := by
  induction cs generalizing param st steps with
  | nil =>
    simp only [gibbsLoop, Option.some.injEq, Prod.mk.injEq] at h
    simp only [List.length_nil]
    omega
  | cons c cs ih =>
    simp only [gibbsLoop] at h
    split at h
    · split at h
      · cases h
      · split at h
        · cases h
        · rename_i m hm
          obtain ⟨h1, h2⟩ := gibbsTry_le e p fi lowL kw append _ _ _ _ _ _ _ _ _ _ _ _ hm
          obtain ⟨h3, h4⟩ := ih _ _ _ h
          simp only [List.length_cons]
          exact ⟨by omega, fun hb => by have := h2 hb; have := h4 hb; omega⟩
    · cases h

/-- The Gibbs engine moves every fitted parameter at most once in each of its steps, of which there is at least one;
when no likelihood is below the level it moves each of them every time. -/
theorem C142_gibbs (e : Env π β) (fuel : ℕ) (perm : List ℤ) (st st' : St π β) (kw : ℕ) (lowL : β) (append : Bool)
    (n : ℕ) (w : Wk π β) (hw : st.walkers[kw]? = some w) (hp : perm.Perm w.fitIndex)
    (h : gibbsExecute e fuel perm st kw lowL append = some (st', n)) :
    n ≤ max 1 e.nstep * w.fitIndex.length ∧ (NoBar e lowL → n = max 1 e.nstep * w.fitIndex.length) := by
  simp only [gibbsExecute, hw] at h
  have := gibbsLoop_le _ _ _ _ _ _ _ _ _ _ _ _ _ _ h
  simpa [List.length_flatten, hp.length_eq] using this

/-! ## StepEngine -/

theorem stepLoop_le (e : Env π β) (p : π) (fi : List ℤ) (lowL : β) (kw : ℕ) (append : Bool) (urange : List ℝ)
    (fuel : ℕ) (st st' : St π β) (ks kt : ℕ) (sz : ℝ) (step usav param : List ℝ) (n : ℕ) (hks : ks ≤ e.nstep)
    (h : stepLoop e p fi lowL kw append urange fuel st ks kt sz step usav param = some (st', n)) :
    (∃ j, j ≤ e.nstep ∧ n = fi.length * j) ∧ (NoBar e lowL → n = fi.length * e.nstep) := by
  induction fuel generalizing st ks kt sz step usav param with
  | zero => simp [stepLoop] at h
  | succ fuel ih =>
    simp only [stepLoop] at h
    by_cases hk : ks < e.nstep
    · rw [if_pos hk] at h
      split at h
      · cases h
      · split at h
        · cases h
        · rename_i ptry _
          by_cases hc : lowL ≤ e.L p ptry
          · rw [if_pos hc] at h
            exact ih _ _ _ _ _ _ _ hk h
          · rw [if_neg hc] at h
            refine ⟨?_, fun hb => absurd (hb _ _) hc⟩
            by_cases ht : kt ≤ e.maxtrials
            · rw [if_pos ht] at h
              exact (ih _ _ _ _ _ _ _ hks h).1
            · rw [if_neg ht] at h
              simp only [Option.some.injEq, Prod.mk.injEq] at h
              exact ⟨ks, hks, h.2.symm⟩
    · rw [if_neg hk] at h
      simp only [Option.some.injEq, Prod.mk.injEq] at h
      have : ks = e.nstep := by omega
      subst this
      exact ⟨⟨_, le_refl _, h.2.symm⟩, fun _ => h.2.symm⟩

/-- The step engine moves all fitted parameters together, at most as many times as it has steps; when no likelihood
is below the level exactly as many times. -/
theorem C142_step (e : Env π β) (fuel : ℕ) (st st' : St π β) (kw : ℕ) (lowL : β) (append : Bool) (n : ℕ) (w : Wk π β)
    (hw : st.walkers[kw]? = some w) (h : stepExecute e fuel st kw lowL append = some (st', n)) :
    (∃ j, j ≤ e.nstep ∧ n = w.fitIndex.length * j) ∧ (NoBar e lowL → n = w.fitIndex.length * e.nstep) := by
  simp only [stepExecute, hw] at h
  split at h
  · exact stepLoop_le _ _ _ _ _ _ _ _ _ _ _ _ _ _ _ _ _ (by omega) h
  · cases h

/-! ## ChordEngine -/

theorem chordLoop_le (e : Env π β) (fuel : ℕ) (p : π) (fi : List ℤ) (lowL : β) (kw : ℕ) (append : Bool) (n : ℕ)
    (st st' : St π β) (onb : Basis) (reset : Bool) (vel usav umin umax ptry : List ℝ) (step r : ℕ)
    (tr : List (List ℝ))
    (h : chordLoop e fuel p fi lowL kw append n st onb reset vel usav umin umax ptry step = some (st', r, tr)) :
    ∃ j, j ≤ step + n ∧ r = j * fi.length := by
  induction n generalizing st onb reset vel usav umin umax ptry step tr with
  | zero =>
    simp only [chordLoop, Option.some.injEq, Prod.mk.injEq] at h
    exact ⟨step, by omega, h.2.1.symm⟩
  | succ n ih =>
    simp only [chordLoop] at h
    split at h
    · split at h
      · cases h
      · simp only [Option.map_eq_some_iff, Prod.mk.injEq] at h
        obtain ⟨⟨s1, r1, t1⟩, h1, rfl, rfl, _⟩ := h
        obtain ⟨j, hj, e1⟩ := ih _ _ _ _ _ _ _ _ _ _ h1
        exact ⟨j, by omega, e1⟩
      · simp only [Option.map_eq_some_iff, Prod.mk.injEq] at h
        obtain ⟨⟨s1, r1, t1⟩, h1, rfl, rfl, _⟩ := h
        obtain ⟨j, hj, e1⟩ := ih _ _ _ _ _ _ _ _ _ _ h1
        exact ⟨j, by omega, e1⟩
      · simp only [Option.map_eq_some_iff, Prod.mk.injEq] at h
        obtain ⟨⟨s1, r1, t1⟩, h1, rfl, rfl, _⟩ := h
        obtain ⟨j, hj, e1⟩ := ih _ _ _ _ _ _ _ _ _ _ h1
        exact ⟨j, by omega, e1⟩
    · obtain ⟨j, hj, e1⟩ := ih _ _ _ _ _ _ _ _ _ _ h
      exact ⟨j, by omega, e1⟩

/-- The chord engine moves all fitted parameters together, at most as many times as it has steps. -/
theorem C142_chord (e : Env π β) (fuel nstep : ℕ) (st st' : St π β) (kw : ℕ) (lowL : β) (append : Bool) (n : ℕ)
    (tr : List (List ℝ)) (w : Wk π β) (hw : st.walkers[kw]? = some w)
    (h : chordExecute e fuel nstep st kw lowL append = some (st', n, tr)) :
    ∃ j, j ≤ nstep ∧ n = j * w.fitIndex.length := by
  simp only [chordExecute, hw] at h
  split at h
  · simpa using chordLoop_le _ _ _ _ _ _ _ _ _ _ _ _ _ _ _ _ _ _ _ _ h
  · cases h

/-! ## GalileanEngine -/

theorem galileanLoop_le (e : Env π ℝ) (dL : π → List ℝ → List ℤ → List ℝ) (w : Wk π ℝ) (lowL : ℝ) (kw : ℕ)
    (append : Bool) (nstep : ℕ) (size0 : ℝ) (fuel : ℕ) (st st' : St π ℝ) (um : UM) (a : List ℝ) (Lh Lt : ℝ)
    (inside : ℕ) (size : ℝ) (step trial r : ℕ) (hs : step < nstep)
    (h : galileanLoop e dL w lowL kw append nstep size0 fuel st um a Lh Lt inside size step trial = some (st', r)) :
    (∃ j, j ≤ nstep ∧ r = j * w.fitIndex.length) ∧
      (0 < e.maxtrials → NoBar e lowL → r = nstep * w.fitIndex.length) := by
  induction fuel generalizing st um a Lh Lt inside size step trial with
  | zero => simp [galileanLoop] at h
  | succ fuel ih =>
    simp only [galileanLoop] at h
    split at h
    · cases h
    · split at h
      · cases h
      · rename_i ptry _ _ _
        by_cases hc : lowL ≤ e.L w.problem ptry
        · rw [if_pos hc] at h
          by_cases hn : step + 1 < nstep ∧ 0 < e.maxtrials
          · rw [if_pos hn] at h
            exact ih _ _ _ _ _ _ _ _ _ hn.1 h
          · rw [if_neg hn] at h
            simp only [Option.some.injEq, Prod.mk.injEq] at h
            refine ⟨⟨step + 1, hs, h.2.symm⟩, fun hm _ => ?_⟩
            have : step + 1 = nstep := by
              by_contra hne
              exact hn ⟨by omega, hm⟩
            rw [← h.2, this]
        · rw [if_neg hc] at h
          refine ⟨?_, fun _ hb => absurd (hb _ _) hc⟩
          by_cases hn : step < nstep ∧ trial + 1 < e.maxtrials
          · rw [if_pos hn] at h
            exact (ih _ _ _ _ _ _ _ _ _ hs h).1
          · rw [if_neg hn] at h
            simp only [Option.some.injEq, Prod.mk.injEq] at h
            exact ⟨step, by omega, h.2.symm⟩

/-- The galilean engine moves all fitted parameters together, at most as many times as it has steps; when no
likelihood is below the level exactly as many times. -/
theorem C142_galilean (e : Env π ℝ) (dL : π → List ℝ → List ℤ → List ℝ) (fuel nstep : ℕ) (size : ℝ) (st st' : St π ℝ)
    (kw : ℕ) (lowL : ℝ) (append : Bool) (n : ℕ) (w : Wk π ℝ) (hw : st.walkers[kw]? = some w) (hs : 0 < nstep)
    (h : galileanExecute e dL fuel nstep size st kw lowL append = some (st', n)) :
    (∃ j, j ≤ nstep ∧ n = j * w.fitIndex.length) ∧
      (0 < e.maxtrials → NoBar e lowL → n = nstep * w.fitIndex.length) := by
  simp only [galileanExecute, hw] at h
  split at h
  · exact galileanLoop_le _ _ _ _ _ _ _ _ _ _ _ _ _ _ _ _ _ _ _ _ hs h
  · cases h

/-! ## StartEngine -/

theorem puts_some (a : List ℝ) (cs : List ℤ) (vs : List ℝ) (hl : vs.length = cs.length)
    (hin : ∀ c ∈ cs, -(a.length : ℤ) ≤ c ∧ c < a.length) :
    ∃ a', puts a cs vs = some a' ∧ a'.length = a.length := by
  induction cs generalizing a vs with
  | nil =>
    cases vs with
    | nil => exact ⟨a, rfl, rfl⟩
    | cons v vs => simp at hl
  | cons c cs ih =>
    cases vs with
    | nil => simp at hl
    | cons v vs =>
      obtain ⟨h1, h2⟩ := hin c (by simp)
      obtain ⟨i, hi⟩ : ∃ i, place a.length c = some i := by
        unfold place
        by_cases h0 : 0 ≤ c
        · rw [if_pos h0, if_pos h2]; exact ⟨_, rfl⟩
        · rw [if_neg h0, if_pos (by omega)]; exact ⟨_, rfl⟩
      have hp : put a c v = some (a.set i v) := by simp [put, hi]
      obtain ⟨b, h3, h4⟩ := ih (a.set i v) vs (by simpa using hl)
        (fun x hx => by simpa using hin x (List.mem_cons_of_mem _ hx))
      exact ⟨b, by simp only [puts, hp]; exact h3, by simpa using h4⟩

theorem startLoop_none (e : Env π β) (finite : β → Prop) [DecidablePred finite] (w : Wk π β)
    (hin : ∀ c ∈ w.fitIndex, -(w.allpars.length : ℤ) ≤ c ∧ c < w.allpars.length)
    (n k : ℕ) (a : List ℝ) (ha : a.length = w.allpars.length) (h : startLoop e finite w n k a = none) :
    Refused e finite w n k a := by
  induction n generalizing k a with
  | zero => exact .zero k a
  | succ n ih =>
    simp only [startLoop] at h
    obtain ⟨a', h1, h2⟩ := puts_some a w.fitIndex (e.unit2Domain w.problem
      ((List.range w.fitIndex.length).map fun i => e.rand (k + i)) w.fitIndex) (by simp [Env.unit2Domain])
      (by rw [ha]; exact hin)
    rw [h1] at h
    simp only at h
    by_cases hf : finite (e.L w.problem a')
    · rw [if_pos hf] at h; cases h
    · rw [if_neg hf] at h
      exact .succ h1 hf (ih _ _ (h2.trans ha) h)

/-- The start engine, for a model that is not dynamic, gives up only after more draws than its maximum number of
trials, the identity of the walker added to it, and each of them had a likelihood that was not finite. -/
theorem C142_start (e : Env π β) (finite : β → Prop) [DecidablePred finite] (st : St π β) (kw : ℕ) (w : Wk π β)
    (hw : st.walkers[kw]? = some w)
    (hin : ∀ c ∈ w.fitIndex, -(w.allpars.length : ℤ) ≤ c ∧ c < w.allpars.length)
    (h : startExecute e finite st kw = none) :
    Refused e finite w (e.maxtrials + w.id + 2) st.k w.allpars := by
  simp only [startExecute, hw] at h
  split at h
  · rename_i hl
    exact startLoop_none e finite w hin _ _ _ rfl hl
  · cases h

/-! ## The hypotheses can be met -/

/-- With the likelihoods of the examples, cut off at -1, no parameters are refused at the level -1. -/
example : NoBar { exEnv with
    L := fun _ q => max (-1) (match q with | x :: _ => x - 1 | [] => 0) } (-1) := fun _ _ => le_max_left _ _

/-- When no likelihood is finite the start engine gives up. -/
example : startExecute exEnv (fun _ => False) exSt 0 = none ∧ (∀ c ∈ ([0] : List ℤ), -2 ≤ c ∧ c < 2) := by
  constructor
  · simp [startExecute, exEnv, exSt, startLoop, puts, put, place, Env.unit2Domain, List.range_succ]
  · simp

end BF.Engines
