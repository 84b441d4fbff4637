import Verif.Props.Nested
import Verif.Props.PhantomSampler

/-!
# C98: no random number is used twice in a run
-/

namespace BF.Fresh

open Nested

variable {α σ : Type*}

/-! ## Specification -/

/-- `c` tells how many numbers were drawn: a draw takes one, engines take what they need and do not put any back. -/
structure Counts (e : Env α σ) (c : σ → ℕ) : Prop where
  randint : ∀ r, c (e.randint r).2 = c r + 1
  permutation : ∀ r, c (e.permutation r).2 = c r + 1
  execute : ∀ g r wl kw low wl' mv r', e.execute g r wl kw low = some (wl', mv, r') → c r ≤ c r'

/-! ## Lemmas -/

theorem round (e : Env α σ) (c : σ → ℕ) (hc : Counts e c) (kw : ℕ) (low : ℝ) : ∀ (gs : List ℕ) (wl : WalkerList α ℝ)
    (mv : ℕ) (r : σ) (wl' : WalkerList α ℝ) (mv' : ℕ) (r' : σ),
    engineRound e kw low gs wl mv r = some (wl', mv', r') → c r ≤ c r' := by
  intro gs
  induction gs with
  | nil =>
    intro wl mv r wl' mv' r' h
    simp only [engineRound, Option.some.injEq, Prod.mk.injEq] at h
    rw [h.2.2]
  | cons g gs ih =>
    intro wl mv r wl' mv' r' h
    simp only [engineRound] at h
    split at h
    · simp at h
    · rename_i hx
      exact (hc.execute _ _ _ _ _ _ _ _ hx).trans (ih _ _ _ _ _ _ h)

/-- When an engine was tried, there was a draw. -/
theorem trials (e : Env α σ) (c : σ → ℕ) (hc : Counts e c) (o : Opts) (kw : ℕ) (low : ℝ) : ∀ (n : ℕ) (wl : WalkerList α ℝ)
    (mv : ℕ) (r : σ) (b : Bool) (wl' : WalkerList α ℝ) (mv' : ℕ) (r' : σ) (b' : Bool),
    trialLoop e o kw low n wl mv r b = some (wl', mv', r', b') →
    c r ≤ c r' ∧ (b = false → b' = true → c r + 1 ≤ c r') := by
  intro n
  induction n with
  | zero =>
    intro wl mv r b wl' mv' r' b' h
    simp only [trialLoop, Option.some.injEq, Prod.mk.injEq] at h
    obtain ⟨-, -, rfl, rfl⟩ := h
    exact ⟨le_rfl, fun h1 h2 => by simp [h1] at h2⟩
  | succ n ih =>
    intro wl mv r b wl' mv' r' b' h
    simp only [trialLoop] at h
    split_ifs at h with hm
    · split at h
      · simp at h
      · rename_i hx
        have h1 := round e c hc _ _ _ _ _ _ _ _ _ hx
        have h2 := (ih _ _ _ _ _ _ _ _ h).1
        have h3 := hc.permutation r
        exact ⟨by omega, fun _ _ => by omega⟩
    · simp only [Option.some.injEq, Prod.mk.injEq] at h
      obtain ⟨-, -, rfl, rfl⟩ := h
      exact ⟨le_rfl, fun h1 h2 => by simp [h1] at h2⟩

theorem explored (e : Env α σ) (c : σ → ℕ) (hc : Counts e c) (o : Opts) (low : ℝ) : ∀ (ks : List ℕ)
    (wl : WalkerList α ℝ) (r : σ) (wl' : WalkerList α ℝ) (r' : σ), explore e o low ks wl r = some (wl', r') →
    c r + ks.length ≤ c r' := by
  intro ks
  induction ks with
  | nil =>
    intro wl r wl' r' h
    simp only [explore, Option.some.injEq, Prod.mk.injEq] at h
    simp [h.2]
  | cons k ks ih =>
    intro wl r wl' r' h
    simp only [explore] at h
    split at h
    · simp at h
    · rename_i hx
      have h1 := ih _ _ _ _ h
      unfold exploreWalker at hx
      split at hx
      · simp at hx
      · rename_i ht
        split at hx
        · simp at hx
        · split_ifs at hx with a1 a2 a3
          simp only [Option.some.injEq, Prod.mk.injEq] at hx
          obtain ⟨rfl, rfl⟩ := hx
          have := (trials e c hc _ _ _ _ _ _ _ _ _ _ _ _ ht).2 rfl (by simpa using a2)
          simp only [List.length_cons]
          omega

theorem copied (e : Env α σ) (c : σ → ℕ) (hc : Counts e c) (o : Opts) (it worst : ℕ) : ∀ (ks : List ℕ)
    (wl : WalkerList α ℝ) (r : σ) (wl' : WalkerList α ℝ) (r' : σ), copyLoop e o it worst ks wl r = some (wl', r') →
    c r' = c r + ks.length := by
  intro ks
  induction ks with
  | nil =>
    intro wl r wl' r' h
    simp only [copyLoop, Option.some.injEq, Prod.mk.injEq] at h
    simp [h.2]
  | cons k ks ih =>
    intro wl r wl' r' h
    simp only [copyLoop] at h
    split_ifs at h with hw
    split at h
    · simp at h
    · have h1 := ih _ _ _ _ h
      have h2 := hc.randint r
      simp only [List.length_cons]
      omega

/-- The evidence needs no random numbers. -/
theorem evLoop_rng (o : Opts) (ws : List (Walker α ℝ)) : ∀ (kw : ℕ) (s : St α σ), (evLoop o kw ws s).rng = s.rng := by
  induction ws with
  | nil => intro kw s; rfl
  | cons w ws ih => intro kw s; simp only [evLoop]; rw [ih]; rfl

theorem evLoop_walkers (o : Opts) (ws : List (Walker α ℝ)) : ∀ (kw : ℕ) (s : St α σ),
    (evLoop o kw ws s).walkers = s.walkers := by
  induction ws with
  | nil => intro kw s; rfl
  | cons w ws ih => intro kw s; simp only [evLoop]; rw [ih]; rfl

theorem evidence_rng (o : Opts) (n : ℕ) (s s' : St α σ) (h : updateEvidence o n s = some s') : s'.rng = s.rng := by
  unfold updateEvidence at h
  split_ifs at h
  rw [← Option.some.inj h, evLoop_rng]

/-! ## The samplers -/

/-- C98: an iteration of `NestedSampler` takes at least two new random numbers for each walker it replaces. -/
theorem C98_iteration (e : Env α σ) (c : σ → ℕ) (hc : Counts e c) (o : Opts) (s s' : St α σ)
    (h : body e o s = some s') : c s.rng + 2 * o.discard ≤ c s'.rng := by
  unfold body at h
  dsimp only at h
  split at h
  · simp at h
  · split at h
    · simp at h
    · rename_i s1 h1
      have e1 := evidence_rng _ _ _ _ h1
      unfold updateWalkers at h
      split at h
      · simp at h
      · rename_i wl r hcp
        have e2 := copied e c hc _ _ _ _ _ _ _ _ hcp
        split at h
        · simp at h
        · rename_i wl' r' hx
          have e3 := explored e c hc _ _ _ _ _ _ _ hx
          obtain rfl := Option.some.inj h
          simp only [List.length_range] at e2 e3
          dsimp only at e1 e2 ⊢
          rw [e1] at e2
          omega

/-- C98: so over a run the numbers of an iteration come after those of all iterations before it. -/
theorem C98_run (e : Env α σ) (c : σ → ℕ) (hc : Counts e c) (o : Opts) (s s' : St α σ) (hr : Nested.Reach e o s s') :
    ∃ n : ℕ, s'.iteration = s.iteration + n ∧ c s.rng + 2 * o.discard * n ≤ c s'.rng := by
  induction hr with
  | refl => exact ⟨0, rfl, by simp⟩
  | step _ _ hb ih =>
    obtain ⟨n, h1, h2⟩ := ih
    have h3 := C98_iteration e c hc o _ _ hb
    refine ⟨n + 1, ?_, by rw [mul_add]; omega⟩
    obtain ⟨-, -, -, -, -, -, -, -, h4, -⟩ := Nested.body_spec e o _ _ hb
    rw [h4, h1]
    omega

theorem walkerP (e : Env α σ) (c : σ → ℕ) (hc : Counts e c) (o : Opts) (low : ℝ) (k : ℕ) (wl : WalkerList α ℝ)
    (r : σ) (wl' : WalkerList α ℝ) (r' : σ) (h : PhantomSampler.explore e o low [k] wl r = some (wl', r')) :
    c r + 1 ≤ c r' := by
  simp only [PhantomSampler.explore] at h
  split at h
  · simp at h
  · rename_i hx
    simp only [Option.some.injEq, Prod.mk.injEq] at h
    obtain ⟨rfl, rfl⟩ := h
    unfold PhantomSampler.exploreWalker at hx
    split_ifs at hx
    split at hx
    · simp at hx
    · rename_i ht
      split at hx
      · split_ifs at hx with a1 a2 a3
        simp only [Option.some.injEq, Prod.mk.injEq] at hx
        obtain ⟨rfl, rfl⟩ := hx
        exact (trials e c hc _ _ _ _ _ _ _ _ _ _ _ _ ht).2 rfl (by simpa using a2)
      · simp at hx

theorem filled (e : Env α σ) (c : σ → ℕ) (hc : Counts e c) (o : Opts) (wst : ℕ) (low : ℝ) : ∀ (n : ℕ)
    (wl : WalkerList α ℝ) (r : σ) (wl' : WalkerList α ℝ) (r' : σ),
    PhantomSampler.fill e o wst low n wl r = some (wl', r') →
    c r ≤ c r' ∧ o.ensemble < wl'.items.length ∧ (wl.items.length ≤ o.ensemble → c r + 2 ≤ c r') := by
  intro n
  induction n with
  | zero =>
    intro wl r wl' r' h
    simp only [PhantomSampler.fill] at h
    split_ifs at h
    simp only [Option.some.injEq, Prod.mk.injEq] at h
    obtain ⟨rfl, rfl⟩ := h
    exact ⟨le_rfl, by omega, by omega⟩
  | succ n ih =>
    intro wl r wl' r' h
    simp only [PhantomSampler.fill] at h
    split_ifs at h with h1 h2
    · split at h
      · simp at h
      · rename_i hx
        have a1 := walkerP e c hc _ _ _ _ _ _ _ hx
        have a2 := hc.randint r
        obtain ⟨a3, a4, -⟩ := ih _ _ _ _ h
        exact ⟨by omega, a4, fun _ => by omega⟩
    · simp only [Option.some.injEq, Prod.mk.injEq] at h
      obtain ⟨rfl, rfl⟩ := h
      exact ⟨le_rfl, by omega, by omega⟩

theorem trimmed (e : Env α σ) (c : σ → ℕ) (hc : Counts e c) (N step : ℕ) : ∀ (n : ℕ) (l : List (Walker α ℝ)) (r : σ)
    (l' : List (Walker α ℝ)) (r' : σ), l.length ≤ n → PhantomSampler.trim e N step n l r = some (l', r') →
    c r' = c r + (l.length - N) := by
  intro n
  induction n with
  | zero =>
    intro l r l' r' hl h
    simp only [PhantomSampler.trim, Option.some.injEq, Prod.mk.injEq] at h
    rw [h.2]
    omega
  | succ n ih =>
    intro l r l' r' hl h
    simp only [PhantomSampler.trim] at h
    split_ifs at h with h1 h2
    · split at h
      · simp at h
      · rename_i l1 hd
        obtain ⟨a, -, -⟩ := PhantomSampler.delAt_spec _ _ _ hd
        have a2 := hc.randint r
        have a3 := ih _ _ _ _ (by omega) h
        omega
    · simp only [Option.some.injEq, Prod.mk.injEq] at h
      rw [h.2]
      omega

/-- C98: an iteration of `PhantomSampler` takes new random numbers too, at least three once the ensemble has its size. -/
theorem C98_phantoms (e : Env α σ) (c : σ → ℕ) (hc : Counts e c) (o : Opts) (step fuel : ℕ) (s s' : St α σ)
    (h : PhantomSampler.body e o step fuel s = some s') :
    c s.rng < c s'.rng ∧ (s.walkers.items.length ≤ o.ensemble → c s.rng + 3 ≤ c s'.rng) := by
  unfold PhantomSampler.body at h
  dsimp only at h
  split at h
  · simp at h
  · split at h
    · simp at h
    · rename_i s1 h1
      have e1 := evidence_rng _ _ _ _ h1
      have ew : s1.walkers = sortWalkers s.walkers := by
        unfold updateEvidence at h1
        split_ifs at h1
        rw [← Option.some.inj h1, evLoop_walkers]
      unfold PhantomSampler.updateWalkers at h
      split at h
      · simp at h
      · rename_i wl r hf
        obtain ⟨e2, e3, e4⟩ := filled e c hc _ _ _ _ _ _ _ _ hf
        split at h
        · simp at h
        · rename_i wl' r' hx
          have e5 := trimmed e c hc _ _ _ _ _ _ _ le_rfl hx
          obtain rfl := Option.some.inj h
          dsimp only at e1 e2 e4 ⊢
          rw [e1] at e2 e4
          refine ⟨by omega, fun hl => ?_⟩
          have := e4 (by
            rw [ew]
            simp only [List.length_drop]
            have : (sortWalkers s.walkers).items.length = s.walkers.items.length := by simp [sortWalkers]
            omega)
          omega

/-! ## Example -/

/-- The state of the generator is the number of draws; the engine takes three and moves to likelihood 7. -/
noncomputable def counter : Env ℕ ℕ where
  randint r := (0, r + 1)
  permutation r := ([0], r + 1)
  execute _ r wl kw _ :=
    match wl.items[kw]? with
    | none => none
    | some w => some ({ wl with items := wl.items.set kw { w with logL := 7 } }, 1, r + 3)
  logLcheck _ := true

theorem counter_counts : Counts counter id := by
  refine ⟨fun _ => rfl, fun _ => rfl, ?_⟩
  intro g r wl kw low wl' mv r' h
  simp only [counter] at h
  split at h
  · simp at h
  · simp only [Option.some.injEq, Prod.mk.injEq] at h
    simp only [id]
    omega

noncomputable def begin : St ℕ ℕ :=
  initState (demoOpts 3 1) ⟨[⟨0, -1, 0, 0, [10], 2⟩, ⟨1, -1, 0, 0, [11], 1⟩, ⟨2, -1, 0, 0, [12], 3⟩], 3⟩ 0 ⟨[], 0⟩ 0 5

theorem begin_sorted : (sortWalkers begin.walkers).items
    = [⟨1, -1, 0, 0, [11], 1⟩, ⟨0, -1, 0, 0, [10], 2⟩, ⟨2, -1, 0, 0, [12], 3⟩] := demo_sorted

/-- One iteration of it: a draw for the copy, one for the order of the engines, three by the engine. -/
example : ∃ s, body counter (demoOpts 3 1) begin = some s ∧ s.rng = 10 := by
  have h7 : ¬ (7 : ℝ) < 1 := by norm_num
  refine ⟨_, by
    simp only [body, begin_sorted]
    simp [demoOpts, updateEvidence, begin_sorted, updateWalkers, copyWalker, copyLoop, evLoop, evStep,
      counter, WalkerList.copy, explore, exploreWalker, trialLoop, engineRound, SampleList.weed, h7]
    rfl, ?_⟩
  simp [begin, initState]

end BF.Fresh
