import Verif.PhantomSampler
import Verif.Props.NestedRuns

/-!
# C94: the phantom sampler
-/

namespace BF
namespace PhantomSampler

open Nested

variable {α σ : Type*}

/-! ## Specification -/

/-- Contract of an engine that appends: the walkers that are there stay as they are, and what is
appended is at or above the level. -/
def Appends (e : Env α σ) : Prop :=
  ∀ (g : ℕ) (r : σ) (wl : WalkerList α ℝ) (kw : ℕ) (low : ℝ) (wl' : WalkerList α ℝ) (mv : ℕ)
    (r' : σ), e.execute g r wl kw low = some (wl', mv, r') →
    ∃ new, wl'.items = wl.items ++ new ∧ AllAbove low new

/-- Every state that the while loop passes through, starting in `s0`. -/
inductive Reach (e : Env α σ) (o : Opts) (step : ℕ) (s0 : St α σ) : St α σ → Prop
  | refl : Reach e o step s0 s0
  | step {s s' : St α σ} (fuel : ℕ) : Reach e o step s0 s → nextIteration o step s = some true →
      body e o step fuel s = some s' → Reach e o step s0 s'

/-! ## The exploration -/

theorem round_appends (e : Env α σ) (he : Appends e) (kw : ℕ) (low : ℝ) :
    ∀ (gs : List ℕ) (wl : WalkerList α ℝ) (mv : ℕ) (r : σ) (wl' : WalkerList α ℝ) (mv' : ℕ)
      (r' : σ), engineRound e kw low gs wl mv r = some (wl', mv', r') →
      ∃ new, wl'.items = wl.items ++ new ∧ AllAbove low new := by
  intro gs
  induction gs with
  | nil =>
    intro wl mv r wl' mv' r' h
    simp only [engineRound, Option.some.injEq, Prod.mk.injEq] at h
    obtain ⟨rfl, _, _⟩ := h
    exact ⟨[], by simp, by simp [AllAbove]⟩
  | cons g gs ih =>
    intro wl mv r wl' mv' r' h
    simp only [engineRound] at h
    split at h
    · exact absurd h (by simp)
    · rename_i wl1 m1 r1 h1
      obtain ⟨n1, a1, b1⟩ := he _ _ _ _ _ _ _ _ h1
      obtain ⟨n2, a2, b2⟩ := ih _ _ _ _ _ _ h
      refine ⟨n1 ++ n2, by rw [a2, a1, List.append_assoc], ?_⟩
      intro w hw
      rcases List.mem_append.1 hw with h | h
      · exact b1 w h
      · exact b2 w h

theorem trial_appends (e : Env α σ) (he : Appends e) (o : Opts) (kw : ℕ) (low : ℝ) :
    ∀ (n : ℕ) (wl : WalkerList α ℝ) (mv : ℕ) (r : σ) (b : Bool) (wl' : WalkerList α ℝ) (mv' : ℕ)
      (r' : σ) (b' : Bool), trialLoop e o kw low n wl mv r b = some (wl', mv', r', b') →
      ∃ new, wl'.items = wl.items ++ new ∧ AllAbove low new := by
  intro n
  induction n with
  | zero =>
    intro wl mv r b wl' mv' r' b' h
    simp only [trialLoop, Option.some.injEq, Prod.mk.injEq] at h
    obtain ⟨rfl, _⟩ := h
    exact ⟨[], by simp, by simp [AllAbove]⟩
  | succ n ih =>
    intro wl mv r b wl' mv' r' b' h
    simp only [trialLoop] at h
    split at h
    · split at h
      · exact absurd h (by simp)
      · rename_i wl1 m1 r1 h1
        obtain ⟨n1, a1, b1⟩ := round_appends e he kw low _ _ _ _ _ _ _ h1
        obtain ⟨n2, a2, b2⟩ := ih _ _ _ _ _ _ _ _ h
        refine ⟨n1 ++ n2, by rw [a2, a1, List.append_assoc], ?_⟩
        intro w hw
        rcases List.mem_append.1 hw with h | h
        · exact b1 w h
        · exact b2 w h
    · simp only [Option.some.injEq, Prod.mk.injEq] at h
      obtain ⟨rfl, _⟩ := h
      exact ⟨[], by simp, by simp [AllAbove]⟩

theorem exploreWalker_appends (e : Env α σ) (he : Appends e) (o : Opts) (kw : ℕ) (low : ℝ)
    (wl wl' : WalkerList α ℝ) (r r' : σ) (h : exploreWalker e o kw low wl r = some (wl', r')) :
    ∃ new, wl'.items = wl.items ++ new ∧ AllAbove low new := by
  simp only [exploreWalker] at h
  split at h
  · split at h
    · exact absurd h (by simp)
    · rename_i wl1 m1 r1 b1 h1
      have ha := trial_appends e he o kw low _ _ _ _ _ _ _ _ _ h1
      split at h
      · split at h
        · exact absurd h (by simp)
        · split at h
          · exact absurd h (by simp)
          · split at h
            · exact absurd h (by simp)
            · simp only [Option.some.injEq, Prod.mk.injEq] at h
              obtain ⟨rfl, _⟩ := h
              exact ha
      · exact absurd h (by simp)
  · exact absurd h (by simp)

theorem explore_appends (e : Env α σ) (he : Appends e) (o : Opts) (low : ℝ) :
    ∀ (ks : List ℕ) (wl wl' : WalkerList α ℝ) (r r' : σ),
      explore e o low ks wl r = some (wl', r') →
      ∃ new, wl'.items = wl.items ++ new ∧ AllAbove low new := by
  intro ks
  induction ks with
  | nil =>
    intro wl wl' r r' h
    simp only [explore, Option.some.injEq, Prod.mk.injEq] at h
    obtain ⟨rfl, _⟩ := h
    exact ⟨[], by simp, by simp [AllAbove]⟩
  | cons k ks ih =>
    intro wl wl' r r' h
    simp only [explore] at h
    split at h
    · exact absurd h (by simp)
    · rename_i wl1 r1 h1
      obtain ⟨n1, a1, b1⟩ := exploreWalker_appends e he o k low _ _ _ _ h1
      obtain ⟨n2, a2, b2⟩ := ih _ _ _ _ h
      refine ⟨n1 ++ n2, by rw [a2, a1, List.append_assoc], ?_⟩
      intro w hw
      rcases List.mem_append.1 hw with h | h
      · exact b1 w h
      · exact b2 w h

theorem fill_spec (e : Env α σ) (he : Appends e) (o : Opts) (wst : ℕ) (low : ℝ) :
    ∀ (n : ℕ) (wl wl' : WalkerList α ℝ) (r r' : σ), fill e o wst low n wl r = some (wl', r') →
      o.ensemble < wl'.items.length ∧
      (∃ new, wl'.items = wl.items ++ new ∧ AllAbove low new) ∧
      (o.ensemble < wl.items.length → wl'.items = wl.items) := by
  intro n
  induction n with
  | zero =>
    intro wl wl' r r' h
    simp only [fill] at h
    split at h
    · exact absurd h (by simp)
    · rename_i hc
      simp only [Option.some.injEq, Prod.mk.injEq] at h
      obtain ⟨rfl, _⟩ := h
      exact ⟨by omega, ⟨[], by simp, by simp [AllAbove]⟩, fun _ => rfl⟩
  | succ n ih =>
    intro wl wl' r r' h
    simp only [fill] at h
    split at h
    · rename_i hc
      split at h
      · split at h
        · exact absurd h (by simp)
        · rename_i wl1 r1 h1
          obtain ⟨n1, a1, b1⟩ := explore_appends e he o low _ _ _ _ _ h1
          obtain ⟨c, ⟨n2, a2, b2⟩, _⟩ := ih _ _ _ _ h
          refine ⟨c, ⟨n1 ++ n2, by rw [a2, a1, List.append_assoc], ?_⟩, fun h => by omega⟩
          intro w hw
          rcases List.mem_append.1 hw with h | h
          · exact b1 w h
          · exact b2 w h
      · exact absurd h (by simp)
    · rename_i hc
      simp only [Option.some.injEq, Prod.mk.injEq] at h
      obtain ⟨rfl, _⟩ := h
      exact ⟨by omega, ⟨[], by simp, by simp [AllAbove]⟩, fun _ => rfl⟩

/-! ## The deletions -/

theorem delAt_spec {β : Type*} (l l' : List β) (k : ℤ) (h : delAt l k = some l') :
    l'.length + 1 = l.length ∧ l'.Sublist l ∧
    ∀ m : ℕ, (m : ℤ) ≤ k → l'.take m = l.take m := by
  simp only [delAt] at h
  split at h
  · rename_i hk
    obtain rfl := Option.some.inj h
    have hlt : k.toNat < l.length := by omega
    refine ⟨?_, List.eraseIdx_sublist _ _, fun m hm => ?_⟩
    · rw [List.length_eraseIdx_of_lt hlt]; omega
    · rw [List.eraseIdx_eq_take_drop_succ, List.take_append_of_le_length
        (by rw [List.length_take]; omega), List.take_take]
      congr 1; omega
  · split at h
    · rename_i hk
      obtain rfl := Option.some.inj h
      have hlt : (k + l.length).toNat < l.length := by omega
      refine ⟨?_, List.eraseIdx_sublist _ _, fun m hm => by omega⟩
      rw [List.length_eraseIdx_of_lt hlt]; omega
    · exact absurd h (by simp)

theorem trim_spec (e : Env α σ) (N step : ℕ) :
    ∀ (n : ℕ) (l l' : List (Walker α ℝ)) (r r' : σ), l.length ≤ n → N ≤ l.length →
      trim e N step n l r = some (l', r') →
      l'.length = N ∧ l'.Sublist l ∧ l'.take (N - step) = l.take (N - step) := by
  intro n
  induction n with
  | zero =>
    intro l l' r r' hl hN h
    simp only [trim, Option.some.injEq, Prod.mk.injEq] at h
    obtain ⟨rfl, _⟩ := h
    exact ⟨by omega, List.Sublist.refl _, rfl⟩
  | succ n ih =>
    intro l l' r r' hl hN h
    simp only [trim] at h
    split at h
    · rename_i hc
      split at h
      · exact absurd h (by simp)
      · split at h
        · exact absurd h (by simp)
        · rename_i l1 h1
          obtain ⟨a, b, c⟩ := delAt_spec _ _ _ h1
          obtain ⟨a2, b2, c2⟩ := ih l1 l' _ r' (by omega) (by omega) h
          refine ⟨a2, b2.trans b, ?_⟩
          rw [c2]
          rcases Nat.lt_or_ge N step with hs | hs
          · have : N - step = 0 := by omega
            simp [this]
          · exact c (N - step) (by omega)
    · rename_i hc
      simp only [Option.some.injEq, Prod.mk.injEq] at h
      obtain ⟨rfl, _⟩ := h
      exact ⟨by omega, List.Sublist.refl _, rfl⟩

/-! ## One iteration -/

/-- What one turn of the while loop does to the walkers. -/
theorem body_spec (e : Env α σ) (he : Appends e) (o : Opts) (step fuel : ℕ) (s s' : St α σ)
    (h : body e o step fuel s = some s') :
    let wst := worst step s.walkers
    0 < wst ∧ wst ≤ s.walkers.items.length ∧
    ∃ (w : Walker α ℝ) (new : List (Walker α ℝ)),
      (sortWalkers s.walkers).items[wst - 1]? = some w ∧ s'.lowLhood = w.logL ∧
      AllAbove w.logL new ∧
      (o.ensemble < s.walkers.items.length - wst → new = []) ∧
      s'.walkers.items.length = o.ensemble ∧
      s'.walkers.items.Sublist ((sortWalkers s.walkers).items.drop wst ++ new) ∧
      s'.walkers.items.take (o.ensemble - step) =
        ((sortWalkers s.walkers).items.drop wst ++ new).take (o.ensemble - step) ∧
      s'.iteration = s.iteration + 1 ∧
      ∃ s1, s1 = evLoop { o with ensemble := s.walkers.items.length, discard := wst } 0
          ((sortWalkers s.walkers).items.take wst)
          { s with walkers := sortWalkers s.walkers, lowLhood := w.logL } ∧
        s'.samples = s1.samples.weed o.maxsize ∧ s'.logZ = s1.logZ ∧ s'.info = s1.info ∧
        s'.logWidth = s1.logWidth ∧ s'.logdZ = s1.logdZ := by
  intro wst
  have hlen : (sortWalkers s.walkers).items.length = s.walkers.items.length := by
    simp [sortWalkers]
  have hw' : worst step (sortWalkers s.walkers) = wst := by
    simp only [worst, hlen, wst]
  simp only [body, hw'] at h
  split at h
  · exact absurd h (by simp)
  · rename_i w hw
    split at h
    · exact absurd h (by simp)
    · rename_i s1 h1
      simp only [updateEvidence] at h1
      split at h1
      · exact absurd h1 (by simp)
      · rename_i hc
        rw [hlen] at hc
        have h0 : wst ≠ 0 := fun h => hc (Or.inl h)
        rw [if_neg h0] at hw
        have hs1 := (Option.some.inj h1).symm
        simp only [present, hlen, hw'] at hs1
        obtain ⟨a, b, c, d, f⟩ := evLoop_same
          { o with ensemble := s.walkers.items.length, discard := wst }
          ((sortWalkers s.walkers).items.take wst) 0
          { s with walkers := sortWalkers s.walkers, lowLhood := w.logL }
        rw [← hs1] at a b c d
        simp only [updateWalkers] at h
        split at h
        · exact absurd h (by simp)
        · rename_i wl1 r1 h2
          split at h
          · exact absurd h (by simp)
          · rename_i l2 r2 h3
            obtain rfl := Option.some.inj h
            rw [a, b] at h2
            obtain ⟨g1, ⟨new, g2, g3⟩, g4⟩ := fill_spec e he o wst w.logL fuel _ _ _ _ h2
            obtain ⟨t1, t2, t3⟩ := trim_spec e o.ensemble step _ _ _ _ _ (le_refl _)
              (by omega) h3
            rw [g2] at t2 t3
            refine ⟨by omega, by omega, w, new, hw, b, g3, ?_, t1, t2, t3, ?_, s1, hs1, rfl, rfl,
              rfl, rfl, rfl⟩
            · intro hl
              have := g4 (by simp only [List.length_drop, hlen]; exact hl)
              rw [g2] at this
              simpa using this
            · simp only [c]

theorem above_drop (wl : WalkerList α ℝ) (k : ℕ) (w : Walker α ℝ)
    (hw : (sortWalkers wl).items[k - 1]? = some w) :
    AllAbove w.logL ((sortWalkers wl).items.drop k) := by
  rw [allAbove_iff]
  intro i v hv
  rw [List.getElem?_drop] at hv
  exact sort_above wl (k - 1) w hw _ v (by omega) hv

theorem body_above (e : Env α σ) (he : Appends e) (o : Opts) (step fuel : ℕ) (s s' : St α σ)
    (h : body e o step fuel s = some s') :
    s'.walkers.items.length = o.ensemble ∧ AllAbove s'.lowLhood s'.walkers.items ∧
    (AllAbove s.lowLhood s.walkers.items → s.lowLhood ≤ s'.lowLhood) := by
  obtain ⟨h0, hl, w, new, hw, hlow, hn, _, hlen, hsub, _⟩ := body_spec e he o step fuel s s' h
  refine ⟨hlen, ?_, ?_⟩
  · rw [hlow]
    intro v hv
    rcases List.mem_append.1 (hsub.subset hv) with h | h
    · exact above_drop s.walkers _ w hw v h
    · exact hn v h
  · intro hab
    rw [hlow]
    apply hab
    have : w ∈ (sortWalkers s.walkers).items := List.mem_of_getElem? hw
    simpa [sortWalkers] using this

/-- After every iteration there are as many walkers as were asked for, none of them is below the
floor, and the floor never goes down.

Partial: walkers above the floor may get lost, see the counterexamples. -/
theorem C94_size_partial (e : Env α σ) (he : Appends e) (o : Opts) (step fuel : ℕ)
    (s s1 s2 : St α σ) (h : body e o step fuel s = some s1) (hr : Reach e o step s1 s2) :
    s2.walkers.items.length = o.ensemble ∧ AllAbove s2.lowLhood s2.walkers.items ∧
    s1.lowLhood ≤ s2.lowLhood := by
  induction hr with
  | refl =>
    obtain ⟨a, b, _⟩ := body_above e he o step fuel s s1 h
    exact ⟨a, b, le_refl _⟩
  | step f _ _ hb ih =>
    obtain ⟨a, b, c⟩ := body_above e he o step f _ _ hb
    exact ⟨a, b, ih.2.2.trans (c ih.2.1)⟩

/-- In an ensemble of 100 or more an iteration discards only walkers that went into the posterior
samples, and new ones: all others are still there, in order of likelihood.

Partial: an ensemble of the asked size, of at least 100 walkers. -/
theorem C94_others_kept_partial (e : Env α σ) (he : Appends e) (o : Opts) (step fuel : ℕ)
    (s s' : St α σ) (hN : 100 ≤ o.ensemble) (hs : s.walkers.items.length = o.ensemble)
    (h : body e o step fuel s = some s') :
    ((sortWalkers s.walkers).items.drop (worst step s.walkers)) <+: s'.walkers.items ∧
    s'.samples = ((evLoop { o with
        ensemble := s.walkers.items.length
        discard := worst step s.walkers } 0
      ((sortWalkers s.walkers).items.take (worst step s.walkers))
      { s with walkers := sortWalkers s.walkers, lowLhood := s'.lowLhood }).samples).weed
        o.maxsize := by
  obtain ⟨h0, hl, w, new, hw, hlow, hn, _, hlen, hsub, htake, _, s1, hs1, hsam, _⟩ :=
    body_spec e he o step fuel s s' h
  refine ⟨?_, by rw [hsam, hs1, hlow]⟩
  have hst : step ≤ worst step s.walkers := by
    simp only [worst, hs]
    rw [Nat.le_div_iff_mul_le (by norm_num)]
    nlinarith
  have hd : ((sortWalkers s.walkers).items.drop (worst step s.walkers)).length ≤
      o.ensemble - step := by
    simp only [List.length_drop, sortWalkers, List.length_insertionSort]
    omega
  have : (sortWalkers s.walkers).items.drop (worst step s.walkers) =
      s'.walkers.items.take ((sortWalkers s.walkers).items.drop (worst step s.walkers)).length := by
    have h2 := congrArg (List.take
      ((sortWalkers s.walkers).items.drop (worst step s.walkers)).length) htake
    rw [List.take_take, List.take_take, Nat.min_eq_left hd, List.take_left] at h2
    exact h2.symm
  rw [this]
  exact List.take_prefix _ _

/-- When the run goes on: up to the minimum number of iterations, and after that as long as the evidence grows, the maximum
number is not passed and the information asks for more. An ensemble without worst walkers raises an exception
there. -/
theorem C94_stop (o : Opts) (step : ℕ) (s : St α σ) :
    (nextIteration o step s = some true ↔ s.iteration < o.minimumIterations ∨
      (o.tolerance ≤ s.logdZ ∧ (∀ m, o.maxIterations = some m → s.iteration ≤ m) ∧ worst step s.walkers ≠ 0 ∧
        (s.iteration : ℝ) ≤ o.end * s.walkers.items.length * s.info / worst step s.walkers)) ∧
    (nextIteration o step s = none ↔ o.minimumIterations ≤ s.iteration ∧ o.tolerance ≤ s.logdZ ∧
      (∀ m, o.maxIterations = some m → s.iteration ≤ m) ∧ worst step s.walkers = 0) := by
  have hmax : (¬ o.maxIterations.elim False fun m => s.iteration > m) ↔
      ∀ m, o.maxIterations = some m → s.iteration ≤ m := by
    cases o.maxIterations <;> simp
  unfold nextIteration
  rw [← hmax]
  split_ifs with h1 h2 h3 h4 h5
  · simp [h1]
  · simp [h1, h2]
  · simp [h1, h3]
  · simp [h1, h3, h4]; exact ⟨by omega, by linarith⟩
  · simp only [Option.some.injEq, Bool.false_eq_true, false_iff, reduceCtorEq]
    constructor
    · rintro (h | ⟨-, -, -, h⟩)
      · exact h1 h
      · linarith
    · exact fun h => h4 h.2.2.2
  · simp only [true_iff, reduceCtorEq, false_iff]
    refine ⟨Or.inr ⟨by linarith, h3, h4, by linarith⟩, fun h => h4 h.2.2.2⟩

/-- At the end every walker that is left becomes a sample, however many there are. -/
theorem C94_finish (o : Opts) (step : ℕ) (s s' : St α σ) (h : finish o step s = some s') :
    s'.samples.items.length = s.samples.items.length + s.walkers.items.length := by
  unfold finish Nested.finish at h
  split at h
  · simp at h
  · rename_i s1 h1
    split at h
    · simp at h
    · rename_i sl hsl
      obtain rfl := Option.some.inj h
      unfold updateEvidence at h1
      split_ifs at h1
      have h1 := (Option.some.inj h1).symm
      have hn := congrArg List.length (normalize_logL _ _ hsl)
      simp only [List.length_map] at hn
      dsimp only
      rw [hn, h1]
      have key : ∀ (o : Opts) (ws : List (Walker α ℝ)) (kw : ℕ) (t : St α σ),
          (evLoop o kw ws t).samples.items.length = t.samples.items.length + ws.length := by
        intro o ws
        induction ws with
        | nil => intro kw t; rfl
        | cons w ws ih =>
          intro kw t
          simp only [evLoop]
          rw [ih]
          simp [evStep, SampleList.add]
          omega
      rw [key]
      simp [present]

/-- In every state of a run the evidence is exactly the sum of the weights of the stored samples.
(The numbers of walkers differ from iteration to iteration; this holds whatever they are.) -/
theorem C94_evidence_is_sum_partial (e : Env α σ) (he : Appends e) (o : Opts) (step : ℕ)
    (hmax : o.maxsize = none) (s0 s : St α σ) (hz : s0.logZ = none) (hi : s0.samples.items = [])
    (hr : Reach e o step s0 s) :
    evidenceZ s = totalWeight s.samples.items := by
  induction hr with
  | refl => simp [evidenceZ, totalWeight, hz, hi]
  | step f _ _ hb ih =>
    obtain ⟨h0, hl, w, new, hw, hlow, hn, _, hlen, hsub, htake, _, s1, hs1, hsam, hlz, _⟩ :=
      body_spec e he o step f _ _ hb
    have key : ∀ (o' : Opts) (ws : List (Walker α ℝ)) (kw : ℕ) (t : St α σ),
        evidenceZ t = totalWeight t.samples.items →
        evidenceZ (evLoop o' kw ws t) = totalWeight (evLoop o' kw ws t).samples.items := by
      intro o' ws
      induction ws with
      | nil => intro kw t h; exact h
      | cons v vs ihv =>
        intro kw t h
        simp only [evLoop]
        apply ihv
        rw [evidence_step, weight_step, h]
    have h2 : evidenceZ s1 = totalWeight s1.samples.items := by
      rw [hs1]; exact key _ _ _ _ ih
    rw [hsam, hmax, evidenceZ, hlz]
    exact h2

/-! ## Where it goes wrong -/

/-- With an ensemble times step below 100 no walkers at all are chosen to be discarded, and the
sampler stops with an exception: in the first iteration for linear models, in the second one at the
latest for others. -/
theorem C94_counterexample_small (e : Env α σ) (he : Appends e) (o : Opts) (step : ℕ)
    (hs : o.ensemble * step < 100) :
    (∀ (fuel : ℕ) (s : St α σ), s.walkers.items.length = o.ensemble →
      body e o step fuel s = none) ∧
    ∀ (fuel fuel' : ℕ) (s s1 : St α σ), body e o step fuel s = some s1 →
      body e o step fuel' s1 = none := by
  have key : ∀ (fuel : ℕ) (s : St α σ), s.walkers.items.length = o.ensemble →
      body e o step fuel s = none := by
    intro fuel s hl
    by_contra hne
    obtain ⟨s', h'⟩ := Option.ne_none_iff_exists'.1 hne
    have h0 := (body_spec e he o step fuel s s' h').1
    have : worst step s.walkers = 0 := by
      simp only [worst, hl]
      exact Nat.div_eq_of_lt hs
    omega
  exact ⟨key, fun fuel fuel' s s1 h => key fuel' s1 (body_above e he o step fuel s s1 h).1⟩

/-- The engines always find something to append. -/
def Finds (e : Env α σ) : Prop :=
  ∀ (g : ℕ) (r : σ) (wl : WalkerList α ℝ) (kw : ℕ) (low : ℝ) (wl' : WalkerList α ℝ) (mv : ℕ)
    (r' : σ), e.execute g r wl kw low = some (wl', mv, r') →
    wl.items.length < wl'.items.length

theorem round_grows (e : Env α σ) (hf : Finds e) (kw : ℕ) (low : ℝ) :
    ∀ (gs : List ℕ) (wl : WalkerList α ℝ) (mv : ℕ) (r : σ) (wl' : WalkerList α ℝ) (mv' : ℕ)
      (r' : σ), engineRound e kw low gs wl mv r = some (wl', mv', r') →
      wl.items.length ≤ wl'.items.length ∧ (gs ≠ [] → wl.items.length < wl'.items.length) := by
  intro gs
  induction gs with
  | nil =>
    intro wl mv r wl' mv' r' h
    simp only [engineRound, Option.some.injEq, Prod.mk.injEq] at h
    obtain ⟨rfl, _, _⟩ := h
    exact ⟨le_refl _, fun h => absurd rfl h⟩
  | cons g gs ih =>
    intro wl mv r wl' mv' r' h
    simp only [engineRound] at h
    split at h
    · exact absurd h (by simp)
    · rename_i wl1 m1 r1 h1
      have a := hf _ _ _ _ _ _ _ _ h1
      have b := (ih _ _ _ _ _ _ h).1
      exact ⟨by omega, fun _ => by omega⟩

theorem trial_grows (e : Env α σ) (hf : Finds e) (o : Opts) (kw : ℕ) (low : ℝ) :
    ∀ (n : ℕ) (wl : WalkerList α ℝ) (mv : ℕ) (r : σ) (b : Bool) (wl' : WalkerList α ℝ) (mv' : ℕ)
      (r' : σ) (b' : Bool), trialLoop e o kw low n wl mv r b = some (wl', mv', r', b') →
      wl.items.length ≤ wl'.items.length ∧
      (b = false → b' = true → wl.items.length < wl'.items.length) := by
  intro n
  induction n with
  | zero =>
    intro wl mv r b wl' mv' r' b' h
    simp only [trialLoop, Option.some.injEq, Prod.mk.injEq] at h
    obtain ⟨rfl, _, _, rfl⟩ := h
    exact ⟨le_refl _, fun h g => by simp [h] at g⟩
  | succ n ih =>
    intro wl mv r b wl' mv' r' b' h
    simp only [trialLoop] at h
    split at h
    · split at h
      · exact absurd h (by simp)
      · rename_i wl1 m1 r1 h1
        obtain ⟨c, d⟩ := round_grows e hf kw low _ _ _ _ _ _ _ h1
        obtain ⟨f, g⟩ := ih _ _ _ _ _ _ _ _ h
        refine ⟨by omega, fun hb hb' => ?_⟩
        by_cases hp : (e.permutation r).1 = []
        · have := g (by simp [hb, hp]) hb'
          omega
        · have := d hp
          omega
    · simp only [Option.some.injEq, Prod.mk.injEq] at h
      obtain ⟨rfl, _, _, rfl⟩ := h
      exact ⟨le_refl _, fun h g => by simp [h] at g⟩

theorem explore_grows (e : Env α σ) (hf : Finds e) (o : Opts) (low : ℝ) :
    ∀ (ks : List ℕ) (wl wl' : WalkerList α ℝ) (r r' : σ),
      explore e o low ks wl r = some (wl', r') →
      wl.items.length + ks.length ≤ wl'.items.length := by
  intro ks
  induction ks with
  | nil =>
    intro wl wl' r r' h
    simp only [explore, Option.some.injEq, Prod.mk.injEq] at h
    obtain ⟨rfl, _⟩ := h
    simp
  | cons k ks ih =>
    intro wl wl' r r' h
    simp only [explore] at h
    split at h
    · exact absurd h (by simp)
    · rename_i wl1 r1 h1
      have h2 := ih _ _ _ _ h
      have h3 : wl.items.length < wl1.items.length := by
        simp only [exploreWalker] at h1
        split at h1
        · split at h1
          · exact absurd h1 (by simp)
          · rename_i wl2 m2 r2 b2 h4
            have h5 := (trial_grows e hf o k low _ _ _ _ _ _ _ _ _ h4).2 rfl
            split at h1
            · split at h1
              · exact absurd h1 (by simp)
              · split at h1
                · exact absurd h1 (by simp)
                · rename_i hb
                  split at h1
                  · exact absurd h1 (by simp)
                  · simp only [Option.some.injEq, Prod.mk.injEq] at h1
                    obtain ⟨rfl, _⟩ := h1
                    exact h5 (by simpa using hb)
            · exact absurd h1 (by simp)
        · exact absurd h1 (by simp)
      simp only [List.length_cons]
      omega

/-- For a model that is not linear the initial exploration at least doubles the list, and the
first iteration brings it back to the asked size by throwing out walkers from the top: of the
walkers above the floor more are there than are asked for, nothing is added, and the lowest of them,
all but `step` of the asked number, always stay. So all that go are better than those. -/
theorem C94_counterexample_first (e : Env α σ) (he : Appends e) (hf : Finds e) (o : Opts)
    (step fuel : ℕ) (hstep : accepted step = true) (bottom : ℝ) (wl : WalkerList α ℝ) (r : σ)
    (hwl : wl.items.length = o.ensemble) (sl : SampleList α) (s s' : St α σ)
    (hs : start e o false bottom wl sl r = some s) (h : body e o step fuel s = some s') :
    let above := (sortWalkers s.walkers).items.drop (worst step s.walkers)
    2 * o.ensemble ≤ s.walkers.items.length ∧ o.ensemble < above.length ∧
    s'.walkers.items.length = o.ensemble ∧ s'.walkers.items.Sublist above ∧
    above.take (o.ensemble - step) <+: s'.walkers.items ∧
    ∀ v ∈ above.take (o.ensemble - step), ∀ u ∈ above.drop (o.ensemble - step),
      v.logL ≤ u.logL := by
  intro above
  have h10 : step ≤ 10 := by simpa [accepted] using hstep
  have hM : 2 * o.ensemble ≤ s.walkers.items.length := by
    simp only [start, Bool.false_eq_true, if_false] at hs
    split at hs
    · exact absurd hs (by simp)
    · rename_i wl1 r1 h1
      have := explore_grows e hf o bottom _ _ _ _ _ h1
      rw [← Option.some.inj hs]
      simp only [initState]
      simp only [List.length_range] at this
      omega
  obtain ⟨h0, hl, w, new, hw, hlow, hn, hnew, hlen, hsub, htake, _⟩ :=
    body_spec e he o step fuel s s' h
  have hwst : worst step s.walkers * 10 ≤ s.walkers.items.length := by
    have : worst step s.walkers * 100 ≤ s.walkers.items.length * step := Nat.div_mul_le_self _ _
    nlinarith
  have hal : above.length = s.walkers.items.length - worst step s.walkers := by
    simp [above, sortWalkers]
  have hlt : o.ensemble < s.walkers.items.length - worst step s.walkers := by omega
  have hnil := hnew hlt
  subst hnil
  simp only [List.append_nil] at hsub htake
  refine ⟨hM, by omega, hlen, hsub, ?_, ?_⟩
  · rw [← htake]; exact List.take_prefix _ _
  · have hp : List.Pairwise (fun v w : Walker α ℝ => v.logL ≤ w.logL)
        (sortWalkers s.walkers).items := by
      have : IsTrans (Walker α ℝ) (fun v w => v.logL ≤ w.logL) := ⟨fun _ _ _ h g => le_trans h g⟩
      have : Std.Total (α := Walker α ℝ) (fun v w => v.logL ≤ w.logL) :=
        ⟨fun _ _ => le_total _ _⟩
      exact List.pairwise_insertionSort _ _
    have hp2 : List.Pairwise (fun v w : Walker α ℝ => v.logL ≤ w.logL) above :=
      hp.sublist (List.drop_sublist _ _)
    rw [← List.take_append_drop (o.ensemble - step) above, List.pairwise_append] at hp2
    exact hp2.2.2

/-! ## Concrete runs -/

/-- One engine that appends a walker at the level; the random generator always gives `d`. -/
noncomputable def demoEnv (d : ℕ) : Env ℕ Unit where
  randint r := (d, r)
  permutation r := ([0], r)
  execute _ r wl _ low :=
    some (⟨wl.items ++ [⟨wl.count, -1, 0, 0, [], low⟩], wl.count + 1⟩, 1, r)
  logLcheck _ := true

theorem demo_appends (d : ℕ) : Appends (demoEnv d) := by
  intro g r wl kw low wl' mv r' h
  simp only [demoEnv, Option.some.injEq, Prod.mk.injEq] at h
  obtain ⟨rfl, _⟩ := h
  exact ⟨_, rfl, by simp [AllAbove]⟩

theorem demo_finds (d : ℕ) : Finds (demoEnv d) := by
  intro g r wl kw low wl' mv r' h
  simp only [demoEnv, Option.some.injEq, Prod.mk.injEq] at h
  obtain ⟨rfl, _⟩ := h
  simp

noncomputable def demoOpts (n : ℕ) : Opts where
  ensemble := n
  discard := 0
  minimumIterations := 1
  maxIterations := none
  tolerance := -12
  «end» := 2
  maxsize := none
  maxmoves := 1
  maxtrials := 5

/-- `n` walkers with likelihoods `0, 1, 2, ...`. -/
noncomputable def ladder (n : ℕ) : WalkerList ℕ ℝ :=
  ⟨(List.range n).map fun i => ⟨i, -1, 0, 0, [], i⟩, n⟩

theorem ladder_sorted (n : ℕ) : sortWalkers (ladder n) = ladder n := by
  have : List.Pairwise (fun v w : Walker ℕ ℝ => v.logL ≤ w.logL) (ladder n).items := by
    simp only [ladder, List.pairwise_map]
    apply List.Pairwise.imp _ (List.pairwise_lt_range (n := n))
    intro a b h
    exact_mod_cast h.le
  simp only [sortWalkers]
  rw [this.insertionSort_eq]

theorem demo_explore (d n kw : ℕ) (low : ℝ) (wl : WalkerList ℕ ℝ) (hk : kw < wl.items.length) :
    explore (demoEnv d) (demoOpts n) low [kw] wl () =
      some (⟨wl.items ++ [⟨wl.count, -1, 0, 0, [], low⟩], wl.count + 1⟩, ()) := by
  have h1 : trialLoop (demoEnv d) (demoOpts n) kw low 5 wl 0 () false =
      some (⟨wl.items ++ [⟨wl.count, -1, 0, 0, [], low⟩], wl.count + 1⟩, 1, (), true) := by
    simp [trialLoop, demoEnv, demoOpts, engineRound]
  have h2 : (demoOpts n).maxtrials = 5 := rfl
  have h3 : (wl.items ++ [(⟨wl.count, -1, 0, 0, [], low⟩ : Walker ℕ ℝ)])[kw]? =
      some wl.items[kw] := by
    rw [List.getElem?_append_left hk, List.getElem?_eq_getElem hk]
  simp only [explore, exploreWalker, if_pos hk, h2, h1, h3, List.getLast?_concat]
  simp

theorem demo_fill (d n wst : ℕ) (low : ℝ) : ∀ (fuel : ℕ) (wl : WalkerList ℕ ℝ),
    wst < wl.items.length → wl.items.length ≤ n + 1 → n + 1 - wl.items.length ≤ fuel →
    ∃ wl' new, fill (demoEnv d) (demoOpts n) wst low fuel wl () = some (wl', ()) ∧
      wl'.items = wl.items ++ new ∧ (∀ v ∈ new, v.logL = low) ∧ wl'.items.length = n + 1 := by
  intro fuel
  induction fuel with
  | zero =>
    intro wl h1 h2 h3
    refine ⟨wl, [], ?_, by simp, by simp, by omega⟩
    simp only [fill]
    rw [if_neg (by simp only [demoOpts]; omega)]
  | succ fuel ih =>
    intro wl h1 h2 h3
    simp only [fill]
    by_cases hc : wl.items.length ≤ (demoOpts n).ensemble
    · have hk : wst + d % (wl.items.length - wst) < wl.items.length := by
        have := Nat.mod_lt d (show 0 < wl.items.length - wst by omega)
        omega
      have hd : (demoEnv d).randint () = (d, ()) := rfl
      rw [if_pos hc, if_pos h1]
      simp only [hd, demo_explore d n _ low wl hk]
      have hn : (demoOpts n).ensemble = n := rfl
      rw [hn] at hc
      obtain ⟨wl', new, a, b, c, f⟩ := ih
        ⟨wl.items ++ [⟨wl.count, -1, 0, 0, [], low⟩], wl.count + 1⟩
        (by simp only [List.length_append, List.length_singleton]; omega)
        (by simp only [List.length_append, List.length_singleton]; omega)
        (by simp only [List.length_append, List.length_singleton]; omega)
      refine ⟨wl', ⟨wl.count, -1, 0, 0, [], low⟩ :: new, a, ?_, ?_, f⟩
      · rw [b]; simp
      · intro v hv
        rcases List.mem_cons.1 hv with h | h
        · rw [h]
        · exact c v h
    · rw [if_neg hc]
      refine ⟨wl, [], rfl, by simp, by simp, ?_⟩
      have hn : (demoOpts n).ensemble = n := rfl
      omega

/-- The state before the first iteration for a linear model and walkers `0, 1, 2, ...`. -/
noncomputable def demoStart (n : ℕ) : St ℕ Unit :=
  initState { demoOpts n with ensemble := (ladder n).items.length } (ladder n) 0 ⟨[], 0⟩ 0 ()

theorem demo_start (d n : ℕ) :
    start (demoEnv d) (demoOpts n) true 0 (ladder n) ⟨[], 0⟩ () = some (demoStart n) := rfl

theorem ladder_length (n : ℕ) : (ladder n).items.length = n := by simp [ladder]

theorem ladder_get (n i : ℕ) (h : i < n) :
    (ladder n).items[i]? = some ⟨i, -1, 0, 0, [], i⟩ := by
  simp [ladder, h]

/-- In every ensemble below 100 for which the sampler runs at all, the best of all walkers can be
thrown away without being stored: in this run the likelihoods are `0, 1, ..., N-1`, and after one
iteration nothing at `N-1` is left, neither in the ensemble nor among the posterior samples. -/
theorem C94_counterexample_best (N step : ℕ) (hN : N < 100) (hstep : accepted step = true)
    (hrun : 100 ≤ N * step) :
    ∃ (d fuel : ℕ) (s' : St ℕ Unit),
      start (demoEnv d) (demoOpts N) true 0 (ladder N) ⟨[], 0⟩ () = some (demoStart N) ∧
      (∃ v ∈ (demoStart N).walkers.items, v.logL = (N : ℝ) - 1) ∧
      body (demoEnv d) (demoOpts N) step fuel (demoStart N) = some s' ∧
      (∀ v ∈ s'.walkers.items, v.logL < (N : ℝ) - 1) ∧
      ∀ x ∈ s'.samples.items, x.logL < (N : ℝ) - 1 := by
  have h10 : step ≤ 10 := by simpa [accepted] using hstep
  have hN10 : 10 ≤ N := by nlinarith
  obtain ⟨w, hw⟩ : ∃ w, w = N * step / 100 := ⟨_, rfl⟩
  have hw1 : 1 ≤ w := by rw [hw, Nat.le_div_iff_mul_le (by norm_num)]; omega
  have hw2 : w < step := by
    rw [hw, Nat.div_lt_iff_lt_mul (by norm_num)]
    have : 0 < step := by
      rcases Nat.eq_zero_or_pos step with h | h
      · rw [h] at hrun; omega
      · exact h
    nlinarith
  have hw3 : w * 10 ≤ N := by
    have : w * 100 ≤ N * step := by rw [hw]; exact Nat.div_mul_le_self _ _
    nlinarith
  have hsort : sortWalkers (demoStart N).walkers = ladder N := ladder_sorted N
  have hwst : worst step (ladder N) = w := by simp only [worst, ladder_length, hw]
  have hget := ladder_get N (w - 1) (by omega)
  have hs1len : ¬ (w = 0 ∨ (ladder N).items.length < w) := by
    rw [ladder_length]; omega
  obtain ⟨wl', new, f1, f2, f3, f4⟩ := demo_fill (step - w - 1) N w ((w - 1 : ℕ) : ℝ) (w + 1)
    ⟨(ladder N).items.drop w, N⟩ (by rw [List.length_drop, ladder_length]; omega)
    (by rw [List.length_drop, ladder_length]; omega)
    (by rw [List.length_drop, ladder_length]; omega)
  have hmod : (step - w - 1) % step = step - w - 1 := Nat.mod_eq_of_lt (by omega)
  have htrim : trim (demoEnv (step - w - 1)) N step (N + 1) wl'.items () =
      some (wl'.items.eraseIdx (N - w - 1), ()) := by
    have hd : (demoEnv (step - w - 1)).randint () = (step - w - 1, ()) := rfl
    have hm : ((wl'.items.length : ℤ) - ((N : ℤ) - step) - 1).toNat = step := by rw [f4]; omega
    have hdel : delAt wl'.items ((N : ℤ) - step + ((step - w - 1 : ℕ) : ℤ)) =
        some (wl'.items.eraseIdx (N - w - 1)) := by
      simp only [delAt]
      rw [if_pos (by rw [f4]; omega)]
      congr 2; omega
    have hlen : (wl'.items.eraseIdx (N - w - 1)).length = N := by
      rw [List.length_eraseIdx_of_lt (by rw [f4]; omega), f4]; omega
    simp only [trim]
    rw [if_pos (by rw [f4]; omega), if_neg (by rw [f4]; omega)]
    simp only [hd, hm, hmod, hdel]
    obtain ⟨m, rfl⟩ : ∃ m, N = m + 1 := ⟨N - 1, by omega⟩
    simp only [trim]
    rw [if_neg (by rw [hlen]; omega)]
  obtain ⟨sE, hsE⟩ : ∃ sE, sE = evLoop (present (demoOpts N) step
      { demoStart N with walkers := ladder N, lowLhood := ((w - 1 : ℕ) : ℝ) }) 0
      ((ladder N).items.take w)
      { demoStart N with walkers := ladder N, lowLhood := ((w - 1 : ℕ) : ℝ) } := ⟨_, rfl⟩
  obtain ⟨ha, hb, hc, hd, _⟩ := evLoop_same (present (demoOpts N) step
      { demoStart N with walkers := ladder N, lowLhood := ((w - 1 : ℕ) : ℝ) })
      ((ladder N).items.take w) 0
      { demoStart N with walkers := ladder N, lowLhood := ((w - 1 : ℕ) : ℝ) }
  have hL := evLoop_logL (present (demoOpts N) step
      { demoStart N with walkers := ladder N, lowLhood := ((w - 1 : ℕ) : ℝ) })
      ((ladder N).items.take w) 0
      { demoStart N with walkers := ladder N, lowLhood := ((w - 1 : ℕ) : ℝ) }
  rw [← hsE] at ha hb hc hd hL
  refine ⟨step - w - 1, w + 1, { sE with
      samples := sE.samples.weed none
      iteration := sE.iteration + 1
      walkers := { wl' with items := wl'.items.eraseIdx (N - w - 1) } }, rfl, ?_, ?_, ?_, ?_⟩
  · refine ⟨⟨N - 1, -1, 0, 0, [], ((N - 1 : ℕ) : ℝ)⟩, ?_, ?_⟩
    · exact List.mem_of_getElem? (ladder_get N (N - 1) (by omega))
    · rw [Nat.cast_sub (by omega)]; simp
  · simp only [body, hsort, hwst, if_neg (show w ≠ 0 by omega), hget, updateEvidence, if_neg hs1len,
      ← hsE]
    simp only [updateWalkers, ha, hb]
    have e1 : (ladder N).count = N := rfl
    have e2 : (demoOpts N).ensemble = N := rfl
    have e3 : sE.rng = () := rfl
    have e4 : (demoOpts N).maxsize = none := rfl
    simp only [e1, e2, e3, e4, f1, f4, htrim]
  · intro v hv
    obtain ⟨i, hi⟩ := List.mem_iff_getElem?.1 hv
    rw [List.getElem?_eraseIdx] at hi
    have hi' : ∃ j, j ≠ N - w - 1 ∧ wl'.items[j]? = some v := by
      split at hi
      · exact ⟨i, by omega, hi⟩
      · exact ⟨i + 1, by omega, hi⟩
    obtain ⟨j, hj, hjv⟩ := hi'
    rw [f2] at hjv
    rcases Nat.lt_or_ge j ((ladder N).items.drop w).length with hlt | hge
    · rw [List.getElem?_append_left hlt, List.getElem?_drop] at hjv
      rw [List.length_drop, ladder_length] at hlt
      rw [ladder_get N (w + j) (by omega)] at hjv
      rw [← Option.some.inj hjv]
      have : w + j + 1 < N := by omega
      have : ((w + j : ℕ) : ℝ) + 1 < N := by exact_mod_cast this
      simp only
      linarith
    · rw [List.getElem?_append_right hge] at hjv
      rw [f3 v (List.mem_of_getElem? hjv)]
      have : w - 1 + 1 < N := by omega
      have : ((w - 1 : ℕ) : ℝ) + 1 < N := by exact_mod_cast this
      linarith
  · intro x hx
    have hx' : x.logL ∈ sE.samples.items.map Sample.logL := List.mem_map.2 ⟨x, hx, rfl⟩
    rw [hL] at hx'
    simp only [demoStart, initState, List.map_nil, List.nil_append] at hx'
    obtain ⟨v, hv, hvx⟩ := List.mem_map.1 hx'
    obtain ⟨i, hi⟩ := List.mem_iff_getElem?.1 hv
    rw [List.getElem?_take] at hi
    split at hi
    · rename_i hiw
      rw [ladder_get N i (by omega)] at hi
      rw [← hvx, ← Option.some.inj hi]
      have : i + 1 < N := by omega
      have : (i : ℝ) + 1 < N := by exact_mod_cast this
      simp only
      linarith
    · exact absurd hi (by simp)

/-- The hypotheses of the theorems above are met: an iteration succeeds. -/
example : ∃ (d fuel : ℕ) (s' : St ℕ Unit), Appends (demoEnv d) ∧ Finds (demoEnv d) ∧
    nextIteration (demoOpts 50) 4 (demoStart 50) = some true ∧
    body (demoEnv d) (demoOpts 50) 4 fuel (demoStart 50) = some s' := by
  obtain ⟨d, fuel, s', _, _, h, _⟩ := C94_counterexample_best 50 4 (by norm_num) rfl (by norm_num)
  refine ⟨d, fuel, s', demo_appends d, demo_finds d, ?_, h⟩
  simp [nextIteration, demoStart, initState, demoOpts]

/-- The deletions never raise when at least one walker is to be replaced and no more than there are. -/
theorem trim_defined (e : Env α σ) (N step : ℕ) (h1 : 1 ≤ step) (h2 : step ≤ N) :
    ∀ (n : ℕ) (l : List (Walker α ℝ)) (r : σ), (trim e N step n l r).isSome = true := by
  intro n
  induction n with
  | zero => intro l r; simp [trim]
  | succ n ih =>
    intro l r
    simp only [trim]
    split
    · rename_i hc
      rw [if_neg (by omega)]
      have hm : 0 < ((l.length : ℤ) - ((N : ℤ) - step) - 1).toNat := by omega
      have := Nat.mod_lt (e.randint r).1 hm
      have hdel : delAt l ((N : ℤ) - step +
          (((e.randint r).1 % ((l.length : ℤ) - ((N : ℤ) - step) - 1).toNat : ℕ) : ℤ)) =
          some (l.eraseIdx ((N : ℤ) - step +
          (((e.randint r).1 % ((l.length : ℤ) - ((N : ℤ) - step) - 1).toNat : ℕ) : ℤ)).toNat) := by
        simp only [delAt]
        rw [if_pos (by omega)]
      simp only [hdel]
      exact ih _ _
    · rfl

/-- One iteration of the demo engine succeeds from any ensemble that is large enough. -/
theorem demo_body (N step d : ℕ) (h10 : step ≤ 10) (hN : step ≤ N) (s : St ℕ Unit)
    (hrun : 100 ≤ s.walkers.items.length * step) :
    ∃ (fuel : ℕ) (s' : St ℕ Unit), body (demoEnv d) (demoOpts N) step fuel s = some s' := by
  obtain ⟨M, hM⟩ : ∃ M, M = s.walkers.items.length := ⟨_, rfl⟩
  obtain ⟨w, hw⟩ : ∃ w, w = M * step / 100 := ⟨_, rfl⟩
  rw [← hM] at hrun
  have hw1 : 1 ≤ w := by rw [hw, Nat.le_div_iff_mul_le (by norm_num)]; omega
  have hw3 : w * 10 ≤ M := by
    have : w * 100 ≤ M * step := by rw [hw]; exact Nat.div_mul_le_self _ _
    nlinarith
  have hst : 1 ≤ step := by
    rcases Nat.eq_zero_or_pos step with h | h
    · rw [h] at hrun; omega
    · exact h
  have hlen : (sortWalkers s.walkers).items.length = M := by simp [sortWalkers, hM]
  have hwst : worst step (sortWalkers s.walkers) = w := by simp only [worst, hlen, hw]
  have hget : (sortWalkers s.walkers).items[w - 1]? =
      some ((sortWalkers s.walkers).items[w - 1]'(by rw [hlen]; omega)) :=
    List.getElem?_eq_getElem _
  have hs1len : ¬ (w = 0 ∨ (sortWalkers s.walkers).items.length < w) := by rw [hlen]; omega
  generalize (sortWalkers s.walkers).items[w - 1]'(by rw [hlen]; omega) = v at hget
  refine ⟨N + 1, ?_⟩
  simp only [body, hwst, if_neg (show w ≠ 0 by omega), hget, updateEvidence, if_neg hs1len]
  obtain ⟨ha, hb, hc, hd, _⟩ := evLoop_same (present (demoOpts N) step
      { s with walkers := sortWalkers s.walkers, lowLhood := v.logL })
      ((sortWalkers s.walkers).items.take w) 0
      { s with walkers := sortWalkers s.walkers, lowLhood := v.logL }
  simp only [updateWalkers, ha, hb]
  have e2 : (demoOpts N).ensemble = N := rfl
  have hdl : ((sortWalkers s.walkers).items.drop w).length = M - w := by
    rw [List.length_drop, hlen]
  obtain ⟨wl', f1⟩ : ∃ wl', fill (demoEnv d) (demoOpts N) w v.logL (N + 1)
      { sortWalkers s.walkers with items := (sortWalkers s.walkers).items.drop w } () =
        some (wl', ()) := by
    rcases Nat.lt_or_ge N (M - w) with h | h
    · refine ⟨{ sortWalkers s.walkers with items := (sortWalkers s.walkers).items.drop w }, ?_⟩
      simp only [fill, e2]
      rw [if_neg (by rw [hdl]; omega)]
    · obtain ⟨wl', new, f1, _⟩ := demo_fill d N w v.logL (N + 1)
        { sortWalkers s.walkers with items := (sortWalkers s.walkers).items.drop w }
        (by simp only [hdl]; omega) (by simp only [hdl]; omega) (by simp only [hdl]; omega)
      exact ⟨wl', f1⟩
  have ht := trim_defined (demoEnv d) N step hst hN wl'.items.length wl'.items ()
  obtain ⟨⟨l, r⟩, ht⟩ := Option.isSome_iff_exists.1 ht
  simp only [f1, e2, ht]
  exact ⟨_, rfl⟩

theorem demo_explores (d n : ℕ) (low : ℝ) : ∀ (ks : List ℕ) (wl : WalkerList ℕ ℝ),
    (∀ k ∈ ks, k < wl.items.length) →
    ∃ wl', explore (demoEnv d) (demoOpts n) low ks wl () = some (wl', ()) := by
  intro ks
  induction ks with
  | nil => intro wl _; exact ⟨wl, rfl⟩
  | cons k ks ih =>
    intro wl h
    have h1 := demo_explore d n k low wl (h k (by simp))
    simp only [explore] at h1 ⊢
    split at h1
    · exact absurd h1 (by simp)
    · rename_i wl1 r1 h2
      simp only [Option.some.injEq, Prod.mk.injEq] at h1
      obtain ⟨rfl, _⟩ := h1
      obtain ⟨wl', h3⟩ := ih ⟨wl.items ++ [⟨wl.count, -1, 0, 0, [], low⟩], wl.count + 1⟩ (by
        intro j hj
        have := h j (by simp [hj])
        simp only [List.length_append, List.length_singleton]; omega)
      exact ⟨wl', h3⟩

/-- The hypotheses of `C94_others_kept_partial` are met. -/
example : ∃ (fuel : ℕ) (s' : St ℕ Unit), Appends (demoEnv 7) ∧ 100 ≤ (demoOpts 120).ensemble ∧
    (demoStart 120).walkers.items.length = (demoOpts 120).ensemble ∧
    body (demoEnv 7) (demoOpts 120) 4 fuel (demoStart 120) = some s' := by
  have hl : (demoStart 120).walkers.items.length = 120 := ladder_length 120
  obtain ⟨f, s', h⟩ := demo_body 120 4 7 (by norm_num) (by norm_num) (demoStart 120)
    (by rw [hl]; norm_num)
  exact ⟨f, s', demo_appends 7, by simp [demoOpts], hl, h⟩

/-- The hypotheses of `C94_counterexample_first` are met. -/
example : ∃ (fuel : ℕ) (s s' : St ℕ Unit), Appends (demoEnv 7) ∧ Finds (demoEnv 7) ∧
    (ladder 120).items.length = (demoOpts 120).ensemble ∧
    start (demoEnv 7) (demoOpts 120) false 0 (ladder 120) ⟨[], 0⟩ () = some s ∧
    body (demoEnv 7) (demoOpts 120) 4 fuel s = some s' := by
  obtain ⟨wl, hwl⟩ := demo_explores 7 120 0 (List.range (ladder 120).items.length) (ladder 120)
    (fun k hk => by simpa using hk)
  have hg := explore_grows (demoEnv 7) (demo_finds 7) (demoOpts 120) 0 _ _ _ _ _ hwl
  rw [List.length_range, ladder_length] at hg
  obtain ⟨f, s', h⟩ := demo_body 120 4 7 (by norm_num) (by norm_num)
    (initState { demoOpts 120 with ensemble := wl.items.length } wl 0 ⟨[], 0⟩ 0 ())
    (by simp only [initState]; omega)
  refine ⟨f, _, s', demo_appends 7, demo_finds 7, ladder_length 120, ?_, h⟩
  simp only [start, hwl]
  rfl

end PhantomSampler
end BF
