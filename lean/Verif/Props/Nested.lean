import Verif.Nested
import Mathlib.Tactic.Linarith
import Mathlib.Tactic.Positivity
import Mathlib.Tactic.FieldSimp
import Mathlib.Tactic.Ring
import Mathlib.Tactic.NormNum
import Mathlib.Algebra.Order.BigOperators.Group.List
import Mathlib.Algebra.BigOperators.Ring.List

/-!
# C04 - C08: nested sampling
-/

namespace BF
namespace Nested

variable {α σ : Type*}

/-! ## Specification -/

/-- Every state that the while loop of `sample` passes through, starting in `s0`. -/
inductive Reach (e : Env α σ) (o : Opts) (s0 : St α σ) : St α σ → Prop
  | refl : Reach e o s0 s0
  | step {s s' : St α σ} : Reach e o s0 s → nextIteration o s = true → body e o s = some s' →
      Reach e o s0 s'

/-- The evidence itself; 0 before anything was stored. -/
noncomputable def evidenceZ (s : St α σ) : ℝ := s.logZ.elim 0 Real.exp

/-- Total weight of the stored samples. -/
noncomputable def totalWeight (l : List (Sample α)) : ℝ := (l.map fun x => Real.exp x.logW).sum

/-- The part of the prior volume that a stored sample stands for: its weight over its likelihood. -/
noncomputable def share (x : Sample α) : ℝ := Real.exp x.logW / Real.exp x.logL

/-- Total prior volume of the stored samples. -/
noncomputable def totalShare (l : List (Sample α)) : ℝ := (l.map share).sum

/-- A sampler as the constructor leaves it: no samples, iteration 0, one walker per place. -/
def Fresh (o : Opts) (s : St α σ) : Prop :=
  ∃ wl low r, wl.items.length = o.ensemble ∧ s = initState o wl low ⟨[], 0⟩ 0 r

/-- Contract of an engine: it changes at most the walker it was asked to explore. -/
def OnlyAsked (e : Env α σ) : Prop :=
  ∀ (g : ℕ) (r : σ) (wl : WalkerList α ℝ) (kw : ℕ) (low : ℝ) (wl' : WalkerList α ℝ) (mv : ℕ)
    (r' : σ), e.execute g r wl kw low = some (wl', mv, r') →
    wl'.items.length = wl.items.length ∧ ∀ i, i ≠ kw → wl'.items[i]? = wl.items[i]?

/-- All walkers are at or above a level. -/
def AllAbove (low : ℝ) (l : List (Walker α ℝ)) : Prop := ∀ w ∈ l, low ≤ w.logL

/-! ## The walkers -/

theorem trial_contract (e : Env α σ) (he : OnlyAsked e) (kw : ℕ) (low : ℝ) :
    ∀ (gs : List ℕ) (wl : WalkerList α ℝ) (mv : ℕ) (r : σ) (wl' : WalkerList α ℝ) (mv' : ℕ)
      (r' : σ), engineRound e kw low gs wl mv r = some (wl', mv', r') →
      wl'.items.length = wl.items.length ∧ ∀ i, i ≠ kw → wl'.items[i]? = wl.items[i]? := by
  intro gs
  induction gs with
  | nil =>
    intro wl mv r wl' mv' r' h
    simp only [engineRound, Option.some.injEq, Prod.mk.injEq] at h
    obtain ⟨rfl, _, _⟩ := h
    exact ⟨rfl, fun _ _ => rfl⟩
  | cons g gs ih =>
    intro wl mv r wl' mv' r' h
    simp only [engineRound] at h
    split at h
    · exact absurd h (by simp)
    · rename_i wl1 m1 r1 h1
      obtain ⟨a, b⟩ := he _ _ _ _ _ _ _ _ h1
      obtain ⟨c, d⟩ := ih _ _ _ _ _ _ h
      exact ⟨c.trans a, fun i hi => (d i hi).trans (b i hi)⟩

theorem loop_contract (e : Env α σ) (he : OnlyAsked e) (o : Opts) (kw : ℕ) (low : ℝ) :
    ∀ (n : ℕ) (wl : WalkerList α ℝ) (mv : ℕ) (r : σ) (b : Bool) (wl' : WalkerList α ℝ) (mv' : ℕ)
      (r' : σ) (b' : Bool), trialLoop e o kw low n wl mv r b = some (wl', mv', r', b') →
      wl'.items.length = wl.items.length ∧ ∀ i, i ≠ kw → wl'.items[i]? = wl.items[i]? := by
  intro n
  induction n with
  | zero =>
    intro wl mv r b wl' mv' r' b' h
    simp only [trialLoop, Option.some.injEq, Prod.mk.injEq] at h
    obtain ⟨rfl, _⟩ := h
    exact ⟨rfl, fun _ _ => rfl⟩
  | succ n ih =>
    intro wl mv r b wl' mv' r' b' h
    simp only [trialLoop] at h
    split at h
    · split at h
      · exact absurd h (by simp)
      · rename_i wl1 m1 r1 h1
        obtain ⟨a, b⟩ := trial_contract e he kw low _ _ _ _ _ _ _ h1
        obtain ⟨c, d⟩ := ih _ _ _ _ _ _ _ _ h
        exact ⟨c.trans a, fun i hi => (d i hi).trans (b i hi)⟩
    · simp only [Option.some.injEq, Prod.mk.injEq] at h
      obtain ⟨rfl, _⟩ := h
      exact ⟨rfl, fun _ _ => rfl⟩

theorem exploreWalker_above (e : Env α σ) (he : OnlyAsked e) (o : Opts) (kw : ℕ) (low : ℝ)
    (wl wl' : WalkerList α ℝ) (r r' : σ) (h : exploreWalker e o kw low wl r = some (wl', r')) :
    wl'.items.length = wl.items.length ∧
    (∃ w, wl'.items[kw]? = some w ∧ low ≤ w.logL) ∧
    ∀ i, i ≠ kw → wl'.items[i]? = wl.items[i]? := by
  simp only [exploreWalker] at h
  split at h
  · exact absurd h (by simp)
  · rename_i wl1 m1 r1 b1 h1
    obtain ⟨a, b⟩ := loop_contract e he o kw low _ _ _ _ _ _ _ _ _ h1
    split at h
    · exact absurd h (by simp)
    · rename_i w hw
      split at h
      · exact absurd h (by simp)
      · split at h
        · exact absurd h (by simp)
        · split at h
          · exact absurd h (by simp)
          · rename_i hl
            simp only [Option.some.injEq, Prod.mk.injEq] at h
            obtain ⟨rfl, _⟩ := h
            exact ⟨a, ⟨w, hw, not_lt.1 hl⟩, b⟩

theorem allAbove_iff (low : ℝ) (l : List (Walker α ℝ)) :
    AllAbove low l ↔ ∀ (i : ℕ) (w : Walker α ℝ), l[i]? = some w → low ≤ w.logL := by
  constructor
  · intro h i w hw
    exact h w (List.mem_of_getElem? hw)
  · intro h w hw
    obtain ⟨i, hi⟩ := List.mem_iff_getElem?.1 hw
    exact h i w hi

theorem explore_above (e : Env α σ) (he : OnlyAsked e) (o : Opts) (low : ℝ) :
    ∀ (ks : List ℕ) (wl wl' : WalkerList α ℝ) (r r' : σ),
      explore e o low ks wl r = some (wl', r') → AllAbove low wl.items →
      wl'.items.length = wl.items.length ∧ AllAbove low wl'.items ∧
      ∀ i, i ∉ ks → wl'.items[i]? = wl.items[i]? := by
  intro ks
  induction ks with
  | nil =>
    intro wl wl' r r' h ha
    simp only [explore, Option.some.injEq, Prod.mk.injEq] at h
    obtain ⟨rfl, _⟩ := h
    exact ⟨rfl, ha, fun _ _ => rfl⟩
  | cons k ks ih =>
    intro wl wl' r r' h ha
    simp only [explore] at h
    split at h
    · exact absurd h (by simp)
    · rename_i wl1 r1 h1
      obtain ⟨a, ⟨w, hw, hl⟩, b⟩ := exploreWalker_above e he o k low _ _ _ _ h1
      have ha1 : AllAbove low wl1.items := by
        rw [allAbove_iff] at ha ⊢
        intro i v hv
        by_cases hi : i = k
        · subst hi
          rw [hw] at hv
          obtain rfl := Option.some.inj hv
          exact hl
        · exact ha i v (by rw [← b i hi]; exact hv)
      obtain ⟨c, d, f⟩ := ih _ _ _ _ h ha1
      refine ⟨c.trans a, d, fun i hi => ?_⟩
      simp only [List.mem_cons, not_or] at hi
      rw [f i hi.2, b i hi.1]

theorem copy_items (wl wl' : WalkerList α ℝ) (src des start : ℕ)
    (h : wl.copy src des wl.items start = some wl') :
    ∃ d s, wl.items[des]? = some d ∧ wl.items[src]? = some s ∧
      ∃ w : Walker α ℝ, w.logL = s.logL ∧ w.allpars = s.allpars ∧
        wl'.items = wl.items.set des w := by
  simp only [WalkerList.copy] at h
  split at h
  · rename_i d s hd hs
    obtain rfl := Option.some.inj h
    exact ⟨d, s, hd, hs, ⟨d.id, src, start, 0, s.allpars, s.logL⟩, rfl, rfl, rfl⟩
  · exact absurd h (by simp)

theorem copyLoop_above (e : Env α σ) (o : Opts) (it worst : ℕ) (low : ℝ) :
    ∀ (ks : List ℕ) (wl wl' : WalkerList α ℝ) (r r' : σ), (∀ k ∈ ks, k < worst) →
      copyLoop e o it worst ks wl r = some (wl', r') →
      (∀ (i : ℕ) (w : Walker α ℝ), (worst ≤ i ∨ i ∉ ks) → wl.items[i]? = some w → low ≤ w.logL) →
      wl'.items.length = wl.items.length ∧ AllAbove low wl'.items ∧
      ∀ i, worst ≤ i → wl'.items[i]? = wl.items[i]? := by
  intro ks
  induction ks with
  | nil =>
    intro wl wl' r r' _ h ha
    simp only [copyLoop, Option.some.injEq, Prod.mk.injEq] at h
    obtain ⟨rfl, _⟩ := h
    exact ⟨rfl, (allAbove_iff _ _).2 fun i w hw => ha i w (by simp) hw, fun _ _ => rfl⟩
  | cons k ks ih =>
    intro wl wl' r r' hk h ha
    simp only [copyLoop] at h
    split at h
    · split at h
      · exact absurd h (by simp)
      · rename_i wl1 h1
        obtain ⟨d, s, hd, hs, w, hwl, _, hit⟩ := copy_items _ _ _ _ _ h1
        have hkw : k < worst := hk k (by simp)
        have hklen : k < wl.items.length := by
          by_contra hc
          rw [List.getElem?_eq_none (by omega)] at hd
          exact absurd hd (by simp)
        obtain ⟨a, b, c⟩ := ih _ _ _ _ (fun j hj => hk j (by simp [hj])) h (by
          intro i v hi hv
          rw [hit, List.getElem?_set] at hv
          by_cases hne : k = i
          · rw [if_pos hne, if_pos (by omega)] at hv
            obtain rfl := Option.some.inj hv
            rw [hwl]
            exact ha _ s (Or.inl (by omega)) hs
          · rw [if_neg hne] at hv
            refine ha i v ?_ hv
            rcases hi with hi | hi
            · exact Or.inl hi
            · refine Or.inr ?_
              simp only [List.mem_cons, not_or]
              exact ⟨fun h => hne h.symm, hi⟩)
        refine ⟨by rw [a, hit]; simp, b, fun i hi => ?_⟩
        rw [c i hi, hit, List.getElem?_set, if_neg (by omega)]
    · exact absurd h (by simp)

theorem evLoop_same (o : Opts) : ∀ (ws : List (Walker α ℝ)) (kw : ℕ) (s : St α σ),
    (evLoop o kw ws s).walkers = s.walkers ∧ (evLoop o kw ws s).lowLhood = s.lowLhood ∧
    (evLoop o kw ws s).iteration = s.iteration ∧ (evLoop o kw ws s).rng = s.rng ∧
    (evLoop o kw ws s).samples.items.length = s.samples.items.length + ws.length := by
  intro ws
  induction ws with
  | nil => intro kw s; simp [evLoop]
  | cons w ws ih =>
    intro kw s
    obtain ⟨a, b, c, d, f⟩ := ih (kw + 1) (evStep o kw w s)
    simp only [evLoop]
    refine ⟨a, b, c, d, ?_⟩
    rw [f]
    simp [evStep, SampleList.add]
    omega

/-- What one turn of the while loop does. -/
theorem body_spec (e : Env α σ) (o : Opts) (s s' : St α σ) (h : body e o s = some s') :
    0 < o.discard ∧ o.discard ≤ s.walkers.items.length ∧ o.discard < o.ensemble ∧
    ∃ (w : Walker α ℝ) (wl1 : WalkerList α ℝ) (r1 : σ),
      (sortWalkers s.walkers).items[o.discard - 1]? = some w ∧
      s'.lowLhood = w.logL ∧ s'.iteration = s.iteration + 1 ∧
      copyWalker e o (s.iteration + 1) o.discard (sortWalkers s.walkers) s.rng = some (wl1, r1) ∧
      explore e o w.logL (List.range o.discard) wl1 r1 = some (s'.walkers, s'.rng) ∧
      ∃ s1, s1 = evLoop o 0 ((sortWalkers s.walkers).items.take o.discard)
          { s with walkers := sortWalkers s.walkers, lowLhood := w.logL } ∧
        s'.samples = s1.samples.weed o.maxsize ∧ s'.logZ = s1.logZ ∧ s'.info = s1.info ∧
        s'.logWidth = s1.logWidth ∧ s'.logdZ = s1.logdZ := by
  simp only [body] at h
  split at h
  · exact absurd h (by simp)
  · rename_i w hw
    have hd : o.discard ≠ 0 := by
      intro h0; rw [if_pos h0] at hw; exact absurd hw (by simp)
    rw [if_neg hd] at hw
    split at h
    · exact absurd h (by simp)
    · rename_i s1 h1
      simp only [updateEvidence] at h1
      split at h1
      · exact absurd h1 (by simp)
      · rename_i hc
        obtain rfl := Option.some.inj h1
        obtain ⟨a, b, c, d, f⟩ := evLoop_same o ((sortWalkers s.walkers).items.take o.discard) 0
          { s with walkers := sortWalkers s.walkers, lowLhood := w.logL }
        simp only [updateWalkers] at h
        split at h
        · exact absurd h (by simp)
        · rename_i wl1 r1 h2
          split at h
          · exact absurd h (by simp)
          · rename_i wl2 r2 h3
            obtain rfl := Option.some.inj h
            rw [a, c, d] at h2
            rw [b] at h3
            have hlen : o.discard ≤ s.walkers.items.length := by
              have := hc
              simp only [sortWalkers, List.length_insertionSort] at this
              omega
            have hlt : o.discard < o.ensemble := by
              by_contra hcon
              have : List.range o.discard = 0 :: (List.range (o.discard - 1)).map (· + 1) := by
                obtain ⟨m, hm⟩ := Nat.exists_eq_succ_of_ne_zero hd
                rw [hm, List.range_succ_eq_map]; rfl
              simp only [copyWalker, this, copyLoop, if_neg hcon] at h2
              exact absurd h2 (by simp)
            refine ⟨by omega, hlen, hlt, w, wl1, r1, hw, ?_, ?_, h2, h3, _, rfl, rfl, rfl, rfl,
              rfl, rfl⟩
            · exact b
            · simp only [c]

theorem sort_above (wl : WalkerList α ℝ) (k : ℕ) (w : Walker α ℝ)
    (hw : (sortWalkers wl).items[k]? = some w) :
    ∀ i v, k ≤ i → (sortWalkers wl).items[i]? = some v → w.logL ≤ v.logL := by
  have hs : List.Pairwise (fun v w : Walker α ℝ => v.logL ≤ w.logL) (sortWalkers wl).items := by
    have : IsTrans (Walker α ℝ) (fun v w => v.logL ≤ w.logL) := ⟨fun _ _ _ h g => le_trans h g⟩
    have : Std.Total (α := Walker α ℝ) (fun v w => v.logL ≤ w.logL) := ⟨fun _ _ => le_total _ _⟩
    exact List.pairwise_insertionSort _ _
  intro i v hi hv
  rcases Nat.lt_or_ge k i with hlt | hge
  · obtain ⟨h1, rfl⟩ := List.getElem?_eq_some_iff.1 hw
    obtain ⟨h2, rfl⟩ := List.getElem?_eq_some_iff.1 hv
    exact List.pairwise_iff_getElem.1 hs k i h1 h2 hlt
  · obtain rfl : i = k := by omega
    rw [hw] at hv
    obtain rfl := Option.some.inj hv
    exact le_refl _

theorem body_above (e : Env α σ) (he : OnlyAsked e) (o : Opts) (s s' : St α σ)
    (h : body e o s = some s') :
    s'.walkers.items.length = s.walkers.items.length ∧ AllAbove s'.lowLhood s'.walkers.items ∧
    (AllAbove s.lowLhood s.walkers.items → s.lowLhood ≤ s'.lowLhood) ∧
    s'.iteration = s.iteration + 1 := by
  obtain ⟨h0, hl, hlt, w, wl1, r1, hw, hlow, hit, hc, hx, _⟩ := body_spec e o s s' h
  have hgt := sort_above s.walkers _ w hw
  obtain ⟨a, b, c⟩ := copyLoop_above e o (s.iteration + 1) o.discard w.logL _ _ _ _ _
    (fun k hk => by simpa using hk) hc (by
      intro i v hi hv
      refine hgt i v ?_ hv
      rcases hi with hi | hi
      · omega
      · simp at hi; omega)
  obtain ⟨d, f, _⟩ := explore_above e he o w.logL _ _ _ _ _ hx b
  refine ⟨?_, by rw [hlow]; exact f, ?_, hit⟩
  · rw [d, a]; simp [sortWalkers]
  · intro hab
    rw [hlow]
    apply hab
    have : w ∈ (sortWalkers s.walkers).items := List.mem_of_getElem? hw
    simpa [sortWalkers] using this

/-- From one turn of the loop onwards: the floor never decreases, no walker is below it, and the
ensemble keeps its size. -/
theorem C07_floor_rises (e : Env α σ) (he : OnlyAsked e) (o : Opts) (s s1 s2 : St α σ)
    (h : body e o s = some s1) (hr : Reach e o s1 s2) :
    s1.lowLhood ≤ s2.lowLhood ∧ AllAbove s2.lowLhood s2.walkers.items ∧
    s2.walkers.items.length = s.walkers.items.length := by
  induction hr with
  | refl =>
    obtain ⟨a, b, _⟩ := body_above e he o s s1 h
    exact ⟨le_refl _, b, a⟩
  | step _ _ hb ih =>
    obtain ⟨a, b, c, _⟩ := body_above e he o _ _ hb
    exact ⟨ih.1.trans (c ih.2.1), b, a.trans ih.2.2⟩

/-- Nobody but the worst walkers is touched in an iteration: the others are still there, in order
of likelihood. -/
theorem C07_others_untouched (e : Env α σ) (he : OnlyAsked e) (o : Opts) (s s' : St α σ)
    (h : body e o s = some s') :
    s'.walkers.items.drop o.discard = (sortWalkers s.walkers).items.drop o.discard ∧
    (sortWalkers s.walkers).items.Perm s.walkers.items := by
  obtain ⟨h0, hl, hlt, w, wl1, r1, hw, hlow, hit, hc, hx, _⟩ := body_spec e o s s' h
  have hgt := sort_above s.walkers _ w hw
  obtain ⟨a, b, c⟩ := copyLoop_above e o (s.iteration + 1) o.discard w.logL _ _ _ _ _
    (fun k hk => by simpa using hk) hc (by
      intro i v hi hv
      refine hgt i v ?_ hv
      rcases hi with hi | hi
      · omega
      · simp at hi; omega)
  obtain ⟨d, f, g⟩ := explore_above e he o w.logL _ _ _ _ _ hx b
  refine ⟨?_, List.perm_insertionSort _ _⟩
  apply List.ext_getElem?
  intro i
  rw [List.getElem?_drop, List.getElem?_drop, g _ (by simp), c _ (by omega)]

/-! ## The evidence -/

theorem q_lt_one (o : Opts) (hN : 0 < o.ensemble) :
    0 < 1 - Real.exp (-1 / (o.ensemble : ℝ)) := by
  have : Real.exp (-1 / (o.ensemble : ℝ)) < 1 := by
    rw [Real.exp_lt_one_iff]
    apply div_neg_of_neg_of_pos <;> simp [hN]
  linarith

theorem evidence_step (o : Opts) (kw : ℕ) (w : Walker α ℝ) (s : St α σ) :
    evidenceZ (evStep o kw w s) = evidenceZ s + Real.exp (s.logWidth + w.logL) := by
  unfold evidenceZ evStep logaddexp
  cases s.logZ with
  | none => simp
  | some z =>
    simp only [Option.elim]
    rw [Real.exp_log (by positivity)]

theorem weight_step (o : Opts) (kw : ℕ) (w : Walker α ℝ) (s : St α σ) :
    totalWeight (evStep o kw w s).samples.items
      = totalWeight s.samples.items + Real.exp (s.logWidth + w.logL) := by
  simp [totalWeight, evStep, SampleList.add, toSample]

theorem share_step (o : Opts) (kw : ℕ) (w : Walker α ℝ) (s : St α σ) :
    totalShare (evStep o kw w s).samples.items
      = totalShare s.samples.items + Real.exp s.logWidth := by
  simp [totalShare, share, evStep, SampleList.add, toSample, Real.exp_add]

/-- Prior volume that is still to be distributed, `exp( logWidth ) / ( 1 - exp( -1 / N ) )`. -/
noncomputable def remaining (o : Opts) (s : St α σ) : ℝ :=
  Real.exp s.logWidth / (1 - Real.exp (-1 / (o.ensemble : ℝ)))

theorem remaining_step (o : Opts) (hN : 0 < o.ensemble) (kw : ℕ) (hk : kw < o.ensemble)
    (w : Walker α ℝ) (s : St α σ) :
    Real.exp s.logWidth + remaining o (evStep o kw w s) ≤ remaining o s ∧
    (kw = 0 → Real.exp s.logWidth + remaining o (evStep o kw w s) = remaining o s) := by
  have hq := q_lt_one o hN
  have hNr : (0 : ℝ) < o.ensemble := by exact_mod_cast hN
  have hkr : (0 : ℝ) < (o.ensemble : ℝ) - kw := by
    have : (kw : ℝ) < o.ensemble := by exact_mod_cast hk
    linarith
  set q := Real.exp (-1 / (o.ensemble : ℝ)) with hqd
  have hE := Real.exp_pos s.logWidth
  have hrem : remaining o (evStep o kw w s)
      = Real.exp s.logWidth * Real.exp (-(1 / ((o.ensemble : ℝ) - kw))) / (1 - q) := by
    simp only [remaining, evStep, ← hqd]
    rw [sub_eq_add_neg, Real.exp_add]
  have hle : Real.exp (-(1 / ((o.ensemble : ℝ) - kw))) ≤ q := by
    rw [hqd, Real.exp_le_exp]
    have : 1 / (o.ensemble : ℝ) ≤ 1 / ((o.ensemble : ℝ) - kw) := by
      apply one_div_le_one_div_of_le hkr
      have : (0 : ℝ) ≤ kw := by positivity
      linarith
    rw [neg_div]
    linarith
  rw [hrem]
  simp only [remaining, ← hqd]
  constructor
  · rw [← sub_nonneg]
    have : Real.exp s.logWidth / (1 - q) - (Real.exp s.logWidth +
        Real.exp s.logWidth * Real.exp (-(1 / ((o.ensemble : ℝ) - kw))) / (1 - q))
        = Real.exp s.logWidth * (q - Real.exp (-(1 / ((o.ensemble : ℝ) - kw)))) / (1 - q) := by
      field_simp
      ring
    rw [this]
    apply div_nonneg _ hq.le
    apply mul_nonneg hE.le
    linarith
  · rintro rfl
    have : Real.exp (-(1 / ((o.ensemble : ℝ) - ((0 : ℕ) : ℝ)))) = q := by
      rw [hqd]; congr 1; simp [neg_div]
    rw [this]
    field_simp
    ring

/-- Invariant of the bookkeeping. -/
def Books (o : Opts) (s : St α σ) : Prop :=
  evidenceZ s = totalWeight s.samples.items ∧ totalShare s.samples.items + remaining o s ≤ 1

theorem evLoop_books (o : Opts) (hN : 0 < o.ensemble) :
    ∀ (ws : List (Walker α ℝ)) (kw : ℕ) (s : St α σ), kw + ws.length ≤ o.ensemble →
      Books o s → Books o (evLoop o kw ws s) := by
  intro ws
  induction ws with
  | nil => intro kw s _ h; exact h
  | cons w ws ih =>
    intro kw s hk h
    simp only [evLoop]
    simp only [List.length_cons] at hk
    apply ih _ _ (by omega)
    obtain ⟨h1, h2⟩ := h
    have h3 := (remaining_step o hN kw (by omega) w s).1
    refine ⟨?_, ?_⟩
    · rw [evidence_step, weight_step, h1]
    · rw [share_step]; linarith

theorem fresh_books (o : Opts) (hN : 0 < o.ensemble) (s : St α σ) (h : Fresh o s) :
    Books o s ∧ remaining o s = 1 := by
  obtain ⟨wl, low, r, hl, rfl⟩ := h
  have hr : remaining o (initState o wl low ⟨[], 0⟩ 0 r) = 1 := by
    simp only [remaining, initState]
    rw [Real.exp_log (q_lt_one o hN), div_self (q_lt_one o hN).ne']
  refine ⟨⟨?_, ?_⟩, hr⟩
  · simp [evidenceZ, totalWeight, initState]
  · rw [hr]; simp [totalShare, initState]

theorem books_congr (o : Opts) (s t : St α σ) (h1 : s.logZ = t.logZ)
    (h2 : s.samples.items = t.samples.items) (h3 : s.logWidth = t.logWidth) :
    Books o s ↔ Books o t := by
  simp [Books, evidenceZ, remaining, h1, h2, h3]

theorem body_books (e : Env α σ) (o : Opts) (hmax : o.maxsize = none) (s s' : St α σ)
    (h : body e o s = some s') (hb : Books o s) : Books o s' := by
  obtain ⟨h0, hl, hlt, w, wl1, r1, hw, hlow, hit, hc, hx, s1, rfl, hs, hz, hi, hwd, hd⟩ :=
    body_spec e o s s' h
  rw [books_congr o s' _ hz (by rw [hs, hmax]; rfl) hwd]
  apply evLoop_books o (by omega)
  · simp; omega
  · exact hb

/-- In every state of a run the evidence is exactly the sum of the weights of the stored samples,
and the prior volume given out plus what remains never exceeds the whole. -/
theorem C04_evidence_is_sum (e : Env α σ) (o : Opts) (hmax : o.maxsize = none)
    (hN : 0 < o.ensemble) (s0 s : St α σ) (h0 : Fresh o s0) (hr : Reach e o s0 s) :
    evidenceZ s = totalWeight s.samples.items ∧
    totalShare s.samples.items + remaining o s ≤ 1 := by
  induction hr with
  | refl => exact (fresh_books o hN s0 h0).1
  | step _ _ hb ih => exact body_books e o hmax _ _ hb ih

/-- The same after the remaining walkers have been stored, before the weights are normalised. -/
theorem C04_final_evidence_is_sum (e : Env α σ) (o : Opts) (hmax : o.maxsize = none)
    (hN : 0 < o.ensemble) (s0 s s' : St α σ) (h0 : Fresh o s0) (hr : Reach e o s0 s)
    (hf : updateEvidence o o.ensemble s = some s') :
    evidenceZ s' = totalWeight s'.samples.items ∧
    totalShare s'.samples.items + remaining o s' ≤ 1 := by
  have hb := C04_evidence_is_sum e o hmax hN s0 s h0 hr
  simp only [updateEvidence] at hf
  split at hf
  · exact absurd hf (by simp)
  · obtain rfl := Option.some.inj hf
    apply evLoop_books o hN _ _ _ _ hb
    simp

/-! ### closed form of the volumes -/

/-- Log of the prior volume that is compressed away before the `j`-th stored sample when `d`
walkers are discarded per iteration: every sample shrinks the volume by `1 / (N - position)`. -/
noncomputable def depth (N d j : ℕ) : ℝ :=
  ((List.range j).map fun i => 1 / ((N : ℝ) - (i % d : ℕ))).sum

theorem depth_succ (N d j : ℕ) : depth N d (j + 1) = depth N d j + 1 / ((N : ℝ) - (j % d : ℕ)) := by
  simp [depth, List.range_succ]

/-- The stored weight of the samples as the closed formula says. -/
def Closed (o : Opts) (s : St α σ) : Prop :=
  s.logWidth = Real.log (1 - Real.exp (-1 / (o.ensemble : ℝ)))
      - depth o.ensemble o.discard s.samples.items.length ∧
  ∀ j x, s.samples.items[j]? = some x →
    x.logW = x.logL + Real.log (1 - Real.exp (-1 / (o.ensemble : ℝ)))
      - depth o.ensemble o.discard j

theorem evLoop_closed (o : Opts) :
    ∀ (ws : List (Walker α ℝ)) (kw : ℕ) (s : St α σ), kw + ws.length ≤ o.discard →
      s.samples.items.length % o.discard = kw % o.discard → Closed o s →
      Closed o (evLoop o kw ws s) := by
  intro ws
  induction ws with
  | nil => intro kw s _ _ h; exact h
  | cons w ws ih =>
    intro kw s hk hm h
    simp only [evLoop]
    simp only [List.length_cons] at hk
    have hkd : kw % o.discard = kw := Nat.mod_eq_of_lt (by omega)
    have hlen : (evStep o kw w s).samples.items.length = s.samples.items.length + 1 := by
      simp [evStep, SampleList.add]
    apply ih _ _ (by omega)
    · rw [hlen, Nat.add_mod, hm, Nat.add_mod kw 1]
    · obtain ⟨h1, h2⟩ := h
      refine ⟨?_, ?_⟩
      · rw [hlen, depth_succ, hm, hkd]
        simp only [evStep]
        rw [h1]
        ring
      · intro j x hx
        simp only [evStep, SampleList.add] at hx
        rw [List.getElem?_append] at hx
        split at hx
        · exact h2 j x hx
        · rename_i hj
          have hj2 : j - s.samples.items.length = 0 := by
            by_contra hc
            rw [List.getElem?_eq_none (by simp; omega)] at hx
            exact absurd hx (by simp)
          have hje : j = s.samples.items.length := by omega
          rw [hj2] at hx
          simp only [List.getElem?_cons_zero, Option.some.injEq] at hx
          rw [← hx, hje]
          simp only [toSample]
          rw [h1]
          ring

theorem evLoop_length (o : Opts) (ws : List (Walker α ℝ)) (kw : ℕ) (s : St α σ) :
    (evLoop o kw ws s).samples.items.length = s.samples.items.length + ws.length :=
  (evLoop_same o ws kw s).2.2.2.2

theorem body_closed (e : Env α σ) (o : Opts) (hmax : o.maxsize = none) (s s' : St α σ)
    (h : body e o s = some s') (hc : Closed o s) (hm : o.discard ∣ s.samples.items.length) :
    Closed o s' ∧ s'.samples.items.length = s.samples.items.length + o.discard := by
  obtain ⟨h0, hl, hlt, w, wl1, r1, hw, hlow, hit, hcp, hx, s1, hs1, hs, hz, hi, hwd, hd⟩ :=
    body_spec e o s s' h
  have hlen1 : ((sortWalkers s.walkers).items.take o.discard).length = o.discard := by
    simp [sortWalkers, hl]
  have hsam : s'.samples = s1.samples := by rw [hs, hmax]; rfl
  have hcl : Closed o s1 := by
    rw [hs1]
    apply evLoop_closed o _ _ _ (by rw [hlen1]; omega)
    · simpa using Nat.mod_eq_zero_of_dvd hm
    · exact hc
  refine ⟨⟨by rw [hwd, hsam]; exact hcl.1, by rw [hsam]; exact hcl.2⟩, ?_⟩
  rw [hsam, hs1, evLoop_length, hlen1]

/-- Every stored weight is the likelihood of the discarded walker times an explicit share of the
prior volume, which depends only on the number of samples stored before; and each iteration stores
exactly the discarded walkers. -/
theorem C04_weights_closed_form (e : Env α σ) (o : Opts) (hmax : o.maxsize = none)
    (s0 s : St α σ) (h0 : Fresh o s0) (hr : Reach e o s0 s) :
    s.samples.items.length = o.discard * s.iteration ∧
    ∀ j x, s.samples.items[j]? = some x →
      x.logW = x.logL + Real.log (1 - Real.exp (-1 / (o.ensemble : ℝ)))
        - depth o.ensemble o.discard j := by
  suffices Closed o s ∧ s.samples.items.length = o.discard * s.iteration from ⟨this.2, this.1.2⟩
  induction hr with
  | refl =>
    obtain ⟨wl, low, r, hl, rfl⟩ := h0
    refine ⟨⟨?_, ?_⟩, ?_⟩
    · simp [initState, depth]
    · simp [initState]
    · simp [initState]
  | step _ _ hb ih =>
    obtain ⟨a, b⟩ := body_closed e o hmax _ _ hb ih.1 ⟨_, ih.2⟩
    have := (body_spec e o _ _ hb)
    obtain ⟨_, _, _, w, wl1, r1, _, _, hit, _⟩ := this
    refine ⟨a, ?_⟩
    rw [b, hit, ih.2]
    ring

/-- A complete run stores one sample per discarded walker plus one per walker left. -/
theorem C07_sample_count (e : Env α σ) (o : Opts) (hmax : o.maxsize = none)
    (s0 s s' : St α σ) (h0 : Fresh o s0) (hr : Reach e o s0 s) (hf : finish o s = some s') :
    s'.samples.items.length = o.discard * s.iteration + o.ensemble := by
  have hc := (C04_weights_closed_form e o hmax s0 s h0 hr).1
  simp only [finish, updateEvidence] at hf
  split at hf
  · exact absurd hf (by simp)
  · rename_i s1 h1
    split at h1
    · exact absurd h1 (by simp)
    · rename_i hcnd
      obtain rfl := Option.some.inj h1
      split at hf
      · exact absurd hf (by simp)
      · rename_i sl hsl
        obtain rfl := Option.some.inj hf
        have : sl.items.length
            = (evLoop o 0 (s.walkers.items.take o.ensemble) s).samples.items.length := by
          simp only [SampleList.normalize] at hsl
          split at hsl
          · exact absurd hsl (by simp)
          · obtain rfl := Option.some.inj hsl
            simp
        simp only [this, evLoop_length, hc, List.length_take]
        omega

end Nested
end BF
