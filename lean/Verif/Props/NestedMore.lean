import Verif.Props.Nested
import Mathlib.Algebra.Order.Floor.Semiring
import Mathlib.Algebra.Order.Floor.Ring

/-!
# C05, C06, C08, C49 - C53: bounds, weights, stopping, information
-/

namespace BF
namespace Nested

variable {α σ : Type*}

/-! ## C49: tiling of the prior -/

theorem body_tiles (e : Env α σ) (o : Opts) (hmax : o.maxsize = none) (hd1 : o.discard = 1)
    (s s' : St α σ) (h : body e o s = some s')
    (hb : totalShare s.samples.items + remaining o s = 1) :
    totalShare s'.samples.items + remaining o s' = 1 ∧
    s'.logWidth = s.logWidth - 1 / (o.ensemble : ℝ) := by
  obtain ⟨h0, hl, hlt, w, wl1, r1, hw, hlow, hit, hc, hx, s1, hs1, hs, hz, hi, hwd, hd⟩ :=
    body_spec e o s s' h
  have hsam : s'.samples = s1.samples := by rw [hs, hmax]; rfl
  rw [hd1] at hw hs1
  have htk : (sortWalkers s.walkers).items.take 1 = [w] := by
    cases hcs : (sortWalkers s.walkers).items with
    | nil => rw [hcs] at hw; exact absurd hw (by simp)
    | cons v vs =>
      rw [hcs] at hw
      have : v = w := by simpa using hw
      simp [this]
  rw [htk] at hs1
  simp only [evLoop] at hs1
  have hst := (remaining_step o (by omega) 0 (by omega) w
    { s with walkers := sortWalkers s.walkers, lowLhood := w.logL }).2 rfl
  have hsh := share_step o 0 w { s with walkers := sortWalkers s.walkers, lowLhood := w.logL }
  constructor
  · have hrem : remaining o s' = remaining o s1 := by simp [remaining, hwd]
    rw [hrem, hsam, hs1, hsh]
    have : remaining o { s with walkers := sortWalkers s.walkers, lowLhood := w.logL }
        = remaining o s := rfl
    rw [this] at hst
    simp only at hst ⊢
    linarith
  · rw [hwd, hs1]
    simp [evStep]

/-- With one discarded walker per iteration the volumes given out and the volume remaining add up
to exactly one, and after `n` iterations `exp( -n / N )` remains. -/
theorem C49_tiles_partial (e : Env α σ) (o : Opts) (hmax : o.maxsize = none) (hd1 : o.discard = 1)
    (hN : 0 < o.ensemble) (s0 s : St α σ) (h0 : Fresh o s0) (hr : Reach e o s0 s) :
    totalShare s.samples.items + remaining o s = 1 ∧
    remaining o s = Real.exp (-(s.iteration : ℝ) / o.ensemble) := by
  suffices totalShare s.samples.items + remaining o s = 1 ∧
      s.logWidth = Real.log (1 - Real.exp (-1 / (o.ensemble : ℝ)))
        - (s.iteration : ℝ) / o.ensemble by
    refine ⟨this.1, ?_⟩
    have hq := q_lt_one o hN
    simp only [remaining, this.2, sub_eq_add_neg, Real.exp_add]
    rw [← sub_eq_add_neg, Real.exp_log hq, mul_div_assoc, mul_div_cancel₀, neg_div]
    exact hq.ne'
  induction hr with
  | refl =>
    have hf := fresh_books o hN s0 h0
    obtain ⟨wl, low, r, hl, rfl⟩ := h0
    refine ⟨?_, by simp [initState]⟩
    rw [hf.2]; simp [totalShare, initState]
  | step _ _ hb ih =>
    obtain ⟨a, b⟩ := body_tiles e o hmax hd1 _ _ hb ih.1
    obtain ⟨_, _, _, w, wl1, r1, _, _, hit, _⟩ := body_spec e o _ _ hb
    refine ⟨a, ?_⟩
    rw [b, ih.2, hit]
    push_cast
    ring

/-- With two discarded walkers per iteration some prior volume is given to nobody: after the first
iteration the volumes given out and the remaining volume add up to less than one. -/
theorem C49_counterexample (o : Opts) (hd : o.discard = 2) (hmax : o.maxsize = none)
    (e : Env α σ) (s0 s : St α σ) (h0 : Fresh o s0) (hb : body e o s0 = some s) :
    totalShare s.samples.items + remaining o s < 1 := by
  obtain ⟨h1, hl, hlt, w, wl1, r1, hw, hlow, hit, hc, hx, s1, hs1, hs, hz, hi, hwd, hdz⟩ :=
    body_spec e o s0 s hb
  have hsam : s.samples = s1.samples := by rw [hs, hmax]; rfl
  have hN : 0 < o.ensemble := by omega
  obtain ⟨⟨_, _⟩, hrem0⟩ := fresh_books o hN s0 h0
  have hts0 : totalShare s0.samples.items = 0 := by
    obtain ⟨wl, low, r, hl, rfl⟩ := h0; simp [totalShare, initState]
  obtain ⟨a, b, htk⟩ : ∃ a b, (sortWalkers s0.walkers).items.take 2 = [a, b] := by
    have hlen : 2 ≤ (sortWalkers s0.walkers).items.length := by
      simp [sortWalkers]; omega
    match hcs : (sortWalkers s0.walkers).items, hlen with
    | a :: b :: t, _ => exact ⟨a, b, by simp⟩
  rw [hd, htk] at hs1
  simp only [evLoop] at hs1
  set t0 : St α σ := { s0 with walkers := sortWalkers s0.walkers, lowLhood := w.logL } with ht0
  have hr0 : remaining o t0 = 1 := hrem0
  have e1 := (remaining_step o hN 0 hN a t0).2 rfl
  have hrs : remaining o s = remaining o s1 := by simp [remaining, hwd]
  rw [hrs, hsam, hs1, share_step, share_step]
  have : totalShare t0.samples.items = 0 := hts0
  rw [this]
  -- the second step loses volume
  set t1 := evStep o 0 a t0 with ht1
  have hq := q_lt_one o hN
  have hNr : (2 : ℝ) < o.ensemble := by
    have : 2 < o.ensemble := by omega
    exact_mod_cast this
  have hlt1 : Real.exp (-(1 / ((o.ensemble : ℝ) - 1))) < Real.exp (-1 / (o.ensemble : ℝ)) := by
    rw [Real.exp_lt_exp, neg_div]
    have : 1 / (o.ensemble : ℝ) < 1 / ((o.ensemble : ℝ) - 1) := by
      apply one_div_lt_one_div_of_lt <;> linarith
    linarith
  have e2 : Real.exp t1.logWidth + remaining o (evStep o 1 b t1) < remaining o t1 := by
    have hE := Real.exp_pos t1.logWidth
    have h2 : remaining o (evStep o 1 b t1) = Real.exp t1.logWidth
        * Real.exp (-(1 / ((o.ensemble : ℝ) - 1))) / (1 - Real.exp (-1 / (o.ensemble : ℝ))) := by
      simp only [remaining, evStep]
      rw [sub_eq_add_neg, Real.exp_add]
      simp
    rw [h2]
    simp only [remaining]
    rw [lt_div_iff₀ hq, add_mul, div_mul_cancel₀ _ hq.ne']
    nlinarith
  linarith

/-! ## C05: bounds on the evidence -/

theorem weight_le (l : List (Sample α)) (M : ℝ) (h : ∀ x ∈ l, x.logL ≤ M) :
    totalWeight l ≤ Real.exp M * totalShare l := by
  induction l with
  | nil => simp [totalWeight, totalShare]
  | cons x l ih =>
    have h1 := ih fun y hy => h y (by simp [hy])
    have hx := h x (by simp)
    simp only [totalWeight, totalShare, List.map_cons, List.sum_cons] at h1 ⊢
    have : Real.exp x.logW ≤ Real.exp M * share x := by
      simp only [share]
      rw [mul_div_assoc', le_div_iff₀ (Real.exp_pos _), mul_comm]
      exact mul_le_mul_of_nonneg_right (Real.exp_le_exp.2 hx) (Real.exp_pos _).le
    linarith

theorem weight_ge (l : List (Sample α)) (m : ℝ) (h : ∀ x ∈ l, m ≤ x.logL) :
    Real.exp m * totalShare l ≤ totalWeight l := by
  induction l with
  | nil => simp [totalWeight, totalShare]
  | cons x l ih =>
    have h1 := ih fun y hy => h y (by simp [hy])
    have hx := h x (by simp)
    simp only [totalWeight, totalShare, List.map_cons, List.sum_cons] at h1 ⊢
    have : Real.exp m * share x ≤ Real.exp x.logW := by
      simp only [share]
      rw [mul_div_assoc', div_le_iff₀ (Real.exp_pos _), mul_comm]
      exact mul_le_mul_of_nonneg_left (Real.exp_le_exp.2 hx) (Real.exp_pos _).le
    linarith

theorem normalize_spec (sl sl' : SampleList α) (h : sl.normalize = some sl') :
    sl.items ≠ [] ∧ ∃ c : ℝ, sl'.items = sl.items.map (fun s => { s with logW := s.logW - c }) ∧
      Real.exp c = totalWeight sl.items := by
  simp only [SampleList.normalize] at h
  split at h
  · exact absurd h (by simp)
  · rename_i w ws hw
    obtain rfl := Option.some.inj h
    have hne : sl.items ≠ [] := by
      intro h0; rw [h0] at hw; exact absurd hw (by simp)
    refine ⟨hne, _, rfl, ?_⟩
    have hsum : ∀ (l : List ℝ) (c : ℝ), (l.map fun x => Real.exp (x - c)).sum
        = (l.map Real.exp).sum * Real.exp (-c) := by
      intro l c
      induction l with
      | nil => simp
      | cons x l ih =>
        simp only [List.map_cons, List.sum_cons, ih, add_mul]
        rw [sub_eq_add_neg, Real.exp_add]
    have hpos : 0 < ((w :: ws).map Real.exp).sum := by
      simp only [List.map_cons, List.sum_cons]
      have : 0 ≤ (ws.map Real.exp).sum := List.sum_nonneg (by
        intro x hx
        obtain ⟨y, _, rfl⟩ := List.mem_map.1 hx
        exact (Real.exp_pos y).le)
      linarith [Real.exp_pos w]
    have htw : totalWeight sl.items = ((w :: ws).map Real.exp).sum := by
      rw [← hw]; simp [totalWeight]; rfl
    rw [hsum, Real.exp_add, Real.exp_log (by positivity), Real.exp_neg, htw]
    have := Real.exp_pos (List.foldl max w ws)
    field_simp

theorem normalize_logL (sl sl' : SampleList α) (h : sl.normalize = some sl') :
    sl'.items.map Sample.logL = sl.items.map Sample.logL := by
  obtain ⟨_, c, hc, _⟩ := normalize_spec sl sl' h
  rw [hc, List.map_map]
  rfl

theorem evLoop_prefix (o : Opts) : ∀ (ws : List (Walker α ℝ)) (kw : ℕ) (s : St α σ),
    ∃ t, (evLoop o kw ws s).samples.items = s.samples.items ++ t := by
  intro ws
  induction ws with
  | nil => intro kw s; exact ⟨[], by simp [evLoop]⟩
  | cons w ws ih =>
    intro kw s
    obtain ⟨t, ht⟩ := ih (kw + 1) (evStep o kw w s)
    simp only [evLoop, ht]
    simp [evStep, SampleList.add]

/-- The evidence of a complete run is below the highest likelihood of all samples, and it is at
least the lowest likelihood times the prior volume that the iterations went through. -/
theorem C05_evidence_bounds (e : Env α σ) (o : Opts) (hmax : o.maxsize = none)
    (hN : 0 < o.ensemble) (s0 s s' : St α σ) (h0 : Fresh o s0) (hr : Reach e o s0 s)
    (hf : finish o s = some s') :
    ∃ z, s'.logZ = some z ∧
      (∀ M, (∀ x ∈ s'.samples.items, x.logL ≤ M) → z < M) ∧
      (∀ m, (∀ x ∈ s'.samples.items, m ≤ x.logL) →
        Real.exp m * totalShare s.samples.items ≤ Real.exp z) ∧
      (o.discard = 1 → ∀ m, (∀ x ∈ s'.samples.items, m ≤ x.logL) →
        Real.exp m * (1 - Real.exp (-(s.iteration : ℝ) / o.ensemble)) ≤ Real.exp z) := by
  simp only [finish] at hf
  split at hf
  · exact absurd hf (by simp)
  · rename_i s1 h1
    obtain ⟨hz, hv⟩ := C04_final_evidence_is_sum e o hmax hN s0 s s1 h0 hr h1
    split at hf
    · exact absurd hf (by simp)
    · rename_i sl hsl
      obtain rfl := Option.some.inj hf
      obtain ⟨hne, c, hc, hcw⟩ := normalize_spec _ _ hsl
      have hmem : ∀ (P : ℝ → Prop), (∀ x ∈ sl.items, P x.logL) → ∀ x ∈ s1.samples.items, P x.logL := by
        intro P hP x hx
        have := hP _ (by rw [hc]; exact List.mem_map_of_mem hx)
        exact this
      have hlow : ∀ m, (∀ x ∈ sl.items, m ≤ x.logL) →
          Real.exp m * totalShare s.samples.items ≤ evidenceZ s1 := by
        intro m hm
        have h2 := weight_ge s1.samples.items m (hmem (fun y => m ≤ y) hm)
        rw [hz]
        refine le_trans ?_ h2
        apply mul_le_mul_of_nonneg_left _ (Real.exp_pos _).le
        simp only [updateEvidence] at h1
        split at h1
        · exact absurd h1 (by simp)
        · obtain rfl := Option.some.inj h1
          obtain ⟨t, ht⟩ := evLoop_prefix o (s.walkers.items.take o.ensemble) 0 s
          rw [ht]
          simp only [totalShare, List.map_append, List.sum_append]
          have : 0 ≤ (t.map share).sum := List.sum_nonneg (by
            intro x hx
            obtain ⟨y, _, rfl⟩ := List.mem_map.1 hx
            simp only [share]; positivity)
          linarith
      have hzp : 0 < evidenceZ s1 := by rw [hz, ← hcw]; exact Real.exp_pos c
      cases hzz : s1.logZ with
      | none => simp [evidenceZ, hzz] at hzp
      | some z =>
        have hez : evidenceZ s1 = Real.exp z := by simp [evidenceZ, hzz]
        refine ⟨z, rfl, ?_, ?_, ?_⟩
        · intro M hM
          rw [← Real.exp_lt_exp, ← hez, hz]
          refine lt_of_le_of_lt (weight_le _ M (hmem (fun y => y ≤ M) hM)) ?_
          have hrem : 0 < remaining o s1 := div_pos (Real.exp_pos _) (q_lt_one o hN)
          have : totalShare s1.samples.items < 1 := by linarith
          nlinarith [Real.exp_pos M]
        · intro m hm
          rw [← hez]; exact hlow m hm
        · intro hd1 m hm
          rw [← hez]
          have ht := C49_tiles_partial e o hmax hd1 hN s0 s h0 hr
          have : 1 - Real.exp (-(s.iteration : ℝ) / o.ensemble) = totalShare s.samples.items := by
            rw [← ht.2]; linarith
          rw [this]
          exact hlow m hm

/-! ## C06: posterior weights -/

/-- After normalisation the weights sum to one and are proportional to the stored weights; nothing
else of the samples has changed. -/
theorem C06_normalized (sl sl' : SampleList α) (h : sl.normalize = some sl') :
    totalWeight sl'.items = 1 ∧
    List.Forall₂ (fun (x y : Sample α) => Real.exp y.logW = Real.exp x.logW / totalWeight sl.items ∧
      y = { x with logW := y.logW }) sl.items sl'.items := by
  obtain ⟨hne, c, hc, hcw⟩ := normalize_spec sl sl' h
  have hcp := Real.exp_pos c
  constructor
  · rw [hc]
    have : ∀ l : List (Sample α), totalWeight (l.map fun s => { s with logW := s.logW - c })
        = totalWeight l / Real.exp c := by
      intro l
      induction l with
      | nil => simp [totalWeight]
      | cons x l ih =>
        simp only [totalWeight, List.map_cons, List.sum_cons, add_div] at ih ⊢
        rw [ih, Real.exp_sub]
    rw [this, hcw, div_self (by rw [← hcw]; exact hcp.ne')]
  · rw [hc]
    have : ∀ l : List (Sample α), List.Forall₂ (fun (x y : Sample α) =>
        Real.exp y.logW = Real.exp x.logW / totalWeight sl.items ∧ y = { x with logW := y.logW })
        l (l.map fun s => { s with logW := s.logW - c }) := by
      intro l
      induction l with
      | nil => simp
      | cons x l ih =>
        simp only [List.map_cons, List.forall₂_cons]
        refine ⟨⟨?_, by simp⟩, ih⟩
        rw [Real.exp_sub, hcw]
    exact this _

/-- Normalisation fails only on an empty list. -/
theorem C06_normalize_defined (sl : SampleList α) : sl.normalize = none ↔ sl.items = [] := by
  simp only [SampleList.normalize]
  cases h : sl.items with
  | nil => simp
  | cons x l => simp

theorem averstd_fst (sl : SampleList α) (f : Sample α → ℝ) :
    (sl.averstd f).1 = (sl.items.map fun s => Real.exp s.logW * f s).sum ∧
    (sl.averstd f).2 = Real.sqrt (max ((sl.items.map fun s => Real.exp s.logW * f s * f s).sum
      - (sl.items.map fun s => Real.exp s.logW * f s).sum ^ 2) 0) := by
  have : ∀ (l : List (Sample α)) (a b : ℝ), l.foldl (fun (a : ℝ × ℝ) s =>
      let ws := Real.exp s.logW * f s
      (a.1 + ws, a.2 + ws * f s)) (a, b)
      = (a + (l.map fun s => Real.exp s.logW * f s).sum,
         b + (l.map fun s => Real.exp s.logW * f s * f s).sum) := by
    intro l
    induction l with
    | nil => simp
    | cons x l ih =>
      intro a b
      simp only [List.foldl_cons, List.map_cons, List.sum_cons]
      rw [ih]
      ext <;> simp <;> ring
  simp only [SampleList.averstd]
  rw [this]
  simp [sq]

/-- Weighted averages lie between the smallest and the largest value sampled, and the reported
standard deviation is the root of the weighted mean squared deviation from that average. -/
theorem C06_average_between (sl : SampleList α) (hw : totalWeight sl.items = 1) (f : Sample α → ℝ) :
    (∀ lo, (∀ x ∈ sl.items, lo ≤ f x) → lo ≤ (sl.averstd f).1) ∧
    (∀ hi, (∀ x ∈ sl.items, f x ≤ hi) → (sl.averstd f).1 ≤ hi) ∧
    (sl.averstd f).2 = Real.sqrt
      ((sl.items.map fun s => Real.exp s.logW * (f s - (sl.averstd f).1) ^ 2).sum) := by
  obtain ⟨h1, h2⟩ := averstd_fst sl f
  refine ⟨?_, ?_, ?_⟩
  · intro lo hlo
    rw [h1]
    have : ∀ l : List (Sample α), (∀ x ∈ l, lo ≤ f x) →
        totalWeight l * lo ≤ (l.map fun s => Real.exp s.logW * f s).sum := by
      intro l
      induction l with
      | nil => simp [totalWeight]
      | cons x l ih =>
        intro hl
        have a := ih fun y hy => hl y (by simp [hy])
        have b := mul_le_mul_of_nonneg_left (hl x (by simp)) (Real.exp_pos x.logW).le
        simp only [totalWeight, List.map_cons, List.sum_cons] at a ⊢
        linarith
    have := this _ hlo
    rw [hw] at this
    linarith
  · intro hi hhi
    rw [h1]
    have : ∀ l : List (Sample α), (∀ x ∈ l, f x ≤ hi) →
        (l.map fun s => Real.exp s.logW * f s).sum ≤ totalWeight l * hi := by
      intro l
      induction l with
      | nil => simp [totalWeight]
      | cons x l ih =>
        intro hl
        have a := ih fun y hy => hl y (by simp [hy])
        have b := mul_le_mul_of_nonneg_left (hl x (by simp)) (Real.exp_pos x.logW).le
        simp only [totalWeight, List.map_cons, List.sum_cons] at a ⊢
        linarith
    have := this _ hhi
    rw [hw] at this
    linarith
  · rw [h2, h1]
    have key : ∀ (l : List (Sample α)) (m : ℝ),
        (l.map fun s => Real.exp s.logW * (f s - m) ^ 2).sum
        = (l.map fun s => Real.exp s.logW * f s * f s).sum
          - 2 * m * (l.map fun s => Real.exp s.logW * f s).sum + m ^ 2 * totalWeight l := by
      intro l m
      induction l with
      | nil => simp [totalWeight]
      | cons x l ih =>
        simp only [totalWeight, List.map_cons, List.sum_cons] at ih ⊢
        rw [ih]; ring
    have hnn : 0 ≤ (sl.items.map fun s => Real.exp s.logW *
        (f s - (sl.items.map fun s => Real.exp s.logW * f s).sum) ^ 2).sum := List.sum_nonneg (by
      intro x hx
      obtain ⟨y, _, rfl⟩ := List.mem_map.1 hx
      positivity)
    rw [key, hw] at hnn ⊢
    congr 1
    rw [max_eq_left] <;> nlinarith

theorem medianLoop_spec : ∀ (l : List (Sample α)) (sum : ℝ) (k : ℕ), sum < 1 / 2 →
    k ≤ medianLoop l sum k ∧ medianLoop l sum k ≤ k + l.length ∧
    sum + totalWeight (l.take (medianLoop l sum k - k)) < 1 / 2 ∧
    (medianLoop l sum k < k + l.length →
      1 / 2 ≤ sum + totalWeight (l.take (medianLoop l sum k - k + 1))) := by
  intro l
  induction l with
  | nil => intro sum k h; simp [medianLoop, totalWeight] at h ⊢; exact h
  | cons x l ih =>
    intro sum k h
    simp only [medianLoop]
    split
    · rename_i hc
      obtain ⟨a, b, c, d⟩ := ih (sum + Real.exp x.logW) (k + 1) hc
      set m := medianLoop l (sum + Real.exp x.logW) (k + 1) with hm
      have hmk : m - k = (m - (k + 1)) + 1 := by omega
      refine ⟨by omega, by simp; omega, ?_, ?_⟩
      · rw [hmk]
        simp only [List.take_succ_cons, totalWeight, List.map_cons, List.sum_cons] at c ⊢
        linarith
      · intro hlt
        have := d (by simp at hlt; omega)
        rw [hmk]
        simp only [List.take_succ_cons, totalWeight, List.map_cons, List.sum_cons] at this ⊢
        linarith
    · rename_i hc
      refine ⟨le_refl _, by simp, ?_, ?_⟩
      · simp [totalWeight] at h ⊢; exact h
      · intro _
        simp [totalWeight] at hc ⊢
        exact hc

/-- The median index of a normalised list is a valid position, with less than half the weight
before it and at least half up to and including it. -/
theorem C06_median (sl : SampleList α) (hw : totalWeight sl.items = 1) :
    sl.medianIndex < sl.items.length ∧
    totalWeight (sl.items.take sl.medianIndex) < 1 / 2 ∧
    1 / 2 ≤ totalWeight (sl.items.take (sl.medianIndex + 1)) := by
  obtain ⟨a, b, c, d⟩ := medianLoop_spec sl.items 0 0 (by norm_num)
  simp only [Nat.sub_zero, zero_add] at b c d
  have hlt : medianLoop sl.items 0 0 < sl.items.length := by
    rcases Nat.lt_or_ge (medianLoop sl.items 0 0) sl.items.length with h | h
    · exact h
    · rw [List.take_of_length_le h, hw] at c
      norm_num at c
  exact ⟨hlt, c, d hlt⟩

/-! ## C50: information -/

/-- Weighted sum of the log likelihoods of the samples. -/
noncomputable def weightedLogL (l : List (Sample α)) : ℝ :=
  (l.map fun x => Real.exp x.logW * x.logL).sum

theorem info_step (o : Opts) (kw : ℕ) (w : Walker α ℝ) (s : St α σ) :
    evidenceZ (evStep o kw w s) * ((evStep o kw w s).info + (evStep o kw w s).logZ.getD 0)
      = evidenceZ s * (s.info + s.logZ.getD 0) + Real.exp (s.logWidth + w.logL) * s.lowLhood := by
  set W := s.logWidth + w.logL with hW
  cases hz : s.logZ with
  | none =>
    simp only [evidenceZ, evStep, logaddexp, expRel, hz, Option.elim, Option.getD, ← hW]
    simp
  | some z =>
    simp only [evidenceZ, evStep, logaddexp, expRel, hz, Option.elim, Option.getD, ← hW]
    have hp : 0 < Real.exp z + Real.exp W := by positivity
    rw [Real.exp_log hp, Real.exp_sub, Real.exp_sub, Real.exp_log hp]
    field_simp
    ring

/-- With one discarded walker per iteration, the information is at any time the posterior average
of the log likelihood minus the log evidence. -/
theorem C50_information_partial (e : Env α σ) (o : Opts) (hmax : o.maxsize = none)
    (hd1 : o.discard = 1) (hN : 0 < o.ensemble) (s0 s : St α σ) (h0 : Fresh o s0)
    (hr : Reach e o s0 s) (z : ℝ) (hz : s.logZ = some z) :
    s.info = weightedLogL s.samples.items / totalWeight s.samples.items - z := by
  have hZ := (C04_evidence_is_sum e o hmax hN s0 s h0 hr).1
  suffices evidenceZ s * (s.info + s.logZ.getD 0) = weightedLogL s.samples.items by
    have hez : evidenceZ s = Real.exp z := by simp [evidenceZ, hz]
    rw [← hZ, ← this, hez, hz]
    have := Real.exp_pos z
    simp only [Option.getD]
    field_simp
    ring
  clear hz hZ
  induction hr with
  | refl =>
    obtain ⟨wl, low, r, hl, rfl⟩ := h0
    simp [evidenceZ, initState, weightedLogL]
  | @step s s' _ _ hb ih =>
    obtain ⟨h1, hl, hlt, w, wl1, r1, hw, hlow, hit, hc, hx, s1, hs1, hs, hz, hi, hwd, hdz⟩ :=
      body_spec e o _ _ hb
    have hsam : s'.samples = s1.samples := by rw [hs, hmax]; rfl
    rw [hd1] at hw hs1
    have htk : (sortWalkers s.walkers).items.take 1 = [w] := by
      cases hcs : (sortWalkers s.walkers).items with
      | nil => rw [hcs] at hw; exact absurd hw (by simp)
      | cons v vs =>
        rw [hcs] at hw
        have : v = w := by simpa using hw
        simp [this]
    rw [htk] at hs1
    simp only [evLoop] at hs1
    have hstep := info_step o 0 w { s with walkers := sortWalkers s.walkers, lowLhood := w.logL }
    rw [← hs1] at hstep
    have e1 : evidenceZ s' = evidenceZ s1 := by simp [evidenceZ, hz]
    rw [e1, hi, hz, hstep, hsam, hs1]
    have : evidenceZ { s with walkers := sortWalkers s.walkers, lowLhood := w.logL }
        = evidenceZ s := rfl
    rw [this]
    simp only
    rw [ih]
    simp [weightedLogL, evStep, SampleList.add, toSample]

/-! ## C08: the run stops -/

theorem next_true (o : Opts) (s : St α σ) (h : nextIteration o s = true) :
    s.iteration < o.minimumIterations ∨
    (o.tolerance ≤ s.logdZ ∧ (∀ m, o.maxIterations = some m → s.iteration ≤ m) ∧
      (s.iteration : ℝ) ≤ o.end * o.ensemble * s.info / o.discard) := by
  simp only [nextIteration] at h
  split at h
  · left; assumption
  · split at h
    · exact absurd h (by simp)
    · rename_i h2
      split at h
      · exact absurd h (by simp)
      · rename_i h3
        split at h
        · exact absurd h (by simp)
        · rename_i h4
          right
          refine ⟨not_lt.1 h2, ?_, not_lt.1 h4⟩
          intro m hm
          rw [hm] at h3
          exact not_lt.1 h3

/-- An iteration is only started while none of the stop conditions holds. -/
theorem C08_no_iteration_after_stop (o : Opts) (s : St α σ) :
    nextIteration o s = true ↔
    (s.iteration < o.minimumIterations ∨
      (o.tolerance ≤ s.logdZ ∧ (∀ m, o.maxIterations = some m → s.iteration ≤ m) ∧
        (s.iteration : ℝ) ≤ o.end * o.ensemble * s.info / o.discard)) := by
  refine ⟨next_true o s, ?_⟩
  rintro (h | ⟨h1, h2, h3⟩)
  · simp [nextIteration, h]
  · simp only [nextIteration]
    split
    · rfl
    · rw [if_neg (not_lt.2 h1)]
      have : ¬ o.maxIterations.elim False (fun m => s.iteration > m) := by
        cases hm : o.maxIterations with
        | none => simp
        | some m => simpa using h2 m hm
      rw [if_neg this, if_neg (not_lt.2 h3)]

/-- With an iteration limit no more than that limit plus one (or the minimum number) iterations
are ever done, whatever the likelihoods are. -/
theorem C08_iteration_limit (e : Env α σ) (o : Opts) (m : ℕ) (hm : o.maxIterations = some m)
    (s0 s : St α σ) (h0 : Fresh o s0) (hr : Reach e o s0 s) :
    s.iteration ≤ max o.minimumIterations (m + 1) := by
  induction hr with
  | refl => obtain ⟨wl, low, r, hl, rfl⟩ := h0; simp [initState]
  | step _ hn hb _ =>
    obtain ⟨_, _, _, w, wl1, r1, _, _, hit, _⟩ := body_spec e o _ _ hb
    rw [hit]
    rcases next_true o _ hn with h | ⟨_, h, _⟩
    · omega
    · have := h m hm; omega

/-- All likelihoods an engine can produce are below `L`. -/
def BoundedBy (e : Env α σ) (L : ℝ) : Prop :=
  ∀ (g : ℕ) (r : σ) (wl : WalkerList α ℝ) (kw : ℕ) (low : ℝ) (wl' : WalkerList α ℝ) (mv : ℕ)
    (r' : σ), e.execute g r wl kw low = some (wl', mv, r') →
    (∀ w ∈ wl.items, w.logL ≤ L) → ∀ w ∈ wl'.items, w.logL ≤ L

theorem bounded_round (e : Env α σ) (L : ℝ) (he : BoundedBy e L) (kw : ℕ) (low : ℝ) :
    ∀ (gs : List ℕ) (wl : WalkerList α ℝ) (mv : ℕ) (r : σ) (wl' : WalkerList α ℝ) (mv' : ℕ)
      (r' : σ), engineRound e kw low gs wl mv r = some (wl', mv', r') →
      (∀ w ∈ wl.items, w.logL ≤ L) → ∀ w ∈ wl'.items, w.logL ≤ L := by
  intro gs
  induction gs with
  | nil =>
    intro wl mv r wl' mv' r' h
    simp only [engineRound, Option.some.injEq, Prod.mk.injEq] at h
    obtain ⟨rfl, _, _⟩ := h
    exact id
  | cons g gs ih =>
    intro wl mv r wl' mv' r' h hb
    simp only [engineRound] at h
    split at h
    · exact absurd h (by simp)
    · rename_i wl1 m1 r1 h1
      exact ih _ _ _ _ _ _ h (he _ _ _ _ _ _ _ _ h1 hb)

theorem bounded_trial (e : Env α σ) (L : ℝ) (he : BoundedBy e L) (o : Opts) (kw : ℕ) (low : ℝ) :
    ∀ (n : ℕ) (wl : WalkerList α ℝ) (mv : ℕ) (r : σ) (b : Bool) (wl' : WalkerList α ℝ) (mv' : ℕ)
      (r' : σ) (b' : Bool), trialLoop e o kw low n wl mv r b = some (wl', mv', r', b') →
      (∀ w ∈ wl.items, w.logL ≤ L) → ∀ w ∈ wl'.items, w.logL ≤ L := by
  intro n
  induction n with
  | zero =>
    intro wl mv r b wl' mv' r' b' h
    simp only [trialLoop, Option.some.injEq, Prod.mk.injEq] at h
    obtain ⟨rfl, _⟩ := h
    exact id
  | succ n ih =>
    intro wl mv r b wl' mv' r' b' h hb
    simp only [trialLoop] at h
    split at h
    · split at h
      · exact absurd h (by simp)
      · rename_i wl1 m1 r1 h1
        exact ih _ _ _ _ _ _ _ _ h (bounded_round e L he _ _ _ _ _ _ _ _ _ h1 hb)
    · simp only [Option.some.injEq, Prod.mk.injEq] at h
      obtain ⟨rfl, _⟩ := h
      exact hb

theorem bounded_explore (e : Env α σ) (L : ℝ) (he : BoundedBy e L) (o : Opts) (low : ℝ) :
    ∀ (ks : List ℕ) (wl wl' : WalkerList α ℝ) (r r' : σ),
      explore e o low ks wl r = some (wl', r') →
      (∀ w ∈ wl.items, w.logL ≤ L) → ∀ w ∈ wl'.items, w.logL ≤ L := by
  intro ks
  induction ks with
  | nil =>
    intro wl wl' r r' h
    simp only [explore, Option.some.injEq, Prod.mk.injEq] at h
    obtain ⟨rfl, _⟩ := h
    exact id
  | cons k ks ih =>
    intro wl wl' r r' h hb
    simp only [explore] at h
    split at h
    · exact absurd h (by simp)
    · rename_i wl1 r1 h1
      refine ih _ _ _ _ h ?_
      simp only [exploreWalker] at h1
      split at h1
      · exact absurd h1 (by simp)
      · rename_i h2
        split at h1
        · exact absurd h1 (by simp)
        · split at h1
          · exact absurd h1 (by simp)
          · split at h1
            · exact absurd h1 (by simp)
            · split at h1
              · exact absurd h1 (by simp)
              · simp only [Option.some.injEq, Prod.mk.injEq] at h1
                obtain ⟨rfl, _⟩ := h1
                exact bounded_trial e L he o _ _ _ _ _ _ _ _ _ _ _ h2 hb

theorem bounded_copy (e : Env α σ) (L : ℝ) (o : Opts) (it worst : ℕ) :
    ∀ (ks : List ℕ) (wl wl' : WalkerList α ℝ) (r r' : σ),
      copyLoop e o it worst ks wl r = some (wl', r') →
      (∀ w ∈ wl.items, w.logL ≤ L) → ∀ w ∈ wl'.items, w.logL ≤ L := by
  intro ks
  induction ks with
  | nil =>
    intro wl wl' r r' h
    simp only [copyLoop, Option.some.injEq, Prod.mk.injEq] at h
    obtain ⟨rfl, _⟩ := h
    exact id
  | cons k ks ih =>
    intro wl wl' r r' h hb
    simp only [copyLoop] at h
    split at h
    · split at h
      · exact absurd h (by simp)
      · rename_i wl1 h1
        refine ih _ _ _ _ h ?_
        obtain ⟨d, s, hd, hs, w, hw, _, hit⟩ := copy_items _ _ _ _ _ h1
        intro v hv
        rw [hit] at hv
        rcases List.mem_or_eq_of_mem_set hv with h | h
        · exact hb v h
        · rw [h, hw]; exact hb s (List.mem_of_getElem? hs)
    · exact absurd h (by simp)

/-- Invariant for stopping: information plus log evidence stays below the highest likelihood, and
the log evidence stays above its first contribution. -/
def StopInv (o : Opts) (lo L : ℝ) (s : St α σ) : Prop :=
  (∀ z, s.logZ = some z → s.info + z ≤ L ∧ Real.log (1 - Real.exp (-1 / (o.ensemble : ℝ))) + lo ≤ z)
  ∧ (s.logZ = none → s.logWidth = Real.log (1 - Real.exp (-1 / (o.ensemble : ℝ))))

theorem stop_step (o : Opts) (lo L : ℝ) (kw : ℕ) (w : Walker α ℝ) (s : St α σ)
    (hw : s.logZ = none → lo ≤ w.logL) (hlow : s.lowLhood ≤ L) (h : StopInv o lo L s) :
    StopInv o lo L (evStep o kw w s) := by
  have hs := info_step o kw w s
  have he := evidence_step o kw w s
  obtain ⟨ha, hb⟩ := h
  refine ⟨?_, fun h => by simp [evStep] at h⟩
  intro z hz
  have hezs : evidenceZ (evStep o kw w s) = Real.exp z := by simp [evidenceZ, hz]
  rw [hz] at hs
  simp only [Option.getD] at hs
  rw [hezs] at hs he
  have hW := Real.exp_pos (s.logWidth + w.logL)
  have hmul := mul_le_mul_of_nonneg_left hlow hW.le
  have hzp := Real.exp_pos z
  cases hzs : s.logZ with
  | none =>
    have hez0 : evidenceZ s = 0 := by simp [evidenceZ, hzs]
    rw [hez0] at hs he
    rw [zero_add] at he
    have hzz : z = s.logWidth + w.logL := Real.exp_injective he
    refine ⟨?_, ?_⟩
    · rw [← he] at hmul hs
      have : Real.exp z * ((evStep o kw w s).info + z) ≤ Real.exp z * L := by linarith
      exact le_of_mul_le_mul_left this hzp
    · rw [hzz, hb hzs]
      linarith [hw hzs]
  | some y =>
    have hez0 : evidenceZ s = Real.exp y := by simp [evidenceZ, hzs]
    obtain ⟨h1, h2⟩ := ha y hzs
    rw [hez0] at hs he
    rw [hzs] at hs
    simp only [Option.getD] at hs
    have hm2 := mul_le_mul_of_nonneg_left h1 (Real.exp_pos y).le
    refine ⟨?_, ?_⟩
    · have : Real.exp z * ((evStep o kw w s).info + z) ≤ Real.exp z * L := by
        rw [hs, he]; linarith
      exact le_of_mul_le_mul_left this hzp
    · refine h2.trans ?_
      rw [← Real.exp_le_exp, he]
      linarith

theorem stop_evLoop (o : Opts) (lo L : ℝ) : ∀ (ws : List (Walker α ℝ)) (kw : ℕ) (s : St α σ),
    (s.logZ = none → ∀ w ∈ ws, lo ≤ w.logL) → s.lowLhood ≤ L → StopInv o lo L s →
    StopInv o lo L (evLoop o kw ws s) := by
  intro ws
  induction ws with
  | nil => intro kw s _ _ h; exact h
  | cons w ws ih =>
    intro kw s hw hl h
    simp only [evLoop]
    apply ih
    · intro hn; simp [evStep] at hn
    · exact hl
    · exact stop_step o lo L kw w s (fun h => hw h w (by simp)) hl h

/-- States of a run with bounded likelihoods. -/
theorem stop_reach (e : Env α σ) (o : Opts) (lo L : ℝ) (he : BoundedBy e L)
    (s0 s : St α σ) (h0 : Fresh o s0) (hlo : ∀ w ∈ s0.walkers.items, lo ≤ w.logL)
    (hhi : ∀ w ∈ s0.walkers.items, w.logL ≤ L) (hr : Reach e o s0 s) :
    StopInv o lo L s ∧ (∀ w ∈ s.walkers.items, w.logL ≤ L) ∧
    (s.logZ = none → ∀ w ∈ s.walkers.items, lo ≤ w.logL) ∧
    (0 < s.iteration → s.logZ ≠ none) := by
  induction hr with
  | refl =>
    obtain ⟨wl, low, r, hl, rfl⟩ := h0
    refine ⟨⟨?_, ?_⟩, hhi, fun _ => hlo, ?_⟩ <;> simp [initState]
  | @step s s' _ hn hb ih =>
    obtain ⟨hinv, hup, hdn, hit0⟩ := ih
    obtain ⟨h1, hl, hlt, w, wl1, r1, hw, hlow, hit, hc, hx, s1, hs1, hs, hz, hi, hwd, hdz⟩ :=
      body_spec e o _ _ hb
    have hperm : ∀ v, v ∈ (sortWalkers s.walkers).items ↔ v ∈ s.walkers.items := by
      intro v; simp [sortWalkers]
    have hwL : w.logL ≤ L := hup w ((hperm w).1 (List.mem_of_getElem? hw))
    have hs1inv : StopInv o lo L s1 := by
      rw [hs1]
      apply stop_evLoop o lo L
      · intro hnone v hv
        exact hdn hnone v ((hperm v).1 (List.mem_of_mem_take hv))
      · exact hwL
      · exact hinv
    have hsome : s1.logZ ≠ none := by
      rw [hs1]
      have hlen : 0 < ((sortWalkers s.walkers).items.take o.discard).length := by
        simp [sortWalkers]; omega
      match hcs : (sortWalkers s.walkers).items.take o.discard, hlen with
      | v :: vs, _ =>
        simp only [evLoop]
        have : ∀ (ws : List (Walker α ℝ)) (kw : ℕ) (t : St α σ), t.logZ ≠ none →
            (evLoop o kw ws t).logZ ≠ none := by
          intro ws
          induction ws with
          | nil => intro kw t h; exact h
          | cons a ws ih => intro kw t h; simp only [evLoop]; apply ih; simp [evStep]
        apply this
        simp [evStep]
    refine ⟨?_, ?_, ?_, ?_⟩
    · refine ⟨?_, ?_⟩
      · intro z hz'
        rw [hi]
        exact hs1inv.1 z (by rw [← hz]; exact hz')
      · intro hn; rw [hz] at hn; exact absurd hn hsome
    · apply bounded_explore e L he o _ _ _ _ _ _ hx
      apply bounded_copy e L o _ _ _ _ _ _ _ hc
      intro v hv
      exact hup v ((hperm v).1 hv)
    · intro hn; rw [hz] at hn; exact absurd hn hsome
    · intro _; rw [hz]; exact hsome

theorem loop_running (e : Env α σ) (o : Opts) (s0 : St α σ) : ∀ (n : ℕ) (s t : St α σ),
    Reach e o s0 s → loop e o n s = .running t →
    Reach e o s0 t ∧ t.iteration = s.iteration + n ∧ nextIteration o t = true := by
  intro n
  induction n with
  | zero =>
    intro s t hr h
    simp only [loop] at h
    split at h
    · rename_i hn
      obtain rfl := (LoopEnd.running.inj h)
      exact ⟨hr, rfl, hn⟩
    · exact absurd h (by simp)
  | succ n ih =>
    intro s t hr h
    simp only [loop] at h
    split at h
    · rename_i hn
      split at h
      · exact absurd h (by simp)
      · rename_i s' hb
        obtain ⟨a, b, c⟩ := ih s' t (Reach.step hr hn hb) h
        obtain ⟨_, _, _, w, wl1, r1, _, _, hit, _⟩ := body_spec e o _ _ hb
        exact ⟨a, by omega, c⟩
    · exact absurd h (by simp)

/-- Limit on the number of iterations when all likelihoods lie between `lo` and `L`. -/
noncomputable def iterationBound (o : Opts) (lo L : ℝ) : ℕ :=
  max o.minimumIterations
    (⌊o.end * o.ensemble * (L - lo - Real.log (1 - Real.exp (-1 / (o.ensemble : ℝ)))) / o.discard⌋₊
      + 1)

/-- If the likelihood is bounded the while loop ends (or raises) within an explicit number of
iterations, without any iteration limit being set. -/
theorem C08_stops (e : Env α σ) (o : Opts) (hend : 0 ≤ o.end) (lo L : ℝ) (he : BoundedBy e L)
    (s0 : St α σ) (h0 : Fresh o s0) (hlo : ∀ w ∈ s0.walkers.items, lo ≤ w.logL)
    (hhi : ∀ w ∈ s0.walkers.items, w.logL ≤ L) (n : ℕ) (hn : iterationBound o lo L ≤ n)
    (t : St α σ) : loop e o n s0 ≠ .running t := by
  intro h
  obtain ⟨hr, hit, hnext⟩ := loop_running e o s0 n s0 t Reach.refl h
  have hit0 : s0.iteration = 0 := by obtain ⟨wl, low, r, hl, rfl⟩ := h0; rfl
  rw [hit0, zero_add] at hit
  obtain ⟨hinv, _, _, hpos⟩ := stop_reach e o lo L he s0 t h0 hlo hhi hr
  unfold iterationBound at hn
  rcases next_true o t hnext with h1 | ⟨_, _, h3⟩
  · omega
  · have hp : 0 < t.iteration := by omega
    obtain ⟨z, hz⟩ := Option.ne_none_iff_exists'.1 (hpos hp)
    obtain ⟨ha, hb⟩ := hinv.1 z hz
    set B := L - lo - Real.log (1 - Real.exp (-1 / (o.ensemble : ℝ))) with hB
    have hinfo : t.info ≤ B := by rw [hB]; linarith
    have hle : o.end * o.ensemble * t.info / o.discard ≤ o.end * o.ensemble * B / o.discard := by
      apply div_le_div_of_nonneg_right _ (by positivity)
      exact mul_le_mul_of_nonneg_left hinfo (by positivity)
    have hlt : o.end * o.ensemble * B / o.discard < t.iteration := by
      have h5 := Nat.lt_floor_add_one (o.end * o.ensemble * B / o.discard)
      have h6 : ((⌊o.end * o.ensemble * B / o.discard⌋₊ + 1 : ℕ) : ℝ) ≤ (t.iteration : ℝ) := by
        exact_mod_cast (by omega :
          ⌊o.end * o.ensemble * B / o.discard⌋₊ + 1 ≤ t.iteration)
      push_cast at h6
      linarith
    linarith

/-! ## C53: weeding -/

theorem weedLoop_spec (m : ℕ) : ∀ (n : ℕ) (l : List (Sample α)), l.length ≤ n →
    (weedLoop m n l).length = min m l.length ∧ (weedLoop m n l) <:+: l := by
  intro n
  induction n with
  | zero =>
    intro l h
    have : l = [] := by simpa using h
    subst this
    simp [weedLoop]
  | succ n ih =>
    intro l h
    simp only [weedLoop]
    split
    · rename_i hgt
      cases l with
      | nil => simp at hgt
      | cons a l =>
        have hl : (a :: l).getLast? = some ((a :: l).getLast (by simp)) := by
          exact List.getLast?_eq_some_getLast (by simp)
        simp only [List.head?_cons, hl]
        split
        · obtain ⟨x, y⟩ := ih l (by simpa using h)
          simp only [List.tail_cons]
          refine ⟨by simp at hgt ⊢; omega, y.trans ⟨[a], [], by simp⟩⟩
        · obtain ⟨x, y⟩ := ih (a :: l).dropLast (by simp at h ⊢; omega)
          refine ⟨by rw [x]; simp at hgt ⊢; omega, ?_⟩
          exact y.trans ⟨[], [(a :: l).getLast (by simp)], by
            rw [List.nil_append, List.dropLast_append_getLast]⟩
    · rename_i hgt
      exact ⟨by omega, List.infix_rfl⟩

/-- Weeding leaves exactly `maxsize` samples when there were more, and otherwise all of them; what
is left is a contiguous piece of the list, so its order is unchanged. -/
theorem C53_weed (sl : SampleList α) (m : ℕ) :
    (sl.weed (some m)).items.length = min m sl.items.length ∧
    (sl.weed (some m)).items <:+: sl.items ∧ sl.weed none = sl := by
  obtain ⟨a, b⟩ := weedLoop_spec m sl.items.length sl.items (le_refl _)
  exact ⟨a, b, rfl⟩

/-- Specification: the weights rise to a top and fall after it: no sample has a lower weight than both one
before and one after it. -/
def Unimodal (l : List (Sample α)) : Prop :=
  ∀ x y z, List.Sublist [x, y, z] l → min x.logW z.logW ≤ y.logW

theorem weedLoop_lowest (m : ℕ) : ∀ (n : ℕ) (l : List (Sample α)), Unimodal l →
    ∃ pre post, l = pre ++ weedLoop m n l ++ post ∧
      ∀ r ∈ pre ++ post, ∀ k ∈ weedLoop m n l, r.logW ≤ k.logW := by
  intro n
  induction n with
  | zero => intro l _; exact ⟨[], [], by simp [weedLoop], by simp⟩
  | succ n ih =>
    intro l hu
    by_cases hgt : l.length > m
    swap
    · exact ⟨[], [], by simp [weedLoop, hgt], by simp⟩
    rcases l with _ | ⟨a, l⟩
    · simp at hgt
    -- one sample only
    rcases List.eq_nil_or_concat l with rfl | ⟨mid, b, rfl⟩
    · have hw : weedLoop m (n + 1) [a] = weedLoop m n [] := by
        simp only [weedLoop, hgt, if_true, List.head?_cons, List.getLast?_singleton, lt_irrefl, if_false,
          List.dropLast_singleton]
      have h0 : weedLoop m n ([] : List (Sample α)) = [] := by cases n <;> simp [weedLoop]
      rw [hw, h0]
      exact ⟨[a], [], by simp, by simp⟩
    rw [List.concat_eq_append] at hu hgt ⊢
    have hmid : ∀ y ∈ mid, min a.logW b.logW ≤ y.logW := by
      intro y hy
      refine hu a y b ?_
      refine List.Sublist.cons_cons a ?_
      have : List.Sublist [y] mid := List.singleton_sublist.2 hy
      exact this.append (List.Sublist.refl [b])
    have hl : (a :: (mid ++ [b])).getLast? = some b := by
      rw [← List.cons_append]; exact List.getLast?_concat
    by_cases hab : a.logW < b.logW
    · have hw : weedLoop m (n + 1) (a :: (mid ++ [b])) = weedLoop m n (mid ++ [b]) := by
        simp only [weedLoop, hgt, if_true, List.head?_cons, hl, hab, List.tail_cons]
      obtain ⟨pre, post, h1, h2⟩ := ih (mid ++ [b]) fun x y z h => hu x y z (h.trans (List.sublist_cons_self _ _))
      rw [hw]
      refine ⟨a :: pre, post, by rw [List.cons_append, List.cons_append, ← h1], fun r hr k hk => ?_⟩
      rcases List.mem_cons.1 hr with rfl | hr
      · have : k ∈ mid ++ [b] := by rw [h1]; simp [hk]
        rcases List.mem_append.1 this with hk | hk
        · have := hmid k hk
          rwa [min_eq_left hab.le] at this
        · rw [List.mem_singleton.1 hk]; exact hab.le
      · exact h2 r hr k hk
    · have hdl : (a :: (mid ++ [b])).dropLast = a :: mid := by
        rw [← List.cons_append]; exact List.dropLast_concat
      have hw : weedLoop m (n + 1) (a :: (mid ++ [b])) = weedLoop m n (a :: mid) := by
        simp only [weedLoop, hgt, if_true, List.head?_cons, hl, hab, if_false, hdl]
      obtain ⟨pre, post, h1, h2⟩ := ih (a :: mid) fun x y z h =>
        hu x y z (h.trans (by rw [← List.cons_append]; exact List.sublist_append_left _ _))
      rw [hw]
      refine ⟨pre, post ++ [b], by rw [← List.append_assoc, ← h1]; simp, fun r hr k hk => ?_⟩
      rw [← List.append_assoc] at hr
      rcases List.mem_append.1 hr with hr | hr
      · exact h2 r hr k hk
      · rw [List.mem_singleton.1 hr]
        have hba := not_lt.1 hab
        have : k ∈ a :: mid := by rw [h1]; simp [hk]
        rcases List.mem_cons.1 this with rfl | hk
        · exact hba
        · have := hmid k hk
          rwa [min_eq_right hba] at this

/-- Weeding removes the samples with the lowest weights, when the weights rise and fall once. -/
theorem C53_lowest_partial (sl : SampleList α) (m : ℕ) (h : Unimodal sl.items) :
    ∃ pre post, sl.items = pre ++ (sl.weed (some m)).items ++ post ∧
      ∀ r ∈ pre ++ post, ∀ k ∈ (sl.weed (some m)).items, r.logW ≤ k.logW :=
  weedLoop_lowest m _ _ h

/-- A sample with the given log weight, for the examples. -/
def smp (w : ℝ) : Sample ℕ := ⟨0, 0, 0, [], 0, w⟩

/-- When the weights do not rise and fall once, a sample is removed that has more weight than one that is
kept. -/
theorem C53_counterexample : ((⟨[smp 3, smp 0, smp 5], 3⟩ : SampleList ℕ).weed (some 2)).items
    = [smp 0, smp 5] := by
  norm_num [SampleList.weed, weedLoop, smp]

example : Unimodal [smp 1, smp 4, smp 2] ∧
    ((⟨[smp 1, smp 4, smp 2], 3⟩ : SampleList ℕ).weed (some 2)).items = [smp 4, smp 2] := by
  refine ⟨fun x y z h => ?_, by norm_num [SampleList.weed, weedLoop, smp]⟩
  have := h.eq_of_length (by simp)
  simp only [List.cons.injEq, and_true] at this
  obtain ⟨rfl, rfl, rfl⟩ := this
  norm_num [smp]

end Nested
end BF
