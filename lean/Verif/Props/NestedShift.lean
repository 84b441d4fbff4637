import Verif.Props.NestedRuns

/-!
# C139: a constant factor in the likelihood only shifts the log evidence
-/

noncomputable section

namespace BF.Nested

open Classical

variable {α σ : Type*}

/-! ## Specification -/

/-- The same walker when all likelihoods are multiplied by `exp c`. -/
def Walker.up (c : ℝ) (w : Walker α ℝ) : Walker α ℝ := { w with logL := w.logL + c }

/-- The same ensemble when all likelihoods are multiplied by `exp c`. -/
def liftList (c : ℝ) (wl : WalkerList α ℝ) : WalkerList α ℝ := { wl with items := wl.items.map (Walker.up c) }

/-- `e'` is the same sampler as `e`, with the same random numbers, for a likelihood that is a factor `exp c` larger:
an engine that is given the ensemble and the level with the factor, makes the same moves. Engines that only compare
likelihoods, and take gradients of their logarithms, do so. -/
structure Scaled (c : ℝ) (e e' : Env α σ) : Prop where
  randint : e'.randint = e.randint
  permutation : e'.permutation = e.permutation
  execute : ∀ g r wl kw low, e'.execute g r (liftList c wl) kw (low + c)
    = (e.execute g r wl kw low).map fun q => (liftList c q.1, q.2)
  check : ∀ w, e'.logLcheck (Walker.up c w) = e.logLcheck w

/-- The same sample when all likelihoods are multiplied by `exp c`; the weight is not normalised yet. -/
def Sample.up (c : ℝ) (x : Sample α) : Sample α := { x with logL := x.logL + c, logW := x.logW + c }

/-- The state of the sampler when all likelihoods are multiplied by `exp c`. -/
def St.up (c : ℝ) (s : St α σ) : St α σ :=
  { s with
    walkers := liftList c s.walkers
    lowLhood := s.lowLhood + c
    logZ := s.logZ.map (· + c)
    samples := { s.samples with items := s.samples.items.map (Sample.up c) } }

/-! ## One iteration -/

theorem exp_logaddexp (z : Option ℝ) (w : ℝ) : Real.exp (logaddexp z w) = expRel z 0 + Real.exp w := by
  rcases z with _ | z
  · simp [logaddexp, expRel]
  · simp only [logaddexp, expRel, Option.elim_some, sub_zero]
    rw [Real.exp_log (by positivity)]

theorem logaddexp_up (c : ℝ) (z : Option ℝ) (w : ℝ) : logaddexp (z.map (· + c)) (w + c) = logaddexp z w + c := by
  rcases z with _ | z
  · simp [logaddexp]
  · simp only [logaddexp, Option.map_some, Option.elim_some]
    rw [Real.exp_add, Real.exp_add, ← add_mul, Real.log_mul (by positivity) (Real.exp_pos c).ne', Real.log_exp]

theorem expRel_up (c : ℝ) (z : Option ℝ) (x : ℝ) : expRel (z.map (· + c)) (x + c) = expRel z x := by
  rcases z with _ | z
  · rfl
  · simp [expRel]

/-- The two fractions of the evidence add up to 1. -/
theorem fractions (z : Option ℝ) (w : ℝ) :
    Real.exp (w - logaddexp z w) + expRel z (logaddexp z w) = 1 := by
  have h := exp_logaddexp z w
  have hp := Real.exp_pos (logaddexp z w)
  have e1 : expRel z (logaddexp z w) = expRel z 0 / Real.exp (logaddexp z w) := by
    rcases z with _ | z
    · simp [expRel]
    · simp [expRel, Real.exp_sub]
  rw [e1, Real.exp_sub, ← add_div, div_eq_one_iff_eq hp.ne', h]
  ring

theorem evStep_up (c : ℝ) (o : Opts) (kw : ℕ) (w : Walker α ℝ) (s : St α σ) :
    evStep o kw (Walker.up c w) (St.up c s) = St.up c (evStep o kw w s) := by
  have h1 : s.logWidth + (w.logL + c) = s.logWidth + w.logL + c := by ring
  have h2 : ∀ a b : ℝ, a + c - (b + c) = a - b := fun a b => by ring
  have hf := fractions s.logZ (s.logWidth + w.logL)
  have hg : expRel s.logZ (logaddexp s.logZ (s.logWidth + w.logL)) * ((s.logZ.map (· + c)).getD 0)
      = expRel s.logZ (logaddexp s.logZ (s.logWidth + w.logL)) * (s.logZ.getD 0 + c) := by
    rcases s.logZ with _ | z
    · simp [expRel]
    · simp
  simp only [evStep, St.up, Walker.up, h1, logaddexp_up, expRel_up, h2, SampleList.add, toSample, List.map_append,
    List.map_cons, List.map_nil, Sample.up, Option.map_some]
  congr 1
  set a := Real.exp (s.logWidth + w.logL - logaddexp s.logZ (s.logWidth + w.logL))
  set b := expRel s.logZ (logaddexp s.logZ (s.logWidth + w.logL))
  linear_combination c * hf + hg

theorem evLoop_up (c : ℝ) (o : Opts) (ws : List (Walker α ℝ)) : ∀ (kw : ℕ) (s : St α σ),
    evLoop o kw (ws.map (Walker.up c)) (St.up c s) = St.up c (evLoop o kw ws s) := by
  induction ws with
  | nil => intro kw s; rfl
  | cons w ws ih =>
    intro kw s
    simp only [List.map_cons, evLoop]
    rw [evStep_up, ih]

theorem updateEvidence_up (c : ℝ) (o : Opts) (worst : ℕ) (s : St α σ) :
    updateEvidence o worst (St.up c s) = (updateEvidence o worst s).map (St.up c) := by
  simp only [updateEvidence]
  have hl : (St.up c s).walkers.items.length = s.walkers.items.length := by simp [St.up, liftList]
  rw [hl]
  split
  · rfl
  · rw [Option.map_some, ← evLoop_up]
    congr 2
    simp [St.up, liftList, List.map_take]

theorem next_up (c : ℝ) (o : Opts) (s : St α σ) : nextIteration o (St.up c s) = nextIteration o s := rfl

theorem weed_up (c : ℝ) (m n : ℕ) : ∀ l : List (Sample α),
    weedLoop m n (l.map (Sample.up c)) = (weedLoop m n l).map (Sample.up c) := by
  induction n with
  | zero => intro l; rfl
  | succ n ih =>
    intro l
    simp only [weedLoop, List.length_map, List.head?_map, List.getLast?_map]
    split
    · rcases l.head? with _ | a
      · rfl
      · rcases l.getLast? with _ | b
        · rfl
        · simp only [Option.map_some]
          have : (Sample.up c a).logW < (Sample.up c b).logW ↔ a.logW < b.logW := by simp [Sample.up]
          rw [← List.map_tail, ← List.map_dropLast, ih, ih]
          simp only [this]
          split <;> rfl
    · rfl

theorem sort_up (c : ℝ) (wl : WalkerList α ℝ) : sortWalkers (liftList c wl) = liftList c (sortWalkers wl) := by
  simp only [sortWalkers, liftList]
  congr 1
  symm
  apply List.map_insertionSort
  intro a _ b _
  simp [Walker.up]

theorem copy_up (c : ℝ) (wl : WalkerList α ℝ) (src des start : ℕ) :
    (liftList c wl).copy src des (liftList c wl).items start = (wl.copy src des wl.items start).map (liftList c) := by
  simp only [WalkerList.copy, liftList, List.getElem?_map]
  rcases wl.items[des]? with _ | d
  · rfl
  · rcases wl.items[src]? with _ | s
    · rfl
    · simp [Walker.up, liftList, List.map_set]

theorem copyLoop_up (c : ℝ) (e e' : Env α σ) (h : Scaled c e e') (o : Opts) (it worst : ℕ) (ks : List ℕ) :
    ∀ (wl : WalkerList α ℝ) (r : σ), copyLoop e' o it worst ks (liftList c wl) r
      = (copyLoop e o it worst ks wl r).map fun q => (liftList c q.1, q.2) := by
  induction ks with
  | nil => intro wl r; rfl
  | cons k ks ih =>
    intro wl r
    simp only [copyLoop, h.randint]
    split
    · rw [copy_up]
      rcases wl.copy (worst + (e.randint r).1 % (o.ensemble - worst)) k wl.items it with _ | wl'
      · rfl
      · simp only [Option.map_some]
        exact ih wl' _
    · rfl

theorem round_up (c : ℝ) (e e' : Env α σ) (h : Scaled c e e') (kw : ℕ) (low : ℝ) (gs : List ℕ) :
    ∀ (wl : WalkerList α ℝ) (m : ℕ) (r : σ), engineRound e' kw (low + c) gs (liftList c wl) m r
      = (engineRound e kw low gs wl m r).map fun q => (liftList c q.1, q.2) := by
  induction gs with
  | nil => intro wl m r; rfl
  | cons g gs ih =>
    intro wl m r
    simp only [engineRound, h.execute]
    rcases e.execute g r wl kw low with _ | ⟨wl', mv, r'⟩
    · rfl
    · simp only [Option.map_some]
      exact ih wl' _ _

theorem trial_up (c : ℝ) (e e' : Env α σ) (h : Scaled c e e') (o : Opts) (kw : ℕ) (low : ℝ) (n : ℕ) :
    ∀ (wl : WalkerList α ℝ) (m : ℕ) (r : σ) (b : Bool), trialLoop e' o kw (low + c) n (liftList c wl) m r b
      = (trialLoop e o kw low n wl m r b).map fun q => (liftList c q.1, q.2) := by
  induction n with
  | zero => intro wl m r b; rfl
  | succ n ih =>
    intro wl m r b
    simp only [trialLoop, h.permutation]
    split
    · rw [round_up c e e' h]
      rcases engineRound e kw low (e.permutation r).1 wl m (e.permutation r).2 with _ | ⟨wl', m', r'⟩
      · rfl
      · simp only [Option.map_some]
        exact ih wl' _ _ _
    · rfl

theorem exploreWalker_up (c : ℝ) (e e' : Env α σ) (h : Scaled c e e') (o : Opts) (kw : ℕ) (low : ℝ)
    (wl : WalkerList α ℝ) (r : σ) : exploreWalker e' o kw (low + c) (liftList c wl) r
      = (exploreWalker e o kw low wl r).map fun q => (liftList c q.1, q.2) := by
  simp only [exploreWalker, trial_up c e e' h]
  rcases trialLoop e o kw low o.maxtrials wl 0 r false with _ | ⟨wl', m, r', b⟩
  · rfl
  · simp only [Option.map_some, liftList, List.getElem?_map]
    rcases wl'.items[kw]? with _ | w
    · rfl
    · have hlt : (Walker.up c w).logL < low + c ↔ w.logL < low := by simp [Walker.up]
      simp only [Option.map_some, h.check, hlt]
      split
      · rfl
      · split
        · rfl
        · split <;> rfl

theorem explore_up (c : ℝ) (e e' : Env α σ) (h : Scaled c e e') (o : Opts) (low : ℝ) (ks : List ℕ) :
    ∀ (wl : WalkerList α ℝ) (r : σ), explore e' o (low + c) ks (liftList c wl) r
      = (explore e o low ks wl r).map fun q => (liftList c q.1, q.2) := by
  induction ks with
  | nil => intro wl r; rfl
  | cons k ks ih =>
    intro wl r
    simp only [explore, exploreWalker_up c e e' h]
    rcases exploreWalker e o k low wl r with _ | ⟨wl', r'⟩
    · rfl
    · simp only [Option.map_some]
      exact ih wl' r'

theorem updateWalkers_up (c : ℝ) (e e' : Env α σ) (h : Scaled c e e') (o : Opts) (worst : ℕ) (s : St α σ) :
    updateWalkers e' o worst (St.up c s) = (updateWalkers e o worst s).map (St.up c) := by
  simp only [updateWalkers, copyWalker, St.up]
  rw [copyLoop_up c e e' h]
  rcases copyLoop e o s.iteration worst (List.range worst) s.walkers s.rng with _ | ⟨wl, r⟩
  · rfl
  · simp only [Option.map_some]
    rw [explore_up c e e' h]
    rcases explore e o s.lowLhood (List.range worst) wl r with _ | ⟨wl', r'⟩
    · rfl
    · rfl

theorem body_up (c : ℝ) (e e' : Env α σ) (h : Scaled c e e') (o : Opts) (s : St α σ) :
    body e' o (St.up c s) = (body e o s).map (St.up c) := by
  simp only [body]
  have hs : sortWalkers (St.up c s).walkers = liftList c (sortWalkers s.walkers) := sort_up c s.walkers
  rw [hs]
  have hi : (if o.discard = 0 then none else (liftList c (sortWalkers s.walkers)).items[o.discard - 1]?)
      = (if o.discard = 0 then none else (sortWalkers s.walkers).items[o.discard - 1]?).map (Walker.up c) := by
    split
    · rfl
    · simp [liftList]
  rw [hi]
  rcases (if o.discard = 0 then none else (sortWalkers s.walkers).items[o.discard - 1]?) with _ | w
  · rfl
  · simp only [Option.map_some]
    have h1 : ({ St.up c s with
          walkers := liftList c (sortWalkers s.walkers)
          lowLhood := (Walker.up c w).logL } : St α σ)
        = St.up c { s with
          walkers := sortWalkers s.walkers
          lowLhood := w.logL } := rfl
    rw [h1, updateEvidence_up]
    rcases updateEvidence o o.discard { s with
          walkers := sortWalkers s.walkers
          lowLhood := w.logL } with _ | s1
    · rfl
    · simp only [Option.map_some]
      rw [← updateWalkers_up c e e' h]
      congr 1
      simp only [St.up]
      congr 1
      rcases o.maxsize with _ | m
      · rfl
      · simp only [SampleList.weed, List.length_map, weed_up]

/-! ## C139 -/

/-- How the pieces of a run correspond. -/
def LoopEnd.up (c : ℝ) : LoopEnd α σ → LoopEnd α σ
  | .done s => .done (St.up c s)
  | .raised => .raised
  | .running s => .running (St.up c s)

theorem loop_up (c : ℝ) (e e' : Env α σ) (h : Scaled c e e') (o : Opts) (n : ℕ) : ∀ s : St α σ,
    loop e' o n (St.up c s) = (loop e o n s).up c := by
  induction n with
  | zero =>
    intro s
    simp only [loop]
    have hu := next_up c o s
    by_cases hn : nextIteration o s = true
    · rw [if_pos (hu.trans hn), if_pos hn]; rfl
    · rw [if_neg (fun q => hn (hu.symm.trans q)), if_neg hn]; rfl
  | succ n ih =>
    intro s
    simp only [loop]
    have hu := next_up c o s
    by_cases hn : nextIteration o s = true
    · rw [if_pos (hu.trans hn), if_pos hn, body_up c e e' h]
      rcases body e o s with _ | s'
      · rfl
      · simp only [Option.map_some]
        exact ih s'
    · rw [if_neg (fun q => hn (hu.symm.trans q)), if_neg hn]; rfl

theorem foldl_max_up (c : ℝ) (ws : List ℝ) : ∀ w : ℝ, (ws.map (· + c)).foldl max (w + c) = ws.foldl max w + c := by
  induction ws with
  | nil => intro w; rfl
  | cons v ws ih =>
    intro w
    simp only [List.map_cons, List.foldl_cons]
    rw [max_add_add_right, ih]

theorem normalize_up (c : ℝ) (sl : SampleList α) :
    SampleList.normalize { sl with items := sl.items.map (Sample.up c) }
      = sl.normalize.map fun q => { q with items := q.items.map fun x => { x with logL := x.logL + c } } := by
  obtain ⟨items, count⟩ := sl
  rcases items with _ | ⟨x, l⟩
  · rfl
  · simp only [SampleList.normalize, List.map_cons, Option.map_some]
    have hl : (l.map (Sample.up c)).map Sample.logW = (l.map Sample.logW).map (· + c) := by
      rw [List.map_map, List.map_map]; rfl
    have hx : (Sample.up c x).logW = x.logW + c := rfl
    rw [hl, hx, foldl_max_up]
    have hs : (((x.logW + c) :: (l.map Sample.logW).map (· + c)).map
          fun y => Real.exp (y - ((l.map Sample.logW).foldl max x.logW + c)))
        = (x.logW :: l.map Sample.logW).map fun y => Real.exp (y - (l.map Sample.logW).foldl max x.logW) := by
      rw [← List.map_cons (f := (· + c)), List.map_map]
      apply List.map_congr_left
      intro y _
      simp
    simp only [List.map_cons] at hs
    rw [hs]
    have h2 : ∀ a b d : ℝ, a + c - (b + c + d) = a - (b + d) := fun a b d => by ring
    simp only [Sample.up, h2, List.map_map, Function.comp_def]

/-- C139: a run with all likelihoods multiplied by a constant factor `exp c`. With the same random numbers it takes the
same number of iterations and gives the same samples, with the same weights. The information is the same. The log
likelihoods and the log evidence are `c` higher. When the one raises, so does the other. -/
theorem C139_run (c : ℝ) (e e' : Env α σ) (h : Scaled c e e') (o : Opts) (wl : WalkerList α ℝ) (low : ℝ) (r : σ)
    (n : ℕ) :
    (∀ s s', loop e o n (initState o wl low ⟨[], 0⟩ 0 r) = .done s → finish o s = some s' →
      ∃ t t', loop e' o n (initState o (liftList c wl) (low + c) ⟨[], 0⟩ 0 r) = .done t ∧ finish o t = some t' ∧
        t'.iteration = s'.iteration ∧ t'.info = s'.info ∧ t'.logZ = s'.logZ.map (· + c) ∧ t'.rng = s'.rng ∧
        t'.samples.items = s'.samples.items.map fun x => { x with logL := x.logL + c }) ∧
    (loop e o n (initState o wl low ⟨[], 0⟩ 0 r) = .raised →
      loop e' o n (initState o (liftList c wl) (low + c) ⟨[], 0⟩ 0 r) = .raised) := by
  have hi : initState o (liftList c wl) (low + c) ⟨[], 0⟩ 0 r = St.up c (initState o wl low ⟨[], 0⟩ 0 r) := rfl
  rw [hi, loop_up c e e' h]
  constructor
  · intro s s' hs hf
    rw [hs]
    simp only [finish] at hf
    split at hf
    · cases hf
    rename_i s1 h1
    split at hf
    · cases hf
    rename_i sl hn
    cases hf
    refine ⟨St.up c s, { St.up c s1 with
      samples := { sl with items := sl.items.map fun x => { x with logL := x.logL + c } } }, rfl, ?_, rfl, rfl, rfl, rfl,
      rfl⟩
    simp only [finish]
    rw [updateEvidence_up, h1]
    simp only [Option.map_some]
    rw [show (St.up c s1).samples = { s1.samples with items := s1.samples.items.map (Sample.up c) } from rfl,
      normalize_up, hn]
    rfl
  · intro hr
    rw [hr]
    rfl

/-! Any sampler has its counterpart. -/

/-- The sampler that takes out the factor, does as the first sampler does, and puts the factor back. -/
def scaledEnv (c : ℝ) (e : Env α σ) : Env α σ where
  randint := e.randint
  permutation := e.permutation
  execute g r wl kw low := (e.execute g r (liftList (-c) wl) kw (low - c)).map fun q => (liftList c q.1, q.2)
  logLcheck w := e.logLcheck (Walker.up (-c) w)

theorem scaled_scaledEnv (c : ℝ) (e : Env α σ) : Scaled c e (scaledEnv c e) where
  randint := rfl
  permutation := rfl
  execute g r wl kw low := by
    have h : liftList (-c) (liftList c wl) = wl := by
      obtain ⟨items, count⟩ := wl
      simp [liftList, Function.comp_def, Walker.up]
    simp [scaledEnv, h]
  check w := by simp [scaledEnv, Walker.up]

/-- The options of the demonstration run, ended after one iteration. -/
def demoOnce : Opts := { demoOpts 3 1 with maxIterations := some 0 }

theorem demo_once : ∃ s s', loop demoEnv demoOnce 2 demoStart = .done s ∧ finish demoOnce s = some s' := by
  have h7 : ¬ (7 : ℝ) < 1 := by norm_num
  have hb : ∃ s, body demoEnv demoOnce demoStart = some s ∧ s.walkers.items.map Walker.logL = [7, 2, 3] ∧
      s.iteration = 1 := by
    refine ⟨_, by
      simp only [body, demo_sorted]
      simp [demoOnce, demoOpts, updateEvidence, demo_sorted, updateWalkers, copyWalker, copyLoop, evLoop, evStep,
        demoEnv, WalkerList.copy, explore, exploreWalker, trialLoop, engineRound, SampleList.weed, h7]
      rfl, ?_⟩
    simp [demoStart, initState]
  obtain ⟨s, hb, hw, hi⟩ := hb
  have hlen : s.walkers.items.length = 3 := by
    have := congrArg List.length hw
    simpa using this
  have hu : updateEvidence demoOnce 3 s = some (evLoop demoOnce 0 s.walkers.items s) := by
    simp only [updateEvidence, hlen]
    simp [List.take_of_length_le, hlen]
  have hL := evLoop_logL demoOnce s.walkers.items 0 s
  have hne : (evLoop demoOnce 0 s.walkers.items s).samples.items ≠ [] := by
    intro h; rw [h, hw] at hL; exact absurd hL (by simp)
  obtain ⟨sl, hsl⟩ := Option.ne_none_iff_exists'.1
    (fun h => hne ((C06_normalize_defined _).1 h) : (evLoop demoOnce 0 s.walkers.items s).samples.normalize ≠ none)
  have hstop : nextIteration demoOnce s = false := by simp [nextIteration, demoOnce, demoOpts, hi]
  refine ⟨s, { (evLoop demoOnce 0 s.walkers.items s) with samples := sl }, ?_, ?_⟩
  · rw [loop, if_pos (show nextIteration demoOnce demoStart = true by
      simp [nextIteration, demoOnce, demoOpts, demoStart, initState]), hb]
    simp [loop, hstop]
  · have : demoOnce.ensemble = 3 := rfl
    simp only [finish, this, hu, hsl]

/-- The demonstration run with all likelihoods a thousand times as large. -/
example : ∃ s s' t t', loop demoEnv demoOnce 2 demoStart = .done s ∧ finish demoOnce s = some s' ∧
    loop (scaledEnv (Real.log 1000) demoEnv) demoOnce 2
      (initState demoOnce (liftList (Real.log 1000) demoStart.walkers) (0 + Real.log 1000) ⟨[], 0⟩ 0 ()) = .done t ∧
    finish demoOnce t = some t' ∧ t'.info = s'.info := by
  obtain ⟨s, s', hl, hf⟩ := demo_once
  obtain ⟨t, t', h1, h2, _, h4, _⟩ := (C139_run (Real.log 1000) demoEnv _ (scaled_scaledEnv _ _)
    demoOnce demoStart.walkers 0 () 2).1 s s' hl hf
  exact ⟨s, s', t, t', hl, hf, h1, h2, h4⟩

end BF.Nested
