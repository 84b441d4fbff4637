import Verif.Engines

/-!
# C139: the engines only compare likelihoods
-/

noncomputable section

namespace BF.Engines

variable {π β : Type*}

/-! ## Specification -/

/-- The same walker, with another measure of likelihood. -/
def Wk.via (f : β → β) (w : Wk π β) : Wk π β := { w with logL := f w.logL }

/-- The same walkers and phantoms, with another measure of likelihood. -/
def St.via (f : β → β) (st : St π β) : St π β :=
  { st with
    walkers := st.walkers.map (Wk.via f)
    phantoms := st.phantoms.map (Wk.via f) }

/-- `e'` has the same problems, priors and random numbers as `e` but it measures likelihoods with `f`. -/
structure SameBut (f : β → β) (e e' : Env π β) : Prop where
  L : ∀ p a, e'.L p a = f (e.L p a)
  u2d : e'.u2d = e.u2d
  d2u : e'.d2u = e.d2u
  rand : e'.rand = e.rand
  maxtrials : e'.maxtrials = e.maxtrials
  nstep : e'.nstep = e.nstep
  box : ∀ ph p low, e'.box (ph.map (Wk.via f)) p (f low) = e.box ph p low

/-! ## What does not look at likelihoods -/

theorem target_via (f : β → β) (st : St π β) (append : Bool) (kw : ℕ) :
    (St.via f st).target append kw = st.target append kw := by
  simp [St.target, St.via]

theorem setWalker_via (f : β → β) (st : St π β) (kw : ℕ) (p : π) (a : List ℝ) (l : β) (w : Option (Wk π β))
    (fi : List ℤ) : (St.via f st).setWalker kw p a (f l) (w.map (Wk.via f)) fi
      = St.via f (st.setWalker kw p a l w fi) := by
  simp only [St.setWalker, St.via, List.length_map, List.getElem?_map]
  rcases w with _ | w
  · rcases st.walkers[kw]? with _ | o
    · by_cases hk : kw < st.walkers.length
      · simp [Wk.via, List.map_set, hk]
      · simp [Wk.via, hk]
    · by_cases hk : kw < st.walkers.length
      · simp [Wk.via, List.map_set, hk]
      · simp [Wk.via, hk]
  · by_cases hk : kw < st.walkers.length
    · simp [Wk.via, List.map_set, hk]
    · simp [Wk.via, hk]

theorem set_via (f : β → β) (st : St π β) (append : Bool) (kw : ℕ) (p : π) (a : List ℝ) (l : β) (fi : List ℤ) :
    (St.via f st).setWalker ((St.via f st).target append kw) p a (f l) none fi
      = St.via f (st.setWalker (st.target append kw) p a l none fi) := by
  rw [target_via]
  exact setWalker_via f st _ p a l none fi

theorem draw_via {f : β → β} {e e' : Env π β} (h : SameBut f e e') (usav scale : ℝ) (n : ℕ) :
    ∀ k, drawInside e' usav scale n k = drawInside e usav scale n k := by
  induction n with
  | zero => intro k; rfl
  | succ n ih => intro k; simp only [drawInside, h.rand, ih]

theorem stepInside_via {f : β → β} {e e' : Env π β} (h : SameBut f e e') (usav ur : List ℝ) (n : ℕ) :
    ∀ k s, stepInside e' usav ur n k s = stepInside e usav ur n k s := by
  induction n with
  | zero => intro k s; rfl
  | succ n ih => intro k s; simp only [stepInside, h.rand, ih]

theorem newStep_via {f : β → β} {e e' : Env π β} (h : SameBut f e e') (ur : List ℝ) (k : ℕ) :
    newStep e' ur k = newStep e ur k := by simp only [newStep, h.rand]

theorem u2d_via {f : β → β} {e e' : Env π β} (h : SameBut f e e') (p : π) (u : List ℝ) (k : List ℤ) :
    e'.unit2Domain p u k = e.unit2Domain p u k := by simp only [Env.unit2Domain, h.u2d]

theorem d2u_via {f : β → β} {e e' : Env π β} (h : SameBut f e e') (p : π) (u : List ℝ) (k : List ℤ) :
    e'.domain2Unit p u k = e.domain2Unit p u k := by simp only [Env.domain2Unit, h.d2u]

theorem range_via {f : β → β} {e e' : Env π β} (h : SameBut f e e') (st : St π β) (p : π) (low : β) :
    e'.getUnitRange (St.via f st) p (f low) = e.getUnitRange st p low := by
  simp only [Env.getUnitRange, St.via, h.box]

variable [LinearOrder β]

/-- A result with the other measure. -/
abbrev Res.via (f : β → β) (r : Option (St π β × ℕ)) : Option (St π β × ℕ) :=
  r.map fun q => (St.via f q.1, q.2)

/-! ## The engines -/

theorem randomLoop_via {f : β → β} (hf : StrictMono f) {e e' : Env π β} (h : SameBut f e e') (w : Wk π β) (low : β)
    (kw : ℕ) (append : Bool) (um ux : List ℝ) (n : ℕ) : ∀ st : St π β,
    randomLoop e' (Wk.via f w) (f low) kw append um ux n (St.via f st)
      = Res.via f (randomLoop e w low kw append um ux n st) := by
  induction n with
  | zero => intro st; rfl
  | succ n ih =>
    intro st
    simp only [randomLoop, h.rand, u2d_via h, Wk.via, h.L, hf.le_iff_le]
    rw [show (St.via f st).k = st.k from rfl]
    rcases puts w.allpars w.fitIndex _ with _ | ptry
    · rfl
    · simp only
      by_cases hl : low ≤ e.L w.problem ptry
      · rw [if_pos hl, if_pos hl]
        exact congrArg (fun s => some (s, w.fitIndex.length))
          (set_via f { st with k := st.k + w.allpars.length } append kw w.problem ptry _ w.fitIndex)
      · rw [if_neg hl, if_neg hl]
        exact ih { st with k := st.k + w.allpars.length }

/-- C139: the random engine makes the same moves. -/
theorem C139_random {f : β → β} (hf : StrictMono f) {e e' : Env π β} (h : SameBut f e e') (st : St π β) (kw : ℕ)
    (low : β) (append : Bool) :
    randomExecute e' (St.via f st) kw (f low) append = Res.via f (randomExecute e st kw low append) := by
  simp only [randomExecute]
  have hg : (St.via f st).walkers[kw]? = (st.walkers[kw]?).map (Wk.via f) := by simp [St.via]
  rw [hg]
  rcases st.walkers[kw]? with _ | w
  · rfl
  · simp only [Option.map_some]
    have hb : e'.box (St.via f st).phantoms (Wk.via f w).problem (f low) = e.box st.phantoms w.problem low := h.box _ _ _
    have hl : (St.via f st).walkers.length = st.walkers.length := by simp [St.via]
    rw [hb, hl, h.nstep]
    exact randomLoop_via hf h w low kw append _ _ _ st

theorem gibbsTry_via {f : β → β} (hf : StrictMono f) {e e' : Env π β} (h : SameBut f e e') (p : π) (fi : List ℤ)
    (low : β) (kw : ℕ) (append : Bool) (param : List ℝ) (c : ℤ) (save usav step : ℝ) (n : ℕ) :
    ∀ (kk : ℕ) (utry : ℝ) (st : St π β),
    gibbsTry e' p fi (f low) kw append param c save usav step n kk utry (St.via f st)
      = (gibbsTry e p fi low kw append param c save usav step n kk utry st).map fun q => (St.via f q.1, q.2) := by
  induction n with
  | zero => intro kk utry st; rfl
  | succ n ih =>
    intro kk utry st
    simp only [gibbsTry, h.u2d, h.L, hf.le_iff_le, h.maxtrials, draw_via h]
    rw [show (St.via f st).k = st.k from rfl]
    rcases put param c (e.u2d p c utry) with _ | ptry
    · rfl
    · simp only
      by_cases hl : low ≤ e.L p ptry
      · rw [if_pos hl, if_pos hl]
        exact congrArg (fun s => some (s, ptry, 1)) (set_via f st append kw p ptry _ fi)
      · rw [if_neg hl, if_neg hl]
        by_cases hk : kk + 1 < e.maxtrials
        · rw [if_pos hk, if_pos hk]
          rcases drawInside e usav step n st.k with _ | ⟨a, u, k⟩
          · rfl
          · exact ih (kk + 1) u { st with k := k }
        · rw [if_neg hk, if_neg hk]
          rcases put param c save with _ | q <;> rfl

theorem gibbsLoop_via {f : β → β} (hf : StrictMono f) {e e' : Env π β} (h : SameBut f e e') (p : π) (fi : List ℤ)
    (low : β) (kw : ℕ) (append : Bool) (ur : List ℝ) (fuel : ℕ) (cs : List ℤ) :
    ∀ (param : List ℝ) (st : St π β) (steps : ℕ),
    gibbsLoop e' p fi (f low) kw append ur fuel cs param (St.via f st) steps
      = Res.via f (gibbsLoop e p fi low kw append ur fuel cs param st steps) := by
  induction cs with
  | nil => intro param st steps; rfl
  | cons c cs ih =>
    intro param st steps
    simp only [gibbsLoop, h.d2u, draw_via h]
    rw [show (St.via f st).k = st.k from rfl]
    rcases get param c with _ | save
    · rfl
    · rcases (if c < (ur.length : ℤ) then get ur c else some 1) with _ | scale
      · rfl
      · simp only
        rcases drawInside e (e.d2u p c save) scale fuel st.k with _ | ⟨step, utry, k⟩
        · rfl
        · simp only
          have hk : ({ St.via f st with k := k } : St π β) = St.via f { st with k := k } := rfl
          rw [hk, gibbsTry_via hf h]
          rcases gibbsTry e p fi low kw append param c save (e.d2u p c save) step fuel 0 utry { st with k := k } with
            _ | ⟨st', q, n⟩
          · rfl
          · exact ih _ _ _

/-- C139: the Gibbs engine makes the same moves. -/
theorem C139_gibbs {f : β → β} (hf : StrictMono f) {e e' : Env π β} (h : SameBut f e e') (fuel : ℕ) (perm : List ℤ)
    (st : St π β) (kw : ℕ) (low : β) (append : Bool) :
    gibbsExecute e' fuel perm (St.via f st) kw (f low) append
      = Res.via f (gibbsExecute e fuel perm st kw low append) := by
  simp only [gibbsExecute]
  have hg : (St.via f st).walkers[kw]? = (st.walkers[kw]?).map (Wk.via f) := by simp [St.via]
  rw [hg]
  rcases st.walkers[kw]? with _ | w
  · rfl
  · simp only [Option.map_some]
    rw [show (Wk.via f w).problem = w.problem from rfl, range_via h, h.nstep]
    exact gibbsLoop_via hf h _ _ _ _ _ _ _ _ _ _ _

theorem stepLoop_via {f : β → β} (hf : StrictMono f) {e e' : Env π β} (h : SameBut f e e') (p : π) (fi : List ℤ)
    (low : β) (kw : ℕ) (append : Bool) (ur : List ℝ) (n : ℕ) :
    ∀ (st : St π β) (ks kt : ℕ) (sz : ℝ) (step usav param : List ℝ),
    stepLoop e' p fi (f low) kw append ur n (St.via f st) ks kt sz step usav param
      = Res.via f (stepLoop e p fi low kw append ur n st ks kt sz step usav param) := by
  induction n with
  | zero => intros; rfl
  | succ n ih =>
    intro st ks kt sz step usav param
    simp only [stepLoop, h.nstep, stepInside_via h, u2d_via h, h.L, hf.le_iff_le, h.maxtrials, h.rand, newStep_via h]
    rw [show (St.via f st).k = st.k from rfl]
    by_cases hs : ks < e.nstep
    · rw [if_pos hs, if_pos hs]
      rcases stepInside e usav ur n st.k step with _ | ⟨s1, u1, k⟩
      · rfl
      · simp only
        rcases puts param fi (e.unit2Domain p u1 fi) with _ | ptry
        · rfl
        · simp only
          by_cases hl : low ≤ e.L p ptry
          · rw [if_pos hl, if_pos hl, ← ih]
            have := set_via f { st with k := k } append kw p ptry (e.L p ptry) fi
            have h2 := congrArg (fun s : St π β => ({ s with k := k + ur.length } : St π β)) this
            exact congrArg (fun s => stepLoop e' p fi (f low) kw append ur n s (ks + 1) 0 1 (newStep e ur k) u1 ptry) h2
          · rw [if_neg hl, if_neg hl]
            by_cases ht : kt ≤ e.maxtrials
            · rw [if_pos ht, if_pos ht]
              exact ih { st with k := k + 1 } _ _ _ _ _ _
            · rw [if_neg ht, if_neg ht]
              rfl
    · rw [if_neg hs, if_neg hs]
      rfl

/-- C139: the step engine makes the same moves. -/
theorem C139_step {f : β → β} (hf : StrictMono f) {e e' : Env π β} (h : SameBut f e e') (fuel : ℕ)
    (st : St π β) (kw : ℕ) (low : β) (append : Bool) :
    stepExecute e' fuel (St.via f st) kw (f low) append = Res.via f (stepExecute e fuel st kw low append) := by
  simp only [stepExecute]
  have hg : (St.via f st).walkers[kw]? = (st.walkers[kw]?).map (Wk.via f) := by simp [St.via]
  have hl : (St.via f st).walkers.length = st.walkers.length := by simp [St.via]
  rw [hg, hl]
  rcases st.walkers[kw]? with _ | w
  · rfl
  · simp only [Option.map_some]
    rw [show (Wk.via f w).problem = w.problem from rfl, show (Wk.via f w).fitIndex = w.fitIndex from rfl,
      show (Wk.via f w).allpars = w.allpars from rfl, range_via h]
    rcases gets (e.getUnitRange st w.problem low).1 w.fitIndex with _ | ur
    · rfl
    · rcases gets w.allpars w.fitIndex with _ | pf
      · rfl
      · simp only [newStep_via h, d2u_via h]
        exact stepLoop_via hf h w.problem w.fitIndex low kw append _ fuel { st with k := st.k + _ } _ _ _ _ _ _

/-! ## Chord engine -/

/-- How the trials of one chord end, with the other measure. -/
def ChordEnd.via (f : β → β) : ChordEnd β → ChordEnd β
  | .accept u p l => .accept u p (f l)
  | .fail => .fail
  | .stop => .stop

theorem chordTry_via {f : β → β} (hf : StrictMono f) {e e' : Env π β} (h : SameBut f e e') (p : π) (fi : List ℤ)
    (low : β) (usav vel : List ℝ) (n : ℕ) : ∀ (kk k : ℕ) (t0 t1 : ℝ) (ptry : List ℝ),
    chordTry e' p fi (f low) usav vel n kk k t0 t1 ptry
      = (chordTry e p fi low usav vel n kk k t0 t1 ptry).map fun q => (q.1.via f, q.2) := by
  induction n with
  | zero => intros; rfl
  | succ n ih =>
    intro kk k t0 t1 ptry
    simp only [chordTry, h.rand, u2d_via h, h.L, hf.le_iff_le, h.maxtrials]
    by_cases ht : t0 < 0 ∧ 0 < t1
    · rw [if_pos ht, if_pos ht]
      rcases puts ptry fi _ with _ | q
      · rfl
      · simp only
        by_cases hl : low ≤ e.L p q
        · rw [if_pos hl, if_pos hl]; rfl
        · rw [if_neg hl, if_neg hl]
          by_cases hk : e.maxtrials < kk + 1
          · rw [if_pos hk, if_pos hk]; rfl
          · rw [if_neg hk, if_neg hk]
            by_cases hd : t0 + e.rand k * (t1 - t0) < 0
            · rw [if_pos hd, if_pos hd, ih]
              rcases chordTry e p fi low usav vel n (kk + 1) (k + 1) (t0 + e.rand k * (t1 - t0)) t1 q with
                _ | ⟨r, k', tr⟩ <;> rfl
            · rw [if_neg hd, if_neg hd, ih]
              rcases chordTry e p fi low usav vel n (kk + 1) (k + 1) t0 (t0 + e.rand k * (t1 - t0)) q with
                _ | ⟨r, k', tr⟩ <;> rfl
    · rw [if_neg ht, if_neg ht]; rfl

theorem chordLoop_via {f : β → β} (hf : StrictMono f) {e e' : Env π β} (h : SameBut f e e') (fuel : ℕ) (p : π)
    (fi : List ℤ) (low : β) (kw : ℕ) (append : Bool) (n : ℕ) :
    ∀ (st : St π β) (onb : Basis) (reset : Bool) (vel usav umin umax ptry : List ℝ) (step : ℕ),
    chordLoop e' fuel p fi (f low) kw append n (St.via f st) onb reset vel usav umin umax ptry step
      = (chordLoop e fuel p fi low kw append n st onb reset vel usav umin umax ptry step).map
          fun q => (St.via f q.1, q.2) := by
  have hv : ∀ m k, newVel e' m k = newVel e m k := fun m k => by simp only [newVel, h.rand]
  induction n with
  | zero => intros; rfl
  | succ n ih =>
    intro st onb reset vel usav umin umax ptry step
    simp only [chordLoop, chordTry_via hf h, hv]
    rw [show (St.via f st).k = st.k from rfl]
    rcases minPos (edgeTimes umin umax usav (onb.normalise vel reset).1) with _ | t1
    · exact ih _ _ _ _ _ _ _ _ _
    · rcases maxNeg (edgeTimes umin umax usav (onb.normalise vel reset).1) with _ | t0
      · exact ih _ _ _ _ _ _ _ _ _
      · simp only
        rcases chordTry e p fi low usav (onb.normalise vel reset).1 fuel 0 st.k t0 t1 ptry with _ | ⟨r, k, tr⟩
        · rfl
        · rcases r with ⟨u, q, l⟩ | _ | _
          · simp only [Option.map_some, ChordEnd.via]
            have hs := set_via f { st with k := k + fi.length } append kw p q l fi
            have ht : (St.via f st).target append kw = (St.via f { st with k := k + fi.length }).target append kw := rfl
            rw [ht]
            erw [hs, ih]
            rw [Option.map_map, Option.map_map]
            rfl
          · simp only [Option.map_some, ChordEnd.via]
            erw [ih { st with k := k + fi.length }]
            rw [Option.map_map, Option.map_map]
            rfl
          · simp only [Option.map_some, ChordEnd.via]
            erw [ih { st with k := k }]
            rw [Option.map_map, Option.map_map]
            rfl

/-- C139: the chord engine makes the same moves. -/
theorem C139_chord {f : β → β} (hf : StrictMono f) {e e' : Env π β} (h : SameBut f e e') (fuel nstep : ℕ)
    (st : St π β) (kw : ℕ) (low : β) (append : Bool) :
    chordExecute e' fuel nstep (St.via f st) kw (f low) append
      = (chordExecute e fuel nstep st kw low append).map fun q => (St.via f q.1, q.2) := by
  have hv : ∀ m k, newVel e' m k = newVel e m k := fun m k => by simp only [newVel, h.rand]
  simp only [chordExecute]
  have hg : (St.via f st).walkers[kw]? = (st.walkers[kw]?).map (Wk.via f) := by simp [St.via]
  have hl : (St.via f st).walkers.length = st.walkers.length := by simp [St.via]
  rw [hg, hl]
  rcases st.walkers[kw]? with _ | w
  · rfl
  · simp only [Option.map_some]
    rw [show (Wk.via f w).problem = w.problem from rfl, show (Wk.via f w).fitIndex = w.fitIndex from rfl,
      show (Wk.via f w).allpars = w.allpars from rfl, range_via h]
    rcases gets (e.getUnitRange st w.problem low).1 w.fitIndex with _ | ur
    · rfl
    · rcases gets (e.getUnitRange st w.problem low).2 w.fitIndex with _ | um
      · rfl
      · rcases gets w.allpars w.fitIndex with _ | pf
        · rfl
        · simp only [hv, d2u_via h]
          exact chordLoop_via hf h fuel w.problem w.fitIndex low kw append nstep { st with k := st.k + w.fitIndex.length }
            _ _ _ _ _ _ _ _

/-! ## Birth, death and structure -/

theorem birthLoop_via {f : β → β} (hf : StrictMono f) {e e' : Env π β} (h : SameBut f e e') (p : π) (fi : List ℤ)
    (low : β) (kw : ℕ) (append : Bool) (kl : List ℤ) (n : ℕ) : ∀ (ptry : List ℝ) (st : St π β),
    birthLoop e' p fi (f low) kw append kl n ptry (St.via f st)
      = Res.via f (birthLoop e p fi low kw append kl n ptry st) := by
  induction n with
  | zero => intros; rfl
  | succ n ih =>
    intro ptry st
    simp only [birthLoop, h.rand, u2d_via h, h.L, hf.le_iff_le]
    rw [show (St.via f st).k = st.k from rfl]
    by_cases hl : low ≤ e.L p ptry
    · rw [if_pos hl, if_pos hl]
      exact congrArg (fun s => some (s, kl.length)) (set_via f st append kw p ptry _ fi)
    · rw [if_neg hl, if_neg hl]
      rcases puts ptry kl _ with _ | q
      · rfl
      · exact ih q { st with k := st.k + kl.length }

/-- C139: the birth engine makes the same moves, when the growth of a model does not look at the likelihood. -/
theorem C139_birth {f : β → β} (hf : StrictMono f) {e e' : Env π β} (h : SameBut f e e')
    (grow : Wk π β → ℕ → Option (π × List ℝ × List ℤ × ℕ × ℕ) × ℕ) (hgrow : ∀ w k, grow (Wk.via f w) k = grow w k)
    (st : St π β) (kw : ℕ) (low : β) (append : Bool) :
    birthExecute e' grow (St.via f st) kw (f low) append = Res.via f (birthExecute e grow st kw low append) := by
  simp only [birthExecute]
  have hg : (St.via f st).walkers[kw]? = (st.walkers[kw]?).map (Wk.via f) := by simp [St.via]
  rw [hg]
  rcases st.walkers[kw]? with _ | w
  · rfl
  · simp only [Option.map_some, hgrow, h.maxtrials]
    rw [show (St.via f st).k = st.k from rfl]
    rcases grow w st.k with ⟨_ | ⟨p, q, fi, loc, dnp⟩, k⟩
    · rfl
    · exact birthLoop_via hf h p fi low kw append _ _ q { st with k := k }

/-- C139: the death engine makes the same moves, when the choice what to remove does not look at the likelihood. -/
theorem C139_death {f : β → β} (hf : StrictMono f) {e e' : Env π β} (h : SameBut f e e')
    (shrink : Wk π β → ℕ → Option (π × List ℝ × List ℤ × ℕ) × ℕ) (hsh : ∀ w k, shrink (Wk.via f w) k = shrink w k)
    (st : St π β) (kw : ℕ) (low : β) (append : Bool) :
    deathExecute e' shrink (St.via f st) kw (f low) append = Res.via f (deathExecute e shrink st kw low append) := by
  simp only [deathExecute]
  have hg : (St.via f st).walkers[kw]? = (st.walkers[kw]?).map (Wk.via f) := by simp [St.via]
  rw [hg]
  rcases st.walkers[kw]? with _ | w
  · rfl
  · simp only [Option.map_some, hsh]
    rw [show (St.via f st).k = st.k from rfl]
    rcases shrink w st.k with ⟨_ | ⟨p, q, fi, dnp⟩, k⟩
    · rfl
    · simp only [h.L, hf.le_iff_le]
      by_cases hl : low ≤ e.L p q
      · rw [if_pos hl, if_pos hl]
        exact congrArg (fun s => some (s, dnp)) (set_via f { st with k := k } append kw p q _ fi)
      · rw [if_neg hl, if_neg hl]
        rfl

/-- C139: the structure engine makes the same moves. -/
theorem C139_structure {f : β → β} (hf : StrictMono f) {e e' : Env π β} (h : SameBut f e e')
    (vary : π → ℕ → ℕ → Option π × ℕ) (low : β) (append : Bool) (perm : List ℕ) :
    ∀ (st : St π β) (kw t : ℕ), structureExecute e' vary (f low) append perm (St.via f st) kw t
      = Res.via f (structureExecute e vary low append perm st kw t) := by
  have once : ∀ (st : St π β) (wid up loc : ℕ), structureOnce e' vary (St.via f st) wid (f low) up loc
      = Res.via f (structureOnce e vary st wid low up loc) := by
    intro st wid up loc
    simp only [structureOnce]
    have hg : (St.via f st).walkers[wid]? = (st.walkers[wid]?).map (Wk.via f) := by simp [St.via]
    rw [hg]
    rcases st.walkers[wid]? with _ | w
    · rfl
    · simp only [Option.map_some]
      rw [show (St.via f st).k = st.k from rfl, show (Wk.via f w).problem = w.problem from rfl,
        show (Wk.via f w).allpars = w.allpars from rfl, show (Wk.via f w).fitIndex = w.fitIndex from rfl]
      rcases vary w.problem loc st.k with ⟨_ | p, k⟩
      · rfl
      · simp only [h.L, hf.le_iff_le]
        by_cases hl : low ≤ e.L p w.allpars
        · rw [if_pos hl, if_pos hl]
          exact congrArg (fun s => some (s, 1)) (setWalker_via f { st with k := k } up p w.allpars _ none w.fitIndex)
        · rw [if_neg hl, if_neg hl]
          rfl
  induction perm with
  | nil => intros; rfl
  | cons q qs ih =>
    intro st kw t
    simp only [structureExecute, target_via, once]
    rcases structureOnce e vary st kw low (st.target append kw) (q + 1) with _ | ⟨st', dt⟩
    · rfl
    · exact ih st' _ _

/-! ## Galilean engine: it interpolates between log likelihoods -/

theorem quadinterpol_up (c L0 Lm L1 low : ℝ) :
    quadinterpol (L0 + c) (Lm + c) (L1 + c) (low + c) = quadinterpol L0 Lm L1 low := by
  have hb : 4 * (Lm + c) - (L1 + c) - 3 * (L0 + c) = 4 * Lm - L1 - 3 * L0 := by ring
  have ha : 2 * (L0 + c) - 4 * (Lm + c) + 2 * (L1 + c) = 2 * L0 - 4 * Lm + 2 * L1 := by ring
  have h1 : low + c - (L0 + c) = low - L0 := by ring
  have h2 : L0 + c - (low + c) = L0 - low := by ring
  simp only [quadinterpol, hb, ha, h1, h2]

theorem trialStep_via {f : ℝ → ℝ} {e e' : Env π ℝ} (h : SameBut f e e') (um : UM) (k : ℕ) (g size : ℝ) :
    um.trialStep e' k g size = um.trialStep e k g size := by
  simp only [UM.trialStep, getVelocity, h.rand]

theorem reverse_via {f : ℝ → ℝ} {e e' : Env π ℝ} (h : SameBut f e e') (um : UM) (k : ℕ) (size : ℝ) :
    um.reverseVelocity e' k size = um.reverseVelocity e k size := by
  simp only [UM.reverseVelocity, getVelocity, h.rand]

theorem galileanLoop_up (c : ℝ) {e e' : Env π ℝ} (h : SameBut (· + c) e e') (dL : π → List ℝ → List ℤ → List ℝ)
    (w : Wk π ℝ) (low : ℝ) (kw : ℕ) (append : Bool) (nstep : ℕ) (size0 : ℝ) (n : ℕ) :
    ∀ (st : St π ℝ) (um : UM) (allpars : List ℝ) (Lhood Ltry Ltry' : ℝ) (inside : ℕ) (size : ℝ) (step trial : ℕ),
    (inside = 1 → Ltry' = Ltry + c) →
    galileanLoop e' dL (Wk.via (· + c) w) (low + c) kw append nstep size0 n (St.via (· + c) st) um allpars (Lhood + c)
        Ltry' inside size step trial
      = Res.via (· + c) (galileanLoop e dL w low kw append nstep size0 n st um allpars Lhood Ltry inside size step
          trial) := by
  induction n with
  | zero => intros; rfl
  | succ n ih =>
    intro st um allpars Lhood Ltry Ltry' inside size step trial hL
    unfold galileanLoop
    simp only [trialStep_via h, reverse_via h, u2d_via h, d2u_via h, h.L, h.maxtrials]
    rw [show (Wk.via (· + c) w).problem = w.problem from rfl, show (Wk.via (· + c) w).fitIndex = w.fitIndex from rfl,
      show (St.via (· + c) st).k = st.k from rfl]
    rcases gets allpars w.fitIndex with _ | fip
    · rfl
    · have key : ∀ (um : UM) (q : List ℝ) (size : ℝ) (k : ℕ),
          (if low + c ≤ e.L w.problem q + c then
            if step + 1 < nstep ∧ 0 < e.maxtrials then
              galileanLoop e' dL (Wk.via (· + c) w) (low + c) kw append nstep size0 n
                (St.setWalker { St.via (· + c) st with k := k } (St.target { St.via (· + c) st with k := k } append kw)
                  w.problem q (e.L w.problem q + c) (some (Wk.via (· + c) w)) w.fitIndex) um.acceptTrial q
                (e.L w.problem q + c) (e.L w.problem q + c) 0 size0 (step + 1) 0
            else some (St.setWalker { St.via (· + c) st with k := k }
                (St.target { St.via (· + c) st with k := k } append kw) w.problem q (e.L w.problem q + c)
                (some (Wk.via (· + c) w)) w.fitIndex, (step + 1) * w.fitIndex.length)
          else if step < nstep ∧ trial + 1 < e.maxtrials then
            galileanLoop e' dL (Wk.via (· + c) w) (low + c) kw append nstep size0 n { St.via (· + c) st with k := k } um
              allpars (Lhood + c) (e.L w.problem q + c) (inside + 1) size step (trial + 1)
          else some ({ St.via (· + c) st with k := k }, step * w.fitIndex.length))
          = Res.via (· + c) (if low ≤ e.L w.problem q then
            if step + 1 < nstep ∧ 0 < e.maxtrials then
              galileanLoop e dL w low kw append nstep size0 n
                (St.setWalker { st with k := k } (St.target { st with k := k } append kw) w.problem q
                  (e.L w.problem q) (some w) w.fitIndex) um.acceptTrial q (e.L w.problem q) (e.L w.problem q) 0 size0
                (step + 1) 0
            else some (St.setWalker { st with k := k } (St.target { st with k := k } append kw) w.problem q
                  (e.L w.problem q) (some w) w.fitIndex, (step + 1) * w.fitIndex.length)
          else if step < nstep ∧ trial + 1 < e.maxtrials then
            galileanLoop e dL w low kw append nstep size0 n { st with k := k } um allpars Lhood (e.L w.problem q)
              (inside + 1) size step (trial + 1)
          else some ({ st with k := k }, step * w.fitIndex.length)) := by
        intro um q size k
        have hs : St.setWalker { St.via (· + c) st with k := k } (St.target { St.via (· + c) st with k := k } append kw)
            w.problem q (e.L w.problem q + c) (some (Wk.via (· + c) w)) w.fitIndex
            = St.via (· + c) (St.setWalker { st with k := k } (St.target { st with k := k } append kw) w.problem q
                  (e.L w.problem q) (some w) w.fitIndex) := by
          have := setWalker_via (· + c) { st with k := k } (St.target { st with k := k } append kw) w.problem q
            (e.L w.problem q) (some w) w.fitIndex
          have ht : St.target { St.via (· + c) st with k := k } append kw = St.target { st with k := k } append kw :=
            target_via (· + c) { st with k := k } append kw
          rw [ht]
          exact this
        rw [hs]
        by_cases hl : low ≤ e.L w.problem q
        · rw [if_pos hl, if_pos (by linarith)]
          by_cases h1 : step + 1 < nstep ∧ 0 < e.maxtrials
          · rw [if_pos h1, if_pos h1]
            exact ih _ _ _ _ _ _ _ _ _ _ (fun h0 => absurd h0 (by norm_num))
          · rw [if_neg h1, if_neg h1]
            rfl
        · rw [if_neg hl, if_neg (by linarith)]
          by_cases h1 : step < nstep ∧ trial + 1 < e.maxtrials
          · rw [if_pos h1, if_pos h1]
            exact ih { st with k := k } _ _ _ _ _ _ _ _ _ (fun _ => rfl)
          · rw [if_neg h1, if_neg h1]
            rfl
      simp only
      by_cases h0 : inside = 0
      · simp only [if_pos h0]
        rcases puts allpars w.fitIndex _ with _ | q
        · rfl
        · exact key _ _ _ _
      · by_cases h1 : inside = 1
        · simp only [if_neg h0, if_pos h1]
          rcases puts allpars w.fitIndex _ with _ | q
          · rfl
          · simp only [hL h1, quadinterpol_up]
            rcases puts allpars w.fitIndex _ with _ | r
            · rfl
            · simp only
              rcases puts allpars w.fitIndex _ with _ | t
              · rfl
              · exact key _ _ _ _
        · simp only [if_neg h0, if_neg h1]
          rcases puts allpars w.fitIndex _ with _ | q
          · rfl
          · exact key _ _ _ _

/-- C139: the Galilean engine makes the same moves when all likelihoods are multiplied by a constant factor. -/
theorem C139_galilean (c : ℝ) {e e' : Env π ℝ} (h : SameBut (· + c) e e') (dL : π → List ℝ → List ℤ → List ℝ)
    (fuel nstep : ℕ) (size : ℝ) (st : St π ℝ) (kw : ℕ) (low : ℝ) (append : Bool) :
    galileanExecute e' dL fuel nstep size (St.via (· + c) st) kw (low + c) append
      = Res.via (· + c) (galileanExecute e dL fuel nstep size st kw low append) := by
  simp only [galileanExecute]
  have hg : (St.via (· + c) st).walkers[kw]? = (st.walkers[kw]?).map (Wk.via (· + c)) := by simp [St.via]
  have hv : ∀ a b x y, getVelocity e' a b x y = getVelocity e a b x y := fun a b x y => by
    simp only [getVelocity, h.rand]
  rw [hg]
  rcases st.walkers[kw]? with _ | w
  · rfl
  · simp only [Option.map_some]
    rw [show (Wk.via (· + c) w).problem = w.problem from rfl, show (Wk.via (· + c) w).fitIndex = w.fitIndex from rfl,
      show (Wk.via (· + c) w).allpars = w.allpars from rfl, range_via h]
    rcases gets (e.getUnitRange st w.problem low).1 w.fitIndex with _ | ur
    · rfl
    · rcases gets w.allpars w.fitIndex with _ | fip
      · rfl
      · simp only [hv, d2u_via h]
        exact galileanLoop_up c h dL w low kw append nstep size fuel { st with k := st.k + w.fitIndex.length } _ _ _ _ _
          _ _ _ _ (fun h0 => absurd h0 (by norm_num))

/-! Surroundings that differ by a factor. -/

/-- One parameter in the unit range, where the likelihood is the parameter itself. -/
def unitEnv : Env Unit ℝ where
  L _ a := a.sum
  u2d _ _ u := u
  d2u _ _ u := u
  box _ _ _ := ([0], [1])
  rand k := if k % 2 = 0 then 3 / 4 else 7 / 8
  maxtrials := 3
  nstep := 1

example : SameBut (fun x : ℝ => 2 * x + 5) unitEnv { unitEnv with L := fun _ a => 2 * a.sum + 5 } :=
  ⟨fun _ _ => rfl, rfl, rfl, rfl, rfl, rfl, fun _ _ _ => rfl⟩

example : StrictMono fun x : ℝ => 2 * x + 5 := fun a b h => by
  show 2 * a + 5 < 2 * b + 5
  linarith

example : SameBut (· + (5 : ℝ)) unitEnv { unitEnv with L := fun _ a => a.sum + 5 } :=
  ⟨fun _ _ => rfl, rfl, rfl, rfl, rfl, rfl, fun _ _ _ => rfl⟩

/-- The random engine does move the walker there. -/
example : ∃ q, randomExecute unitEnv ⟨[⟨0, -1, 0, (), [0.5], [0], 0.5⟩], 1, [], 0⟩ 0 0.5 false = some q ∧ q.2 = 1 := by
  have h : (0.5 : ℝ) ≤ 3 / 4 := by norm_num
  refine ⟨_, by simp [randomExecute, unitEnv, randomLoop, puts, put, place, Env.unit2Domain, St.target]; norm_num; rfl, ?_⟩
  rfl

end BF.Engines
