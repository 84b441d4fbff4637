import Verif.Props.Engines
import Verif.Props.Chord
import Mathlib.Tactic.Linarith

/-!
# C56: the engines stay inside the prior range
-/

namespace BF.Engines

variable {π β : Type*}

/-- Specification: the parameters `q` are those of the start `q0`, but for fitted ones that are the image of
a number in the unit range: they can be drawn from the prior. -/
def FromPrior (e : Env π β) (p : π) (fi : List ℤ) (q0 q : List ℝ) : Prop :=
  q.length = q0.length ∧ ∀ (i : ℕ) (v : ℝ), q[i]? = some v → q0[i]? = some v ∨
    ∃ c u, c ∈ fi ∧ place q0.length c = some i ∧ 0 ≤ u ∧ u ≤ 1 ∧ v = e.u2d p c u

/-- Specification: all walkers and phantoms were there before, or have property `P`. -/
def AllNew (P : List ℝ → Prop) (st st' : St π β) : Prop :=
  (∀ w ∈ st'.walkers, w ∈ st.walkers ∨ P w.allpars) ∧ ∀ w ∈ st'.phantoms, w ∈ st.phantoms ∨ P w.allpars

theorem FromPrior.refl (e : Env π β) (p : π) (fi : List ℤ) (q : List ℝ) : FromPrior e p fi q q :=
  ⟨rfl, fun _ _ h => Or.inl h⟩

theorem FromPrior.trans {e : Env π β} {p : π} {fi : List ℤ} {q0 q1 q2 : List ℝ} (h : FromPrior e p fi q0 q1)
    (k : FromPrior e p fi q1 q2) : FromPrior e p fi q0 q2 := by
  refine ⟨k.1.trans h.1, fun i v hv => ?_⟩
  rcases k.2 i v hv with h1 | ⟨c, u, h1, h2, h3⟩
  · exact h.2 i v h1
  · exact Or.inr ⟨c, u, h1, h.1 ▸ h2, h3⟩

theorem FromPrior.put {e : Env π β} {p : π} {fi : List ℤ} {q q' : List ℝ} {c : ℤ} {u : ℝ} (hc : c ∈ fi)
    (h0 : 0 ≤ u) (h1 : u ≤ 1) (h : Engines.put q c (e.u2d p c u) = some q') : FromPrior e p fi q q' := by
  unfold Engines.put at h
  obtain ⟨i, hi, rfl⟩ := Option.map_eq_some_iff.1 h
  refine ⟨by simp, fun j v hv => ?_⟩
  rw [List.getElem?_set] at hv
  split at hv
  · rename_i hij
    subst hij
    split at hv
    · injection hv with hv
      exact Or.inr ⟨c, u, hc, hi, h0, h1, hv.symm⟩
    · cases hv
  · exact Or.inl hv

theorem FromPrior.puts {e : Env π β} {p : π} {fi : List ℤ} : ∀ {cs : List ℤ} {us q q' : List ℝ},
    (∀ c ∈ cs, c ∈ fi) → (∀ u ∈ us, 0 ≤ u ∧ u ≤ 1) →
    Engines.puts q cs (e.unit2Domain p us cs) = some q' → FromPrior e p fi q q' := by
  intro cs
  induction cs with
  | nil =>
    intro us q q' _ _ h
    simp only [Env.unit2Domain, List.zipWith_nil_left, Engines.puts, Option.some.injEq] at h
    subst h
    exact FromPrior.refl e p fi q
  | cons c cs ih =>
    intro us q q' hc hu h
    cases us with
    | nil => simp [Env.unit2Domain, Engines.puts] at h
    | cons u us =>
      simp only [Env.unit2Domain, List.zipWith_cons_cons, Engines.puts] at h
      cases hp : Engines.put q c (e.u2d p c u) with
      | none => rw [hp] at h; cases h
      | some b =>
        rw [hp] at h
        have h1 := hu u (by simp)
        exact (FromPrior.put (hc c (by simp)) h1.1 h1.2 hp).trans
          (ih (fun c' h' => hc c' (by simp [h'])) (fun u' h' => hu u' (by simp [h'])) h)

theorem AllNew.refl (P : List ℝ → Prop) (st : St π β) (k : ℕ) : AllNew P st { st with k := k } :=
  ⟨fun _ h => Or.inl h, fun _ h => Or.inl h⟩

theorem AllNew.trans {P : List ℝ → Prop} {s1 s2 s3 : St π β} (h : AllNew P s1 s2) (k : AllNew P s2 s3) :
    AllNew P s1 s3 :=
  ⟨fun w hw => (k.1 w hw).elim (h.1 w) Or.inr, fun w hw => (k.2 w hw).elim (h.2 w) Or.inr⟩

theorem AllNew.of_k {P : List ℝ → Prop} {s1 s2 : St π β} {k : ℕ} (h : AllNew P { s1 with k := k } s2) :
    AllNew P s1 s2 := h

theorem AllNew.set {P : List ℝ → Prop} (st : St π β) (kw : ℕ) (p : π) (q : List ℝ) (l : β)
    (wo : Option (Wk π β)) (fi : List ℤ) (h : P q) : AllNew P st (st.setWalker kw p q l wo fi) := by
  have hq : ∀ (o : Option (Wk π β)) (d : ℕ), (match o with
    | none => (⟨d, -1, 0, p, q, fi, l⟩ : Wk π β)
    | some w => { w with
                  allpars := q
                  logL := l }).allpars = q := by
    intro o d; cases o <;> rfl
  unfold St.setWalker
  simp only
  split
  · refine ⟨fun w hw => ?_, fun w hw => ?_⟩
    · rcases List.mem_or_eq_of_mem_set hw with h1 | h1
      · exact Or.inl h1
      · right; rw [h1]; cases wo <;> exact h
    · rcases List.mem_append.1 hw with h1 | h1
      · exact Or.inl h1
      · right; rw [List.mem_singleton.1 h1]; cases wo <;> exact h
  · refine ⟨fun w hw => ?_, fun w hw => ?_⟩
    · rcases List.mem_append.1 hw with h1 | h1
      · exact Or.inl h1
      · right; rw [List.mem_singleton.1 h1]; cases wo <;> exact h
    · rcases List.mem_append.1 hw with h1 | h1
      · exact Or.inl h1
      · right; rw [List.mem_singleton.1 h1]; cases wo <;> exact h

variable [LinearOrder β]

/-! ### StartEngine -/

/-- C56: the start engine draws each fitted parameter from its prior. -/
theorem C56_start (e : Env π β) (hr : ∀ k, 0 ≤ e.rand k ∧ e.rand k ≤ 1) (finite : β → Prop)
    [DecidablePred finite] (st st' : St π β) (kw n : ℕ) (w0 : Wk π β) (hw : st.walkers[kw]? = some w0)
    (h : startExecute e finite st kw = some (st', n)) :
    AllNew (FromPrior e w0.problem w0.fitIndex w0.allpars) st st' := by
  have key : ∀ (m k : ℕ) (q q' : List ℝ) (l : β) (k' : ℕ),
      FromPrior e w0.problem w0.fitIndex w0.allpars q →
      startLoop e finite w0 m k q = some (q', l, k') →
      FromPrior e w0.problem w0.fitIndex w0.allpars q' := by
    intro m
    induction m with
    | zero => intro k q q' l k' _ h; simp [startLoop] at h
    | succ m ih =>
      intro k q q' l k' hq h
      simp only [startLoop] at h
      split at h
      · cases h
      · rename_i q1 hp
        have h1 := hq.trans (FromPrior.puts (fun c hc => hc) (fun u hu => by
          obtain ⟨i, -, rfl⟩ := List.mem_map.1 hu
          exact hr _) hp)
        split at h
        · simp only [Option.some.injEq, Prod.mk.injEq] at h
          rw [← h.1]; exact h1
        · exact ih _ _ _ _ _ h1 h
  simp only [startExecute, hw] at h
  split at h
  · cases h
  · rename_i q l k hl
    simp only [Option.some.injEq, Prod.mk.injEq] at h
    rw [← h.1]
    exact (AllNew.refl _ st k).trans (AllNew.set _ _ _ _ _ _ _ (key _ _ _ _ _ _ (FromPrior.refl ..) hl))

/-! ### RandomEngine -/

/-- C56: the random engine stays in the prior range, when the bounding box is in the unit range. -/
theorem C56_random (e : Env π β) (hr : ∀ k, 0 ≤ e.rand k ∧ e.rand k ≤ 1) (st st' : St π β) (kw : ℕ)
    (lowL : β) (append : Bool) (n : ℕ) (w0 : Wk π β) (hw : st.walkers[kw]? = some w0)
    (hbox : ∀ (i : ℕ) (lo hi : ℝ), (e.box st.phantoms w0.problem lowL).1[i]? = some lo →
      (e.box st.phantoms w0.problem lowL).2[i]? = some hi → 0 ≤ lo ∧ lo ≤ hi ∧ hi ≤ 1)
    (h : randomExecute e st kw lowL append = some (st', n)) :
    AllNew (FromPrior e w0.problem w0.fitIndex w0.allpars) st st' := by
  have key : ∀ (um ux : List ℝ), (∀ (i : ℕ) (lo hi : ℝ), um[i]? = some lo → ux[i]? = some hi →
        (0 ≤ lo ∧ lo ≤ 1) ∧ 0 ≤ hi ∧ hi ≤ 1) →
      ∀ (m : ℕ) (s s' : St π β) (n : ℕ),
      randomLoop e w0 lowL kw append um ux m s = some (s', n) →
      AllNew (FromPrior e w0.problem w0.fitIndex w0.allpars) s s' := by
    intro um ux hu m
    induction m with
    | zero =>
      intro s s' n h
      simp only [randomLoop, Option.some.injEq, Prod.mk.injEq] at h
      rw [← h.1]
      exact AllNew.refl _ s s.k
    | succ m ih =>
      intro s s' n h
      simp only [randomLoop] at h
      split at h
      · cases h
      · rename_i q1 hp
        split at h
        · simp only [Option.some.injEq, Prod.mk.injEq] at h
          rw [← h.1]
          refine (AllNew.refl _ s (s.k + w0.allpars.length)).trans (AllNew.set _ _ _ _ _ _ _ ?_)
          refine FromPrior.puts (fun c hc => hc) (fun u hu' => ?_) hp
          obtain ⟨j, hj⟩ := List.mem_iff_getElem?.1 hu'
          rw [List.getElem?_zipWith] at hj
          rcases ha : (List.range w0.allpars.length)[j]? with _ | i
          · simp [ha] at hj
          rcases hb : (List.zip um ux)[j]? with _ | b
          · simp [ha, hb] at hj
          simp only [ha, hb, Option.some.injEq] at hj
          rw [List.getElem?_zip_eq_some] at hb
          obtain ⟨⟨h1, h2⟩, h3, h4⟩ := hu j _ _ hb.1 hb.2
          obtain ⟨r0, r1⟩ := hr (s.k + i)
          rw [← hj]
          constructor <;> nlinarith
        · exact (AllNew.refl _ s (s.k + w0.allpars.length)).trans (ih _ _ _ h)
  simp only [randomExecute, hw] at h
  refine key _ _ ?_ _ _ _ _ h
  intro i lo hi h1 h2
  rcases ha : (e.box st.phantoms w0.problem lowL).1[i]? with _ | a
  · simp [List.getElem?_zipWith, ha] at h1
  rcases hb : (e.box st.phantoms w0.problem lowL).2[i]? with _ | b
  · simp [List.getElem?_zipWith, hb] at h2
  obtain ⟨p1, p2, p3⟩ := hbox i a b ha hb
  have hd : 0 ≤ 10 * (b - a) / (st.walkers.length : ℝ) :=
    div_nonneg (by linarith) (Nat.cast_nonneg _)
  simp only [List.getElem?_map, List.getElem?_zipWith, ha, hb, Option.map_some, Option.some.injEq] at h1 h2
  rw [← h1, ← h2]
  constructor <;> constructor <;> split <;> linarith

/-! ### GibbsEngine -/

theorem drawInside_spec (e : Env π β) (usav scale : ℝ) (fuel k : ℕ) (s u : ℝ) (k' : ℕ)
    (h : drawInside e usav scale fuel k = some (s, u, k')) : 0 ≤ u ∧ u ≤ 1 := by
  induction fuel generalizing k with
  | zero => simp [drawInside] at h
  | succ fuel ih =>
    simp only [drawInside] at h
    split at h
    · rename_i hc
      simp only [Option.some.injEq, Prod.mk.injEq] at h
      rw [← h.2.1]
      exact ⟨hc.1.le, hc.2.le⟩
    · exact ih _ h

theorem put_get {q q' : List ℝ} {c : ℤ} {v : ℝ} (hg : Engines.get q c = some v)
    (hp : Engines.put q c v = some q') : q' = q := by
  unfold Engines.put at hp
  obtain ⟨i, hi, rfl⟩ := Option.map_eq_some_iff.1 hp
  unfold Engines.get at hg
  rw [hi] at hg
  simp only [Option.bind_some] at hg
  obtain ⟨hl, hv⟩ := List.getElem?_eq_some_iff.1 hg
  rw [← hv]
  exact List.set_getElem_self hl

theorem gibbsTry_range (e : Env π β) (p : π) (fi : List ℤ) (q0 : List ℝ) (lowL : β) (kw : ℕ)
    (append : Bool) (c : ℤ) (hc : c ∈ fi) (q : List ℝ) (hq : FromPrior e p fi q0 q) (save usav step : ℝ)
    (hsave : Engines.get q c = some save) (fuel kk : ℕ) (u : ℝ) (hu : 0 ≤ u ∧ u ≤ 1) (st st' : St π β)
    (q' : List ℝ) (n : ℕ)
    (h : gibbsTry e p fi lowL kw append q c save usav step fuel kk u st = some (st', q', n)) :
    FromPrior e p fi q0 q' ∧ AllNew (FromPrior e p fi q0) st st' := by
  induction fuel generalizing kk u st with
  | zero => simp [gibbsTry] at h
  | succ fuel ih =>
    simp only [gibbsTry] at h
    split at h
    · cases h
    · rename_i qt hp
      split at h
      · simp only [Option.some.injEq, Prod.mk.injEq] at h
        have h1 := hq.trans (FromPrior.put hc hu.1 hu.2 hp)
        rw [← h.1, ← h.2.1]
        exact ⟨h1, AllNew.set _ _ _ _ _ _ _ h1⟩
      · split at h
        · split at h
          · cases h
          · rename_i s u' k hd
            obtain ⟨a, b⟩ := ih _ _ (drawInside_spec e _ _ _ _ _ _ _ hd) _ h
            exact ⟨a, (AllNew.refl _ st k).trans b⟩
        · split at h
          · cases h
          · rename_i q2 hp2
            simp only [Option.some.injEq, Prod.mk.injEq] at h
            rw [← h.1, ← h.2.1, put_get hsave hp2]
            exact ⟨hq, AllNew.refl _ st st.k⟩

/-- C56: the Gibbs engine stays in the prior range. -/
theorem C56_gibbs (e : Env π β) (fuel : ℕ) (perm : List ℤ) (st st' : St π β) (kw : ℕ) (lowL : β)
    (append : Bool) (n : ℕ) (w0 : Wk π β) (hw : st.walkers[kw]? = some w0)
    (hperm : perm.Perm w0.fitIndex) (h : gibbsExecute e fuel perm st kw lowL append = some (st', n)) :
    AllNew (FromPrior e w0.problem w0.fitIndex w0.allpars) st st' := by
  have key : ∀ (ur : List ℝ) (cs : List ℤ) (q : List ℝ) (s s' : St π β) (m n : ℕ),
      (∀ c ∈ cs, c ∈ w0.fitIndex) → FromPrior e w0.problem w0.fitIndex w0.allpars q →
      gibbsLoop e w0.problem w0.fitIndex lowL kw append ur fuel cs q s m = some (s', n) →
      AllNew (FromPrior e w0.problem w0.fitIndex w0.allpars) s s' := by
    intro ur cs
    induction cs with
    | nil =>
      intro q s s' m n _ _ h
      simp only [gibbsLoop, Option.some.injEq, Prod.mk.injEq] at h
      rw [← h.1]
      exact AllNew.refl _ s s.k
    | cons c cs ih =>
      intro q s s' m n hcs hq h
      simp only [gibbsLoop] at h
      split at h
      · rename_i save scale hsave hscale
        split at h
        · cases h
        · rename_i step u k hd
          split at h
          · cases h
          · rename_i s1 q1 n1 ht
            obtain ⟨a, b⟩ := gibbsTry_range e _ _ w0.allpars lowL kw append c (hcs c (by simp)) q hq save _
              step hsave _ _ _ (drawInside_spec e _ _ _ _ _ _ _ hd) _ _ _ _ ht
            exact ((AllNew.refl _ s k).trans b).trans
              (ih _ _ _ _ _ (fun c' h' => hcs c' (by simp [h'])) a h)
      · cases h
  simp only [gibbsExecute, hw] at h
  refine key _ _ _ _ _ _ _ ?_ (FromPrior.refl ..) h
  intro c hc
  obtain ⟨l, hl, hcl⟩ := List.mem_flatten.1 hc
  rw [(List.mem_replicate.1 hl).2] at hcl
  exact hperm.mem_iff.1 hcl

/-! ### StepEngine -/

theorem stepInside_spec (e : Env π β) (usav urange : List ℝ) (fuel k : ℕ) (step step' u : List ℝ) (k' : ℕ)
    (h : stepInside e usav urange fuel k step = some (step', u, k')) : ∀ x ∈ u, 0 ≤ x ∧ x ≤ 1 := by
  induction fuel generalizing k step with
  | zero => simp [stepInside] at h
  | succ fuel ih =>
    simp only [stepInside] at h
    split at h
    · exact ih _ _ h
    · rename_i h1
      split at h
      · exact ih _ _ h
      · rename_i h2
        simp only [Option.some.injEq, Prod.mk.injEq] at h
        rw [← h.2.1]
        intro x hx
        simp only [List.any_eq_true, decide_eq_true_eq, not_exists, not_and, not_lt] at h1 h2
        exact ⟨h1 x hx, h2 x hx⟩

/-- C56: the step engine stays in the prior range. -/
theorem C56_step (e : Env π β) (fuel : ℕ) (st st' : St π β) (kw : ℕ) (lowL : β) (append : Bool) (n : ℕ)
    (w0 : Wk π β) (hw : st.walkers[kw]? = some w0)
    (h : stepExecute e fuel st kw lowL append = some (st', n)) :
    AllNew (FromPrior e w0.problem w0.fitIndex w0.allpars) st st' := by
  have key : ∀ (ur : List ℝ) (fuel : ℕ) (s s' : St π β) (ks kt : ℕ) (sz : ℝ) (step usav q : List ℝ) (n : ℕ),
      FromPrior e w0.problem w0.fitIndex w0.allpars q →
      stepLoop e w0.problem w0.fitIndex lowL kw append ur fuel s ks kt sz step usav q = some (s', n) →
      AllNew (FromPrior e w0.problem w0.fitIndex w0.allpars) s s' := by
    intro ur fuel
    induction fuel with
    | zero => intro s s' ks kt sz step usav q n _ h; simp [stepLoop] at h
    | succ fuel ih =>
      intro s s' ks kt sz step usav q n hq h
      simp only [stepLoop] at h
      split at h
      · split at h
        · cases h
        · rename_i step1 u k hs
          split at h
          · cases h
          · rename_i q1 hp
            have h1 := hq.trans (FromPrior.puts (fun c hc => hc) (stepInside_spec e _ _ _ _ _ _ _ _ hs) hp)
            split at h
            · exact ((AllNew.refl _ s k).trans (AllNew.set _ _ _ _ _ _ _ h1)).trans
                ((AllNew.refl _ _ (k + ur.length)).trans (ih _ _ _ _ _ _ _ _ _ h1 h))
            · split at h
              · exact (AllNew.refl _ s (k + 1)).trans (ih _ _ _ _ _ _ _ _ _ hq h)
              · simp only [Option.some.injEq, Prod.mk.injEq] at h
                rw [← h.1]
                exact AllNew.refl _ s k
      · simp only [Option.some.injEq, Prod.mk.injEq] at h
        rw [← h.1]
        exact AllNew.refl _ s s.k
  simp only [stepExecute, hw] at h
  split at h
  · exact (AllNew.refl _ st _).trans (key _ _ _ _ _ _ _ _ _ _ _ (FromPrior.refl ..) h)
  · cases h

/-! ### ChordEngine -/

theorem chordTry_range (e : Env π β) (p : π) (fi : List ℤ) (q0 : List ℝ) (lowL : β) (usav vel : List ℝ)
    (fuel kk k : ℕ) (t0 t1 : ℝ) (q : List ℝ) (hq : FromPrior e p fi q0 q) (x y : List ℝ) (l : β) (k' : ℕ)
    (tr : List (List ℝ)) (htr : ∀ t ∈ tr, InUnit t)
    (h : chordTry e p fi lowL usav vel fuel kk k t0 t1 q = some (.accept x y l, k', tr)) :
    FromPrior e p fi q0 y := by
  induction fuel generalizing kk k t0 t1 q k' tr with
  | zero => simp [chordTry] at h
  | succ fuel ih =>
    simp only [chordTry] at h
    split at h
    · split at h
      · cases h
      · rename_i q1 hp
        have h1 : ∀ t ∈ [List.zipWith (fun u v => u + v * (t0 + e.rand k * (t1 - t0))) usav vel], InUnit t →
            FromPrior e p fi q0 q1 := by
          intro t ht hin
          rw [List.mem_singleton.1 ht] at hin
          exact hq.trans (FromPrior.puts (fun c hc => hc)
            (fun u hu => ⟨(hin u hu).1.le, (hin u hu).2.le⟩) hp)
        split at h
        · simp only [Option.some.injEq, Prod.mk.injEq, ChordEnd.accept.injEq] at h
          obtain ⟨⟨hx, rfl, _⟩, _, rfl⟩ := h
          exact h1 _ (List.mem_singleton.2 rfl) (htr _ (List.mem_singleton.2 rfl))
        · split at h
          · simp at h
          · split at h
            · cases h
            · rename_i r2 k2 tr2 hrec
              simp only [Option.some.injEq, Prod.mk.injEq] at h
              obtain ⟨rfl, _, rfl⟩ := h
              have hq1 := h1 _ (List.mem_singleton.2 rfl) (htr _ List.mem_cons_self)
              have htr2 : ∀ t ∈ tr2, InUnit t := fun t ht => htr t (by simp [ht])
              split at hrec
              · exact ih _ _ _ _ _ hq1 _ _ htr2 hrec
              · exact ih _ _ _ _ _ hq1 _ _ htr2 hrec
    · simp at h

/-- C56: the chord engine stays in the prior range, as far as the places it tries are in the unit box. (When
they are is the subject of `C12_box_partial`.) -/
theorem C56_chord_tried (e : Env π β) (fuel nstep : ℕ) (st st' : St π β) (kw : ℕ) (lowL : β) (append : Bool)
    (n : ℕ) (tr : List (List ℝ)) (w0 : Wk π β) (hw : st.walkers[kw]? = some w0) (htr : ∀ t ∈ tr, InUnit t)
    (h : chordExecute e fuel nstep st kw lowL append = some (st', n, tr)) :
    AllNew (FromPrior e w0.problem w0.fitIndex w0.allpars) st st' := by
  have key : ∀ (m : ℕ) (s s' : St π β) (onb : Basis) (reset : Bool) (vel u lo hi q : List ℝ) (step n : ℕ)
      (tr : List (List ℝ)), (∀ t ∈ tr, InUnit t) →
      FromPrior e w0.problem w0.fitIndex w0.allpars q →
      chordLoop e fuel w0.problem w0.fitIndex lowL kw append m s onb reset vel u lo hi q step
        = some (s', n, tr) →
      AllNew (FromPrior e w0.problem w0.fitIndex w0.allpars) s s' := by
    intro m
    induction m with
    | zero =>
      intro s s' onb reset vel u lo hi q step n tr _ _ h
      simp only [chordLoop, Option.some.injEq, Prod.mk.injEq] at h
      rw [← h.1]
      exact AllNew.refl _ s s.k
    | succ m ih =>
      intro s s' onb reset vel u lo hi q step n tr htr hq h
      simp only [chordLoop] at h
      split at h
      · split at h
        · cases h
        · rename_i x y l k tr1 ht
          simp only [Option.map_eq_some_iff] at h
          obtain ⟨⟨s2, r2, tr2⟩, hrec, heq⟩ := h
          simp only [Prod.mk.injEq] at heq
          obtain ⟨rfl, rfl, rfl⟩ := heq
          have h1 := chordTry_range e _ _ _ lowL _ _ _ _ _ _ _ _ hq _ _ _ _ _
            (fun t ht => htr t (by simp [ht])) ht
          exact ((AllNew.refl _ s _).trans (AllNew.set _ _ _ _ _ _ _ h1)).trans
            (ih _ _ _ _ _ _ _ _ _ _ _ _ (fun t ht => htr t (by simp [ht])) h1 hrec)
        · simp only [Option.map_eq_some_iff] at h
          obtain ⟨⟨s2, r2, tr2⟩, hrec, heq⟩ := h
          simp only [Prod.mk.injEq] at heq
          obtain ⟨rfl, rfl, rfl⟩ := heq
          exact (AllNew.refl _ s _).trans
            (ih _ _ _ _ _ _ _ _ _ _ _ _ (fun t ht => htr t (by simp [ht])) hq hrec)
        · simp only [Option.map_eq_some_iff] at h
          obtain ⟨⟨s2, r2, tr2⟩, hrec, heq⟩ := h
          simp only [Prod.mk.injEq] at heq
          obtain ⟨rfl, rfl, rfl⟩ := heq
          exact (AllNew.refl _ s _).trans
            (ih _ _ _ _ _ _ _ _ _ _ _ _ (fun t ht => htr t (by simp [ht])) hq hrec)
      · exact ih _ _ _ _ _ _ _ _ _ _ _ _ htr hq h
  simp only [chordExecute, hw] at h
  split at h
  · exact (AllNew.refl _ st _).trans (key _ _ _ _ _ _ _ _ _ _ _ _ _ htr (FromPrior.refl ..) h)
  · cases h

/-- C56: the chord engine stays in the prior range, for a walker strictly inside the unit box and not
precisely on an edge of the widened bounding box. -/
theorem C56_chord_partial (e : Env π β) (hr : ∀ k, 0 < e.rand k ∧ e.rand k < 1) (fuel nstep : ℕ)
    (st st' : St π β) (kw : ℕ) (lowL : β) (append : Bool) (n : ℕ) (tr : List (List ℝ)) (w0 : Wk π β)
    (hw : st.walkers[kw]? = some w0) (pf lo hi : List ℝ)
    (hpf : gets w0.allpars w0.fitIndex = some pf)
    (hlo : gets (e.getUnitRange st w0.problem lowL).2 w0.fitIndex = some lo)
    (hra : gets (e.getUnitRange st w0.problem lowL).1 w0.fitIndex = some hi)
    (hu : InUnit (e.domain2Unit w0.problem pf w0.fitIndex))
    (hedge : ∀ (i : ℕ) (x : ℝ), (e.domain2Unit w0.problem pf w0.fitIndex)[i]? = some x →
      ∃ a d, lo[i]? = some a ∧ hi[i]? = some d ∧
        x ≠ a - 5 * maxOf hi / (st.walkers.length : ℝ) ∧
        x ≠ a + d + 5 * maxOf hi / (st.walkers.length : ℝ))
    (h : chordExecute e fuel nstep st kw lowL append = some (st', n, tr)) :
    AllNew (FromPrior e w0.problem w0.fitIndex w0.allpars) st st' :=
  C56_chord_tried e fuel nstep st st' kw lowL append n tr w0 hw
    (C12_box_partial e hr fuel nstep st st' kw lowL append n tr w0 hw pf lo hi hpf hlo hra hu hedge h) h

/-! ### The hypotheses can be met

The runs of the other engines in `Verif/Props/Engines.lean` meet them: here the walker that the Gibbs engine
stores, at 31/40 = `u2d` ( 31/40 ). -/

example : FromPrior exEnv () [0] [1 / 2, 7] [31 / 40, 7] ∧ ¬ FromPrior exEnv () [0] [1 / 2, 7] [31 / 20, 7] ∧
    ¬ FromPrior exEnv () [0] [1 / 2, 7] [1 / 2, 31 / 40] := by
  refine ⟨⟨rfl, fun i v h => ?_⟩, fun h => ?_, fun h => ?_⟩
  · rcases i with _ | _ | i
    · right
      refine ⟨0, 31 / 40, by simp, by simp [place], by norm_num, by norm_num, ?_⟩
      simp at h
      rw [← h]
      rfl
    · left; simpa using h
    · simp at h
  · rcases h.2 0 (31 / 20) rfl with h | ⟨c, u, _, _, _, h1, h2⟩
    · norm_num at h
    · simp only [exEnv] at h2
      linarith
  · rcases h.2 1 (31 / 40) rfl with h | ⟨c, u, hc, hp, _⟩
    · norm_num at h
    · simp at hc
      subst hc
      simp [place] at hp

example : ∀ (i : ℕ) (lo hi : ℝ), (exEnv.box exSt.phantoms () (-(1 / 2))).1[i]? = some lo →
    (exEnv.box exSt.phantoms () (-(1 / 2))).2[i]? = some hi → 0 ≤ lo ∧ lo ≤ hi ∧ hi ≤ 1 := by
  intro i lo hi h1 h2
  rcases i with _ | _ | i
  · simp [exEnv] at h1 h2; subst h1 h2; norm_num
  · simp [exEnv] at h1 h2; subst h1 h2; norm_num
  · simp [exEnv] at h1

end BF.Engines
