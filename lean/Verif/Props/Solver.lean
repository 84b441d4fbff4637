import Verif.Solver
import Verif.Props.Orders
import Verif.Props.NestedRuns
import Verif.Props.Salesman

/-!
# C100: the nested solver
-/

noncomputable section

namespace BF.Solver

open Nested

/-! ## What a run preserves -/

/-- Specification: the tour visits every city exactly once and `l` is its likelihood. -/
def IsTour (T : Tour) (pars : List ℕ) (l : ℝ) : Prop := pars.Perm (List.range T.cities) ∧ l = T.logL pars

/-- An ensemble of `N` walkers, all tours, with ids below `N` and likelihoods that obey `P`. -/
def Inv (T : Tour) (N : ℕ) (P : ℝ → Prop) (wl : WalkerList ℕ ℝ) : Prop :=
  wl.items.length = N ∧ ∀ w ∈ wl.items, w.id < N ∧ IsTour T w.allpars w.logL ∧ P w.logL

theorem once_legal (e : Eng) (T : Tour) (low : ℝ) (draw : ℕ → ℕ) (table : ℕ → Option ℕ) (param : List ℕ) (t : ℕ)
    (p : List ℕ) (l : ℝ) (h : e.once T low draw table param = some (.accept t p l)) :
    Orders.Legal T.logL low param p l := by
  cases e with
  | move => exact Orders.C01_move T.logL low param draw t p l h
  | reverse => exact Orders.C01_reverse T.logL low param draw t p l h
  | switch => exact Orders.C01_switch T.logL low param draw t p l h
  | loop => exact Orders.C01_loop T.logL low param draw T.xy t p l h
  | shuffle => simp [Eng.once] at h
  | near =>
    simp only [Eng.once, Option.map_eq_some_iff] at h
    obtain ⟨⟨o, n'⟩, h1, rfl⟩ := h
    exact Orders.C01_near T.logL low param draw T.dist table n' t p l h1

theorem store_inv (T : Tour) (N : ℕ) (P : ℝ → Prop) (wl : WalkerList ℕ ℝ) (h : Inv T N P wl) (k : ℕ) (hk : k < N)
    (p : List ℕ) (l : ℝ) (hp : IsTour T p l) (hl : P l) : Inv T N P (Orders.engineSetWalker wl k p l) := by
  obtain ⟨hN, hw⟩ := h
  have hk' : k < wl.items.length := by omega
  simp only [Orders.engineSetWalker, List.getElem?_eq_getElem hk', WalkerList.setWalker, hk', if_true]
  refine ⟨by simpa using hN, fun w hm => ?_⟩
  rcases List.mem_or_eq_of_mem_set hm with hm | rfl
  · exact hw w hm
  · exact ⟨(hw _ (List.getElem_mem hk')).1, hp, hl⟩

theorem execute_inv (T : Tour) (N : ℕ) (P : ℝ → Prop) (low : ℝ) (hP : ∀ x, low ≤ x → P x)
    (once : ℕ → List ℕ → Option (Orders.Outcome ℕ ℝ))
    (ho : ∀ i param t p l, once i param = some (.accept t p l) → Orders.Legal T.logL low param p l) (kw : ℕ) :
    ∀ (n i : ℕ) (wl : WalkerList ℕ ℝ) (r : WalkerList ℕ ℝ × ℕ), Inv T N P wl → Orders.execute once kw n i wl = some r →
      Inv T N P r.1 := by
  intro n
  induction n with
  | zero =>
    intro i wl r h hr
    simp only [Orders.execute, Option.some.injEq] at hr
    subst hr; exact h
  | succ n ih =>
    intro i wl r h hr
    simp only [Orders.execute] at hr
    cases hw : wl.items[kw]? with
    | none => simp [hw] at hr
    | some w =>
      simp only [hw] at hr
      cases hoc : once i w.allpars with
      | none => simp [hoc] at hr
      | some oc =>
        simp only [hoc] at hr
        have hst : ∀ r', Orders.store wl kw oc = some r' → Inv T N P r'.1 := by
          intro r' hr'
          cases oc with
          | reject t => simp only [Orders.store, Option.some.injEq] at hr'; subst hr'; exact h
          | accept t p l =>
            simp only [Orders.store, hw, Option.some.injEq] at hr'
            subst hr'
            obtain ⟨h1, h2, h3⟩ := ho _ _ t p l hoc
            have hm := h.2 w (List.mem_of_getElem? hw)
            exact store_inv T N P wl h _ hm.1 p l ⟨h1.trans hm.2.1.1, h2⟩ (hP l h3)
        cases hs : Orders.store wl kw oc with
        | none => simp [hs] at hr
        | some r' =>
          simp only [hs] at hr
          split at hr
          · exact ih _ _ _ (hst r' hs) hr
          · simp only [Option.some.injEq] at hr; subst hr; exact hst r' hs

variable (T : Tour) (engines : List Eng) (tries : ℕ) (G : Gen)

theorem env_inv (N : ℕ) (P : ℝ → Prop) (low : ℝ) (hP : ∀ x, low ≤ x → P x) (g r kw : ℕ) (wl wl' : WalkerList ℕ ℝ)
    (t r' : ℕ) (h : Inv T N P wl) (he : (env T engines tries G).execute g r wl kw low = some (wl', t, r')) :
    Inv T N P wl' := by
  simp only [env] at he
  split at he
  · cases he
  · cases he
  · rename_i e _ _
    split at he
    · cases he
    · rename_i wl1 t1 h1
      simp only [Option.some.injEq, Prod.mk.injEq] at he
      rw [← he.1]
      exact execute_inv T N P low hP _ (fun i param t p l hh => once_legal e T low _ _ param t p l hh) kw _ _ _ _ h h1

theorem round_inv (N : ℕ) (P : ℝ → Prop) (low : ℝ) (hP : ∀ x, low ≤ x → P x) (kw : ℕ) : ∀ (gs : List ℕ)
    (wl : WalkerList ℕ ℝ) (mv r : ℕ) (wl' : WalkerList ℕ ℝ) (mv' r' : ℕ), Inv T N P wl →
    engineRound (env T engines tries G) kw low gs wl mv r = some (wl', mv', r') → Inv T N P wl' := by
  intro gs
  induction gs with
  | nil =>
    intro wl mv r wl' mv' r' h hr
    simp only [engineRound, Option.some.injEq, Prod.mk.injEq] at hr
    rw [← hr.1]; exact h
  | cons g gs ih =>
    intro wl mv r wl' mv' r' h hr
    simp only [engineRound] at hr
    split at hr
    · cases hr
    · rename_i wl1 m1 r1 h1
      exact ih _ _ _ _ _ _ (env_inv T engines tries G N P low hP _ _ _ _ _ _ _ h h1) hr

theorem trial_inv (o : Opts) (N : ℕ) (P : ℝ → Prop) (low : ℝ) (hP : ∀ x, low ≤ x → P x) (kw : ℕ) : ∀ (n : ℕ)
    (wl : WalkerList ℕ ℝ) (mv r : ℕ) (b : Bool) (x : WalkerList ℕ ℝ × ℕ × ℕ × Bool), Inv T N P wl →
    trialLoop (env T engines tries G) o kw low n wl mv r b = some x → Inv T N P x.1 := by
  intro n
  induction n with
  | zero =>
    intro wl mv r b x h hr
    simp only [trialLoop, Option.some.injEq] at hr
    rw [← hr]; exact h
  | succ n ih =>
    intro wl mv r b x h hr
    simp only [trialLoop] at hr
    split at hr
    · split at hr
      · cases hr
      · rename_i wl1 m1 r1 h1
        exact ih _ _ _ _ _ (round_inv T engines tries G N P low hP kw _ _ _ _ _ _ _ h h1) hr
    · simp only [Option.some.injEq] at hr
      rw [← hr]; exact h

theorem explore_inv (o : Opts) (N : ℕ) (P : ℝ → Prop) (low : ℝ) (hP : ∀ x, low ≤ x → P x) : ∀ (ks : List ℕ)
    (wl : WalkerList ℕ ℝ) (r : ℕ) (x : WalkerList ℕ ℝ × ℕ), Inv T N P wl →
    explore (env T engines tries G) o low ks wl r = some x → Inv T N P x.1 := by
  intro ks
  induction ks with
  | nil =>
    intro wl r x h hr
    simp only [explore, Option.some.injEq] at hr
    rw [← hr]; exact h
  | cons k ks ih =>
    intro wl r x h hr
    simp only [explore] at hr
    split at hr
    · cases hr
    · rename_i wl1 r1 h1
      refine ih _ _ _ ?_ hr
      simp only [exploreWalker] at h1
      split at h1
      · cases h1
      · rename_i wl2 m2 r2 b2 h2
        split at h1
        · cases h1
        · split at h1
          · cases h1
          · split at h1
            · cases h1
            · split at h1
              · cases h1
              · simp only [Option.some.injEq, Prod.mk.injEq] at h1
                rw [← h1.1]
                exact trial_inv T engines tries G o N P low hP k _ _ _ _ _ _ h h2

theorem copy_inv (o : Opts) (it worst N : ℕ) (e : Env ℕ ℕ) : ∀ (ks : List ℕ) (wl : WalkerList ℕ ℝ) (r : ℕ)
    (x : WalkerList ℕ ℝ × ℕ), Inv T N (fun _ => True) wl → copyLoop e o it worst ks wl r = some x →
    Inv T N (fun _ => True) x.1 := by
  intro ks
  induction ks with
  | nil =>
    intro wl r x h hr
    simp only [copyLoop, Option.some.injEq] at hr
    rw [← hr]; exact h
  | cons k ks ih =>
    intro wl r x h hr
    simp only [copyLoop] at hr
    split at hr
    · split at hr
      · cases hr
      · rename_i wl1 h1
        refine ih _ _ _ ?_ hr
        simp only [WalkerList.copy] at h1
        split at h1
        · rename_i d s hd hs
          rw [← Option.some.inj h1]
          refine ⟨by simpa using h.1, fun w hw => ?_⟩
          rcases List.mem_or_eq_of_mem_set hw with hw | rfl
          · exact h.2 w hw
          · exact ⟨(h.2 d (List.mem_of_getElem? hd)).1, (h.2 s (List.mem_of_getElem? hs)).2.1, trivial⟩
        · cases h1
    · cases hr

/-! ## Samples -/

theorem evLoop_all (Q : List ℕ → ℝ → Prop) (o : Opts) : ∀ (ws : List (Walker ℕ ℝ)) (kw : ℕ) (s : St ℕ ℕ),
    (∀ y ∈ s.samples.items, Q y.allpars y.logL) → (∀ w ∈ ws, Q w.allpars w.logL) →
    ∀ y ∈ (evLoop o kw ws s).samples.items, Q y.allpars y.logL := by
  intro ws
  induction ws with
  | nil => intro kw s h _; exact h
  | cons w ws ih =>
    intro kw s h hw
    simp only [evLoop]
    refine ih _ _ ?_ fun v hv => hw v (by simp [hv])
    intro y hy
    simp only [evStep, SampleList.add, toSample, List.mem_append, List.mem_singleton] at hy
    rcases hy with hy | rfl
    · exact h y hy
    · exact hw w (by simp)

theorem weed_sublist (sl : SampleList ℕ) (m : Option ℕ) : List.Sublist (sl.weed m).items sl.items := by
  rcases m with _ | m
  · exact List.Sublist.refl _
  · exact (C53_weed sl m).2.1.sublist

/-- What holds in every state of the while loop. -/
structure State (N : ℕ) (s : St ℕ ℕ) : Prop where
  walkers : Inv T N (fun _ => True) s.walkers
  samples : ∀ y ∈ s.samples.items, IsTour T y.allpars y.logL
  ascend : (s.samples.items.map Sample.logL).Pairwise (· ≤ ·)
  below : ∀ y ∈ s.samples.items, ∀ w ∈ s.walkers.items, y.logL ≤ w.logL

theorem body_state (o : Opts) (N : ℕ) (s s' : St ℕ ℕ) (h : State T N s)
    (hb : body (env T engines tries G) o s = some s') :
    State T N s' ∧ Inv T N (fun x => s'.lowLhood ≤ x) s'.walkers := by
  obtain ⟨h1, hl, hlt, w, wl1, r1, hw, hlow, hit, hc, hx, s1, hs1, hs, hz, hi, hwd, hdz⟩ := body_spec _ o _ _ hb
  have hmem : ∀ v, v ∈ (sortWalkers s.walkers).items ↔ v ∈ s.walkers.items := by
    intro v; simp [sortWalkers]
  have hI0 : Inv T N (fun _ => True) (sortWalkers s.walkers) :=
    ⟨by simpa [sortWalkers] using h.walkers.1, fun v hv => h.walkers.2 v ((hmem v).1 hv)⟩
  have hI1 : Inv T N (fun _ => True) wl1 := copy_inv T o _ _ N _ _ _ _ (wl1, r1) hI0 hc
  have hgt := sort_above s.walkers _ w hw
  obtain ⟨_, hab, _⟩ := copyLoop_above _ o (s.iteration + 1) o.discard w.logL _ _ _ _ _
    (fun k hk => by simpa using hk) hc (by
      intro i v hi hv
      refine hgt i v ?_ hv
      rcases hi with hi | hi
      · omega
      · simp at hi; omega)
  have hI2 : Inv T N (fun x => w.logL ≤ x) wl1 :=
    ⟨hI1.1, fun v hv => ⟨(hI1.2 v hv).1, (hI1.2 v hv).2.1, hab v hv⟩⟩
  have hI3 := explore_inv T engines tries G o N (fun x => w.logL ≤ x) w.logL (fun x hx => hx) _ _ _ _ hI2 hx
  have htake : ∀ v ∈ (sortWalkers s.walkers).items.take o.discard, v.logL ≤ w.logL := by
    intro v hv
    obtain ⟨i, hi⟩ := List.mem_iff_getElem?.1 hv
    rw [List.getElem?_take] at hi
    split at hi
    · exact sort_above s.walkers i v hi _ _ (by omega) hw
    · exact absurd hi (by simp)
  have hsub : List.Sublist s'.samples.items s1.samples.items := by rw [hs]; exact weed_sublist _ _
  have hLs : s1.samples.items.map Sample.logL = s.samples.items.map Sample.logL ++
      ((sortWalkers s.walkers).items.take o.discard).map Walker.logL := by
    rw [hs1, evLoop_logL]
  refine ⟨⟨⟨hI3.1, fun v hv => ⟨(hI3.2 v hv).1, (hI3.2 v hv).2.1, trivial⟩⟩, ?_, ?_, ?_⟩, by rw [hlow]; exact hI3⟩
  · intro y hy
    have hy' := hsub.subset hy
    rw [hs1] at hy'
    refine evLoop_all (IsTour T) o _ _ _ ?_ ?_ y hy'
    · exact h.samples
    · exact fun v hv => (h.walkers.2 v ((hmem v).1 (List.mem_of_mem_take hv))).2.1
  · refine List.Pairwise.sublist (hsub.map _) ?_
    rw [hLs, List.pairwise_append]
    refine ⟨h.ascend, ?_, ?_⟩
    · rw [List.map_take]
      exact (sort_pairwise s.walkers).sublist (List.take_sublist _ _)
    · intro a ha b hb
      obtain ⟨x, hx, rfl⟩ := List.mem_map.1 ha
      obtain ⟨v, hv, rfl⟩ := List.mem_map.1 hb
      exact h.below x hx v ((hmem v).1 (List.mem_of_mem_take hv))
  · intro y hy v hv
    have hy' : y.logL ∈ s1.samples.items.map Sample.logL := List.mem_map_of_mem (hsub.subset hy)
    rw [hLs] at hy'
    refine le_trans ?_ (hI3.2 v hv).2.2
    rcases List.mem_append.1 hy' with h' | h'
    · obtain ⟨x, hx, hxe⟩ := List.mem_map.1 h'
      rw [← hxe]
      exact h.below x hx w ((hmem w).1 (List.mem_of_getElem? hw))
    · obtain ⟨u, hu, hue⟩ := List.mem_map.1 h'
      rw [← hue]
      exact htake u hu

theorem loop_state (o : Opts) (N : ℕ) : ∀ (fuel : ℕ) (s s' : St ℕ ℕ), State T N s →
    loop (env T engines tries G) o fuel s = .done s' → State T N s' := by
  intro fuel
  induction fuel with
  | zero =>
    intro s s' h hl
    simp only [loop] at hl
    split at hl
    · cases hl
    · injection hl with hl; rw [← hl]; exact h
  | succ n ih =>
    intro s s' h hl
    simp only [loop] at hl
    split at hl
    · split at hl
      · cases hl
      · rename_i s1 h1
        exact ih _ _ (body_state T engines tries G o N s s1 h h1).1 hl
    · injection hl with hl; rw [← hl]; exact h

/-! ## Start -/

theorem addWalkers_items (w : Walker ℕ ℝ) : ∀ (n : ℕ) (wl : WalkerList ℕ ℝ), wl.count = wl.items.length →
    (wl.addWalkers w n).items.length = wl.items.length + n ∧
      ∀ v ∈ (wl.addWalkers w n).items, v ∈ wl.items ∨ (v.id < wl.items.length + n ∧ v.allpars = w.allpars) := by
  intro n
  induction n with
  | zero => intro wl _; exact ⟨rfl, fun v hv => Or.inl hv⟩
  | succ n ih =>
    intro wl hc
    simp only [WalkerList.addWalkers]
    obtain ⟨a, b⟩ := ih ⟨wl.items ++ [{ w with id := wl.count }], wl.count + 1⟩ (by simp [hc])
    refine ⟨by rw [a]; simp; omega, fun v hv => ?_⟩
    rcases b v hv with h | h
    · rcases List.mem_append.1 h with h | h
      · exact Or.inl h
      · rw [List.mem_singleton] at h
        subst h
        exact Or.inr ⟨by simp only; omega, rfl⟩
    · refine Or.inr ⟨?_, h.2⟩
      have := h.1
      simp at this
      omega

/-- Walkers before the engine has started them: the likelihood is not yet theirs. -/
def Begin (N : ℕ) (done : ℕ → Prop) (wl : WalkerList ℕ ℝ) : Prop :=
  wl.items.length = N ∧ ∀ (i : ℕ) (w : Walker ℕ ℝ), wl.items[i]? = some w →
    w.id = i ∧ w.allpars.Perm (List.range T.cities) ∧ (done i → w.logL = T.logL w.allpars)

theorem addWalkers_ids (w : Walker ℕ ℝ) : ∀ (n : ℕ) (wl : WalkerList ℕ ℝ), wl.count = wl.items.length →
    (∀ (i : ℕ) (v : Walker ℕ ℝ), wl.items[i]? = some v → v.id = i) →
    ∀ (i : ℕ) (v : Walker ℕ ℝ), (wl.addWalkers w n).items[i]? = some v → v.id = i := by
  intro n
  induction n with
  | zero => intro wl _ h; exact h
  | succ n ih =>
    intro wl hc h
    simp only [WalkerList.addWalkers]
    refine ih _ (by simp [hc]) ?_
    intro i v hv
    rw [List.getElem?_append] at hv
    split at hv
    · exact h i v hv
    · rename_i hi
      obtain ⟨k, hk⟩ : ∃ k, i = wl.items.length + k := ⟨i - wl.items.length, by omega⟩
      subst hk
      rw [Nat.add_sub_cancel_left] at hv
      rcases k with _ | k
      · simp only [List.getElem?_cons_zero, Option.some.injEq] at hv
        rw [← hv, Nat.add_zero]; exact hc
      · simp at hv

theorem startLoop_begin (hG : ∀ k l, (G.start k l).Perm l) (N : ℕ) : ∀ (ks : List ℕ) (done : ℕ → Prop)
    (wl wl' : WalkerList ℕ ℝ), Begin T N done wl → startLoop T G ks wl = some wl' →
    Begin T N (fun i => done i ∨ i ∈ ks) wl' := by
  intro ks
  induction ks with
  | nil =>
    intro done wl wl' h hs
    simp only [startLoop, Option.some.injEq] at hs
    rw [← hs]
    exact ⟨h.1, fun i w hw => ⟨(h.2 i w hw).1, (h.2 i w hw).2.1, fun hd => (h.2 i w hw).2.2 (by simpa using hd)⟩⟩
  | cons k ks ih =>
    intro done wl wl' h hs
    simp only [startLoop] at hs
    split at hs
    · cases hs
    · rename_i wl1 t1 h1
      have hb : Begin T N (fun i => done i ∨ i = k) wl1 := by
        simp only [Orders.startOrder] at h1
        split at h1
        · cases h1
        · rename_i w hw
          simp only [Option.some.injEq, Prod.mk.injEq] at h1
          obtain ⟨hid, hp, -⟩ := h.2 k w hw
          have hk : k < wl.items.length := (List.getElem?_eq_some_iff.1 hw).1
          rw [← h1.1, hid]
          simp only [Orders.engineSetWalker, hw, WalkerList.setWalker, hk, if_true]
          refine ⟨by simpa using h.1, fun i v hv => ?_⟩
          rw [List.getElem?_set] at hv
          split at hv
          · rename_i hki
            rw [← Option.some.inj hv]
            exact ⟨by simp only; omega, (hG k _).trans hp, fun _ => rfl⟩
          · rename_i hki
            refine ⟨(h.2 i v hv).1, (h.2 i v hv).2.1, fun hd => (h.2 i v hv).2.2 ?_⟩
            rcases hd with hd | hd
            · exact hd
            · exact absurd hd.symm hki
      have := ih _ _ _ hb hs
      refine ⟨this.1, fun i w hw => ⟨(this.2 i w hw).1, (this.2 i w hw).2.1, fun hd => (this.2 i w hw).2.2 ?_⟩⟩
      rcases hd with hd | hd
      · exact Or.inl (Or.inl hd)
      · rcases List.mem_cons.1 hd with hd | hd
        · exact Or.inl (Or.inr hd)
        · exact Or.inr hd

theorem makeFitlist_length (keep : List (ℕ × ℕ)) : (makeFitlist T keep).length = T.cities := by
  have : ∀ (keep : List (ℕ × ℕ)) (l : List ℕ), (keep.foldl (fun l a => l.set a.1 a.2) l).length = l.length := by
    intro keep
    induction keep with
    | nil => intro l; rfl
    | cons a keep ih => intro l; rw [List.foldl_cons, ih]; simp
  rw [makeFitlist, this]; simp

theorem initWalkers_inv (hG : ∀ k l, (G.start k l).Perm l) (N : ℕ) (keep : List (ℕ × ℕ)) (wl : WalkerList ℕ ℝ)
    (h : initWalkers T G N (makeFitlist T keep) = some wl) : Inv T N (fun _ => True) wl := by
  simp only [initWalkers, makeFitlist_length] at h
  have hb : Begin T N (fun _ => False) (WalkerList.addWalkers ⟨[], 0⟩ ⟨0, -1, 0, 0, List.range T.cities, 0⟩ N) := by
    obtain ⟨a, b⟩ := addWalkers_items ⟨0, -1, 0, 0, List.range T.cities, 0⟩ N ⟨[], 0⟩ rfl
    refine ⟨by rw [a]; simp, fun i w hw => ⟨?_, ?_, fun hf => hf.elim⟩⟩
    · exact addWalkers_ids _ N ⟨[], 0⟩ rfl (by simp) i w hw
    · rcases b w (List.mem_of_getElem? hw) with hb | hb
      · simp at hb
      · rw [hb.2]
  have hd := startLoop_begin T G hG N _ _ _ _ hb h
  refine ⟨hd.1, fun w hw => ?_⟩
  obtain ⟨i, hi⟩ := List.mem_iff_getElem?.1 hw
  have hiN : i < N := by rw [← hd.1]; exact (List.getElem?_eq_some_iff.1 hi).1
  obtain ⟨h1, h2, h3⟩ := hd.2 i w hi
  exact ⟨by omega, ⟨h2, h3 (Or.inr (List.mem_range.2 hiN))⟩, trivial⟩

theorem prepare_state (hG : ∀ k l, (G.start k l).Perm l) (o : Opts) (lowest : ℝ) (keep : List (ℕ × ℕ)) (s : St ℕ ℕ)
    (h : prepare T engines tries G o lowest keep = some s) : State T o.ensemble s := by
  simp only [prepare] at h
  split at h
  · cases h
  · rename_i wl hwl
    split at h
    · cases h
    · rename_i wl' r hx
      rw [← Option.some.inj h]
      have hI := initWalkers_inv T G hG o.ensemble keep wl hwl
      have := explore_inv T engines tries G o o.ensemble (fun _ => True) lowest (fun _ _ => trivial) _ _ _ _ hI hx
      exact ⟨this, by simp [initState], by simp [initState], by simp [initState]⟩

/-! ## The claims -/

/-- Specification: the cost of a tour. Each leg goes to the next city, the last one back to the first, unless the tour is one way. -/
def cost (T : Tour) (l : List ℕ) : ℝ :=
  ((List.range l.length).map fun i : ℕ =>
    (if T.oneway = true ∧ i + 1 = l.length then 0 else T.dist l[i]! l[(i + 1) % l.length]! / T.scale) *
      T.weights.elim 1 (fun w => w l[i]!)).sum

theorem logL_cost (T : Tour) (l : List ℕ) : T.logL l = - cost T l := by
  obtain ⟨cities, dist, scale, oneway, weights, xy⟩ := T
  simp only [Tour.logL, Salesman.logLikelihood, Salesman.logLdata]
  rw [Salesman.sum_neg_map]
  congr 1
  unfold cost
  congr 1
  apply List.ext_getElem
  · simp only [Salesman.result]
    cases oneway <;> cases weights <;> simp [Salesman.legs]
  · intro i h1 h2
    have hi : i < l.length := by simpa using h2
    have hm : (i + 1) % l.length < l.length := Nat.mod_lt _ (by omega)
    simp only [Salesman.result] at h1 ⊢
    cases oneway <;> cases weights <;>
      simp [Salesman.legs, List.getElem_rotate, getElem!_pos, hi, hm, List.getElem_set] <;>
      by_cases hl : i + 1 = l.length <;> simp [hl, show (l.length - 1 = i) ↔ (i + 1 = l.length) by omega]

theorem solve_tours (hG : ∀ k l, (G.start k l).Perm l) (o : Opts) (lowest : ℝ) (keep : List (ℕ × ℕ)) (fuel : ℕ)
    (x : Sample ℕ) (sl : SampleList ℕ) (h : solve T engines tries G o lowest keep fuel = .solved x sl) :
    sl.items.getLast? = some x ∧ (∀ y ∈ sl.items, IsTour T y.allpars y.logL) ∧
      ((sl.items.take (sl.items.length - o.ensemble)).map Sample.logL).Pairwise (· ≤ ·) ∧
      ∀ y ∈ sl.items.take (sl.items.length - o.ensemble), y.logL ≤ x.logL := by
  simp only [solve] at h
  split at h
  · cases h
  · rename_i s0 h0
    split at h
    · cases h
    · cases h
    · rename_i s1 h1
      split at h
      · cases h
      · rename_i s2 h2
        split at h
        · cases h
        · rename_i x' hx
          injection h with hx1 hx2
          subst hx1 hx2
          have hS := loop_state T engines tries G o o.ensemble fuel s0 s1
            (prepare_state T engines tries G hG o lowest keep s0 h0) h1
          simp only [finish] at h2
          split at h2
          · cases h2
          · rename_i s3 h3
            split at h2
            · cases h2
            · rename_i sl hsl
              rw [← Option.some.inj h2] at hx ⊢
              simp only at hx ⊢
              simp only [updateEvidence] at h3
              split at h3
              · cases h3
              · have hlen : s1.walkers.items.length = o.ensemble := hS.walkers.1
                rw [List.take_of_length_le (le_of_eq hlen)] at h3
                obtain ⟨_, c, hc, _⟩ := normalize_spec s3.samples sl hsl
                have hL : s3.samples.items.map Sample.logL =
                    s1.samples.items.map Sample.logL ++ s1.walkers.items.map Walker.logL := by
                  rw [← Option.some.inj h3, evLoop_logL]
                have hLs : sl.items.map Sample.logL =
                    s1.samples.items.map Sample.logL ++ s1.walkers.items.map Walker.logL := by
                  rw [normalize_logL _ _ hsl, hL]
                have hn : sl.items.length - o.ensemble = s1.samples.items.length := by
                  have := congrArg List.length hLs
                  simp only [List.length_map, List.length_append] at this
                  omega
                have htk : (sl.items.take (sl.items.length - o.ensemble)).map Sample.logL =
                    s1.samples.items.map Sample.logL := by
                  rw [hn, List.map_take, hLs, List.take_left' (by simp)]
                have hpos : s1.walkers.items ≠ [] := by
                  intro h0
                  rename_i hne
                  rw [h0] at hlen
                  simp at hlen
                  omega
                refine ⟨hx, ?_, by rw [htk]; exact hS.ascend, ?_⟩
                · intro y hy
                  rw [hc] at hy
                  obtain ⟨z, hz, rfl⟩ := List.mem_map.1 hy
                  have := evLoop_all (IsTour T) o s1.walkers.items 0 s1 hS.samples (fun w hw => (hS.walkers.2 w hw).2.1) z
                    (by rw [Option.some.inj h3]; exact hz)
                  exact this
                · intro y hy
                  have hyL : y.logL ∈ s1.samples.items.map Sample.logL := by
                    rw [← htk]; exact List.mem_map_of_mem hy
                  obtain ⟨z, hz, hze⟩ := List.mem_map.1 hyL
                  have hxl : (sl.items.map Sample.logL).getLast? = some x'.logL := by
                    rw [List.getLast?_map, hx]; rfl
                  rw [hLs, List.getLast?_append_of_ne_nil _ (by simpa using hpos)] at hxl
                  have hxm : x'.logL ∈ s1.walkers.items.map Walker.logL := List.mem_of_getLast? hxl
                  obtain ⟨w, hw, hwe⟩ := List.mem_map.1 hxm
                  rw [← hze, ← hwe]
                  exact hS.below z hz w hw

/-- C100. `solve` returns a tour through all cities, and so are all samples; the likelihood of each is minus the cost of its tour. The samples
stored in the iterations come in ascending order of likelihood and none of them is better than the one that is returned.
Missing: that none of the remaining walkers, which are stored at the end, is better, and that no better tour was seen during the
run; see the counterexamples. -/
theorem C100_solve_partial (hG : ∀ k l, (G.start k l).Perm l) (o : Opts) (lowest : ℝ) (keep : List (ℕ × ℕ)) (fuel : ℕ)
    (x : Sample ℕ) (sl : SampleList ℕ) (h : solve T engines tries G o lowest keep fuel = .solved x sl) :
    sl.items.getLast? = some x ∧ (∀ y ∈ sl.items, y.allpars.Perm (List.range T.cities) ∧ y.logL = - cost T y.allpars) ∧
      ((sl.items.take (sl.items.length - o.ensemble)).map Sample.logL).Pairwise (· ≤ ·) ∧
      ∀ y ∈ sl.items.take (sl.items.length - o.ensemble), y.logL ≤ x.logL := by
  obtain ⟨h1, h2, h3, h4⟩ := solve_tours T engines tries G hG o lowest keep fuel x sl h
  exact ⟨h1, fun y hy => ⟨(h2 y hy).1, by rw [(h2 y hy).2, logL_cost]⟩, h3, h4⟩

theorem reach_state (hG : ∀ k l, (G.start k l).Perm l) (o : Opts) (lowest : ℝ) (keep : List (ℕ × ℕ)) (s0 s : St ℕ ℕ)
    (h0 : prepare T engines tries G o lowest keep = some s0) (hr : Reach (env T engines tries G) o s0 s) :
    State T o.ensemble s := by
  induction hr with
  | refl => exact prepare_state T engines tries G hG o lowest keep s0 h0
  | step _ _ hb ih => exact (body_state T engines tries G o o.ensemble _ _ ih hb).1

/-- C100. In every iteration: the ensemble keeps its size, every walker is a tour and is not below the level; the levels rise.
This holds although the engines store their result at the place of another walker. -/
theorem C100_floor (hG : ∀ k l, (G.start k l).Perm l) (o : Opts) (lowest : ℝ) (keep : List (ℕ × ℕ)) (s0 s s1 s2 : St ℕ ℕ)
    (h0 : prepare T engines tries G o lowest keep = some s0) (hr : Reach (env T engines tries G) o s0 s)
    (h1 : body (env T engines tries G) o s = some s1) (h2 : body (env T engines tries G) o s1 = some s2) :
    s1.walkers.items.length = o.ensemble ∧
      (∀ w ∈ s1.walkers.items, IsTour T w.allpars w.logL ∧ s1.lowLhood ≤ w.logL) ∧
      (∀ y ∈ s1.samples.items, y.logL ≤ s1.lowLhood) ∧ s1.lowLhood ≤ s2.lowLhood := by
  have hS := reach_state T engines tries G hG o lowest keep s0 s h0 hr
  obtain ⟨hS1, hI⟩ := body_state T engines tries G o o.ensemble s s1 hS h1
  refine ⟨hI.1, fun w hw => (hI.2 w hw).2, ?_, ?_⟩
  · obtain ⟨_, _, _, w, wl1, r1, hw, hlow, _, _, _, t, ht, hs, _⟩ := body_spec _ o _ _ h1
    intro y hy
    have hsub : List.Sublist s1.samples.items t.samples.items := by rw [hs]; exact weed_sublist _ _
    have hy' : y.logL ∈ t.samples.items.map Sample.logL := List.mem_map_of_mem (hsub.subset hy)
    rw [ht, evLoop_logL] at hy'
    rw [hlow]
    rcases List.mem_append.1 hy' with h' | h'
    · obtain ⟨x, hx, hxe⟩ := List.mem_map.1 h'
      rw [← hxe]
      exact hS.below x hx w (by simpa [sortWalkers] using List.mem_of_getElem? hw)
    · obtain ⟨v, hv, hve⟩ := List.mem_map.1 h'
      rw [← hve]
      obtain ⟨i, hi⟩ := List.mem_iff_getElem?.1 hv
      rw [List.getElem?_take] at hi
      split at hi
      · exact sort_above s.walkers i v hi _ _ (by omega) hw
      · exact absurd hi (by simp)
  · obtain ⟨_, _, _, w, wl1, r1, hw, hlow, _⟩ := body_spec _ o _ _ h2
    rw [hlow]
    exact (hI.2 w (by simpa [sortWalkers] using List.mem_of_getElem? hw)).2.2

/-! ## What goes wrong -/

/-- C100 fails: a distribution given to the constructor always raises a TypeError, whatever it is; the default works. -/
theorem C100_counterexample_distribution : construct .none = some "distance" ∧ ∀ d, d ≠ .none → construct d = none := by
  refine ⟨rfl, fun d hd => ?_⟩
  cases d with
  | none => exact absurd rfl hd
  | name s => rfl
  | object => rfl

/-- C100: an unknown name of an engine raises; without names there are four engines. -/
theorem C100_engines (names : List String) : (setEngines (some names) = none ↔
      ∃ n ∈ names, n ∉ ["move", "reverse", "loop", "near", "shuffle", "switch"]) ∧
    setEngines none = some [.move, .reverse, .switch, .loop] := by
  have hd : ∀ n, enginedict n = none ↔ n ∉ ["move", "reverse", "loop", "near", "shuffle", "switch"] := by
    intro n
    unfold enginedict
    split <;> simp_all
  refine ⟨?_, rfl⟩
  simp only [setEngines, Option.getD_some]
  induction names with
  | nil => simp
  | cons n names ih =>
    rw [List.mapM_cons]
    cases h : enginedict n with
    | none => simpa using Or.inl (by simpa using (hd n).1 h)
    | some e =>
      have hn : ¬ n ∉ ["move", "reverse", "loop", "near", "shuffle", "switch"] := by rw [← hd, h]; simp
      cases h' : names.mapM enginedict with
      | none =>
        have := ih.1 h'
        simp only [List.mem_cons, exists_eq_or_imp, Option.pure_def, Option.bind_eq_bind, Option.bind_some]
        simpa using Or.inr (by simpa using this)
      | some es =>
        have h2 : ¬ ∃ n ∈ names, n ∉ ["move", "reverse", "loop", "near", "shuffle", "switch"] := by
          rw [← ih, h']; simp
        simp only [Option.bind_eq_bind, Option.bind_some, Option.pure_def, reduceCtorEq, false_iff]
        rintro ⟨m, hm, hm'⟩
        rcases List.mem_cons.1 hm with rfl | hm
        · exact hn hm'
        · exact h2 ⟨m, hm, hm'⟩

theorem round_shuffle (kw : ℕ) (low : ℝ) (g : ℕ) (hg : engines[g]? = some .shuffle) : ∀ (gs : List ℕ) (wl : WalkerList ℕ ℝ)
    (mv r : ℕ), g ∈ gs → engineRound (env T engines tries G) kw low gs wl mv r = none := by
  intro gs
  induction gs with
  | nil => intro wl mv r h; simp at h
  | cons a gs ih =>
    intro wl mv r h
    simp only [engineRound]
    rcases List.mem_cons.1 h with rfl | h
    · have : (env T engines tries G).execute g r wl kw low = none := by simp [env, hg]
      rw [this]
    · split
      · rfl
      · exact ih _ _ _ h

theorem walker_shuffle (o : Opts) (kw : ℕ) (low : ℝ) (g : ℕ) (hg : engines[g]? = some .shuffle)
    (ho : ∀ r, g ∈ G.order r) (wl : WalkerList ℕ ℝ) (r : ℕ) :
    exploreWalker (env T engines tries G) o kw low wl r = none := by
  have hc : ∀ w, (env T engines tries G).logLcheck w = false := fun _ => rfl
  simp only [exploreWalker]
  rcases hn : o.maxtrials with _ | n
  · simp only [trialLoop]
    split
    · rfl
    · simp [hc]
  · simp only [trialLoop]
    by_cases hm : 0 < o.maxmoves
    · rw [if_pos hm]
      have : engineRound (env T engines tries G) kw low ((env T engines tries G).permutation r).1 wl 0
          ((env T engines tries G).permutation r).2 = none := round_shuffle T engines tries G kw low g hg _ _ _ _ (ho r)
      rw [this]
    · rw [if_neg hm]
      simp only
      split
      · rfl
      · simp [hc]

/-- C100 fails: with ShuffleEngine among the engines every call raises, whatever the problem, the options and the random numbers. -/
theorem C100_counterexample_shuffle (o : Opts) (ho : 0 < o.ensemble) (lowest : ℝ) (keep : List (ℕ × ℕ)) (fuel : ℕ) (g : ℕ)
    (hg : engines[g]? = some .shuffle) (hr : ∀ r, g ∈ G.order r) :
    solve T engines tries G o lowest keep fuel = .raised := by
  have : prepare T engines tries G o lowest keep = none := by
    simp only [prepare]
    split
    · rfl
    · obtain ⟨n, hn⟩ : ∃ n, o.ensemble = n + 1 := ⟨o.ensemble - 1, by omega⟩
      rw [hn, List.range_succ_eq_map]
      simp only [explore, walker_shuffle T engines tries G o _ _ g hg hr]
  simp only [solve, this]

/-- C100 fails: the keyword `keep` changes nothing, so cities cannot be kept at a place. -/
theorem C100_counterexample_keep (o : Opts) (lowest : ℝ) (keep : List (ℕ × ℕ)) (fuel : ℕ) :
    solve T engines tries G o lowest keep fuel = solve T engines tries G o lowest [] fuel := by
  have : ∀ k, initWalkers T G o.ensemble (makeFitlist T k) = initWalkers T G o.ensemble (List.range T.cities) := by
    intro k
    simp only [initWalkers, makeFitlist_length, List.length_range]
  simp only [solve, prepare, this]

theorem switch_ne (param : List ℕ) (hn : param.Nodup) (hp : 1 < param.length) (a b : ℕ) :
    Orders.switchTry param (a % param.length) (Orders.otherThan (a % param.length) param.length b) ≠ param := by
  set n := param.length with hn'
  have ha : a % n < n := Nat.mod_lt _ (by omega)
  have hb : b % (n - 1) < n - 1 := Nat.mod_lt _ (by omega)
  have hd : Orders.otherThan (a % n) n b < n := Nat.mod_lt _ (by omega)
  have hne : Orders.otherThan (a % n) n b ≠ a % n := by
    unfold Orders.otherThan
    intro h
    by_cases hlt : a % n + 1 + b % (n - 1) < n
    · rw [Nat.mod_eq_of_lt hlt] at h; omega
    · rw [Nat.mod_eq_sub_mod (by omega), Nat.mod_eq_of_lt (by omega)] at h; omega
  generalize a % n = i at *
  generalize Orders.otherThan i n b = j at *
  simp only [Orders.switchTry, List.getElem?_eq_getElem (show i < param.length by omega),
    List.getElem?_eq_getElem (show j < param.length by omega)]
  intro h
  have := congrArg (fun l : List ℕ => l[j]?) h
  simp only [List.getElem?_set, List.length_set, if_true, show j < param.length by omega] at this
  rw [List.getElem?_eq_getElem (by omega), Option.some.injEq] at this
  exact hne ((List.Nodup.getElem_inj_iff hn).1 this).symm

/-- C100 fails: a walker that cannot move makes the run raise instead of being left where it is. With SwitchEngine alone this
happens at a tour for which all others are below the level, for all random numbers. -/
theorem C100_counterexample_stuck (o : Opts) (kw : ℕ) (low : ℝ) (wl : WalkerList ℕ ℝ) (w : Walker ℕ ℝ) (r : ℕ)
    (hw : wl.items[kw]? = some w) (hT : w.allpars.Perm (List.range T.cities)) (hc : 1 < T.cities)
    (hbest : ∀ q : List ℕ, q.Perm w.allpars → q ≠ w.allpars → T.logL q < low) :
    exploreWalker (env T [.switch] tries G) o kw low wl r = none := by
  have hlen : w.allpars.length = T.cities := by simpa using hT.length_eq
  have hnd : w.allpars.Nodup := hT.nodup_iff.2 List.nodup_range
  have honce : ∀ draw table, Eng.once .switch T low draw table w.allpars = some (.reject 0) := by
    intro draw table
    cases h : Eng.once .switch T low draw table w.allpars with
    | none => simp [Eng.once, Orders.switchOnce, hlen, show ¬ T.cities ≤ 1 by omega] at h; split at h <;> simp at h
    | some x =>
      cases x with
      | accept t p l =>
        obtain ⟨h1, h2, h3⟩ := once_legal .switch T low draw table w.allpars t p l h
        have hp : p ≠ w.allpars := by
          simp only [Eng.once, Orders.switchOnce, if_neg (show ¬ w.allpars.length ≤ 1 by omega)] at h
          split at h
          · simp only [Option.some.injEq, Orders.Outcome.accept.injEq] at h
            rw [← h.2.1]
            exact switch_ne _ hnd (by omega) _ _
          · simp at h
        have := hbest p h1 hp
        rw [← h2] at this
        exact absurd h3 (not_le.2 this)
      | reject t =>
        simp only [Eng.once, Orders.switchOnce, if_neg (show ¬ w.allpars.length ≤ 1 by omega)] at h
        split at h
        · simp at h
        · exact h.symm
  have hexec : ∀ g r, (env T [.switch] tries G).execute g r wl kw low = none ∨
      (env T [.switch] tries G).execute g r wl kw low = some (wl, 0, r + 1) := by
    intro g r
    rcases g with _ | g
    · right
      have : ∀ (n i : ℕ), Orders.execute (fun i => Eng.once .switch T low (G.draws r i) (G.table r i)) kw n i wl =
          some (wl, 0) := by
        intro n
        induction n with
        | zero => intro i; rfl
        | succ n ih => intro i; simp only [Orders.execute, hw, honce, Orders.store, if_true, ih]
      simp only [env, List.getElem?_cons_zero, this]
    · left; simp [env]
  have hround : ∀ gs r, engineRound (env T [.switch] tries G) kw low gs wl 0 r = none ∨
      ∃ r', engineRound (env T [.switch] tries G) kw low gs wl 0 r = some (wl, 0, r') := by
    intro gs
    induction gs with
    | nil => intro r; exact Or.inr ⟨r, rfl⟩
    | cons g gs ih =>
      intro r
      simp only [engineRound]
      rcases hexec g r with h | h
      · simp [h]
      · simp only [h]; exact ih _
  have htrial : ∀ n r b, trialLoop (env T [.switch] tries G) o kw low n wl 0 r b = none ∨
      ∃ r' b', trialLoop (env T [.switch] tries G) o kw low n wl 0 r b = some (wl, 0, r', b') := by
    intro n
    induction n with
    | zero => intro r b; exact Or.inr ⟨r, b, rfl⟩
    | succ n ih =>
      intro r b
      simp only [trialLoop]
      split
      · rcases hround ((env T [.switch] tries G).permutation r).1 ((env T [.switch] tries G).permutation r).2 with h | ⟨r', h⟩
        · simp [h]
        · simp only [h]; exact ih _ _
      · exact Or.inr ⟨r, b, rfl⟩
  simp only [exploreWalker]
  rcases htrial o.maxtrials r false with h | ⟨r', b', h⟩
  · rw [h]
  · rw [h]
    simp only [hw]
    simp [env]

/-! ## Concrete runs -/

/-- Three cities on a line, at 0, 1 and 3. -/
def line : Tour where
  cities := 3
  dist a b := |(if a = 2 then 3 else (a : ℝ)) - (if b = 2 then 3 else (b : ℝ))|
  scale := 1
  oneway := true
  weights := none
  xy a := (a, 0)

def opts : Opts where
  ensemble := 3
  discard := 1
  minimumIterations := 1
  maxIterations := some 0
  tolerance := -12
  «end» := 2
  maxsize := none
  maxmoves := 3
  maxtrials := 5

theorem line_abc : line.logL [0, 1, 2] = -3 ∧ line.logL [0, 2, 1] = -5 ∧ line.logL [1, 0, 2] = -4 ∧
    line.logL [1, 2, 0] = -5 ∧ line.logL [2, 0, 1] = -4 ∧ line.logL [2, 1, 0] = -3 := by
  refine ⟨?_, ?_, ?_, ?_, ?_, ?_⟩ <;>
  · simp [Tour.logL, line, Salesman.result, Salesman.legs, Salesman.logLikelihood, Salesman.logLdata, List.rotate]
    norm_num

/-- The walkers start at [0,1,2], [1,0,2] and [0,2,1]; SwitchEngine always exchanges the outer two. -/
def gen1 : Gen where
  pick _ := 0
  order _ := [0]
  draws _ _ j := if j = 1 then 1 else 0
  table _ _ _ := none
  start k l := if k = 1 then Orders.switchTry l 0 1 else if k = 2 then Orders.switchTry l 1 2 else l

theorem run1 : prepare line [.switch] 5 gen1 opts (-1000) [] = some (initState opts
    ⟨[⟨0, -1, 0, 0, [0, 1, 2], -3⟩, ⟨1, -1, 0, 0, [1, 0, 2], -4⟩, ⟨2, -1, 0, 0, [0, 2, 1], -5⟩], 3⟩ (-1000) ⟨[], 0⟩ 0 12) := by
  obtain ⟨h1, h2, h3, h4, h5, h6⟩ := line_abc
  have hc : line.cities = 3 := rfl
  have hi : initWalkers line gen1 opts.ensemble (makeFitlist line []) =
      some ⟨[⟨0, -1, 0, 0, [0, 1, 2], -3⟩, ⟨1, -1, 0, 0, [1, 0, 2], -4⟩, ⟨2, -1, 0, 0, [0, 2, 1], -5⟩], 3⟩ := by
    simp [initWalkers, makeFitlist_length, hc, opts, List.range_succ, startLoop, WalkerList.addWalkers, Orders.startOrder,
      gen1, Orders.engineSetWalker, WalkerList.setWalker, Orders.switchTry, h1, h2, h3]
  simp only [prepare, hi]
  norm_num [opts, List.range_succ, explore, exploreWalker, trialLoop, engineRound, env, gen1, Orders.execute, Eng.once, Orders.switchOnce,
      Orders.otherThan, Orders.store,
      Orders.engineSetWalker, WalkerList.setWalker, Orders.switchTry, h1, h2, h3, h4, h5, h6]

theorem sorted1 : sortWalkers (⟨[⟨0, -1, 0, 0, [0, 1, 2], -3⟩, ⟨1, -1, 0, 0, [1, 0, 2], -4⟩, ⟨2, -1, 0, 0, [0, 2, 1], -5⟩], 3⟩ :
    WalkerList ℕ ℝ) = ⟨[⟨2, -1, 0, 0, [0, 2, 1], -5⟩, ⟨1, -1, 0, 0, [1, 0, 2], -4⟩, ⟨0, -1, 0, 0, [0, 1, 2], -3⟩], 3⟩ := by
  norm_num [sortWalkers, List.insertionSort, List.orderedInsert]

theorem body1 : ∃ s', body (env line [.switch] 5 gen1) opts (initState opts
      ⟨[⟨0, -1, 0, 0, [0, 1, 2], -3⟩, ⟨1, -1, 0, 0, [1, 0, 2], -4⟩, ⟨2, -1, 0, 0, [0, 2, 1], -5⟩], 3⟩ (-1000) ⟨[], 0⟩ 0 12) = some s' ∧
    s'.walkers.items.map Walker.logL = [-4, -4, -4] ∧ s'.iteration = 1 ∧ s'.logdZ = 0 ∧
    s'.samples.items.map Sample.logL = [-5] := by
  obtain ⟨h1, h2, h3, h4, h5, h6⟩ := line_abc
  refine ⟨_, by
    simp only [body, initState, sorted1]
    norm_num [opts, updateEvidence, updateWalkers, copyWalker, copyLoop, evLoop, evStep, WalkerList.copy, SampleList.weed,
      List.range_succ, explore, exploreWalker, trialLoop, engineRound, env, gen1, Orders.execute, Eng.once, Orders.switchOnce,
      Orders.otherThan, Orders.store, Orders.engineSetWalker, WalkerList.setWalker, Orders.switchTry, h1, h2, h3, h4, h5, h6]
    rfl, ?_⟩
  simp [SampleList.add, toSample, logaddexp]

/-- A run of one iteration. -/
theorem one_turn (o : Opts) (lowest : ℝ) (s0 s1 : St ℕ ℕ) (hp : prepare T engines tries G o lowest [] = some s0)
    (hn : nextIteration o s0 = true) (hb : body (env T engines tries G) o s0 = some s1) (hn1 : nextIteration o s1 = false)
    (hlen : s1.walkers.items.length = o.ensemble) (hpos : o.ensemble ≠ 0) (fuel : ℕ) :
    ∃ x sl, solve T engines tries G o lowest [] (fuel + 1) = .solved x sl ∧ sl.items.map Sample.logL =
      s1.samples.items.map Sample.logL ++ s1.walkers.items.map Walker.logL ∧
      sl.items.getLast? = some x := by
  have hloop : loop (env T engines tries G) o (fuel + 1) s0 = .done s1 := by
    simp only [loop, hn, if_true, hb]
    cases fuel <;> simp [loop, hn1]
  have hu : updateEvidence o o.ensemble s1 = some (evLoop o 0 s1.walkers.items s1) := by
    simp [updateEvidence, hlen, hpos, List.take_of_length_le]
  have hL := evLoop_logL o s1.walkers.items 0 s1
  have hne : (evLoop o 0 s1.walkers.items s1).samples.items ≠ [] := by
    intro h
    rw [h] at hL
    have := congrArg List.length hL
    simp at this
    omega
  obtain ⟨sl, hsl⟩ := Option.ne_none_iff_exists'.1
    (fun h => hne ((C06_normalize_defined _).1 h) : (evLoop o 0 s1.walkers.items s1).samples.normalize ≠ none)
  have hLs := normalize_logL _ _ hsl
  rw [hL] at hLs
  have hsne : sl.items ≠ [] := by
    intro h
    rw [h] at hLs
    have := congrArg List.length hLs
    simp at this
    omega
  refine ⟨sl.items.getLast hsne, sl, ?_, hLs, List.getLast?_eq_getLast_of_ne_nil hsne⟩
  simp only [solve, hp, hloop, finish, hu, hsl, List.getLast?_eq_getLast_of_ne_nil hsne]

/-- C100 fails: the best tour of the ensemble is lost. Three cities on a line; one of the walkers starts at the best tour there
is, [0,1,2], and is there still when the iterations begin. The engine that explores the copy in the first place stores its
result in the last place, over the best walker. What is returned is worse, and the best tour is not among the samples. -/
theorem C100_counterexample_lost : ∃ s0 x sl, prepare line [.switch] 5 gen1 opts (-1000) [] = some s0 ∧
    (∃ w ∈ s0.walkers.items, w.allpars = [0, 1, 2] ∧ w.logL = -3) ∧
    solve line [.switch] 5 gen1 opts (-1000) [] 1 = .solved x sl ∧ x.logL = -4 ∧ ∀ y ∈ sl.items, y.logL < -3 := by
  obtain ⟨s1, hb, hw, hi, hd, hs⟩ := body1
  obtain ⟨x, sl, h, hL, hx⟩ := one_turn line [.switch] 5 gen1 opts (-1000) _ s1 run1
    (by simp [nextIteration, opts, initState]) hb (by norm_num [nextIteration, opts, hi, hd])
    (by have := congrArg List.length hw; simpa [opts] using this) (by simp [opts]) 0
  rw [hs, hw] at hL
  refine ⟨_, x, sl, run1, ⟨_, by simp [initState]; exact Or.inl rfl, rfl, rfl⟩, h, ?_, fun y hy => ?_⟩
  · have : (sl.items.map Sample.logL).getLast? = some x.logL := by rw [List.getLast?_map, hx]; rfl
    rw [hL] at this
    simpa using this.symm
  · have : y.logL ∈ sl.items.map Sample.logL := List.mem_map_of_mem hy
    rw [hL] at this
    simp at this
    rcases this with h | h <;> rw [h] <;> norm_num

/-- The walkers start at [0,2,1], [1,0,2] and [2,0,1]; SwitchEngine exchanges the first two, in call 16 the outer two. -/
def gen2 : Gen where
  pick _ := 0
  order _ := [0]
  draws r _ j := if r = 16 ∧ j = 1 then 1 else 0
  table _ _ _ := none
  start k l := if k = 0 then Orders.switchTry l 1 2 else if k = 1 then Orders.switchTry l 0 1
    else Orders.switchTry (Orders.switchTry l 1 2) 0 1

theorem run2 : prepare line [.switch] 5 gen2 opts (-1000) [] = some (initState opts
    ⟨[⟨0, -1, 0, 0, [0, 2, 1], -5⟩, ⟨1, -1, 0, 0, [1, 0, 2], -4⟩, ⟨2, -1, 0, 0, [2, 0, 1], -4⟩], 3⟩ (-1000) ⟨[], 0⟩ 0 12) := by
  obtain ⟨h1, h2, h3, h4, h5, h6⟩ := line_abc
  have hc : line.cities = 3 := rfl
  have hi : initWalkers line gen2 opts.ensemble (makeFitlist line []) =
      some ⟨[⟨0, -1, 0, 0, [0, 2, 1], -5⟩, ⟨1, -1, 0, 0, [1, 0, 2], -4⟩, ⟨2, -1, 0, 0, [2, 0, 1], -4⟩], 3⟩ := by
    simp [initWalkers, makeFitlist_length, hc, opts, List.range_succ, startLoop, WalkerList.addWalkers, Orders.startOrder,
      gen2, Orders.engineSetWalker, WalkerList.setWalker, Orders.switchTry, h1, h2, h3, h5]
  simp only [prepare, hi]
  norm_num [opts, List.range_succ, explore, exploreWalker, trialLoop, engineRound, env, gen2, Orders.execute, Eng.once, Orders.switchOnce,
      Orders.otherThan, Orders.store,
      Orders.engineSetWalker, WalkerList.setWalker, Orders.switchTry, h1, h2, h3, h4, h5, h6]

theorem sorted2 : sortWalkers (⟨[⟨0, -1, 0, 0, [0, 2, 1], -5⟩, ⟨1, -1, 0, 0, [1, 0, 2], -4⟩, ⟨2, -1, 0, 0, [2, 0, 1], -4⟩], 3⟩ :
    WalkerList ℕ ℝ) = ⟨[⟨0, -1, 0, 0, [0, 2, 1], -5⟩, ⟨1, -1, 0, 0, [1, 0, 2], -4⟩, ⟨2, -1, 0, 0, [2, 0, 1], -4⟩], 3⟩ := by
  norm_num [sortWalkers, List.insertionSort, List.orderedInsert]

theorem body2 : ∃ s', body (env line [.switch] 5 gen2) opts (initState opts
      ⟨[⟨0, -1, 0, 0, [0, 2, 1], -5⟩, ⟨1, -1, 0, 0, [1, 0, 2], -4⟩, ⟨2, -1, 0, 0, [2, 0, 1], -4⟩], 3⟩ (-1000) ⟨[], 0⟩ 0 12) = some s' ∧
    s'.walkers.items.map Walker.logL = [-3, -4, -4] ∧ s'.iteration = 1 ∧ s'.logdZ = 0 ∧
    s'.samples.items.map Sample.logL = [-5] := by
  obtain ⟨h1, h2, h3, h4, h5, h6⟩ := line_abc
  refine ⟨_, by
    simp only [body, initState, sorted2]
    norm_num [opts, updateEvidence, updateWalkers, copyWalker, copyLoop, evLoop, evStep, WalkerList.copy, SampleList.weed,
      List.range_succ, explore, exploreWalker, trialLoop, engineRound, env, gen2, Orders.execute, Eng.once, Orders.switchOnce,
      Orders.otherThan, Orders.store, Orders.engineSetWalker, WalkerList.setWalker, Orders.switchTry, h1, h2, h3, h4, h5, h6]
    rfl, ?_⟩
  simp [SampleList.add, toSample, logaddexp]

/-- C100 fails: what is returned is not the best of the samples. -/
theorem C100_counterexample_best : ∃ x sl, solve line [.switch] 5 gen2 opts (-1000) [] 1 = .solved x sl ∧
    ∃ y ∈ sl.items, x.logL < y.logL := by
  obtain ⟨s1, hb, hw, hi, hd, hs⟩ := body2
  obtain ⟨x, sl, h, hL, hx⟩ := one_turn line [.switch] 5 gen2 opts (-1000) _ s1 run2
    (by simp [nextIteration, opts, initState]) hb (by norm_num [nextIteration, opts, hi, hd])
    (by have := congrArg List.length hw; simpa [opts] using this) (by simp [opts]) 0
  rw [hs, hw] at hL
  have h1 : (sl.items.map Sample.logL).getLast? = some x.logL := by rw [List.getLast?_map, hx]; rfl
  rw [hL] at h1
  have h3 : (-3 : ℝ) ∈ sl.items.map Sample.logL := by rw [hL]; simp
  obtain ⟨y, hy, hy3⟩ := List.mem_map.1 h3
  refine ⟨x, sl, h, y, hy, ?_⟩
  rw [hy3]
  have : x.logL = -4 := by simpa using h1.symm
  rw [this]; norm_num

theorem gen1_perm (k : ℕ) (l : List ℕ) : (gen1.start k l).Perm l := by
  simp only [gen1]
  split
  · exact Orders.switchTry_perm l 0 1 (by omega)
  · split
    · exact Orders.switchTry_perm l 1 2 (by omega)
    · exact List.Perm.refl l

/-- The hypotheses of `C100_solve_partial` are met: this run ends. -/
example : ∃ x sl, solve line [.switch] 5 gen1 opts (-1000) [] 1 = .solved x sl ∧
    x.allpars.Perm (List.range line.cities) ∧ x.logL = - cost line x.allpars := by
  obtain ⟨_, x, sl, _, _, h, _⟩ := C100_counterexample_lost
  obtain ⟨hl, hT, _⟩ := C100_solve_partial line [.switch] 5 gen1 gen1_perm opts (-1000) [] 1 x sl h
  exact ⟨x, sl, h, hT x (List.mem_of_getLast? hl)⟩

/-- Two cities at distance 1, one way, with weights 1 and 2. -/
def two : Tour where
  cities := 2
  dist _ _ := 1
  scale := 1
  oneway := true
  weights := some fun a => a + 1
  xy a := (a, 0)

/-- A stuck walker: it is at the best tour and that is also the level. -/
example (o : Opts) (G : Gen) (r : ℕ) : IsTour two [0, 1] (-1) ∧ exploreWalker (env two [.switch] 5 G) o 0 (-1)
    ⟨[⟨0, -1, 0, 0, [0, 1], -1⟩], 1⟩ r = none := by
  have h1 : two.logL [0, 1] = -1 := by
    simp [Tour.logL, two, Salesman.result, Salesman.legs, Salesman.logLikelihood, Salesman.logLdata, List.rotate]
  have h2 : two.logL [1, 0] = -2 := by
    simp [Tour.logL, two, Salesman.result, Salesman.legs, Salesman.logLikelihood, Salesman.logLdata, List.rotate]
    norm_num
  refine ⟨⟨by decide, h1.symm⟩, C100_counterexample_stuck two 5 G o 0 (-1) _ _ r rfl (by decide) (by simp [two]) ?_⟩
  intro q hq hne
  match q, hq.length_eq with
  | [a, b], _ =>
    have ha : a ∈ [0, 1] := hq.subset (by simp)
    have hb : b ∈ [0, 1] := hq.subset (by simp)
    have hnd : [a, b].Nodup := hq.nodup_iff.2 (by decide)
    simp at ha hb hnd
    rcases ha with rfl | rfl <;> rcases hb with rfl | rfl
    · exact absurd rfl hnd
    · exact absurd rfl hne
    · rw [h2]; norm_num
    · exact absurd rfl hnd

end BF.Solver
