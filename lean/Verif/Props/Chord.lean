import Verif.Props.Engines
import Mathlib.Tactic.NormNum
import Mathlib.Tactic.Linarith
import Mathlib.Tactic.Ring
import Mathlib.Tactic.FieldSimp

/-!
# C12: chord steps stay within the unit box
-/

namespace BF.Engines

variable {π β : Type*}

/-! ## Specification -/

/-- The place `u` is strictly inside the box with edges `lo` and `hi`, in each direction. -/
def Inside (lo hi u : List ℝ) : Prop :=
  ∀ (i : ℕ) (x : ℝ), u[i]? = some x →
    ∃ a b, lo[i]? = some a ∧ hi[i]? = some b ∧ a < x ∧ x < b

/-- The place `u` is strictly inside the unit box. -/
def InUnit (u : List ℝ) : Prop := ∀ x ∈ u, 0 < x ∧ x < 1

/-- The box is part of the unit box. -/
def UnitBox (lo hi : List ℝ) : Prop := (∀ x ∈ lo, 0 ≤ x) ∧ ∀ x ∈ hi, x ≤ 1

/-! ## Geometry of the chord -/

theorem minPos_spec (ts : List ℝ) (m : ℝ) (h : minPos ts = some m) :
    0 < m ∧ ∀ t ∈ ts, 0 < t → m ≤ t := by
  induction ts generalizing m with
  | nil => simp [minPos] at h
  | cons t ts ih =>
    simp only [minPos] at h
    by_cases ht : 0 < t
    · rw [if_pos ht] at h
      rcases hm : minPos ts with _ | m'
      · rw [hm] at h
        obtain rfl := Option.some.inj h
        refine ⟨ht, ?_⟩
        intro x hx hx0
        rcases List.mem_cons.1 hx with rfl | hx
        · exact le_rfl
        · exfalso
          clear ih h
          -- no positive element, as the minimum is infinite
          have key : ∀ l : List ℝ, minPos l = none → ∀ y ∈ l, ¬ 0 < y := by
            intro l
            induction l with
            | nil => simp
            | cons z l ih =>
              intro hl y hy
              simp only [minPos] at hl
              by_cases hz : 0 < z
              · rw [if_pos hz] at hl
                rcases hq : minPos l with _ | q <;> rw [hq] at hl <;> simp at hl
              · rw [if_neg hz] at hl
                rcases List.mem_cons.1 hy with rfl | hy
                · exact hz
                · exact ih hl y hy
          exact key ts hm x hx hx0
      · rw [hm] at h
        obtain rfl := Option.some.inj h
        obtain ⟨a, b⟩ := ih m' hm
        refine ⟨lt_min ht a, ?_⟩
        intro x hx hx0
        rcases List.mem_cons.1 hx with rfl | hx
        · exact min_le_left _ _
        · exact (min_le_right _ _).trans (b x hx hx0)
    · rw [if_neg ht] at h
      obtain ⟨a, b⟩ := ih m h
      refine ⟨a, ?_⟩
      intro x hx hx0
      rcases List.mem_cons.1 hx with rfl | hx
      · exact absurd hx0 ht
      · exact b x hx hx0

theorem maxNeg_spec (ts : List ℝ) (m : ℝ) (h : maxNeg ts = some m) :
    m < 0 ∧ ∀ t ∈ ts, t < 0 → t ≤ m := by
  induction ts generalizing m with
  | nil => simp [maxNeg] at h
  | cons t ts ih =>
    simp only [maxNeg] at h
    by_cases ht : t < 0
    · rw [if_pos ht] at h
      rcases hm : maxNeg ts with _ | m'
      · rw [hm] at h
        obtain rfl := Option.some.inj h
        refine ⟨ht, ?_⟩
        intro x hx hx0
        rcases List.mem_cons.1 hx with rfl | hx
        · exact le_rfl
        · exfalso
          clear ih h
          have key : ∀ l : List ℝ, maxNeg l = none → ∀ y ∈ l, ¬ y < 0 := by
            intro l
            induction l with
            | nil => simp
            | cons z l ih =>
              intro hl y hy
              simp only [maxNeg] at hl
              by_cases hz : z < 0
              · rw [if_pos hz] at hl
                rcases hq : maxNeg l with _ | q <;> rw [hq] at hl <;> simp at hl
              · rw [if_neg hz] at hl
                rcases List.mem_cons.1 hy with rfl | hy
                · exact hz
                · exact ih hl y hy
          exact key ts hm x hx hx0
      · rw [hm] at h
        obtain rfl := Option.some.inj h
        obtain ⟨a, b⟩ := ih m' hm
        refine ⟨max_lt ht a, ?_⟩
        intro x hx hx0
        rcases List.mem_cons.1 hx with rfl | hx
        · exact le_max_left _ _
        · exact (b x hx hx0).trans (le_max_right _ _)
    · rw [if_neg ht] at h
      obtain ⟨a, b⟩ := ih m h
      refine ⟨a, ?_⟩
      intro x hx hx0
      rcases List.mem_cons.1 hx with rfl | hx
      · exact absurd hx0 ht
      · exact b x hx hx0

/-- Every place between the two ends of the chord is strictly inside the box. -/
theorem chord_inside (lo hi u v : List ℝ) (t0 t1 t : ℝ) (hin : Inside lo hi u)
    (h1 : minPos (edgeTimes lo hi u v) = some t1) (h0 : maxNeg (edgeTimes lo hi u v) = some t0)
    (ht : t0 < t ∧ t < t1) :
    Inside lo hi (List.zipWith (fun u v => u + v * t) u v) := by
  obtain ⟨p1, q1⟩ := minPos_spec _ _ h1
  obtain ⟨p0, q0⟩ := maxNeg_spec _ _ h0
  intro i x hx
  rw [List.getElem?_zipWith] at hx
  rcases hu : u[i]? with _ | a
  · simp [hu] at hx
  rcases hv : v[i]? with _ | w
  · simp [hu, hv] at hx
  simp only [hu, hv, Option.some.injEq] at hx
  obtain ⟨l, h, hl, hh, hla, hah⟩ := hin i a hu
  refine ⟨l, h, hl, hh, ?_⟩
  have m1 : (l - a) / w ∈ edgeTimes lo hi u v := by
    apply List.mem_append_left
    rw [List.mem_iff_getElem?]
    exact ⟨i, by simp [List.getElem?_zipWith, hl, hu, hv]⟩
  have m2 : (h - a) / w ∈ edgeTimes lo hi u v := by
    apply List.mem_append_right
    rw [List.mem_iff_getElem?]
    exact ⟨i, by simp [List.getElem?_zipWith, hh, hu, hv]⟩
  subst hx
  rcases lt_trichotomy w 0 with hw | rfl | hw
  · -- moving down
    have e1 := q1 _ m1 (div_pos_of_neg_of_neg (by linarith) hw)
    have e0 := q0 _ m2 (div_neg_of_pos_of_neg (by linarith) hw)
    have f1 : t < (l - a) / w := lt_of_lt_of_le ht.2 e1
    have f0 : (h - a) / w < t := lt_of_le_of_lt e0 ht.1
    rw [lt_div_iff_of_neg hw] at f1
    rw [div_lt_iff_of_neg hw] at f0
    constructor <;> linarith
  · simp [hla, hah]
  · have e1 := q1 _ m2 (div_pos (by linarith) hw)
    have e0 := q0 _ m1 (div_neg_of_neg_of_pos (by linarith) hw)
    have f1 : t < (h - a) / w := lt_of_lt_of_le ht.2 e1
    have f0 : (l - a) / w < t := lt_of_le_of_lt e0 ht.1
    rw [lt_div_iff₀ hw] at f1
    rw [div_lt_iff₀ hw] at f0
    constructor <;> linarith

theorem inside_unit (lo hi u : List ℝ) (h : Inside lo hi u) (hb : UnitBox lo hi) : InUnit u := by
  intro x hx
  obtain ⟨i, hi⟩ := List.mem_iff_getElem?.1 hx
  obtain ⟨a, b, ha, hb', h1, h2⟩ := h i x hi
  exact ⟨lt_of_le_of_lt (hb.1 a (List.mem_of_getElem? ha)) h1,
    lt_of_lt_of_le h2 (hb.2 b (List.mem_of_getElem? hb'))⟩

theorem fitBox_unit (lo hi u : List ℝ) : UnitBox (fitBox lo hi u).1 (fitBox lo hi u).2 := by
  constructor
  · intro x hx
    obtain ⟨y, _, rfl⟩ := List.mem_map.1 hx
    exact le_max_right _ _
  · intro x hx
    obtain ⟨y, _, rfl⟩ := List.mem_map.1 hx
    exact min_le_right _ _

/-- The box around a walker that is strictly inside the unit box contains the walker strictly, unless
the walker is precisely on an edge of the given box. -/
theorem fitBox_inside (lo hi u : List ℝ) (hu : InUnit u)
    (hl : ∀ (i : ℕ) (x : ℝ), u[i]? = some x → ∃ a b, lo[i]? = some a ∧ hi[i]? = some b ∧ x ≠ a ∧ x ≠ b) :
    Inside (fitBox lo hi u).1 (fitBox lo hi u).2 u := by
  intro i x hx
  obtain ⟨a, b, ha, hb, hna, hnb⟩ := hl i x hx
  obtain ⟨h0, h1⟩ := hu x (List.mem_of_getElem? hx)
  refine ⟨max (if x < a then 2 * x - a else a) 0, min (if b < x then 2 * x - b else b) 1, ?_, ?_, ?_, ?_⟩
  · simp [fitBox, List.getElem?_zipWith, hx, ha]
  · simp [fitBox, List.getElem?_zipWith, hx, hb]
  · refine max_lt ?_ h0
    split
    · linarith
    · exact lt_of_le_of_ne (by linarith) (Ne.symm hna)
  · refine lt_min ?_ h1
    split
    · linarith
    · exact lt_of_le_of_ne (by linarith) hnb

/-! ## The trials on one chord -/

variable [LinearOrder β]

theorem chordTry_inside (e : Env π β) (p : π) (fi : List ℤ) (lowL : β) (lo hi u v : List ℝ)
    (T0 T1 : ℝ) (hin : Inside lo hi u)
    (h1 : minPos (edgeTimes lo hi u v) = some T1) (h0 : maxNeg (edgeTimes lo hi u v) = some T0)
    (hr : ∀ k, 0 < e.rand k ∧ e.rand k < 1)
    (fuel kk k : ℕ) (t0 t1 : ℝ) (ht0 : T0 ≤ t0) (ht1 : t1 ≤ T1) (q : List ℝ) (r : ChordEnd β)
    (k' : ℕ) (tr : List (List ℝ))
    (h : chordTry e p fi lowL u v fuel kk k t0 t1 q = some (r, k', tr)) :
    (∀ x ∈ tr, Inside lo hi x) ∧ ∀ x y l, r = .accept x y l → Inside lo hi x := by
  induction fuel generalizing kk k t0 t1 q k' tr with
  | zero => simp [chordTry] at h
  | succ fuel ih =>
    simp only [chordTry] at h
    split at h
    · rename_i hneg
      -- the trial
      have hdt : T0 < t0 + e.rand k * (t1 - t0) ∧ t0 + e.rand k * (t1 - t0) < T1 := by
        obtain ⟨r0, r1⟩ := hr k
        have hpos : 0 < t1 - t0 := by linarith [hneg.1, hneg.2]
        constructor
        · have := mul_pos r0 hpos
          linarith
        · have : e.rand k * (t1 - t0) < 1 * (t1 - t0) := mul_lt_mul_of_pos_right r1 hpos
          linarith
      have htry := chord_inside lo hi u v T0 T1 _ hin h1 h0 hdt
      split at h
      · exact absurd h (by simp)
      · split at h
        · simp only [Option.some.injEq, Prod.mk.injEq] at h
          obtain ⟨rfl, _, rfl⟩ := h
          refine ⟨by intro x hx; rw [List.mem_singleton.1 hx]; exact htry, ?_⟩
          intro x y l hxy
          injection hxy with hx
          rw [← hx]; exact htry
        · split at h
          · simp only [Option.some.injEq, Prod.mk.injEq] at h
            obtain ⟨rfl, _, rfl⟩ := h
            exact ⟨by intro x hx; rw [List.mem_singleton.1 hx]; exact htry, by simp⟩
          · split at h
            · exact absurd h (by simp)
            · rename_i r2 k2 tr2 hrec
              simp only [Option.some.injEq, Prod.mk.injEq] at h
              obtain ⟨rfl, _, rfl⟩ := h
              have : (∀ x ∈ tr2, Inside lo hi x) ∧
                  ∀ x y l, r2 = .accept x y l → Inside lo hi x := by
                split at hrec
                · exact ih _ _ _ _ hdt.1.le ht1 _ _ _ hrec
                · exact ih _ _ _ _ ht0 hdt.2.le _ _ _ hrec
              refine ⟨?_, this.2⟩
              intro x hx
              rcases List.mem_cons.1 hx with rfl | hx
              · exact htry
              · exact this.1 x hx
    · simp only [Option.some.injEq, Prod.mk.injEq] at h
      obtain ⟨rfl, _, rfl⟩ := h
      exact ⟨by simp, by simp⟩

theorem fitBox_of_inside (lo hi u : List ℝ) (h : Inside lo hi u) (hb : UnitBox lo hi) :
    Inside (fitBox lo hi u).1 (fitBox lo hi u).2 u := by
  refine fitBox_inside lo hi u (inside_unit lo hi u h hb) ?_
  intro i x hx
  obtain ⟨a, b, ha, hb', h1, h2⟩ := h i x hx
  exact ⟨a, b, ha, hb', h1.ne', h2.ne⟩

/-- A whole run of the chord engine, from a place strictly inside the box: all places that are tried,
whatever the number of rejections and steps, are strictly inside the unit box. -/
theorem chordLoop_inside (e : Env π β) (hr : ∀ k, 0 < e.rand k ∧ e.rand k < 1) (fuel : ℕ) (p : π)
    (fi : List ℤ) (lowL : β) (kw : ℕ) (append : Bool) (n : ℕ) (st st' : St π β) (onb : Basis)
    (reset : Bool) (vel u lo hi q : List ℝ) (step r : ℕ) (tr : List (List ℝ))
    (hin : Inside lo hi u) (hb : UnitBox lo hi)
    (h : chordLoop e fuel p fi lowL kw append n st onb reset vel u lo hi q step
      = some (st', r, tr)) : ∀ x ∈ tr, InUnit x := by
  induction n generalizing st onb reset vel u lo hi q step tr with
  | zero =>
    simp only [chordLoop, Option.some.injEq, Prod.mk.injEq] at h
    obtain ⟨_, _, rfl⟩ := h
    simp
  | succ n ih =>
    simp only [chordLoop] at h
    split at h
    · rename_i t1 t0 h1 h0
      split at h
      · exact absurd h (by simp)
      · rename_i x y l k tr1 ht
        obtain ⟨a, b⟩ := chordTry_inside e p fi lowL lo hi u _ t0 t1 hin h1 h0 hr _ _ _ _ _ le_rfl
          le_rfl _ _ _ _ ht
        have hx := b x y l rfl
        simp only [Option.map_eq_some_iff] at h
        obtain ⟨⟨s2, r2, tr2⟩, hrec, heq⟩ := h
        simp only [Prod.mk.injEq] at heq
        obtain ⟨rfl, rfl, rfl⟩ := heq
        have := ih _ _ _ _ _ _ _ _ _ _ (fitBox_of_inside lo hi x hx hb) (fitBox_unit lo hi x) hrec
        intro z hz
        rcases List.mem_append.1 hz with hz | hz
        · exact inside_unit lo hi z (a z hz) hb
        · exact this z hz
      · rename_i k tr1 ht
        obtain ⟨a, _⟩ := chordTry_inside e p fi lowL lo hi u _ t0 t1 hin h1 h0 hr _ _ _ _ _ le_rfl
          le_rfl _ _ _ _ ht
        simp only [Option.map_eq_some_iff] at h
        obtain ⟨⟨s2, r2, tr2⟩, hrec, heq⟩ := h
        simp only [Prod.mk.injEq] at heq
        obtain ⟨rfl, rfl, rfl⟩ := heq
        have := ih _ _ _ _ _ _ _ _ _ _ hin hb hrec
        intro z hz
        rcases List.mem_append.1 hz with hz | hz
        · exact inside_unit lo hi z (a z hz) hb
        · exact this z hz
      · rename_i k tr1 ht
        obtain ⟨a, _⟩ := chordTry_inside e p fi lowL lo hi u _ t0 t1 hin h1 h0 hr _ _ _ _ _ le_rfl
          le_rfl _ _ _ _ ht
        simp only [Option.map_eq_some_iff] at h
        obtain ⟨⟨s2, r2, tr2⟩, hrec, heq⟩ := h
        simp only [Prod.mk.injEq] at heq
        obtain ⟨rfl, rfl, rfl⟩ := heq
        have := ih _ _ _ _ _ _ _ _ _ _ hin hb hrec
        intro z hz
        rcases List.mem_append.1 hz with hz | hz
        · exact inside_unit lo hi z (a z hz) hb
        · exact this z hz
    · exact ih _ _ _ _ _ _ _ _ _ _ hin hb h

/-- `ChordEngine.execute`: for a walker strictly inside the unit box and not precisely on an edge of
the widened bounding box (of `lo` and `hi` of the phantoms, `dur` wider at each side), all places that
are tried are strictly inside the unit box. Random numbers are strictly between 0 and 1. -/
theorem C12_box_partial (e : Env π β) (hr : ∀ k, 0 < e.rand k ∧ e.rand k < 1) (fuel nstep : ℕ)
    (st st' : St π β) (kw : ℕ) (lowL : β) (append : Bool) (n : ℕ) (tr : List (List ℝ)) (w : Wk π β)
    (hw : st.walkers[kw]? = some w) (pf lo hi : List ℝ)
    (hpf : gets w.allpars w.fitIndex = some pf)
    (hlo : gets (e.getUnitRange st w.problem lowL).2 w.fitIndex = some lo)
    (hra : gets (e.getUnitRange st w.problem lowL).1 w.fitIndex = some hi)
    (hu : InUnit (e.domain2Unit w.problem pf w.fitIndex))
    (hedge : ∀ (i : ℕ) (x : ℝ), (e.domain2Unit w.problem pf w.fitIndex)[i]? = some x →
      ∃ a d, lo[i]? = some a ∧ hi[i]? = some d ∧
        x ≠ a - 5 * maxOf hi / (st.walkers.length : ℝ) ∧
        x ≠ a + d + 5 * maxOf hi / (st.walkers.length : ℝ))
    (h : chordExecute e fuel nstep st kw lowL append = some (st', n, tr)) :
    ∀ x ∈ tr, InUnit x := by
  simp only [chordExecute, hw, hpf, hlo, hra] at h
  refine chordLoop_inside e hr fuel _ _ lowL kw append _ _ st' _ _ _ _ _ _ _ _ n tr ?_
    (fitBox_unit _ _ _) h
  apply fitBox_inside _ _ _ hu
  intro i x hx
  obtain ⟨a, d, ha, hd, h1, h2⟩ := hedge i x hx
  refine ⟨a - 5 * maxOf hi / (st.walkers.length : ℝ),
    a - 5 * maxOf hi / (st.walkers.length : ℝ) + (d + 2 * (5 * maxOf hi / (st.walkers.length : ℝ))),
    by simp [ha], by simp [List.getElem?_zipWith, ha, hd], h1, ?_⟩
  intro hcon
  apply h2
  rw [hcon]
  ring

/-- The example of the other engines meets the hypotheses: there is one step, to the place 5/8. -/
example : (∀ k, 0 < exEnv.rand k ∧ exEnv.rand k < 1) ∧
    gets [1 / 2, 7] [0] = some [1 / 2] ∧
    gets (exEnv.getUnitRange exSt () (-(1 / 2))).2 [0] = some [0] ∧
    gets (exEnv.getUnitRange exSt () (-(1 / 2))).1 [0] = some [1] ∧
    InUnit (exEnv.domain2Unit () [1 / 2] [0]) := by
  refine ⟨?_, ?_, ?_, ?_, ?_⟩
  · intro k; norm_num [exEnv]
  · norm_num [gets, get, place]
  · norm_num [gets, get, place, Env.getUnitRange, exEnv]
  · norm_num [gets, get, place, Env.getUnitRange, exEnv]
  · norm_num [InUnit, Env.domain2Unit, exEnv]

/-- Shrinking: as long as the trials on a chord go on, the starting place (time 0) is strictly between
its ends, and each rejected trial shortens the chord at one side to the rejected place. The next chord
is a part of the present one. -/
theorem C12_shrink (e : Env π β) (p : π) (fi : List ℤ) (lowL : β) (u v : List ℝ)
    (fuel kk k : ℕ) (t0 t1 : ℝ) (q : List ℝ) (r : ChordEnd β) (k' : ℕ) (tr : List (List ℝ))
    (h : chordTry e p fi lowL u v (fuel + 1) kk k t0 t1 q = some (r, k', tr))
    (htwo : 2 ≤ tr.length) :
    t0 < 0 ∧ 0 < t1 ∧ ∃ s0 s1 q', s0 < 0 ∧ 0 < s1 ∧
      (s0 = t0 ∧ s1 = t0 + e.rand k * (t1 - t0) ∨ s0 = t0 + e.rand k * (t1 - t0) ∧ s1 = t1) ∧
      chordTry e p fi lowL u v fuel (kk + 1) (k + 1) s0 s1 q' = some (r, k', tr.tail) := by
  simp only [chordTry] at h
  split at h
  · rename_i hneg
    split at h
    · exact absurd h (by simp)
    · rename_i q1 _
      split at h
      · simp only [Option.some.injEq, Prod.mk.injEq] at h
        obtain ⟨_, _, rfl⟩ := h
        simp at htwo
      · split at h
        · simp only [Option.some.injEq, Prod.mk.injEq] at h
          obtain ⟨_, _, rfl⟩ := h
          simp at htwo
        · split at h
          · exact absurd h (by simp)
          · rename_i r2 k2 tr2 hrec
            simp only [Option.some.injEq, Prod.mk.injEq] at h
            obtain ⟨rfl, rfl, rfl⟩ := h
            -- the recursive call made at least one trial
            have cont : ∀ s0 s1 q', chordTry e p fi lowL u v fuel (kk + 1) (k + 1) s0 s1 q'
                = some (r2, k2, tr2) → s0 < 0 ∧ 0 < s1 := by
              intro s0 s1 q' hq
              cases fuel with
              | zero => simp [chordTry] at hq
              | succ f =>
                simp only [chordTry] at hq
                by_contra hcon
                rw [if_neg hcon] at hq
                simp only [Option.some.injEq, Prod.mk.injEq] at hq
                obtain ⟨_, _, rfl⟩ := hq
                simp at htwo
            refine ⟨hneg.1, hneg.2, ?_⟩
            split at hrec
            · obtain ⟨a, b⟩ := cont _ _ _ hrec
              exact ⟨_, _, _, a, b, Or.inr ⟨rfl, rfl⟩, hrec⟩
            · obtain ⟨a, b⟩ := cont _ _ _ hrec
              exact ⟨_, _, _, a, b, Or.inl ⟨rfl, rfl⟩, hrec⟩
  · simp only [Option.some.injEq, Prod.mk.injEq] at h
    obtain ⟨_, _, rfl⟩ := h
    simp at htwo

/-! ## A walker on the edge of the unit box leaves it -/

/-- Two parameters, both fitted; the walker is at a limit of the first one. -/
noncomputable def edgeEnv : Env Unit ℝ where
  L := fun _ _ => 0
  u2d := fun _ _ u => u
  d2u := fun _ _ d => d
  box := fun _ _ _ => ([0, 0], [1, 1])
  rand := fun k => if k = 0 then 1 / 5 else 9 / 10
  maxtrials := 3
  nstep := 1

/-- The walker of the counterexample. -/
noncomputable def edgeSt : St Unit ℝ := ⟨[⟨0, -1, 0, (), [0, 1 / 2], [0, 1], 0⟩], 1, [], 0⟩

/-- For a walker on the edge of the unit box the edge is not seen as an end of the chord: the engine
tries (and here accepts) a place outside the unit box. -/
theorem C12_counterexample : ∃ st' n tr,
    chordExecute edgeEnv 2 1 edgeSt 0 0 false = some (st', n, tr) ∧
      [-(3 / 10), 9 / 10] ∈ tr ∧ st'.walkers.map (·.allpars) = [[-(3 / 10), 9 / 10]] := by
  have hs : Real.sqrt (1 / 4) = 1 / 2 := by
    rw [show (1 / 4 : ℝ) = (1 / 2) * (1 / 2) by norm_num]
    exact Real.sqrt_mul_self (by norm_num)
  refine ⟨_, _, _, by
    simp [chordExecute, edgeEnv, edgeSt, chordLoop, chordTry, newVel, Basis.normalise, projSum, dot,
      edgeTimes, minPos, maxNeg, fitBox,
      maxOf, gets, get, puts, put, place, List.range_succ,
      Env.getUnitRange, Env.unit2Domain, Env.domain2Unit, St.setWalker, St.target]
    norm_num [hs]
    norm_num [puts, put, place]
    exact ⟨rfl, rfl, rfl⟩, ?_, ?_⟩
  · simp
  · simp

end BF.Engines
