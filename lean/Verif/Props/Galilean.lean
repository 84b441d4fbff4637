import Verif.Engines
import Verif.Props.Basis

/-!
# C10 and C11: the Galilean engine mirrors correctly
-/

namespace BF.Engines

variable {π β : Type*}

/-! ## C10: mirroring the velocity on the gradient -/

theorem mirror_list (v d : List ℝ) (a s : ℝ) :
    List.zipWith (fun v d => v - 2 * d * a / s) v d
      = List.zipWith (fun d v => -(2 * a / s) * d + v) d v := by
  rw [List.zipWith_comm]
  congr 1
  funext x y
  ring

theorem mirror_twice (v d : List ℝ) (a s : ℝ) (hl : v.length = d.length) :
    List.zipWith (fun v d => v - 2 * d * (-a) / s)
      (List.zipWith (fun v d => v - 2 * d * a / s) v d) d = v := by
  induction v generalizing d with
  | nil => simp
  | cons x v ih =>
    cases d with
    | nil => simp at hl
    | cons y d =>
      simp only [List.zipWith_cons_cons, List.cons.injEq]
      exact ⟨by ring, ih d (by simpa using hl)⟩

/-- The component along the gradient changes sign. -/
theorem C10_mirror_component (um : UM) (d : List ℝ) (hl : um.uvel.length = d.length)
    (hd : dot d d ≠ 0) : dot d (um.mirrorOnLowL d).uvel = -dot d um.uvel := by
  simp only [UM.mirrorOnLowL, hd, if_false]
  rw [mirror_list, dot_comb d d um.uvel _ rfl hl]
  field_simp
  ring

/-- Any component orthogonal to the gradient does not change. -/
theorem C10_mirror_orthogonal (um : UM) (d w : List ℝ) (hl : um.uvel.length = d.length)
    (hw : w.length = d.length) (h : dot w d = 0) :
    dot w (um.mirrorOnLowL d).uvel = dot w um.uvel := by
  by_cases hd : dot d d = 0
  · simp [UM.mirrorOnLowL, hd]
  · simp only [UM.mirrorOnLowL, hd, if_false]
    rw [mirror_list, dot_comb w d um.uvel _ hw.symm (by rw [hl, hw]), h]
    ring

/-- The speed is conserved. -/
theorem C10_mirror_speed (um : UM) (d : List ℝ) (hl : um.uvel.length = d.length) :
    dot (um.mirrorOnLowL d).uvel (um.mirrorOnLowL d).uvel = dot um.uvel um.uvel := by
  by_cases hd : dot d d = 0
  · simp [UM.mirrorOnLowL, hd]
  · have h1 := C10_mirror_component um d hl hd
    have hlen : (um.mirrorOnLowL d).uvel.length = d.length := by
      simp [UM.mirrorOnLowL, hd, hl]
    have h2 : (um.mirrorOnLowL d).uvel =
        List.zipWith (fun x v => -(2 * dot d um.uvel / dot d d) * x + v) d um.uvel := by
      simp only [UM.mirrorOnLowL, hd, if_false]
      rw [mirror_list]
    generalize hw : (um.mirrorOnLowL d).uvel = w at *
    have h3 : dot w w = -(2 * dot d um.uvel / dot d d) * dot w d + dot w um.uvel := by
      conv_lhs => rw [h2]
      rw [← h2]
      conv_lhs => arg 2; rw [h2]
      rw [dot_comb w d um.uvel _ hlen.symm (by rw [hl, hlen])]
    have h4 : dot um.uvel w = -(2 * dot d um.uvel / dot d d) * dot um.uvel d
        + dot um.uvel um.uvel := by
      rw [h2, dot_comb um.uvel d um.uvel _ hl.symm rfl]
    rw [h3, dot_comm w um.uvel, h4, dot_comm w d, h1, dot_comm um.uvel d]
    ring

/-- Mirroring twice on the same gradient gives the original movement. -/
theorem C10_mirror_involutive (um : UM) (d : List ℝ) (hl : um.uvel.length = d.length) :
    (um.mirrorOnLowL d).mirrorOnLowL d = um := by
  by_cases hd : dot d d = 0
  · simp [UM.mirrorOnLowL, hd]
  · have h1 := C10_mirror_component um d hl hd
    have h2 : (um.mirrorOnLowL d).uvel =
        List.zipWith (fun v x => v - 2 * x * dot d um.uvel / dot d d) um.uvel d := by
      simp only [UM.mirrorOnLowL, hd, if_false]
    have h3 : ((um.mirrorOnLowL d).mirrorOnLowL d).uvel = um.uvel := by
      have : ((um.mirrorOnLowL d).mirrorOnLowL d).uvel =
          List.zipWith (fun v x => v - 2 * x * dot d (um.mirrorOnLowL d).uvel / dot d d)
            (um.mirrorOnLowL d).uvel d := by
        conv_lhs => rw [UM.mirrorOnLowL]
        simp only [hd, if_false]
      rw [this, h1, h2, mirror_twice um.uvel d _ _ hl]
    cases um with
    | mk upar uvel uptry uvtry upran =>
      simp only [UM.mirrorOnLowL, hd, if_false] at h3 ⊢
      rw [h3]

example : (UM.mirrorOnLowL ⟨[], [1, 0], [], [], 1⟩ [1, 1]).uvel = [0, -1] := by
  simp [UM.mirrorOnLowL, dot]
  norm_num

/-! ## C10: mirroring on the edges of the unit box -/

theorem bounce_box (u v f : ℝ) (hu : 0 ≤ u ∧ u ≤ 1) (hv : |v * f| ≤ 1) :
    0 ≤ (bounce u v f).1 ∧ (bounce u v f).1 ≤ 1 := by
  obtain ⟨h1, h2⟩ := abs_le.1 hv
  unfold bounce
  by_cases h : u + v * f ≤ 0
  · simp only [h, if_true]
    split <;> constructor <;> simp only <;> linarith
  · simp only [h, if_false]
    split <;> constructor <;> simp only <;> linarith

theorem trialStep_uptry (e : Env π β) (um : UM) (k : ℕ) (f size : ℝ) :
    (um.trialStep e k f size).1.uptry =
      (List.zipWith (fun u v => bounce u v f) um.upar um.uvel).map Prod.fst := by
  simp only [UM.trialStep]
  split <;> rfl

/-- A trial place stays in the unit box, when the step is at most one in each direction. -/
theorem C10_box (e : Env π β) (um : UM) (k : ℕ) (f size : ℝ)
    (hu : ∀ u ∈ um.upar, 0 ≤ u ∧ u ≤ 1) (hv : ∀ v ∈ um.uvel, |v * f| ≤ 1) :
    ∀ x ∈ (um.trialStep e k f size).1.uptry, 0 ≤ x ∧ x ≤ 1 := by
  rw [trialStep_uptry]
  intro x hx
  obtain ⟨b, hb, rfl⟩ := List.mem_map.1 hx
  rw [List.mem_iff_getElem?] at hb
  obtain ⟨i, hi⟩ := hb
  rw [List.getElem?_zipWith] at hi
  rcases h1 : um.upar[i]? with _ | u
  · simp [h1] at hi
  rcases h2 : um.uvel[i]? with _ | v
  · simp [h1, h2] at hi
  simp only [h1, h2, Option.some.injEq] at hi
  rw [← hi]
  exact bounce_box u v f (hu u (List.mem_of_getElem? h1)) (hv v (List.mem_of_getElem? h2))

theorem bounce_free (u v f : ℝ) (h : 0 < u + v * f ∧ u + v * f < 1) :
    bounce u v f = (u + v * f, v) := by
  unfold bounce
  simp [not_le.2 h.1, not_le.2 h.2]

/-- A step that does not reach an edge is a straight one, and the velocity stays the same. -/
theorem C10_free (e : Env π β) (um : UM) (k : ℕ) (f size : ℝ)
    (hl : um.upar.length = um.uvel.length)
    (h : ∀ (i : ℕ) (u v : ℝ), um.upar[i]? = some u → um.uvel[i]? = some v →
      0 < u + v * f ∧ u + v * f < 1) :
    (um.trialStep e k f size).1.uptry = List.zipWith (fun u v => u + v * f) um.upar um.uvel ∧
      (um.trialStep e k f size).1.uvtry = um.uvel ∧ (um.trialStep e k f size).2 = k := by
  have hb : List.zipWith (fun u v => bounce u v f) um.upar um.uvel
      = List.zipWith (fun u v => (u + v * f, v)) um.upar um.uvel := by
    apply List.ext_getElem?
    intro i
    simp only [List.getElem?_zipWith]
    rcases h1 : um.upar[i]? with _ | u
    · rfl
    rcases h2 : um.uvel[i]? with _ | v
    · rfl
    simp only [Option.some.injEq]
    exact bounce_free u v f (h i u v h1 h2)
  have hs : (List.zipWith (fun u v => (u + v * f, v)) um.upar um.uvel).map Prod.snd = um.uvel := by
    rw [List.map_zipWith]
    simp only
    clear hb h
    generalize um.upar = a at *
    generalize um.uvel = b at *
    induction a generalizing b with
    | nil => cases b with
      | nil => rfl
      | cons => simp at hl
    | cons x a ih => cases b with
      | nil => simp at hl
      | cons y b => simp [ih b (by simpa using hl)]
  simp only [UM.trialStep, hb, hs, if_true]
  refine ⟨?_, trivial, trivial⟩
  rw [List.map_zipWith]

theorem copysign_nonneg (x s : ℝ) (h : 0 ≤ s) : 0 ≤ copysign x s := by
  unfold copysign
  rw [if_neg (not_lt.2 h)]
  exact abs_nonneg x

theorem copysign_nonpos (x s : ℝ) (h : s < 0) : copysign x s ≤ 0 := by
  unfold copysign
  rw [if_pos h]
  exact neg_nonpos.2 (abs_nonneg x)

theorem copysign_abs (x s : ℝ) : |copysign x s| = |x| := by
  unfold copysign
  split <;> simp

/-- The velocity after a trial step is the old one, when no edge is reached. Otherwise every component
gets a new random size, and the direction of the component after mirroring on the edges. -/
theorem C10_velocity (e : Env π β) (um : UM) (k : ℕ) (f size : ℝ) (i : ℕ) (u v w : ℝ)
    (h1 : um.upar[i]? = some u) (h2 : um.uvel[i]? = some v)
    (h3 : (um.trialStep e k f size).1.uvtry[i]? = some w) :
    (um.trialStep e k f size).1.uvtry = um.uvel ∨
      (|w| = |(e.rand (k + i) - 0.5) * um.upran * size| ∧
        (0 ≤ (bounce u v f).2 → 0 ≤ w) ∧ ((bounce u v f).2 < 0 → w ≤ 0)) := by
  simp only [UM.trialStep] at h3 ⊢
  split
  · left
    assumption
  · rename_i hne
    right
    rw [if_neg hne] at h3
    simp only at h3
    rw [List.getElem?_zipWith] at h3
    have hb : (List.map Prod.snd (List.zipWith (fun u v => bounce u v f) um.upar um.uvel))[i]?
        = some (bounce u v f).2 := by
      rw [List.getElem?_map, List.getElem?_zipWith, h1, h2]
      rfl
    rw [hb] at h3
    have hlt := (List.getElem?_eq_some_iff.1 hb).1
    have hg : (getVelocity e (List.map Prod.snd (List.zipWith (fun u v => bounce u v f) um.upar
        um.uvel)).length k um.upran size)[i]? = some ((e.rand (k + i) - 0.5) * um.upran * size) := by
      simp only [getVelocity, List.getElem?_map]
      rw [List.getElem?_range hlt]
      rfl
    rw [hg] at h3
    simp only [Option.some.injEq] at h3
    subst h3
    exact ⟨copysign_abs _ _, copysign_nonneg _ _, copysign_nonpos _ _⟩

/-- Mirroring on the edges conserves the size of the velocity and turns it exactly when the straight
step reaches an edge; for steps smaller than one. -/
theorem C10_bounce (u v f : ℝ) (hu : 0 ≤ u ∧ u ≤ 1) (hv : |v * f| < 1) :
    |(bounce u v f).2| = |v| ∧
      (0 < u + v * f ∧ u + v * f < 1 → (bounce u v f).2 = v ∧ (bounce u v f).1 = u + v * f) ∧
      (u + v * f ≤ 0 → (bounce u v f).2 = -v ∧ (bounce u v f).1 = -(u + v * f)) ∧
      (1 ≤ u + v * f → (bounce u v f).2 = -v ∧ (bounce u v f).1 = 2 - (u + v * f)) := by
  obtain ⟨h1, h2⟩ := abs_lt.1 hv
  refine ⟨?_, fun h => by rw [bounce_free u v f h]; exact ⟨rfl, rfl⟩, ?_, ?_⟩
  · unfold bounce
    by_cases h : u + v * f ≤ 0
    · simp only [h, if_true]
      split <;> simp
    · simp only [h, if_false]
      split <;> simp
  · intro h
    unfold bounce
    simp only [h, if_true]
    rw [if_neg (by linarith)]
    exact ⟨rfl, rfl⟩
  · intro h
    unfold bounce
    have hn : ¬ u + v * f ≤ 0 := by linarith
    simp only [hn, if_false, h, if_true]
    exact ⟨trivial, trivial⟩

/-- Reversing: 90 percent of the velocity backwards, plus a random part of a tenth of a new
velocity. -/
theorem C10_reverse (e : Env π β) (um : UM) (k : ℕ) (size : ℝ) (i : ℕ) (v : ℝ)
    (h : um.uvel[i]? = some v) :
    (um.reverseVelocity e k size).1.uvel[i]? =
      some (-(9 / 10) * v + 1 / 10 * ((e.rand (k + i) - 1 / 2) * um.upran * size)) := by
  have hlt := (List.getElem?_eq_some_iff.1 h).1
  simp only [UM.reverseVelocity, List.getElem?_zipWith, h, getVelocity, List.getElem?_map]
  rw [List.getElem?_range hlt]
  simp only [Option.map_some, Option.some.injEq]
  norm_num
  ring

example : bounce (1 / 4) (-(1 / 2)) 1 = (1 / 4, 1 / 2) := by
  norm_num [bounce]

/-! ## C11: the edge of the allowed region -/

/-- The parabola through the likelihoods at the start, half way and at the end. -/
noncomputable def parabola (L0 Lm L1 x : ℝ) : ℝ :=
  L0 * (1 - x) * (1 - 2 * x) + Lm * (4 * x * (1 - x)) + L1 * x * (2 * x - 1)

theorem parabola_points (L0 Lm L1 : ℝ) :
    parabola L0 Lm L1 0 = L0 ∧ parabola L0 Lm L1 (1 / 2) = Lm ∧ parabola L0 Lm L1 1 = L1 := by
  unfold parabola
  refine ⟨?_, ?_, ?_⟩ <;> ring

/-- Starting at or above the level and ending below it, the interpolated fraction is in the unit range
and the parabola takes the level there. -/
theorem C11_level (L0 Lm L1 lowL : ℝ) (h0 : lowL ≤ L0) (h1 : L1 < lowL) :
    0 ≤ quadinterpol L0 Lm L1 lowL ∧ quadinterpol L0 Lm L1 lowL < 1 ∧
      parabola L0 Lm L1 (quadinterpol L0 Lm L1 lowL) = lowL := by
  have hpar : ∀ x, parabola L0 Lm L1 x - lowL =
      (2 * L0 - 4 * Lm + 2 * L1) * x ^ 2 + (4 * Lm - L1 - 3 * L0) * x + (L0 - lowL) := by
    intro x; unfold parabola; ring
  generalize ha : 2 * L0 - 4 * Lm + 2 * L1 = a at *
  generalize hb : 4 * Lm - L1 - 3 * L0 = b at *
  have hab : a + b = L1 - L0 := by rw [← ha, ← hb]; ring
  set c := L0 - lowL with hc
  have hc0 : 0 ≤ c := by rw [hc]; linarith
  have hsum : a + b + c < 0 := by rw [hab, hc]; linarith
  unfold quadinterpol
  simp only [ha, hb]
  by_cases ha0 : a = 0
  · have hbneg : b < 0 := by rw [ha0] at hsum; linarith
    rw [if_pos ha0, if_neg hbneg.ne]
    have hval : (lowL - L0) / b = c / (-b) := by
      rw [hc]; field_simp; ring
    refine ⟨?_, ?_, ?_⟩
    · rw [hval]; exact div_nonneg hc0 (by linarith)
    · rw [hval, div_lt_one (by linarith)]; rw [ha0] at hsum; linarith
    · have := hpar ((lowL - L0) / b)
      rw [ha0] at this
      have hb2 : b * ((lowL - L0) / b) = lowL - L0 := mul_div_cancel₀ _ hbneg.ne
      rw [hb2] at this
      rw [hc] at this
      linarith
  · rw [if_neg ha0]
    -- the discriminant is not negative
    have hdet : 0 ≤ b * b - 4 * a * c := by
      rcases lt_or_gt_of_ne ha0 with h | h
      · nlinarith [mul_nonneg (neg_nonneg.2 h.le) hc0, mul_self_nonneg b]
      · nlinarith [mul_self_nonneg (2 * a + b)]
    rw [← hc, if_neg (not_lt.2 hdet)]
    set s := Real.sqrt (b * b - 4 * a * c) with hs
    have hs0 : 0 ≤ s := Real.sqrt_nonneg _
    have hs2 : s * s = b * b - 4 * a * c := Real.mul_self_sqrt hdet
    -- both candidates are roots
    have root : ∀ t : ℝ, t * t = s * s → parabola L0 Lm L1 ((-b + t) / (2 * a)) = lowL := by
      intro t ht
      have h2 := hpar ((-b + t) / (2 * a))
      have h3 : a * ((-b + t) / (2 * a)) ^ 2 + b * ((-b + t) / (2 * a)) + c
          = (t * t - (b * b - 4 * a * c)) / (4 * a) := by
        field_simp
        ring
      rw [h3, ht, hs2, sub_self, zero_div] at h2
      linarith
    have r1 : parabola L0 Lm L1 ((-b - s) / (2 * a)) = lowL := by
      have := root (-s) (by ring)
      rwa [← sub_eq_add_neg] at this
    have r2 := root s rfl
    rcases lt_or_gt_of_ne ha0 with h | h
    · rw [if_pos h]
      -- the first is the largest
      have hle : (-b + s) / (2 * a) ≤ (-b - s) / (2 * a) := by
        rw [div_le_div_right_of_neg (by linarith)]; linarith
      have hgoal : 0 ≤ (-b - s) / (2 * a) ∧ (-b - s) / (2 * a) < 1 ∧
          parabola L0 Lm L1 ((-b - s) / (2 * a)) = lowL := by
        refine ⟨?_, ?_, r1⟩
        · apply div_nonneg_of_nonpos _ (by linarith)
          have : b * b ≤ s * s := by rw [hs2]; nlinarith [mul_nonneg (neg_nonneg.2 h.le) hc0]
          have : -b ≤ s := by
            by_contra hcon
            have h5 := not_le.1 hcon
            nlinarith
          linarith
        · rw [div_lt_one_of_neg (by linarith)]
          -- 2a < -b - s
          have h6 : s < -b - 2 * a := by
            have hpos : 0 < -b - 2 * a := by nlinarith
            by_contra hcon
            have h7 := not_lt.1 hcon
            nlinarith
          linarith
      split
      · exact hgoal
      · rename_i hx
        have : (-b + s) / (2 * a) = (-b - s) / (2 * a) := le_antisymm hle (not_lt.1 hx)
        rw [this]; exact hgoal
    · rw [if_neg (not_lt.2 h.le)]
      have hle : (-b - s) / (2 * a) ≤ (-b + s) / (2 * a) := by
        apply div_le_div_of_nonneg_right _ (by linarith); linarith
      have hgoal : 0 ≤ (-b - s) / (2 * a) ∧ (-b - s) / (2 * a) < 1 ∧
          parabola L0 Lm L1 ((-b - s) / (2 * a)) = lowL := by
        refine ⟨?_, ?_, r1⟩
        · apply div_nonneg _ (by linarith)
          have h8 : b < 0 := by linarith
          have : s * s ≤ b * b := by rw [hs2]; nlinarith [mul_nonneg h.le hc0]
          have : s ≤ -b := by
            by_contra hcon
            have h5 := not_le.1 hcon
            nlinarith
          linarith
        · rw [div_lt_one (by linarith)]
          have h6 : -b - 2 * a < s := by
            by_contra hcon
            have h7 := not_lt.1 hcon
            nlinarith
          linarith
      split
      · exact hgoal
      · rename_i hx
        have : (-b + s) / (2 * a) = (-b - s) / (2 * a) := le_antisymm (not_lt.1 hx) hle
        rw [this]; exact hgoal

/-- Between the start and the interpolated fraction the parabola is not below the level: it is the
first crossing. -/
theorem C11_first (L0 Lm L1 lowL x : ℝ) (h0 : lowL ≤ L0) (h1 : L1 < lowL)
    (hx0 : 0 ≤ x) (hx1 : x ≤ quadinterpol L0 Lm L1 lowL) : lowL ≤ parabola L0 Lm L1 x := by
  obtain ⟨hq0, hq1, hq⟩ := C11_level L0 Lm L1 lowL h0 h1
  set q := quadinterpol L0 Lm L1 lowL with hqdef
  rcases eq_or_lt_of_le hx1 with rfl | hlt
  · exact hq.ge
  -- a parabola with value ≥ level at 0, = level at q, < level at 1
  have e0 : parabola L0 Lm L1 0 = L0 := (parabola_points L0 Lm L1).1
  have e1 : parabola L0 Lm L1 1 = L1 := (parabola_points L0 Lm L1).2.2
  have hqpos : 0 < q := lt_of_le_of_lt hx0 hlt
  have hpar : ∀ x, parabola L0 Lm L1 x =
      (2 * L0 - 4 * Lm + 2 * L1) * x ^ 2 + (4 * Lm - L1 - 3 * L0) * x + L0 := by
    intro x; unfold parabola; ring
  generalize 2 * L0 - 4 * Lm + 2 * L1 = a at hpar
  generalize 4 * Lm - L1 - 3 * L0 = b at hpar
  -- P(y) - level = (y - q) (a y + d)
  have hfac : ∀ y, parabola L0 Lm L1 y - lowL = (y - q) * (a * (y + q) + b) := by
    intro y
    rw [← hq, hpar y, hpar q]; ring
  have f0 := hfac 0
  have f1 := hfac 1
  have fx := hfac x
  rw [e0] at f0
  rw [e1] at f1
  -- the second factor is not positive at 0 and negative at 1, so it is negative between
  have g0 : a * q + b ≤ 0 := by
    by_contra hcon
    have := not_le.1 hcon
    nlinarith
  have g1 : a * (1 + q) + b < 0 := by
    by_contra hcon
    have := not_lt.1 hcon
    nlinarith
  have gx : a * (x + q) + b ≤ 0 := by nlinarith
  nlinarith

example : quadinterpol 1 0 (-1) 0 = 1 / 2 := by norm_num [quadinterpol]

example : quadinterpol 0 (3 / 4) 0 (3 / 4) = 1 / 2 := by norm_num [quadinterpol]

end BF.Engines
