import Verif.Invariance
import Mathlib.MeasureTheory.Function.JacobianOneDim
import Mathlib.MeasureTheory.Integral.Lebesgue.Basic
import Mathlib.MeasureTheory.Measure.Prod
import Mathlib.MeasureTheory.Group.LIntegral

noncomputable section

namespace BF.Props.Invariance
open BF.Invariance MeasureTheory
open scoped ENNReal

theorem rand_affine (lo hi : ℝ) (h : lo < hi) (G : ℝ → ℝ≥0∞) :
    rand (fun r => G (lo + r * (hi - lo)))
      = (ENNReal.ofReal (hi - lo))⁻¹ * ∫⁻ y in Set.Ioo lo hi, G y := by
  have hd : 0 < hi - lo := sub_pos.2 h
  have himg : (fun r : ℝ => lo + r * (hi - lo)) '' Set.Ico 0 1 = Set.Ico lo hi := by
    ext y
    constructor
    · rintro ⟨r, ⟨h0, h1⟩, rfl⟩
      dsimp only
      constructor <;> nlinarith
    · rintro ⟨h0, h1⟩
      refine ⟨(y - lo) / (hi - lo), ⟨div_nonneg (by linarith) hd.le, ?_⟩, ?_⟩
      · rw [div_lt_one hd]; linarith
      · dsimp only
        rw [div_mul_cancel₀ _ hd.ne']; ring
  have key := lintegral_image_eq_lintegral_abs_deriv_mul (s := Set.Ico (0 : ℝ) 1)
    (f := fun r : ℝ => lo + r * (hi - lo)) (f' := fun _ => hi - lo) measurableSet_Ico
    (fun x _ => by
      have := ((hasDerivAt_id x).mul_const (hi - lo)).const_add lo
      simpa using this.hasDerivWithinAt)
    (by
      intro a _ b _ hab
      dsimp only at hab
      have : a * (hi - lo) = b * (hi - lo) := by linarith
      exact mul_right_cancel₀ hd.ne' this) G
  rw [himg] at key
  have hne : ENNReal.ofReal (hi - lo) ≠ 0 := by simpa using hd
  rw [setLIntegral_congr Ioo_ae_eq_Ico, key]
  rw [abs_of_pos hd, lintegral_const_mul' _ _ ENNReal.ofReal_ne_top, ← mul_assoc,
    ENNReal.inv_mul_cancel hne ENNReal.ofReal_ne_top, one_mul, rand]

theorem rand_const (c : ℝ≥0∞) : rand (fun _ => c) = c := by
  simp [rand]

/-! ## One chord, along the line -/

theorem try_zero (lik : ℝ → EReal) (lowL : EReal) (out : ℝ → ℝ≥0∞) (lo hi x : ℝ) (hx : lo < x ∧ x < hi) :
    chordTry lik lowL x 1 out 0 (lo - x) (hi - x)
      = (ENNReal.ofReal (hi - lo))⁻¹ * ∫⁻ y in Set.Ioo lo hi, if lowL ≤ lik y then out y else out x := by
  rw [← rand_affine lo hi (hx.1.trans hx.2), chordTry, if_pos ⟨by linarith [hx.1], by linarith [hx.2]⟩]
  have e : ∀ r : ℝ, x + (lo - x + r * (hi - x - (lo - x))) • (1 : ℝ) = lo + r * (hi - lo) := by
    intro r; simp only [smul_eq_mul]; ring
  simp only [e]

theorem try_succ (lik : ℝ → EReal) (lowL : EReal) (out : ℝ → ℝ≥0∞) (k : ℕ) (lo hi x : ℝ)
    (hx : lo < x ∧ x < hi) :
    chordTry lik lowL x 1 out (k + 1) (lo - x) (hi - x)
      = (ENNReal.ofReal (hi - lo))⁻¹ * ∫⁻ y in Set.Ioo lo hi,
        if lowL ≤ lik y then out y
        else if y < x then chordTry lik lowL x 1 out k (y - x) (hi - x)
        else chordTry lik lowL x 1 out k (lo - x) (y - x) := by
  rw [← rand_affine lo hi (hx.1.trans hx.2), chordTry, if_pos ⟨by linarith [hx.1], by linarith [hx.2]⟩]
  have e : ∀ r : ℝ, x + (lo - x + r * (hi - x - (lo - x))) • (1 : ℝ) = lo + r * (hi - lo) := by
    intro r; simp only [smul_eq_mul]; ring
  have e' : ∀ r : ℝ, lo - x + r * (hi - x - (lo - x)) = lo + r * (hi - lo) - x := by intro r; ring
  simp only [e]
  simp only [e', sub_neg]

/-- The mean is that of a probability: it keeps constants. -/
theorem try_const {E : Type*} [AddCommGroup E] [Module ℝ E] (lik : E → EReal) (lowL : EReal) (u v : E)
    (c : ℝ≥0∞) (k : ℕ) : ∀ t0 t1, chordTry lik lowL u v (fun _ => c) k t0 t1 = c := by
  induction k with
  | zero => intro t0 t1; simp [chordTry, rand_const]
  | succ k ih => intro t0 t1; simp [chordTry, ih, rand_const]

theorem rand_measurable {α : Type*} [MeasurableSpace α] (g : α → ℝ → ℝ≥0∞)
    (hg : Measurable (Function.uncurry g)) : Measurable fun a => rand (g a) := by
  unfold rand
  exact Measurable.lintegral_prod_right' hg

/-- The mean is a measurable function of the start and the ends of the chord. -/
theorem try_measurable {E : Type*} [AddCommGroup E] [Module ℝ E] [MeasurableSpace E] [MeasurableAdd₂ E]
    [MeasurableSMul₂ ℝ E] (lik : E → EReal) (hl : Measurable lik) (lowL : EReal) (v : E)
    (F : E → E → ℝ≥0∞) (hF : Measurable (Function.uncurry F)) (k : ℕ) :
    Measurable fun q : E × ℝ × ℝ => chordTry lik lowL q.1 v (F q.1) k q.2.1 q.2.2 := by
  have hdt : Measurable fun q : (E × ℝ × ℝ) × ℝ => q.1.2.1 + q.2 * (q.1.2.2 - q.1.2.1) := by fun_prop
  have hut : Measurable fun q : (E × ℝ × ℝ) × ℝ =>
      q.1.1 + (q.1.2.1 + q.2 * (q.1.2.2 - q.1.2.1)) • v := by fun_prop
  have hok : MeasurableSet {q : (E × ℝ × ℝ) × ℝ |
      lowL ≤ lik (q.1.1 + (q.1.2.1 + q.2 * (q.1.2.2 - q.1.2.1)) • v)} :=
    measurableSet_le measurable_const (hl.comp hut)
  have hin : MeasurableSet {q : E × ℝ × ℝ | q.2.1 < 0 ∧ 0 < q.2.2} :=
    (measurableSet_lt (measurable_fst.comp measurable_snd) measurable_const).inter
      (measurableSet_lt measurable_const (measurable_snd.comp measurable_snd))
  have hneg : MeasurableSet {q : (E × ℝ × ℝ) × ℝ | q.1.2.1 + q.2 * (q.1.2.2 - q.1.2.1) < 0} :=
    measurableSet_lt hdt measurable_const
  have hstay : Measurable fun q : E × ℝ × ℝ => F q.1 q.1 :=
    hF.comp (measurable_fst.prodMk measurable_fst)
  have hgo : Measurable fun q : (E × ℝ × ℝ) × ℝ =>
      F q.1.1 (q.1.1 + (q.1.2.1 + q.2 * (q.1.2.2 - q.1.2.1)) • v) :=
    hF.comp ((measurable_fst.comp measurable_fst).prodMk hut)
  induction k with
  | zero =>
    simp only [chordTry]
    refine Measurable.ite hin (rand_measurable _ ?_) hstay
    exact Measurable.ite hok hgo (hstay.comp measurable_fst)
  | succ k ih =>
    simp only [chordTry]
    refine Measurable.ite hin (rand_measurable _ ?_) hstay
    refine Measurable.ite hok hgo (Measurable.ite hneg ?_ ?_)
    · exact ih.comp (g := fun q : E × ℝ × ℝ => chordTry lik lowL q.1 v (F q.1) k q.2.1 q.2.2)
        (f := fun q : (E × ℝ × ℝ) × ℝ => (q.1.1, q.1.2.1 + q.2 * (q.1.2.2 - q.1.2.1), q.1.2.2))
        (by fun_prop)
    · exact ih.comp (g := fun q : E × ℝ × ℝ => chordTry lik lowL q.1 v (F q.1) k q.2.1 q.2.2)
        (f := fun q : (E × ℝ × ℝ) × ℝ => (q.1.1, q.1.2.1, q.1.2.1 + q.2 * (q.1.2.2 - q.1.2.1)))
        (by fun_prop)

/-- From a place that is uniform over the accepted part of the line, start and end of the move may be
exchanged. -/
theorem line_symm (lik : ℝ → EReal) (hl : Measurable lik) (lowL : EReal) (k : ℕ) :
    ∀ (F : ℝ → ℝ → ℝ≥0∞), Measurable (Function.uncurry F) → ∀ lo hi : ℝ,
    ∫⁻ x in {x | lowL ≤ lik x} ∩ Set.Ioo lo hi, chordTry lik lowL x 1 (F x) k (lo - x) (hi - x)
      = ∫⁻ x in {x | lowL ≤ lik x} ∩ Set.Ioo lo hi,
          chordTry lik lowL x 1 (fun y => F y x) k (lo - x) (hi - x) := by
  have hS : MeasurableSet {x | lowL ≤ lik x} := measurableSet_le measurable_const hl
  set S := {x | lowL ≤ lik x} with hSdef
  have hsplit : ∀ (lo hi : ℝ) (a b : ℝ → ℝ≥0∞),
      ∫⁻ y in Set.Ioo lo hi, (if lowL ≤ lik y then a y else b y)
        = (∫⁻ y in S ∩ Set.Ioo lo hi, a y) + ∫⁻ y in Set.Ioo lo hi \ S, b y := by
    intro lo hi a b
    rw [← lintegral_inter_add_diff _ (Set.Ioo lo hi) hS, Set.inter_comm]
    congr 1
    · exact setLIntegral_congr_fun (hS.inter measurableSet_Ioo) fun y hy => if_pos hy.1
    · exact setLIntegral_congr_fun (measurableSet_Ioo.diff hS) fun y hy => if_neg hy.2
  have hSI : ∀ lo hi : ℝ, MeasurableSet (S ∩ Set.Ioo lo hi) := fun lo hi => hS.inter measurableSet_Ioo
  have htrans : ∀ F : ℝ → ℝ → ℝ≥0∞, Measurable (Function.uncurry F) →
      Measurable (Function.uncurry fun x y => F y x) := fun F hF => hF.comp measurable_swap
  have hinner : ∀ F : ℝ → ℝ → ℝ≥0∞, Measurable (Function.uncurry F) → ∀ s : Set ℝ,
      Measurable fun x => ∫⁻ y in s, F x y := fun F hF s => Measurable.lintegral_prod_right' hF
  induction k with
  | zero =>
    intro F hF lo hi
    have h : ∀ F : ℝ → ℝ → ℝ≥0∞, Measurable (Function.uncurry F) →
        ∫⁻ x in S ∩ Set.Ioo lo hi, chordTry lik lowL x 1 (F x) 0 (lo - x) (hi - x)
        = (ENNReal.ofReal (hi - lo))⁻¹ * ((∫⁻ x in S ∩ Set.Ioo lo hi, ∫⁻ y in S ∩ Set.Ioo lo hi, F x y)
          + ∫⁻ x in S ∩ Set.Ioo lo hi, ∫⁻ _ in Set.Ioo lo hi \ S, F x x) := by
      intro F hF
      rw [← lintegral_add_left (hinner F hF _)]
      rcases Set.eq_empty_or_nonempty (S ∩ Set.Ioo lo hi) with he | ⟨z, _, hz⟩
      · rw [he]; simp
      have hne : (ENNReal.ofReal (hi - lo))⁻¹ ≠ ⊤ := by
        have : lo < hi := hz.1.trans hz.2
        simp [this]
      rw [← lintegral_const_mul' _ _ hne]
      refine setLIntegral_congr_fun (hSI lo hi) fun x hx => ?_
      rw [try_zero lik lowL (F x) lo hi x hx.2, hsplit lo hi (F x) (fun _ => F x x)]
    rw [h F hF, h (fun x y => F y x) (htrans F hF), lintegral_lintegral_swap hF.aemeasurable]
  | succ k ih =>
    intro F hF lo hi
    have h : ∀ F : ℝ → ℝ → ℝ≥0∞, Measurable (Function.uncurry F) →
        ∫⁻ x in S ∩ Set.Ioo lo hi, chordTry lik lowL x 1 (F x) (k + 1) (lo - x) (hi - x)
        = (ENNReal.ofReal (hi - lo))⁻¹ * ((∫⁻ x in S ∩ Set.Ioo lo hi, ∫⁻ y in S ∩ Set.Ioo lo hi, F x y)
          + ∫⁻ y in Set.Ioo lo hi \ S,
            ((∫⁻ x in S ∩ Set.Ioo y hi, chordTry lik lowL x 1 (F x) k (y - x) (hi - x))
            + ∫⁻ x in S ∩ Set.Ioo lo y, chordTry lik lowL x 1 (F x) k (lo - x) (y - x))) := by
      intro F hF
      have hm := try_measurable lik hl lowL 1 F hF k
      have hPsi : Measurable (Function.uncurry fun x y : ℝ =>
          if y < x then chordTry lik lowL x 1 (F x) k (y - x) (hi - x)
          else chordTry lik lowL x 1 (F x) k (lo - x) (y - x)) := by
        refine Measurable.ite (measurableSet_lt measurable_snd measurable_fst) ?_ ?_
        · exact hm.comp (f := fun q : ℝ × ℝ => (q.1, q.2 - q.1, hi - q.1)) (by fun_prop)
        · exact hm.comp (f := fun q : ℝ × ℝ => (q.1, lo - q.1, q.2 - q.1)) (by fun_prop)
      have hswap : ∫⁻ y in Set.Ioo lo hi \ S,
            ((∫⁻ x in S ∩ Set.Ioo y hi, chordTry lik lowL x 1 (F x) k (y - x) (hi - x))
            + ∫⁻ x in S ∩ Set.Ioo lo y, chordTry lik lowL x 1 (F x) k (lo - x) (y - x))
          = ∫⁻ x in S ∩ Set.Ioo lo hi, ∫⁻ y in Set.Ioo lo hi \ S,
            (if y < x then chordTry lik lowL x 1 (F x) k (y - x) (hi - x)
            else chordTry lik lowL x 1 (F x) k (lo - x) (y - x)) := by
        rw [lintegral_lintegral_swap hPsi.aemeasurable]
        refine setLIntegral_congr_fun (measurableSet_Ioo.diff hS) fun y hy => ?_
        rw [← lintegral_inter_add_diff _ (S ∩ Set.Ioo lo hi) (measurableSet_Ioi (a := y))]
        have e1 : S ∩ Set.Ioo lo hi ∩ Set.Ioi y = S ∩ Set.Ioo y hi := by
          ext x
          simp only [Set.mem_inter_iff, Set.mem_Ioo, Set.mem_Ioi]
          exact ⟨fun h => ⟨h.1.1, h.2, h.1.2.2⟩, fun h => ⟨⟨h.1, hy.1.1.trans h.2.1, h.2.2⟩, h.2.1⟩⟩
        have e2 : (S ∩ Set.Ioo lo hi) \ Set.Ioi y = S ∩ Set.Ioo lo y := by
          ext x
          simp only [Set.mem_inter_iff, Set.mem_Ioo, Set.mem_Ioi, Set.mem_diff, not_lt]
          constructor
          · rintro ⟨⟨h1, h2, h3⟩, h4⟩
            refine ⟨h1, h2, lt_of_le_of_ne h4 ?_⟩
            rintro rfl
            exact hy.2 h1
          · rintro ⟨h1, h2, h3⟩
            exact ⟨⟨h1, h2, h3.trans hy.1.2⟩, h3.le⟩
        rw [e1, e2]
        congr 1
        · exact setLIntegral_congr_fun (hSI y hi) fun x hx => (if_pos hx.2.1).symm
        · exact setLIntegral_congr_fun (hSI lo y) fun x hx => (if_neg (not_lt.2 hx.2.2.le)).symm
      rw [hswap, ← lintegral_add_left (hinner F hF _)]
      rcases Set.eq_empty_or_nonempty (S ∩ Set.Ioo lo hi) with he | ⟨z, _, hz⟩
      · rw [he]; simp
      have hne : (ENNReal.ofReal (hi - lo))⁻¹ ≠ ⊤ := by
        have : lo < hi := hz.1.trans hz.2
        simp [this]
      rw [← lintegral_const_mul' _ _ hne]
      refine setLIntegral_congr_fun (hSI lo hi) fun x hx => ?_
      rw [try_succ lik lowL (F x) k lo hi x hx.2, hsplit lo hi (F x)]
    rw [h F hF, h (fun x y => F y x) (htrans F hF), lintegral_lintegral_swap hF.aemeasurable]
    congr 2
    refine setLIntegral_congr_fun (measurableSet_Ioo.diff hS) fun y _ => ?_
    rw [ih F hF y hi, ih F hF lo y]

/-- The move along a line keeps the uniform distribution over the accepted part of the line. -/
theorem line_uniform (lik : ℝ → EReal) (hl : Measurable lik) (lowL : EReal) (k : ℕ)
    (f : ℝ → ℝ≥0∞) (hf : Measurable f) (lo hi : ℝ) :
    ∫⁻ x in {x | lowL ≤ lik x} ∩ Set.Ioo lo hi, chordTry lik lowL x 1 f k (lo - x) (hi - x)
      = ∫⁻ x in {x | lowL ≤ lik x} ∩ Set.Ioo lo hi, f x := by
  rw [line_symm lik hl lowL k (fun _ y => f y) (hf.comp measurable_snd) lo hi]
  refine setLIntegral_congr_fun ((measurableSet_le measurable_const hl).inter measurableSet_Ioo)
    fun x _ => ?_
  exact try_const lik lowL x 1 (f x) k _ _

/-! ## The chord in the box -/

variable {n : ℕ}

/-- The inside of a box. -/
def Box (lo hi : Fin n → ℝ) : Set (Fin n → ℝ) := {u | ∀ i, lo i < u i ∧ u i < hi i}

theorem box_measurable (lo hi : Fin n → ℝ) : MeasurableSet (Box lo hi) := by
  have : Box lo hi = ⋂ i, {u : Fin n → ℝ | lo i < u i} ∩ {u | u i < hi i} := by
    ext u; simp [Box]
  rw [this]
  exact MeasurableSet.iInter fun i => (measurableSet_lt measurable_const (measurable_pi_apply i)).inter
    (measurableSet_lt (measurable_pi_apply i) measurable_const)

theorem exit_iff (lo hi u v : Fin n → ℝ) (t : ℝ) :
    (t : EReal) < exitTime lo hi u v ↔ ∀ j, 0 < edgeTime lo hi u v j → t < edgeTime lo hi u v j := by
  unfold exitTime
  rw [← Finset.inf_univ_eq_iInf, Finset.lt_inf_iff (EReal.coe_lt_top t)]
  simp only [Finset.mem_univ, true_implies]
  refine forall_congr' fun j => ?_
  by_cases h : 0 < edgeTime lo hi u v j
  · simp [h]
  · simp [h, EReal.coe_lt_top]

theorem entry_iff (lo hi u v : Fin n → ℝ) (t : ℝ) :
    entryTime lo hi u v < (t : EReal) ↔ ∀ j, edgeTime lo hi u v j < 0 → edgeTime lo hi u v j < t := by
  unfold entryTime
  rw [← Finset.sup_univ_eq_iSup, Finset.sup_lt_iff (EReal.bot_lt_coe t)]
  simp only [Finset.mem_univ, true_implies]
  refine forall_congr' fun j => ?_
  by_cases h : edgeTime lo hi u v j < 0
  · simp [h]
  · simp [h, EReal.bot_lt_coe]

/-- From inside the box, the places before the exit time are those inside the box. -/
theorem exit_spec (lo hi u v : Fin n → ℝ) (hu : u ∈ Box lo hi) (t : ℝ) (ht : 0 ≤ t) :
    (t : EReal) < exitTime lo hi u v ↔ u + t • v ∈ Box lo hi := by
  have hmem : u + t • v ∈ Box lo hi ↔ ∀ i, lo i < u i + t * v i ∧ u i + t * v i < hi i := by
    simp [Box]
  rw [exit_iff, hmem]
  constructor
  · intro h i
    obtain ⟨h1, h2⟩ := hu i
    have ha := h (.inl i)
    have hb := h (.inr i)
    simp only [edgeTime] at ha hb
    rcases lt_trichotomy (v i) 0 with hv | hv | hv
    · have : 0 < (lo i - u i) / v i := div_pos_of_neg_of_neg (by linarith) hv
      have ha := ha this
      rw [lt_div_iff_of_neg hv] at ha
      constructor
      · linarith
      · nlinarith
    · rw [hv]; constructor <;> linarith
    · have : 0 < (hi i - u i) / v i := div_pos (by linarith) hv
      have hb := hb this
      rw [lt_div_iff₀ hv] at hb
      constructor
      · nlinarith
      · linarith
  · rintro h (i | i) hp
    · obtain ⟨h1, h2⟩ := hu i
      obtain ⟨h3, h4⟩ := h i
      simp only [edgeTime] at hp ⊢
      rcases lt_trichotomy (v i) 0 with hv | hv | hv
      · rw [lt_div_iff_of_neg hv]; linarith
      · rw [hv, div_zero] at hp; exact absurd hp (lt_irrefl _)
      · exact absurd hp (not_lt.2 (div_nonpos_of_nonpos_of_nonneg (by linarith) hv.le))
    · obtain ⟨h1, h2⟩ := hu i
      obtain ⟨h3, h4⟩ := h i
      simp only [edgeTime] at hp ⊢
      rcases lt_trichotomy (v i) 0 with hv | hv | hv
      · exact absurd hp (not_lt.2 (div_nonpos_of_nonneg_of_nonpos (by linarith) hv.le))
      · rw [hv, div_zero] at hp; exact absurd hp (lt_irrefl _)
      · rw [lt_div_iff₀ hv]; linarith

/-- From inside the box, the places after the entry time are those inside the box. -/
theorem entry_spec (lo hi u v : Fin n → ℝ) (hu : u ∈ Box lo hi) (t : ℝ) (ht : t ≤ 0) :
    entryTime lo hi u v < (t : EReal) ↔ u + t • v ∈ Box lo hi := by
  have he : ∀ j, edgeTime lo hi u (-v) j = -edgeTime lo hi u v j := by
    rintro (i | i) <;> simp [edgeTime, div_neg]
  have h := exit_spec lo hi u (-v) hu (-t) (by linarith)
  rw [exit_iff] at h
  simp only [he, neg_pos, neg_lt_neg_iff, neg_smul_neg] at h
  rw [entry_iff, h]

/-- The mean of one chord is a measurable function of the start. -/
theorem move_measurable (lik : (Fin n → ℝ) → EReal) (hl : Measurable lik) (lowL : EReal) (k : ℕ)
    (lo hi v : Fin n → ℝ) (f : (Fin n → ℝ) → ℝ≥0∞) (hf : Measurable f) :
    Measurable fun u => chordMove lik lowL k lo hi v u f := by
  have hedge : ∀ j, Measurable fun u => edgeTime lo hi u v j := by
    rintro (i | i) <;> simp only [edgeTime] <;> fun_prop
  have h1 : Measurable fun u => exitTime lo hi u v := by
    unfold exitTime
    refine Measurable.iInf fun j => Measurable.ite (measurableSet_lt measurable_const (hedge j)) ?_
      measurable_const
    exact measurable_coe_real_ereal.comp (hedge j)
  have h0 : Measurable fun u => entryTime lo hi u v := by
    unfold entryTime
    refine Measurable.iSup fun j => Measurable.ite (measurableSet_lt (hedge j) measurable_const) ?_
      measurable_const
    exact measurable_coe_real_ereal.comp (hedge j)
  unfold chordMove
  refine Measurable.ite ?_ ?_ hf
  · exact (h0 (measurableSet_singleton ⊥).compl).inter (h1 (measurableSet_singleton ⊤).compl)
  · exact (try_measurable lik hl lowL v (fun _ => f) (hf.comp measurable_snd) k).comp
      (f := fun u => (u, (entryTime lo hi u v).toReal, (exitTime lo hi u v).toReal))
      (measurable_id.prodMk (h0.ereal_toReal.prodMk h1.ereal_toReal))

/-- The trials on a line in the box are those on the line itself. -/
theorem try_line (lik : (Fin n → ℝ) → EReal) (lowL : EReal) (p v : Fin n → ℝ) (f : (Fin n → ℝ) → ℝ≥0∞)
    (x : ℝ) (k : ℕ) : ∀ t0 t1, chordTry lik lowL (p + x • v) v f k t0 t1
      = chordTry (fun y : ℝ => lik (p + y • v)) lowL x 1 (fun y => f (p + y • v)) k t0 t1 := by
  have e : ∀ t : ℝ, p + x • v + t • v = p + (x + t • (1 : ℝ)) • v := by
    intro t; rw [add_assoc, ← add_smul]; simp
  induction k with
  | zero => intro t0 t1; simp only [chordTry, e]
  | succ k ih => intro t0 t1; simp only [chordTry, e, ih]

/-- Along each line the move keeps the integral over the accepted part inside the box. -/
theorem line_box (lik : (Fin n → ℝ) → EReal) (hl : Measurable lik) (lowL : EReal) (k : ℕ)
    (lo hi v p : Fin n → ℝ) (hv : v ≠ 0) (f : (Fin n → ℝ) → ℝ≥0∞) (hf : Measurable f) :
    ∫⁻ x : ℝ, ({u | lowL ≤ lik u} ∩ Box lo hi).indicator (fun u => chordMove lik lowL k lo hi v u f)
        (p + x • v)
      = ∫⁻ x : ℝ, ({u | lowL ≤ lik u} ∩ Box lo hi).indicator f (p + x • v) := by
  by_cases hne : ∃ x0 : ℝ, p + x0 • v ∈ Box lo hi
  swap
  · have : ∀ (g : (Fin n → ℝ) → ℝ≥0∞) (x : ℝ),
        ({u | lowL ≤ lik u} ∩ Box lo hi).indicator g (p + x • v) = 0 := by
      intro g x
      exact Set.indicator_of_notMem (fun h => hne ⟨x, h.2⟩) _
    simp only [this]
  obtain ⟨x0, hx0⟩ := hne
  obtain ⟨i, hi0⟩ : ∃ i, v i ≠ 0 := by
    by_contra h
    push Not at h
    exact hv (funext h)
  -- the times are finite
  have hfin : ∀ u ∈ Box lo hi, ∃ t0 t1 : ℝ, entryTime lo hi u v = t0 ∧ exitTime lo hi u v = t1 := by
    intro u hu
    have hout : ∀ t : ℝ, (hi i - lo i) ≤ |t| * |v i| → u + t • v ∉ Box lo hi := by
      intro t ht h
      have h1 := hu i
      have h2 := h i
      simp only [Pi.add_apply, Pi.smul_apply, smul_eq_mul] at h2
      rw [← abs_mul] at ht
      rcases abs_cases (t * v i) with ⟨e, _⟩ | ⟨e, _⟩ <;> rw [e] at ht <;> linarith
    set T := (hi i - lo i) / |v i| with hT
    have hvp : 0 < |v i| := abs_pos.2 hi0
    have hTp : 0 ≤ T := div_nonneg (by linarith [(hu i).1, (hu i).2]) hvp.le
    have e1 : ¬ ((T : ℝ) : EReal) < exitTime lo hi u v := by
      rw [exit_spec lo hi u v hu T hTp]
      refine hout T ?_
      rw [abs_of_nonneg hTp, hT, div_mul_cancel₀ _ hvp.ne']
    have e0 : ¬ entryTime lo hi u v < ((-T : ℝ) : EReal) := by
      rw [entry_spec lo hi u v hu (-T) (by linarith)]
      refine hout (-T) ?_
      rw [abs_neg, abs_of_nonneg hTp, hT, div_mul_cancel₀ _ hvp.ne']
    have p1 : (0 : EReal) < exitTime lo hi u v := by
      have := (exit_spec lo hi u v hu 0 le_rfl).2 (by simpa using hu)
      simpa using this
    have p0 : entryTime lo hi u v < (0 : EReal) := by
      have := (entry_spec lo hi u v hu 0 le_rfl).2 (by simpa using hu)
      simpa using this
    refine ⟨(entryTime lo hi u v).toReal, (exitTime lo hi u v).toReal, ?_, ?_⟩
    · refine (EReal.coe_toReal (p0.trans EReal.zero_lt_top).ne ?_).symm
      intro h
      exact e0 (h ▸ EReal.bot_lt_coe _)
    · refine (EReal.coe_toReal ?_ (EReal.bot_lt_zero.trans p1).ne').symm
      intro h
      exact e1 (h ▸ EReal.coe_lt_top _)
  obtain ⟨s0, s1, hs0, hs1⟩ := hfin _ hx0
  have hshift : ∀ x y : ℝ, p + y • v = p + x • v + (y - x) • v := by
    intro x y; rw [add_assoc, ← add_smul]; congr 2; ring
  -- the part of the line that is inside the box
  have hmem : ∀ y : ℝ, p + y • v ∈ Box lo hi ↔ y ∈ Set.Ioo (x0 + s0) (x0 + s1) := by
    intro y
    have q1 : 0 < s1 := by
      have := (exit_spec lo hi _ v hx0 0 le_rfl).2 (by simpa using hx0)
      rw [hs1] at this; exact_mod_cast this
    have q0 : s0 < 0 := by
      have := (entry_spec lo hi _ v hx0 0 le_rfl).2 (by simpa using hx0)
      rw [hs0] at this; exact_mod_cast this
    rw [hshift x0 y]
    rcases le_total x0 y with h | h
    · rw [← exit_spec lo hi _ v hx0 (y - x0) (by linarith), hs1, EReal.coe_lt_coe_iff]
      constructor
      · intro h'; exact ⟨by linarith, by linarith⟩
      · intro h'; linarith [h'.2]
    · rw [← entry_spec lo hi _ v hx0 (y - x0) (by linarith), hs0, EReal.coe_lt_coe_iff]
      constructor
      · intro h'; exact ⟨by linarith, by linarith⟩
      · intro h'; linarith [h'.1]
  set A := x0 + s0
  set B := x0 + s1
  have htimes : ∀ x, p + x • v ∈ Box lo hi →
      entryTime lo hi (p + x • v) v = ((A - x : ℝ) : EReal) ∧
      exitTime lo hi (p + x • v) v = ((B - x : ℝ) : EReal) := by
    intro x hx
    obtain ⟨t0, t1, h0, h1⟩ := hfin _ hx
    have hxAB := (hmem x).1 hx
    have k1 : ∀ y, x ≤ y → (y - x < t1 ↔ y < B) := by
      intro y hy
      rw [← EReal.coe_lt_coe_iff, ← h1, exit_spec lo hi _ v hx (y - x) (by linarith), ← hshift, hmem]
      exact ⟨fun h => h.2, fun h => ⟨lt_of_lt_of_le hxAB.1 hy, h⟩⟩
    have k0 : ∀ y, y ≤ x → (t0 < y - x ↔ A < y) := by
      intro y hy
      rw [← EReal.coe_lt_coe_iff, ← h0, entry_spec lo hi _ v hx (y - x) (by linarith), ← hshift, hmem]
      exact ⟨fun h => h.1, fun h => ⟨h, lt_of_le_of_lt hy hxAB.2⟩⟩
    have p1 : 0 < t1 := by have := (k1 x le_rfl).2 hxAB.2; linarith
    have p0 : t0 < 0 := by have := (k0 x le_rfl).2 hxAB.1; linarith
    have g1 : t1 = B - x := by
      apply le_antisymm
      · by_contra h
        push Not at h
        have := (k1 B hxAB.2.le).1 h
        exact lt_irrefl _ this
      · by_contra h
        push Not at h
        have := (k1 (x + t1) (by linarith)).2 (by linarith)
        linarith
    have g0 : t0 = A - x := by
      apply le_antisymm
      · by_contra h
        push Not at h
        have := (k0 (x + t0) (by linarith)).2 (by linarith)
        linarith
      · by_contra h
        push Not at h
        have := (k0 A hxAB.1.le).1 h
        exact lt_irrefl _ this
    rw [h0, h1, g0, g1]
    exact ⟨rfl, rfl⟩
  set lik' : ℝ → EReal := fun y => lik (p + y • v) with hlik'
  have hline : Measurable fun y : ℝ => p + y • v := by fun_prop
  have hl' : Measurable lik' := hl.comp hline
  have hset : MeasurableSet ({x | lowL ≤ lik' x} ∩ Set.Ioo A B) :=
    (measurableSet_le measurable_const hl').inter measurableSet_Ioo
  have hind : ∀ g : (Fin n → ℝ) → ℝ≥0∞,
      ∫⁻ x : ℝ, ({u | lowL ≤ lik u} ∩ Box lo hi).indicator g (p + x • v)
        = ∫⁻ x in {x | lowL ≤ lik' x} ∩ Set.Ioo A B, g (p + x • v) := by
    intro g
    rw [← lintegral_indicator hset]
    refine lintegral_congr fun x => ?_
    by_cases h : p + x • v ∈ {u | lowL ≤ lik u} ∩ Box lo hi
    · rw [Set.indicator_of_mem h, Set.indicator_of_mem]
      exact ⟨h.1, (hmem x).1 h.2⟩
    · rw [Set.indicator_of_notMem h, Set.indicator_of_notMem]
      exact fun h' => h ⟨h'.1, (hmem x).2 h'.2⟩
  rw [hind, hind, ← line_uniform lik' hl' lowL k (fun y => f (p + y • v)) (hf.comp hline) A B]
  refine setLIntegral_congr_fun hset fun x hx => ?_
  obtain ⟨h0, h1⟩ := htimes x ((hmem x).2 hx.2)
  simp only [chordMove, h0, h1]
  rw [if_pos ⟨EReal.coe_ne_bot _, EReal.coe_ne_top _⟩, try_line, EReal.toReal_coe, EReal.toReal_coe]

/-- An integral over the space is an integral over the lines in one direction. -/
theorem integral_lines (v : Fin n → ℝ) (i : Fin n) (hv : v i ≠ 0) (H : (Fin n → ℝ) → ℝ≥0∞)
    (hH : Measurable H) :
    ∫⁻ u, H u = ∫⁻ u, {u : Fin n → ℝ | 0 ≤ u i ∧ u i < |v i|}.indicator (fun u => ∫⁻ x : ℝ, H (u + x • v)) u
      := by
  set W := {u : Fin n → ℝ | 0 ≤ u i ∧ u i < |v i|} with hW
  have hWm : MeasurableSet W :=
    (measurableSet_le measurable_const (measurable_pi_apply i)).inter
      (measurableSet_lt (measurable_pi_apply i) measurable_const)
  have hone : ∀ u : Fin n → ℝ, ∫⁻ x : ℝ, W.indicator (fun _ => (1 : ℝ≥0∞)) (u - x • v) = 1 := by
    intro u
    have e : ∀ x : ℝ, W.indicator (fun _ => (1 : ℝ≥0∞)) (u - x • v)
        = ((fun x : ℝ => u i - x * v i) ⁻¹' Set.Ico 0 |v i|).indicator (fun _ => 1) x := by
      intro x
      by_cases h : u - x • v ∈ W
      · rw [Set.indicator_of_mem h, Set.indicator_of_mem]
        simpa [hW] using h
      · rw [Set.indicator_of_notMem h, Set.indicator_of_notMem]
        simpa [hW] using h
    have hset : (fun x : ℝ => u i - x * v i) ⁻¹' Set.Ico 0 |v i|
        = if 0 < v i then Set.Ioc (u i / v i - 1) (u i / v i) else Set.Ico (u i / v i) (u i / v i + 1) := by
      have hd : u i = (u i / v i) * v i := (div_mul_cancel₀ _ hv).symm
      set q := u i / v i
      ext x
      simp only [Set.mem_preimage, Set.mem_Ico]
      rw [hd]
      split_ifs with h
      · rw [abs_of_pos h]
        simp only [Set.mem_Ioc]
        constructor
        · rintro ⟨h1, h2⟩
          constructor <;> by_contra hc <;> push Not at hc <;> nlinarith
        · rintro ⟨h1, h2⟩
          constructor <;> nlinarith
      · have h : v i < 0 := lt_of_le_of_ne (not_lt.1 h) hv
        rw [abs_of_neg h]
        simp only [Set.mem_Ico]
        constructor
        · rintro ⟨h1, h2⟩
          constructor <;> by_contra hc <;> push Not at hc <;> nlinarith
        · rintro ⟨h1, h2⟩
          constructor <;> nlinarith
    simp only [e]
    rw [lintegral_indicator_const, hset]
    · split_ifs <;> simp
    · rw [hset]; split_ifs
      · exact measurableSet_Ioc
      · exact measurableSet_Ico
  have hWi : Measurable (W.indicator fun _ => (1 : ℝ≥0∞)) := measurable_const.indicator hWm
  calc ∫⁻ u, H u = ∫⁻ u, ∫⁻ x : ℝ, H u * W.indicator (fun _ => (1 : ℝ≥0∞)) (u - x • v) := by
        refine lintegral_congr fun u => ?_
        rw [lintegral_const_mul, hone, mul_one]
        exact hWi.comp (by fun_prop)
    _ = ∫⁻ x : ℝ, ∫⁻ u, H u * W.indicator (fun _ => (1 : ℝ≥0∞)) (u - x • v) := by
        refine lintegral_lintegral_swap (Measurable.aemeasurable ?_)
        exact (hH.comp measurable_fst).mul (hWi.comp (f := fun q : (Fin n → ℝ) × ℝ => q.1 - q.2 • v)
          (by fun_prop))
    _ = ∫⁻ x : ℝ, ∫⁻ u, H (u + x • v) * W.indicator (fun _ => (1 : ℝ≥0∞)) u := by
        refine lintegral_congr fun x => ?_
        rw [← lintegral_add_right_eq_self _ (x • v)]
        simp only [add_sub_cancel_right]
    _ = ∫⁻ u, ∫⁻ x : ℝ, H (u + x • v) * W.indicator (fun _ => (1 : ℝ≥0∞)) u := by
        refine lintegral_lintegral_swap (Measurable.aemeasurable ?_)
        exact (hH.comp (f := fun q : ℝ × (Fin n → ℝ) => q.2 + q.1 • v) (by fun_prop)).mul
          (hWi.comp measurable_snd)
    _ = _ := by
        refine lintegral_congr fun u => ?_
        by_cases h : u ∈ W
        · rw [Set.indicator_of_mem h, Set.indicator_of_mem h]; simp
        · rw [Set.indicator_of_notMem h, Set.indicator_of_notMem h]; simp

/-- **A chord keeps the distribution.** When a walker is anywhere, with equal probability, in the part
of the box where the likelihood is at least the limit, then after a chord in any direction it still is. -/
theorem C120_chord (lik : (Fin n → ℝ) → EReal) (hl : Measurable lik) (lowL : EReal) (maxtrials : ℕ)
    (umin umax vel : Fin n → ℝ) (out : (Fin n → ℝ) → ℝ≥0∞) (hout : Measurable out) :
    ∫⁻ u in {u | lowL ≤ lik u} ∩ Box umin umax, chordMove lik lowL maxtrials umin umax vel u out
      = ∫⁻ u in {u | lowL ≤ lik u} ∩ Box umin umax, out u := by
  have hA : MeasurableSet ({u | lowL ≤ lik u} ∩ Box umin umax) :=
    (measurableSet_le measurable_const hl).inter (box_measurable _ _)
  by_cases hv : vel = 0
  · refine setLIntegral_congr_fun hA fun u _ => ?_
    simp only [chordMove]
    rw [if_neg]
    rintro ⟨h, _⟩
    apply h
    rw [entryTime, iSup_eq_bot]
    rintro (i | i) <;> simp [edgeTime, hv]
  obtain ⟨i, hi⟩ : ∃ i, vel i ≠ 0 := by
    by_contra h
    push Not at h
    exact hv (funext h)
  rw [← lintegral_indicator hA, ← lintegral_indicator hA,
    integral_lines vel i hi _ ((move_measurable lik hl lowL maxtrials umin umax vel out hout).indicator hA),
    integral_lines vel i hi _ (hout.indicator hA)]
  refine lintegral_congr fun u => ?_
  congr 1
  funext p
  exact line_box lik hl lowL maxtrials umin umax vel p hv out hout

theorem moves_measurable (lik : (Fin n → ℝ) → EReal) (hl : Measurable lik) (lowL : EReal) (k : ℕ)
    (lo hi : Fin n → ℝ) (vels : List (Fin n → ℝ)) (f : (Fin n → ℝ) → ℝ≥0∞) (hf : Measurable f) :
    Measurable fun u => chordMoves lik lowL k lo hi vels u f := by
  induction vels with
  | nil => exact hf
  | cons v vs ih => exact move_measurable lik hl lowL k lo hi v _ ih

/-- The same for any number of chords, in any directions. -/
theorem C120_chords (lik : (Fin n → ℝ) → EReal) (hl : Measurable lik) (lowL : EReal) (maxtrials : ℕ)
    (umin umax : Fin n → ℝ) (vels : List (Fin n → ℝ)) (out : (Fin n → ℝ) → ℝ≥0∞) (hout : Measurable out) :
    ∫⁻ u in {u | lowL ≤ lik u} ∩ Box umin umax, chordMoves lik lowL maxtrials umin umax vels u out
      = ∫⁻ u in {u | lowL ≤ lik u} ∩ Box umin umax, out u := by
  induction vels with
  | nil => rfl
  | cons v vs ih =>
    rw [← ih]
    exact C120_chord lik hl lowL maxtrials umin umax v _
      (moves_measurable lik hl lowL maxtrials umin umax vs out hout)

/-! ## RandomEngine -/

/-- The half-open box in which the trials are drawn. -/
def DrawBox (um ux : Fin n → ℝ) : Set (Fin n → ℝ) := Set.univ.pi fun i => Set.Ico (um i) (ux i)

theorem drawBox_measurable (um ux : Fin n → ℝ) : MeasurableSet (DrawBox um ux) :=
  MeasurableSet.univ_pi fun _ => measurableSet_Ico

theorem drawBox_volume (um ux : Fin n → ℝ) (h : ∀ i, um i < ux i) :
    volume (DrawBox um ux) ≠ 0 ∧ volume (DrawBox um ux) ≠ ⊤ := by
  rw [DrawBox, Real.volume_pi_Ico]
  constructor
  · rw [Finset.prod_ne_zero_iff]
    intro i _
    simpa using h i
  · exact ENNReal.prod_ne_top fun i _ => ENNReal.ofReal_ne_top

/-- Drawing uniformly is integration over the box, divided by its volume. -/
theorem uniform_eq (um ux : Fin n → ℝ) (h : ∀ i, um i < ux i) (g : (Fin n → ℝ) → ℝ≥0∞) :
    volume (DrawBox um ux) * uniform um ux g = ∫⁻ u in DrawBox um ux, g u := by
  set D : (Fin n → ℝ) →L[ℝ] (Fin n → ℝ) :=
    ContinuousLinearMap.pi fun i => (ux i - um i) • ContinuousLinearMap.proj i with hD
  have hDa : ∀ r i, D r i = (ux i - um i) * r i := by
    intro r i; simp [hD]
  set φ : (Fin n → ℝ) → (Fin n → ℝ) := fun r i => um i + (ux i - um i) * r i with hφ
  have hφD : φ = fun r => um + D r := by
    funext r i; simp [hφ, hDa]
  have hs : MeasurableSet (Set.univ.pi fun _ : Fin n => Set.Ico (0 : ℝ) 1) :=
    MeasurableSet.univ_pi fun _ => measurableSet_Ico
  have himg : φ '' (Set.univ.pi fun _ => Set.Ico (0 : ℝ) 1) = DrawBox um ux := by
    ext y
    simp only [DrawBox, Set.mem_image, Set.mem_univ_pi, Set.mem_Ico]
    constructor
    · rintro ⟨r, hr, rfl⟩ i
      have := h i
      obtain ⟨h0, h1⟩ := hr i
      simp only [hφ]
      constructor <;> nlinarith
    · intro hy
      refine ⟨fun i => (y i - um i) / (ux i - um i), fun i => ?_, funext fun i => ?_⟩
      · have hd : 0 < ux i - um i := sub_pos.2 (h i)
        obtain ⟨h0, h1⟩ := hy i
        exact ⟨div_nonneg (by linarith) hd.le, by rw [div_lt_one hd]; linarith⟩
      · have hd : 0 < ux i - um i := sub_pos.2 (h i)
        simp only [hφ]
        rw [mul_div_cancel₀ _ hd.ne']; ring
  have hinj : Set.InjOn φ (Set.univ.pi fun _ => Set.Ico (0 : ℝ) 1) := by
    intro a _ b _ hab
    funext i
    have hd : 0 < ux i - um i := sub_pos.2 (h i)
    have := congrFun hab i
    simp only [hφ, add_right_inj] at this
    exact mul_left_cancel₀ hd.ne' this
  have key : ∀ g : (Fin n → ℝ) → ℝ≥0∞,
      ∫⁻ u in DrawBox um ux, g u = ENNReal.ofReal |D.det| * uniform um ux g := by
    intro g
    rw [← himg, lintegral_image_eq_lintegral_abs_det_fderiv_mul volume hs (f' := fun _ => D) ?_ hinj g,
      lintegral_const_mul' _ _ ENNReal.ofReal_ne_top]
    · rfl
    · intro x _
      rw [hφD]
      exact (D.hasFDerivAt.const_add um).hasFDerivWithinAt
  have hone : volume (DrawBox um ux) = ENNReal.ofReal |D.det| := by
    have := key fun _ => 1
    rw [setLIntegral_const, one_mul] at this
    rw [this, uniform, setLIntegral_const, Real.volume_pi_Ico]
    simp
  rw [hone, key]

theorem uniform_const (um ux : Fin n → ℝ) (c : ℝ≥0∞) : uniform um ux (fun _ => c) = c := by
  rw [uniform, setLIntegral_const, Real.volume_pi_Ico]; simp

theorem uniform_add (um ux : Fin n → ℝ) (f g : (Fin n → ℝ) → ℝ≥0∞) (hf : Measurable f) :
    uniform um ux (fun u => f u + g u) = uniform um ux f + uniform um ux g := by
  unfold uniform
  refine lintegral_add_left (hf.comp ?_) _
  exact measurable_pi_lambda _ fun i => by fun_prop

/-- One trial more: the walker goes to the trial, or it goes on. -/
theorem random_succ (lik : (Fin n → ℝ) → EReal) (hl : Measurable lik) (lowL : EReal)
    (um ux u : Fin n → ℝ) (out : (Fin n → ℝ) → ℝ≥0∞) (hout : Measurable out) (k : ℕ) :
    randomMove lik lowL um ux u out (k + 1)
      = uniform um ux ({u | lowL ≤ lik u}.indicator out)
        + uniform um ux ({u | lowL ≤ lik u}ᶜ.indicator fun _ => 1) * randomMove lik lowL um ux u out k := by
  have hA : MeasurableSet {u | lowL ≤ lik u} := measurableSet_le measurable_const hl
  have hsm : uniform um ux ({u | lowL ≤ lik u}ᶜ.indicator fun _ => 1) * randomMove lik lowL um ux u out k
      = uniform um ux ({u | lowL ≤ lik u}ᶜ.indicator fun _ => randomMove lik lowL um ux u out k) := by
    unfold uniform
    rw [← lintegral_mul_const]
    · refine lintegral_congr fun r => ?_
      by_cases h : (fun i => um i + (ux i - um i) * r i) ∈ {u | lowL ≤ lik u}ᶜ
      · rw [Set.indicator_of_mem h, Set.indicator_of_mem h, one_mul]
      · rw [Set.indicator_of_notMem h, Set.indicator_of_notMem h, zero_mul]
    · exact (measurable_const.indicator hA.compl).comp (measurable_pi_lambda _ fun i => by fun_prop)
  rw [hsm, ← uniform_add _ _ _ _ (hout.indicator hA), randomMove]
  congr 1
  funext v
  by_cases h : v ∈ {u | lowL ≤ lik u}
  · rw [Set.indicator_of_mem h, Set.indicator_of_notMem (by simpa using h), add_zero]
    exact if_pos h
  · rw [Set.indicator_of_notMem h, Set.indicator_of_mem (by simpa using h), zero_add]
    exact if_neg h

/-- **The random engine keeps the distribution.** When a walker is anywhere, with equal probability, in
the part of the box where the likelihood is at least the limit, then after a move of the random engine
it still is. -/
theorem C120_random (lik : (Fin n → ℝ) → EReal) (hl : Measurable lik) (lowL : EReal) (nstep : ℕ)
    (um ux : Fin n → ℝ) (hbox : ∀ i, um i < ux i) (out : (Fin n → ℝ) → ℝ≥0∞) (hout : Measurable out) :
    ∫⁻ u in {u | lowL ≤ lik u} ∩ DrawBox um ux, randomMove lik lowL um ux u out nstep
      = ∫⁻ u in {u | lowL ≤ lik u} ∩ DrawBox um ux, out u := by
  have hA : MeasurableSet {u | lowL ≤ lik u} := measurableSet_le measurable_const hl
  set A := {u | lowL ≤ lik u} with hAd
  obtain ⟨hV0, hVt⟩ := drawBox_volume um ux hbox
  set V := volume (DrawBox um ux) with hV
  induction nstep with
  | zero => rfl
  | succ k ih =>
    have h1 : V * uniform um ux (A.indicator out) = ∫⁻ u in A ∩ DrawBox um ux, out u := by
      rw [uniform_eq um ux hbox, lintegral_indicator hA, Measure.restrict_restrict hA]
    have h2 : V * uniform um ux (Aᶜ.indicator fun _ => 1) = volume (Aᶜ ∩ DrawBox um ux) := by
      rw [uniform_eq um ux hbox, lintegral_indicator_const hA.compl, one_mul, Measure.restrict_apply hA.compl]
    have h3 : volume (A ∩ DrawBox um ux) + volume (Aᶜ ∩ DrawBox um ux) = V := by
      rw [Set.inter_comm A, Set.inter_comm Aᶜ, ← Set.diff_eq]
      exact measure_inter_add_diff _ hA
    have h4 : uniform um ux (Aᶜ.indicator fun _ => 1) ≠ ⊤ := by
      intro h
      rw [h, ENNReal.mul_top hV0] at h2
      have : volume (Aᶜ ∩ DrawBox um ux) ≤ V := measure_mono Set.inter_subset_right
      exact hVt (top_le_iff.1 (h2 ▸ this))
    simp only [random_succ lik hl lowL um ux _ out hout k]
    rw [lintegral_add_left measurable_const, lintegral_const_mul' _ _ h4, ih, setLIntegral_const]
    refine (ENNReal.mul_right_inj hV0 hVt).1 ?_
    rw [mul_add, ← mul_assoc, ← mul_assoc, h1, h2, mul_comm (∫⁻ u in A ∩ DrawBox um ux, out u), ← add_mul,
      h3]

theorem random_outside (lik : (Fin n → ℝ) → EReal) (hl : Measurable lik) (lowL : EReal)
    (um ux u : Fin n → ℝ) (hbox : ∀ i, um i < ux i) (k : ℕ) :
    randomMove lik lowL um ux u ((DrawBox um ux)ᶜ.indicator fun _ => 1) k
      = uniform um ux ({u | lowL ≤ lik u}ᶜ.indicator fun _ => 1) ^ k
        * (DrawBox um ux)ᶜ.indicator (fun _ => 1) u := by
  induction k with
  | zero => simp [randomMove]
  | succ k ih =>
    rw [random_succ lik hl lowL um ux u _
      (measurable_const.indicator (drawBox_measurable um ux).compl) k, ih, pow_succ']
    have : uniform um ux ({u | lowL ≤ lik u}.indicator ((DrawBox um ux)ᶜ.indicator fun _ => 1)) = 0 := by
      obtain ⟨hV0, hVt⟩ := drawBox_volume um ux hbox
      refine (ENNReal.mul_right_inj hV0 hVt).1 ?_
      rw [uniform_eq um ux hbox, mul_zero]
      rw [setLIntegral_congr_fun (g := fun _ => 0) (drawBox_measurable um ux) ?_, lintegral_zero]
      intro v hv
      simp only [Set.indicator]
      split_ifs with h1 h2
      · exact absurd hv h2
      · rfl
      · rfl
    rw [this, zero_add, mul_assoc]

/-- The box of the random engine is that of the walkers, from the smallest place `um` to the largest place `ux`,
made wider at each side by 10 times its size divided by the number of walkers, as far as it is in the unit box. -/
theorem C120_random_box (mlen : ℕ) (um ux u : Fin n → ℝ) :
    u ∈ DrawBox (randomBox mlen um ux).1 (randomBox mlen um ux).2 ↔
      ∀ i, (0 ≤ u i ∧ u i < 1) ∧ um i - 10 * (ux i - um i) / mlen ≤ u i ∧ u i < ux i + 10 * (ux i - um i) / mlen := by
  simp only [DrawBox, randomBox, Set.mem_univ_pi, Set.mem_Ico, max_le_iff, lt_min_iff]
  exact forall_congr' fun i => by tauto

/-- So each walker can be drawn again. -/
theorem C120_random_walkers (mlen : ℕ) (hm : 0 < mlen) (um ux u : Fin n → ℝ) (h : ∀ i, um i < ux i)
    (hu : ∀ i, (0 ≤ u i ∧ u i < 1) ∧ um i ≤ u i ∧ u i ≤ ux i) :
    u ∈ DrawBox (randomBox mlen um ux).1 (randomBox mlen um ux).2 := by
  rw [C120_random_box]
  intro i
  obtain ⟨h1, h2, h3⟩ := hu i
  have : 0 < 10 * (ux i - um i) / (mlen : ℝ) :=
    div_pos (by linarith [h i]) (by exact_mod_cast hm)
  exact ⟨h1, by linarith, by linarith⟩

/-- **The random engine leaves no walker outside its box.** When a part of the region where the likelihood
is at least the limit is outside the box in which the trials are drawn, then after one move fewer walkers
are in that part: the walkers are no longer spread evenly over the region. -/
theorem C120_counterexample_random (lik : (Fin n → ℝ) → EReal) (hl : Measurable lik) (lowL : EReal)
    (nstep : ℕ) (hn : 0 < nstep) (um ux : Fin n → ℝ) (hbox : ∀ i, um i < ux i)
    (hin : volume ({u | lowL ≤ lik u} ∩ DrawBox um ux) ≠ 0)
    (hout : volume ({u | lowL ≤ lik u} \ DrawBox um ux) ≠ 0)
    (hfin : volume ({u | lowL ≤ lik u} \ DrawBox um ux) ≠ ⊤) :
    ∫⁻ u in {u | lowL ≤ lik u}, randomMove lik lowL um ux u ((DrawBox um ux)ᶜ.indicator fun _ => 1) nstep
      < ∫⁻ u in {u | lowL ≤ lik u}, (DrawBox um ux)ᶜ.indicator (fun _ => 1) u := by
  have hA : MeasurableSet {u | lowL ≤ lik u} := measurableSet_le measurable_const hl
  have hB := drawBox_measurable um ux
  obtain ⟨hV0, hVt⟩ := drawBox_volume um ux hbox
  simp only [random_outside lik hl lowL um ux _ hbox]
  set A := {u | lowL ≤ lik u} with hAd
  set V := volume (DrawBox um ux) with hV
  set q := uniform um ux (Aᶜ.indicator fun _ => 1) with hq
  have h2 : V * q = volume (Aᶜ ∩ DrawBox um ux) := by
    rw [hq, uniform_eq um ux hbox, lintegral_indicator_const hA.compl, one_mul, Measure.restrict_apply hA.compl]
  have h3 : volume (A ∩ DrawBox um ux) + volume (Aᶜ ∩ DrawBox um ux) = V := by
    rw [Set.inter_comm A, Set.inter_comm Aᶜ, ← Set.diff_eq]
    exact measure_inter_add_diff _ hA
  have hq1 : q < 1 := by
    by_contra h
    push Not at h
    have hle : V ≤ volume (Aᶜ ∩ DrawBox um ux) := by
      rw [← h2]; exact le_mul_of_one_le_right' h
    have hle' : volume (Aᶜ ∩ DrawBox um ux) ≤ V := measure_mono Set.inter_subset_right
    rw [le_antisymm hle' hle] at h3
    have : volume (A ∩ DrawBox um ux) + V = 0 + V := by rw [h3, zero_add]
    exact hin ((ENNReal.add_left_inj hVt).1 this)
  have hI : ∫⁻ u in A, (DrawBox um ux)ᶜ.indicator (fun _ => 1) u = volume (A \ DrawBox um ux) := by
    rw [lintegral_indicator_const hB.compl, one_mul, Measure.restrict_apply hB.compl, Set.inter_comm, Set.diff_eq]
  rw [lintegral_const_mul' _ _ (ENNReal.pow_ne_top (hq1.trans ENNReal.one_lt_top).ne), hI]
  calc q ^ nstep * volume (A \ DrawBox um ux) < 1 * volume (A \ DrawBox um ux) := by
        refine (ENNReal.mul_lt_mul_iff_left hout hfin).2 ?_
        exact pow_lt_one' hq1 hn.ne'
    _ = _ := one_mul _

/-! ## GibbsEngine and StepEngine -/

theorem round_split (φ : ℝ → ℝ) (inside : ℝ → Prop) [DecidablePred inside] (out : ℝ → ℝ≥0∞)
    (hin : MeasurableSet {r | inside (φ r)}) (c : ℝ≥0∞) :
    (rand fun r => if inside (φ r) then out (φ r) else c)
      = (∫⁻ r in {r | inside (φ r)} ∩ Set.Ico 0 1, out (φ r))
        + c * volume (Set.Ico (0 : ℝ) 1 \ {r | inside (φ r)}) := by
  rw [rand, ← lintegral_inter_add_diff _ (Set.Ico (0 : ℝ) 1) hin, Set.inter_comm]
  congr 1
  · exact setLIntegral_congr_fun (hin.inter measurableSet_Ico) fun r hr => if_pos hr.1
  · rw [← setLIntegral_const]
    exact setLIntegral_congr_fun (measurableSet_Ico.diff hin) fun r hr => if_neg hr.2

theorem round_compl (I : Set ℝ) (hI : MeasurableSet I) :
    volume (I ∩ Set.Ico (0 : ℝ) 1) + volume (Set.Ico (0 : ℝ) 1 \ I) = 1 := by
  have := measure_inter_add_diff (μ := volume) (Set.Ico (0 : ℝ) 1) hI
  rw [Real.volume_Ico] at this
  simp only [sub_zero, ENNReal.ofReal_one] at this
  rwa [Set.inter_comm]

/-- The mean of a loop that draws until the place is inside: what a round gives inside, divided by the
probability of the inside. -/
theorem untilInside_eq (φ : ℝ → ℝ) (inside : ℝ → Prop) [DecidablePred inside] (out : ℝ → ℝ≥0∞)
    (hin : MeasurableSet {r | inside (φ r)}) :
    untilInside (fun f => rand fun r => f (φ r)) inside out
      = (∫⁻ r in {r | inside (φ r)} ∩ Set.Ico 0 1, out (φ r))
        * (volume ({r | inside (φ r)} ∩ Set.Ico 0 1))⁻¹ := by
  have hrec := fun k => round_split φ inside out hin
    (rounds (fun f => rand fun r => f (φ r)) inside out k)
  have h1 := round_compl {r | inside (φ r)} hin
  set I := {r | inside (φ r)} with hI
  set a := ∫⁻ r in I ∩ Set.Ico 0 1, out (φ r)
  set q := volume (Set.Ico (0 : ℝ) 1 \ I) with hq
  have hsum : ∀ k, rounds (fun f => rand fun r => f (φ r)) inside out k
      = a * ∑ j ∈ Finset.range k, q ^ j := by
    intro k
    induction k with
    | zero => simp [rounds]
    | succ k ih =>
      rw [rounds, hrec, ih, Finset.sum_range_succ', pow_zero, mul_add, mul_one, add_comm, mul_assoc,
        Finset.sum_mul]
      simp only [pow_succ]
  have h1 : volume (I ∩ Set.Ico (0 : ℝ) 1) = 1 - q := by
    refine ENNReal.eq_sub_of_add_eq ?_ h1
    exact ne_top_of_le_ne_top ENNReal.one_ne_top (h1 ▸ le_add_self)
  rw [untilInside, h1, ← ENNReal.tsum_geometric, ENNReal.tsum_eq_iSup_nat, ENNReal.mul_iSup]
  simp only [hsum]

/-- One more round before the loop changes nothing. -/
theorem untilInside_fix (φ : ℝ → ℝ) (inside : ℝ → Prop) [DecidablePred inside] (out : ℝ → ℝ≥0∞)
    (hin : MeasurableSet {r | inside (φ r)}) :
    (rand fun r => if inside (φ r) then out (φ r)
      else untilInside (fun f => rand fun r => f (φ r)) inside out)
      = untilInside (fun f => rand fun r => f (φ r)) inside out := by
  rw [round_split φ inside out hin, untilInside_eq φ inside out hin]
  have h1 := round_compl {r | inside (φ r)} hin
  set I := {r | inside (φ r)} with hI
  set p := volume (I ∩ Set.Ico (0 : ℝ) 1) with hp
  rcases eq_or_ne p 0 with h0 | h0
  · have : ∫⁻ r in I ∩ Set.Ico 0 1, out (φ r) = 0 := setLIntegral_measure_zero _ _ h0
    rw [this]; simp
  · have ht : p ≠ ⊤ := ne_top_of_le_ne_top ENNReal.one_ne_top (h1 ▸ le_self_add)
    set a := ∫⁻ r in I ∩ Set.Ico 0 1, out (φ r)
    calc a + a * p⁻¹ * volume (Set.Ico (0 : ℝ) 1 \ I)
        = a * p⁻¹ * p + a * p⁻¹ * volume (Set.Ico (0 : ℝ) 1 \ I) := by
          rw [mul_assoc a p⁻¹ p, ENNReal.inv_mul_cancel h0 ht, mul_one]
      _ = a * p⁻¹ := by rw [← mul_add, h1, mul_one]

/-- The mean over the window of half width `r` around `u`, as far as it is in the unit interval. -/
def window (r u : ℝ) (out : ℝ → ℝ≥0∞) : ℝ≥0∞ :=
  (∫⁻ y in Set.Ioo (u - r) (u + r) ∩ Set.Ioo 0 1, out y)
    * (volume (Set.Ioo (u - r) (u + r) ∩ Set.Ioo (0 : ℝ) 1))⁻¹

/-- A loop that draws uniformly from an interval until the place is in the unit interval is a draw from
the window. -/
theorem untilInside_window (r u : ℝ) (hr : 0 < r) (φ : ℝ → ℝ) (hφ : ∀ t, u + φ t = (u - r) + t * (2 * r))
    (inside : ℝ → Prop) [DecidablePred inside]
    (hin : ∀ s, (0 < u + s ∧ u + s < 1 → inside s) ∧ (inside s → 0 ≤ u + s ∧ u + s ≤ 1))
    (hm : MeasurableSet {s | inside s}) (out : ℝ → ℝ≥0∞) :
    untilInside (fun f => rand fun t => f (φ t)) inside (fun s => out (u + s)) = window r u out := by
  have hφm : Measurable φ := by
    have : φ = fun t => (u - r) + t * (2 * r) - u := by funext t; rw [← hφ]; ring
    rw [this]; fun_prop
  have hIm : MeasurableSet {t | inside (φ t)} := hφm hm
  rw [untilInside_eq φ inside _ hIm]
  have key : ∀ g : ℝ → ℝ≥0∞, ∫⁻ t in {t | inside (φ t)} ∩ Set.Ico 0 1, g (u + φ t)
      = (ENNReal.ofReal (2 * r))⁻¹ * ∫⁻ y in Set.Ioo (u - r) (u + r) ∩ Set.Ioo 0 1, g y := by
    intro g
    have h1 := rand_affine (u - r) (u + r) (by linarith) ({y | inside (y - u)}.indicator g)
    have e2 : u + r - (u - r) = 2 * r := by ring
    rw [e2] at h1
    have hm' : MeasurableSet {y | inside (y - u)} :=
      (measurable_id.sub_const u : Measurable fun y : ℝ => y - u) hm
    have h2 : rand (fun t => {y | inside (y - u)}.indicator g (u - r + t * (2 * r)))
        = ∫⁻ t in {t | inside (φ t)} ∩ Set.Ico 0 1, g (u + φ t) := by
      rw [rand, ← Measure.restrict_restrict hIm, ← lintegral_indicator hIm]
      refine lintegral_congr fun t => ?_
      rw [← hφ]
      by_cases h : inside (φ t)
      · rw [Set.indicator_of_mem (by simpa using h), Set.indicator_of_mem (by simpa using h)]
      · rw [Set.indicator_of_notMem (by simpa using h), Set.indicator_of_notMem (by simpa using h)]
    rw [← h2, h1, lintegral_indicator hm', Measure.restrict_restrict hm', Set.inter_comm]
    congr 1
    refine setLIntegral_congr ?_
    have hae : ∀ᵐ y : ℝ, y ≠ 0 ∧ y ≠ 1 := by
      have h0 : ∀ᵐ y : ℝ, y ≠ 0 := by simp [ae_iff]
      have h1 : ∀ᵐ y : ℝ, y ≠ 1 := by simp [ae_iff]
      filter_upwards [h0, h1] with y a b using ⟨a, b⟩
    filter_upwards [hae] with y hy
    apply propext
    show (y ∈ Set.Ioo (u - r) (u + r) ∧ inside (y - u)) ↔ (y ∈ Set.Ioo (u - r) (u + r) ∧ y ∈ Set.Ioo 0 1)
    refine and_congr_right fun _ => ?_
    have := hin (y - u)
    simp only [add_sub_cancel] at this
    constructor
    · intro h
      obtain ⟨a, b⟩ := this.2 h
      exact ⟨lt_of_le_of_ne a hy.1.symm, lt_of_le_of_ne b hy.2⟩
    · intro h; exact this.1 h
  have hc : ENNReal.ofReal (2 * r) ≠ 0 := by simpa using hr
  have hone := key fun _ => 1
  rw [setLIntegral_const, setLIntegral_const, one_mul, one_mul] at hone
  rw [key, hone, window, ENNReal.mul_inv (Or.inr ?_) (Or.inl ?_), inv_inv, mul_mul_mul_comm,
    ENNReal.inv_mul_cancel hc ENNReal.ofReal_ne_top, one_mul]
  · exact ne_top_of_le_ne_top (by simp) (measure_mono Set.inter_subset_right : _ ≤ volume (Set.Ioo (0:ℝ) 1))
  · simpa using hr

/-- With a likelihood that is at least the limit everywhere, the Gibbs engine draws from the window. -/
theorem gibbs_window (lik : ℝ → EReal) (lowL : EReal) (hflat : ∀ u, lowL ≤ lik u) (maxtrials : ℕ)
    (ur u : ℝ) (hur : 0 < ur) (out : ℝ → ℝ≥0∞) :
    gibbsMove lik lowL maxtrials ur u out = window ur u out := by
  have h : ∀ k s y, gibbsTry lik lowL u s out k y = out y := by
    intro k s y
    cases k <;> simp [gibbsTry, hflat]
  simp only [gibbsMove, h]
  refine untilInside_window ur u hur (fun r => (2 * r - 1) * ur) (by intro t; ring) _ ?_ ?_ out
  · intro s; exact ⟨id, fun h => ⟨h.1.le, h.2.le⟩⟩
  · exact (measurableSet_lt measurable_const (measurable_const_add u)).inter
      (measurableSet_lt (measurable_const_add u) measurable_const)

/-- With a likelihood that is at least the limit everywhere, the step engine draws from the window. -/
theorem step_window (lik : ℝ → EReal) (lowL : EReal) (hflat : ∀ u, lowL ≤ lik u) (maxtrials : ℕ)
    (urange u : ℝ) (hur : 0 < urange) (out : ℝ → ℝ≥0∞) :
    stepMove lik lowL maxtrials urange u out = window (urange / 2) u out := by
  have hm : MeasurableSet {s | ¬ (u + s < 0 ∨ 1 < u + s)} := by
    have : {s | ¬ (u + s < 0 ∨ 1 < u + s)} = {s | 0 ≤ u + s} ∩ {s | u + s ≤ 1} := by
      ext s; simp [not_or, not_lt]
    rw [this]
    exact (measurableSet_le measurable_const (measurable_const_add u)).inter
      (measurableSet_le (measurable_const_add u) measurable_const)
  have hw := untilInside_window (urange / 2) u (by linarith) (fun r => (r - 0.5) * urange)
    (by intro t; ring) (fun s => ¬ (u + s < 0 ∨ 1 < u + s)) (by
      intro s
      simp only [not_or, not_lt]
      exact ⟨fun h => ⟨h.1.le, h.2.le⟩, id⟩) hm out
  have hfix := untilInside_fix (fun r => (r - 0.5) * urange) (fun s => ¬ (u + s < 0 ∨ 1 < u + s))
    (fun s => out (u + s)) ((by fun_prop : Measurable fun r : ℝ => (r - 0.5) * urange) hm)
  rw [← hw, ← hfix]
  simp only [stepMove, stepTry, stepInside, hflat, if_true]

theorem window_volume (r u : ℝ) :
    volume (Set.Ioo (u - r) (u + r) ∩ Set.Ioo (0 : ℝ) 1)
      = ENNReal.ofReal (min (u + r) 1 - max (u - r) 0) := by
  rw [Set.Ioo_inter_Ioo, Real.volume_Ioo]

/-- With a window that is smaller than the unit interval, fewer walkers than their share end near the
edge. -/
theorem window_edge (r : ℝ) (h0 : 0 < r) (h1 : r < 1) :
    ∃ ε : ℝ, 0 < ε ∧ ε < 1 ∧
      ∫⁻ u in Set.Ioo (0 : ℝ) 1, window r u ((Set.Ioo 0 ε).indicator fun _ => 1)
        < volume (Set.Ioo 0 ε) := by
  obtain ⟨c, hc⟩ : ∃ c, c = min r (1 - r) / 2 := ⟨_, rfl⟩
  have hcp : 0 < c := by rw [hc]; have := lt_min h0 (sub_pos.2 h1); linarith
  have hcr : 2 * c ≤ r := by rw [hc]; have := min_le_left r (1 - r); linarith
  have hc1 : 2 * c ≤ 1 - r := by rw [hc]; have := min_le_right r (1 - r); linarith
  obtain ⟨ε, hε⟩ : ∃ ε, ε = c ^ 2 / (r + c) / 2 := ⟨_, rfl⟩
  have hrc : 0 < r + c := by linarith
  have hεp : 0 < ε := by rw [hε]; positivity
  have hε1 : ε < 1 := by
    rw [hε, div_div, div_lt_one (by positivity)]; nlinarith
  refine ⟨ε, hεp, hε1, ?_⟩
  -- a bound on the mean at each place
  have hnum : ∀ u, ∫⁻ y in Set.Ioo (u - r) (u + r) ∩ Set.Ioo 0 1, (Set.Ioo 0 ε).indicator (fun _ => 1) y
      ≤ ENNReal.ofReal ε := by
    intro u
    rw [lintegral_indicator_const measurableSet_Ioo, one_mul]
    refine (Measure.restrict_apply_le _ _).trans ?_
    rw [Real.volume_Ioo, sub_zero]
  have hfar : ∀ u, r + ε ≤ u → window r u ((Set.Ioo 0 ε).indicator fun _ => 1) = 0 := by
    intro u hu
    have : ∫⁻ y in Set.Ioo (u - r) (u + r) ∩ Set.Ioo 0 1, (Set.Ioo 0 ε).indicator (fun _ => 1) y = 0 := by
      rw [lintegral_indicator_const measurableSet_Ioo, one_mul, Measure.restrict_apply measurableSet_Ioo]
      have : Set.Ioo 0 ε ∩ (Set.Ioo (u - r) (u + r) ∩ Set.Ioo 0 1) = ∅ := by
        ext y
        simp only [Set.mem_inter_iff, Set.mem_Ioo, Set.mem_empty_iff_false, iff_false]
        rintro ⟨⟨_, a⟩, ⟨b, _⟩, _⟩
        linarith
      rw [this, measure_empty]
    rw [window, this, zero_mul]
  have hnear : ∀ u d, 0 < d → d ≤ min (u + r) 1 - max (u - r) 0 →
      window r u ((Set.Ioo 0 ε).indicator fun _ => 1) ≤ ENNReal.ofReal (ε / d) := by
    intro u d hd h
    rw [window, window_volume, ENNReal.ofReal_div_of_pos hd, div_eq_mul_inv]
    exact mul_le_mul' (hnum u) (ENNReal.inv_le_inv.2 (ENNReal.ofReal_le_ofReal h))
  have hw : ∀ u, 0 < u → u < 1 → r ≤ min (u + r) 1 - max (u - r) 0 := by
    intro u hu0 hu1
    rcases le_total (u + r) 1 with a | a <;> rcases le_total (u - r) 0 with b | b <;>
      simp only [a, b, min_eq_left, min_eq_right, max_eq_left, max_eq_right] <;> linarith
  have hbound : ∀ u ∈ Set.Ioo (0 : ℝ) 1, window r u ((Set.Ioo 0 ε).indicator fun _ => 1)
      ≤ (Set.Ioc 0 c).indicator (fun _ => ENNReal.ofReal (ε / r)) u
        + (Set.Ioo c (2 * c)).indicator (fun _ => ENNReal.ofReal (ε / (r + c))) u
        + (Set.Ico (2 * c) (r + ε)).indicator (fun _ => ENNReal.ofReal (ε / r)) u := by
    intro u hu
    rcases le_or_gt u c with a | a
    · rw [Set.indicator_of_mem (s := Set.Ioc 0 c) ⟨hu.1, a⟩, add_assoc]
      exact (hnear u r h0 (hw u hu.1 hu.2)).trans le_self_add
    rcases lt_or_ge u (2 * c) with b | b
    · rw [Set.indicator_of_mem (s := Set.Ioo c (2 * c)) ⟨a, b⟩, add_right_comm]
      refine (hnear u (r + c) hrc ?_).trans le_add_self
      rw [min_eq_left (by linarith), max_eq_right (by linarith)]
      linarith
    rcases lt_or_ge u (r + ε) with d | d
    · rw [Set.indicator_of_mem (s := Set.Ico (2 * c) (r + ε)) ⟨b, d⟩]
      exact (hnear u r h0 (hw u hu.1 hu.2)).trans le_add_self
    · rw [hfar u d]; exact zero_le
  refine lt_of_le_of_lt (setLIntegral_mono' measurableSet_Ioo hbound) ?_
  refine lt_of_le_of_lt (setLIntegral_le_lintegral _ _) ?_
  have m1 : Measurable ((Set.Ioc 0 c).indicator fun _ => ENNReal.ofReal (ε / r)) :=
    measurable_const.indicator measurableSet_Ioc
  have m2 : Measurable ((Set.Ioo c (2 * c)).indicator fun _ => ENNReal.ofReal (ε / (r + c))) :=
    measurable_const.indicator measurableSet_Ioo
  rw [lintegral_add_left (f := fun u => (Set.Ioc 0 c).indicator (fun _ => ENNReal.ofReal (ε / r)) u
      + (Set.Ioo c (2 * c)).indicator (fun _ => ENNReal.ofReal (ε / (r + c))) u) (m1.add m2),
    lintegral_add_left m1, lintegral_indicator_const measurableSet_Ioc,
    lintegral_indicator_const measurableSet_Ioo, lintegral_indicator_const measurableSet_Ico,
    Real.volume_Ioc, Real.volume_Ioo, Real.volume_Ico, Real.volume_Ioo,
    ← ENNReal.ofReal_mul (by positivity), ← ENNReal.ofReal_mul (by positivity),
    ← ENNReal.ofReal_mul (by positivity), ← ENNReal.ofReal_add _ _, ← ENNReal.ofReal_add _ _,
    ENNReal.ofReal_lt_ofReal_iff (by linarith)]
  · have e1 : ε / r * (c - 0) + ε / (r + c) * (2 * c - c) + ε / r * (r + ε - 2 * c)
        = ε * (1 - (c / r - ε / r - c / (r + c))) := by
      field_simp; ring
    have e2 : c / r - ε / r - c / (r + c) = c ^ 2 / (r + c) / 2 / r := by
      rw [hε]; field_simp; ring
    rw [e1, e2, sub_zero]
    have : 0 < c ^ 2 / (r + c) / 2 / r := by positivity
    nlinarith
  · have : 0 < r + ε - 2 * c := by linarith
    have : 0 < c - 0 := by linarith
    have : 0 < 2 * c - c := by linarith
    positivity
  · have : 0 < r + ε - 2 * c := by linarith
    positivity
  · have : 0 < c - 0 := by linarith
    positivity
  · have : 0 < 2 * c - c := by linarith
    positivity

/-- **The Gibbs engine keeps the walkers from the edges.** With a likelihood that is above the limit
everywhere, start from a walker that is anywhere in the unit interval with equal probability. When the range
of the walkers is less than 10/11 of the interval, then after one move the walker is near the edge, in
some interval `(0,ε)`, with a smaller probability than `ε`. -/
theorem C120_counterexample_gibbs (lik : ℝ → EReal) (lowL : EReal) (hflat : ∀ u, lowL ≤ lik u)
    (maxtrials : ℕ) (range : ℝ) (h0 : 0 < range) (h1 : range < 10 / 11) :
    ∃ ε : ℝ, 0 < ε ∧ ε < 1 ∧
      ∫⁻ u in Set.Ioo (0 : ℝ) 1,
          gibbsMove lik lowL maxtrials (gibbsRange range) u ((Set.Ioo 0 ε).indicator fun _ => 1)
        < volume (Set.Ioo 0 ε) := by
  have hp : 0 < gibbsRange range := by unfold gibbsRange; positivity
  have hq : gibbsRange range < 1 := by unfold gibbsRange; norm_num; linarith
  simp only [gibbs_window lik lowL hflat maxtrials _ _ hp]
  exact window_edge _ hp hq

/-- **The step engine keeps the walkers from the edges.** The same for the step engine, with three walkers
or more, whatever their range is. -/
theorem C120_counterexample_step (lik : ℝ → EReal) (lowL : EReal) (hflat : ∀ u, lowL ≤ lik u)
    (maxtrials : ℕ) (range : ℝ) (h0 : 0 < range) (h1 : range ≤ 1) (nw : ℕ) (hnw : 3 ≤ nw) :
    ∃ ε : ℝ, 0 < ε ∧ ε < 1 ∧
      ∫⁻ u in Set.Ioo (0 : ℝ) 1,
          stepMove lik lowL maxtrials (stepRange range nw) u ((Set.Ioo 0 ε).indicator fun _ => 1)
        < volume (Set.Ioo 0 ε) := by
  have hn : (3 : ℝ) ≤ nw := by exact_mod_cast hnw
  have hp : 0 < stepRange range nw := by unfold stepRange; positivity
  have hq : stepRange range nw / 2 < 1 := by
    unfold stepRange
    have : range / nw ≤ 1 / 3 := by
      rw [div_le_iff₀ (by linarith)]; linarith
    linarith
  simp only [step_window lik lowL hflat maxtrials _ _ hp]
  exact window_edge _ (by linarith) hq

theorem window_wide (r : ℝ) (hr : 1 ≤ r) (u : ℝ) (hu : u ∈ Set.Ioo (0 : ℝ) 1) (out : ℝ → ℝ≥0∞) :
    window r u out = ∫⁻ y in Set.Ioo (0 : ℝ) 1, out y := by
  have e : Set.Ioo (u - r) (u + r) ∩ Set.Ioo (0 : ℝ) 1 = Set.Ioo 0 1 := by
    apply Set.inter_eq_right.2
    intro y hy
    exact ⟨by linarith [hu.2, hy.1], by linarith [hu.1, hy.2]⟩
  rw [window, e]; simp

/-- With a range of the walkers of 10/11 or more of the unit interval, a move of the Gibbs engine keeps the
distribution, when it makes one trial only. Missing: smaller ranges, for which it is false
(`C120_counterexample_gibbs`), and more trials, except where each place is accepted
(`C120_gibbs_flat_partial`). -/
theorem C120_gibbs_once_partial (lik : ℝ → EReal) (hl : Measurable lik) (lowL : EReal) (range : ℝ)
    (hr : 10 / 11 ≤ range) (out : ℝ → ℝ≥0∞) (hout : Measurable out) :
    ∫⁻ u in {u | lowL ≤ lik u} ∩ Set.Ioo 0 1, gibbsMove lik lowL 1 (gibbsRange range) u out
      = ∫⁻ u in {u | lowL ≤ lik u} ∩ Set.Ioo 0 1, out u := by
  have hA : MeasurableSet {u | lowL ≤ lik u} := measurableSet_le measurable_const hl
  set A := {u | lowL ≤ lik u} with hAd
  have hq : 1 ≤ gibbsRange range := by unfold gibbsRange; norm_num; linarith
  have hmove : ∀ u ∈ A ∩ Set.Ioo 0 1, gibbsMove lik lowL 1 (gibbsRange range) u out
      = (∫⁻ y in A ∩ Set.Ioo 0 1, out y) + out u * volume (Set.Ioo (0 : ℝ) 1 \ A) := by
    intro u hu
    have h1 : gibbsMove lik lowL 1 (gibbsRange range) u out
        = window (gibbsRange range) u fun y => if lowL ≤ lik y then out y else out u := by
      refine untilInside_window (gibbsRange range) u (by linarith)
        (fun r => (2 * r - 1) * gibbsRange range) (by intro t; ring)
        (fun s => 0 < u + s ∧ u + s < 1) ?_ ?_ fun y => if lowL ≤ lik y then out y else out u
      · intro s; exact ⟨id, fun h => ⟨h.1.le, h.2.le⟩⟩
      · exact (measurableSet_lt measurable_const (measurable_const_add u)).inter
          (measurableSet_lt (measurable_const_add u) measurable_const)
    rw [h1, window_wide _ hq u hu.2, ← lintegral_inter_add_diff _ (Set.Ioo (0 : ℝ) 1) hA, Set.inter_comm]
    congr 1
    · exact setLIntegral_congr_fun (hA.inter measurableSet_Ioo) fun r hr => if_pos hr.1
    · rw [← setLIntegral_const]
      exact setLIntegral_congr_fun (measurableSet_Ioo.diff hA) fun r hr => if_neg hr.2
  rw [setLIntegral_congr_fun (hA.inter measurableSet_Ioo) hmove, lintegral_add_left measurable_const,
    setLIntegral_const, lintegral_mul_const _ hout, ← mul_add]
  have := measure_inter_add_diff (μ := volume) (Set.Ioo (0 : ℝ) 1) hA
  rw [Real.volume_Ioo] at this
  simp only [sub_zero, ENNReal.ofReal_one] at this
  rw [Set.inter_comm A] 
  rw [this, mul_one]

/-- With a range of the walkers of 10/11 or more of the unit interval, and where each place is accepted, a
move of the Gibbs engine keeps the distribution. -/
theorem C120_gibbs_flat_partial (lik : ℝ → EReal) (lowL : EReal) (hflat : ∀ u, lowL ≤ lik u)
    (maxtrials : ℕ) (range : ℝ) (hr : 10 / 11 ≤ range) (out : ℝ → ℝ≥0∞) :
    ∫⁻ u in Set.Ioo (0 : ℝ) 1, gibbsMove lik lowL maxtrials (gibbsRange range) u out
      = ∫⁻ u in Set.Ioo (0 : ℝ) 1, out u := by
  have hq : 1 ≤ gibbsRange range := by unfold gibbsRange; norm_num; linarith
  simp only [gibbs_window lik lowL hflat maxtrials _ _ (lt_of_lt_of_le one_pos hq)]
  rw [setLIntegral_congr_fun measurableSet_Ioo fun u hu => window_wide _ hq u hu out, setLIntegral_const]
  simp

/-! ## The hypotheses can be met -/

/-- A likelihood for which a part of the unit box is above the limit. -/
example : ∃ lik : (Fin 2 → ℝ) → EReal, Measurable lik ∧
    volume ({u | ((1 / 2 : ℝ) : EReal) ≤ lik u} ∩ Box (fun _ => 0) fun _ => 1) ≠ 0 ∧
    volume ({u | ((1 / 2 : ℝ) : EReal) ≤ lik u} ∩ Box (fun _ => 0) fun _ => 1) ≠ ⊤ := by
  refine ⟨fun u => ((u 0 : ℝ) : EReal), measurable_coe_real_ereal.comp (measurable_pi_apply 0), ?_, ?_⟩
  · have hsub : (Set.univ.pi fun _ : Fin 2 => Set.Ioo (1 / 2 : ℝ) 1)
        ⊆ {u | ((1 / 2 : ℝ) : EReal) ≤ ((u 0 : ℝ) : EReal)} ∩ Box (fun _ => 0) fun _ => 1 := by
      intro u hu
      have hu' : ∀ i, 1 / 2 < u i ∧ u i < 1 := fun i => hu i trivial
      refine ⟨?_, fun i => ⟨by linarith [(hu' i).1], (hu' i).2⟩⟩
      show ((1 / 2 : ℝ) : EReal) ≤ ((u 0 : ℝ) : EReal)
      exact EReal.coe_le_coe_iff.2 (hu' 0).1.le
    intro h
    have h0 := measure_mono_null hsub h
    rw [Real.volume_pi_Ioo] at h0
    norm_num at h0
  · have hsub : {u | ((1 / 2 : ℝ) : EReal) ≤ ((u 0 : ℝ) : EReal)} ∩ Box (fun _ => 0) (fun _ => 1)
        ⊆ (Set.univ.pi fun _ : Fin 2 => Set.Ioo (0 : ℝ) 1) := fun u hu i _ => hu.2 i
    refine ne_top_of_le_ne_top ?_ (measure_mono hsub)
    rw [Real.volume_pi_Ioo]
    simp

/-- The walker does move: with a likelihood above the limit everywhere it is anywhere on the chord. -/
example (out : ℝ → ℝ≥0∞) (x : ℝ) (hx : 0 < x ∧ x < 1) :
    chordTry (fun _ : ℝ => (0 : EReal)) 0 x 1 out 25 (0 - x) (1 - x) = ∫⁻ y in Set.Ioo (0 : ℝ) 1, out y := by
  rw [try_succ _ _ _ _ 0 1 x hx]
  simp

/-- A likelihood for which the region is partly outside the box of the random engine. -/
example : ∃ lik : (Fin 1 → ℝ) → EReal, Measurable lik ∧
    volume ({u | 0 ≤ lik u} ∩ DrawBox (fun _ => 1 / 4) fun _ => 3 / 4) ≠ 0 ∧
    volume ({u | 0 ≤ lik u} \ DrawBox (fun _ => 1 / 4) fun _ => 3 / 4) ≠ 0 ∧
    volume ({u | 0 ≤ lik u} \ DrawBox (fun _ => 1 / 4) fun _ => 3 / 4) ≠ ⊤ := by
  classical
  have hm : MeasurableSet (DrawBox (n := 1) (fun _ => 0) fun _ => 1) := drawBox_measurable _ _
  have hmem : ∀ u : Fin 1 → ℝ, 0 ≤ (if u ∈ DrawBox (n := 1) (fun _ => 0) (fun _ => 1) then (0 : EReal) else ⊥)
      ↔ u ∈ DrawBox (n := 1) (fun _ => 0) fun _ => 1 := by
    intro u
    by_cases h : u ∈ DrawBox (n := 1) (fun _ => 0) fun _ => 1 <;> simp [h]
  refine ⟨fun u => if u ∈ DrawBox (n := 1) (fun _ => 0) (fun _ => 1) then 0 else ⊥,
    Measurable.ite hm measurable_const measurable_const, ?_, ?_, ?_⟩
  · intro h
    have hsub : DrawBox (n := 1) (fun _ => 1 / 4) (fun _ => 3 / 4) ⊆ {u | 0 ≤ (if u ∈ DrawBox (n := 1)
        (fun _ => 0) (fun _ => 1) then (0 : EReal) else ⊥)} ∩ DrawBox (fun _ => 1 / 4) fun _ => 3 / 4 := by
      intro u hu
      refine ⟨(hmem u).2 fun i hi => ?_, hu⟩
      have := hu i hi
      exact ⟨by linarith [this.1], by linarith [this.2]⟩
    exact (drawBox_volume _ _ (by norm_num)).1 (measure_mono_null hsub h)
  · intro h
    have hsub : DrawBox (n := 1) (fun _ => 3 / 4) (fun _ => 1) ⊆ {u | 0 ≤ (if u ∈ DrawBox (n := 1)
        (fun _ => 0) (fun _ => 1) then (0 : EReal) else ⊥)} \ DrawBox (fun _ => 1 / 4) fun _ => 3 / 4 := by
      intro u hu
      refine ⟨(hmem u).2 fun i hi => ?_, fun h => ?_⟩
      · have := hu i hi
        exact ⟨by linarith [this.1], by linarith [this.2]⟩
      · have h1 := hu 0 trivial
        have h2 := h 0 trivial
        exact absurd h1.1 (not_le.2 h2.2)
    exact (drawBox_volume _ _ (by norm_num)).1 (measure_mono_null hsub h)
  · have hsub : {u | 0 ≤ (if u ∈ DrawBox (n := 1)
        (fun _ => 0) (fun _ => 1) then (0 : EReal) else ⊥)} \ DrawBox (fun _ => 1 / 4) (fun _ => 3 / 4)
        ⊆ DrawBox (n := 1) (fun _ => 0) fun _ => 1 := fun u hu => (hmem u).1 hu.1
    exact ne_top_of_le_ne_top (drawBox_volume _ _ (by norm_num)).2 (measure_mono hsub)

end BF.Props.Invariance
