import Verif.Evolution

/-!
# C132: the tables that samples and walkers give
-/

namespace BF
namespace Evolution

noncomputable section

/-- All samples have as many parameters. -/
def Static (sl : List Smp) (np : ℕ) : Prop := ∀ s ∈ sl, s.parameters.length = np

theorem asarray_some {rows : List (List ℝ)} {np : ℕ} (h : ∀ r ∈ rows, r.length = np) :
    asarray rows = some rows := by
  cases rows with
  | nil => rfl
  | cons r rs =>
    unfold asarray
    dsimp only
    rw [if_pos]
    rw [List.all_eq_true]
    intro q hq
    simp only [decide_eq_true_eq]
    rw [h q (List.mem_cons_of_mem _ hq), h r List.mem_cons_self]

theorem asarray_none {rows : List (List ℝ)} {a b : List ℝ} (ha : a ∈ rows) (hb : b ∈ rows)
    (h : a.length ≠ b.length) : asarray rows = none := by
  cases rows with
  | nil => simp at ha
  | cons r rs =>
    unfold asarray
    dsimp only
    rw [if_neg]
    intro hall
    rw [List.all_eq_true] at hall
    have key : ∀ q ∈ r :: rs, q.length = r.length := by
      intro q hq
      rcases List.mem_cons.1 hq with rfl | hq
      · rfl
      · simpa using hall q hq
    exact h ((key a ha).trans (key b hb).symm)

/-- **C132.**  Whole table: row `i` of the parameter evolution are the parameters of sample `i`, and there is a table
whenever all samples have as many parameters.  -/
theorem C132_table (sl : List Smp) (np : ℕ) (h : Static sl np) :
    getParameterEvolution sl .all = some (.rows (sl.map Smp.parameters)) ∧
    getParAndWgtEvolution sl = some (sl.map Smp.parameters, sl.map fun s => Real.exp s.logW) := by
  have := asarray_some (rows := sl.map Smp.parameters) (np := np) (by
    intro r hr
    obtain ⟨s, hs, rfl⟩ := List.mem_map.1 hr
    exact h s hs)
  constructor
  · unfold getParameterEvolution pick
    dsimp only
    rw [this]; rfl
  · unfold getParAndWgtEvolution
    rw [this]
    simp [Function.comp_def]

/-- **C132.**  One column: entry `i` is the parameter with that number of sample `i`; negative numbers count from the
end; every other number is refused. -/
theorem C132_column (sl : List Smp) (np : ℕ) (h : Static sl np) (h0 : sl ≠ []) :
    (∀ k : ℕ, k < np → getParameterEvolution sl (.one k) = some (.column (sl.map fun s => s.parameters.getD k 0))) ∧
    (∀ k : ℕ, 1 ≤ k → k ≤ np →
      getParameterEvolution sl (.one (-k)) = some (.column (sl.map fun s => s.parameters.getD (np - k) 0))) ∧
    (∀ k : ℤ, (np : ℤ) ≤ k ∨ k < -np → getParameterEvolution sl (.one k) = none) := by
  have ha := asarray_some (rows := sl.map Smp.parameters) (np := np) (by
    intro r hr
    obtain ⟨s, hs, rfl⟩ := List.mem_map.1 hr
    exact h s hs)
  have e : ∀ k : ℤ, getParameterEvolution sl (.one k) =
      (place np k).map fun j => .column (sl.map fun s => s.parameters.getD j 0) := by
    intro k
    unfold getParameterEvolution pick
    dsimp only
    rw [ha]
    cases sl with
    | nil => exact absurd rfl h0
    | cons s r =>
      simp only [Option.bind_some, column, List.map_cons]
      rw [h s List.mem_cons_self]
      cases place np k <;> simp [Function.comp_def]
  refine ⟨?_, ?_, ?_⟩
  · intro k hk
    rw [e]
    unfold place
    rw [if_pos ⟨by omega, by omega⟩]
    simp
  · intro k h1 h2
    rw [e]
    unfold place
    rw [if_neg (by omega), if_pos ⟨by omega, by omega⟩]
    have : ((np : ℤ) + -(k : ℤ)).toNat = np - k := by omega
    simp [this]
  · intro k hk
    rw [e]
    unfold place
    rw [if_neg (by omega), if_neg (by omega)]
    rfl

/-- **C132.**  Several columns: entry `i` are these parameters of sample `i`, in the order in which they were asked. -/
theorem C132_columns (sl : List Smp) (np : ℕ) (h : Static sl np) (h0 : sl ≠ []) (ks : List ℕ)
    (hk : ∀ k ∈ ks, k < np) :
    getParameterEvolution sl (.some (ks.map fun k : ℕ => (k : ℤ))) =
      some (.rows (sl.map fun s => ks.map fun k => s.parameters.getD k 0)) := by
  have ha := asarray_some (rows := sl.map Smp.parameters) (np := np) (by
    intro r hr
    obtain ⟨s, hs, rfl⟩ := List.mem_map.1 hr
    exact h s hs)
  have hm : ∀ ks : List ℕ, (∀ k ∈ ks, k < np) →
      (ks.map fun k : ℕ => (k : ℤ)).mapM (place np) = some ks := by
    intro ks
    induction ks with
    | nil => intro _; rfl
    | cons k ks ih =>
      intro hk
      have h1 : place np (k : ℤ) = some k := by
        unfold place
        have := hk k List.mem_cons_self
        rw [if_pos ⟨by omega, by omega⟩]
        simp
      rw [List.map_cons, List.mapM_cons, h1, ih fun j hj => hk j (List.mem_cons_of_mem _ hj)]
      rfl
  unfold getParameterEvolution pick
  dsimp only
  rw [ha]
  cases sl with
  | nil => exact absurd rfl h0
  | cons s r =>
    simp only [Option.bind_some, columns, List.map_cons]
    rw [h s List.mem_cons_self, hm ks hk]
    simp [Function.comp_def]

theorem foldl_max_spec (l : List ℕ) : ∀ a : ℕ, (l.foldl max a = a ∨ l.foldl max a ∈ l) ∧ a ≤ l.foldl max a ∧
    ∀ x ∈ l, x ≤ l.foldl max a := by
  induction l with
  | nil => intro a; simp
  | cons x l ih =>
    intro a
    obtain ⟨h1, h2, h3⟩ := ih (max a x)
    rw [List.foldl_cons]
    refine ⟨?_, le_trans (le_max_left _ _) h2, ?_⟩
    · rcases h1 with h1 | h1
      · rw [h1]
        rcases le_total a x with h | h
        · right; rw [max_eq_right h]; exact List.mem_cons_self
        · left; rw [max_eq_left h]
      · right; exact List.mem_cons_of_mem _ h1
    · intro y hy
      rcases List.mem_cons.1 hy with rfl | hy
      · exact le_trans (le_max_right _ _) h2
      · exact h3 y hy

/-- **C132.**  Number of parameters: the list has the number of parameters of each sample; the maximum is the largest of
them, and one of the samples has so many.  For models that are not dynamic it is taken from the first sample. -/
theorem C132_number (sl : List Smp) (h : ∀ s ∈ sl, s.npchain = s.parameters.length) (h0 : sl ≠ [])
    (hd : (∀ s ∈ sl, s.dynamic = true) ∨ ∃ np, Static sl np) :
    getNumberOfParametersEvolution sl = sl.map (fun s => s.parameters.length) ∧
    ∃ n, getMaximumNumberOfParameters sl = some n ∧ (∃ s ∈ sl, s.parameters.length = n) ∧
      ∀ s ∈ sl, s.parameters.length ≤ n := by
  refine ⟨List.map_congr_left fun s hs => h s hs, ?_⟩
  cases sl with
  | nil => exact absurd rfl h0
  | cons s r =>
    unfold getMaximumNumberOfParameters
    dsimp only
    by_cases hs : s.dynamic = true
    · rw [if_pos hs]
      obtain ⟨h1, h2, h3⟩ := foldl_max_spec (getNumberOfParametersEvolution r) s.npchain
      refine ⟨_, rfl, ?_, ?_⟩
      · rcases h1 with h1 | h1
        · exact ⟨s, List.mem_cons_self, by rw [h1, h s List.mem_cons_self]⟩
        · obtain ⟨q, hq, e⟩ := List.mem_map.1 h1
          exact ⟨q, List.mem_cons_of_mem _ hq, by rw [← e, h q (List.mem_cons_of_mem _ hq)]⟩
      · intro q hq
        rw [← h q hq]
        rcases List.mem_cons.1 hq with rfl | hq
        · exact h2
        · exact h3 _ (List.mem_map_of_mem hq)
    · rw [if_neg hs]
      refine ⟨_, rfl, ⟨s, List.mem_cons_self, (h s List.mem_cons_self).symm⟩, ?_⟩
      rcases hd with hd | ⟨np, hd⟩
      · exact absurd (hd s List.mem_cons_self) hs
      · intro q hq
        rw [h s List.mem_cons_self, hd s List.mem_cons_self, hd q hq]

/-- **C132.**  Weights: after `normalize` the weights are positive and sum to 1, they have kept their proportions, and the
logarithmic weights are their logarithms. -/
theorem C132_weights (sl : List Smp) (h0 : sl ≠ []) :
    ∃ sl', normalize sl = some sl' ∧ (getWeightEvolution sl').sum = 1 ∧ (∀ w ∈ getWeightEvolution sl', 0 < w) ∧
      getLogWeightEvolution sl' = (getWeightEvolution sl').map Real.log ∧
      ∃ c > 0, getWeightEvolution sl = (getWeightEvolution sl').map fun w => c * w := by
  cases sl with
  | nil => exact absurd rfl h0
  | cons s r =>
    let lmax := (getLogWeightEvolution r).foldl max s.logW
    let S := (((s :: r).map Smp.logW).map fun x => Real.exp (x - lmax)).sum
    have hS : 0 < S := by
      show 0 < (((s :: r).map Smp.logW).map fun x => Real.exp (x - lmax)).sum
      rw [List.map_cons, List.map_cons, List.sum_cons]
      have : 0 ≤ ((r.map Smp.logW).map fun x => Real.exp (x - lmax)).sum := by
        apply List.sum_nonneg
        intro x hx
        obtain ⟨y, _, rfl⟩ := List.mem_map.1 hx
        exact (Real.exp_pos _).le
      have := Real.exp_pos (s.logW - lmax)
      linarith
    have hw : ∀ x : ℝ, Real.exp (x - (lmax + Real.log S)) = Real.exp (x - lmax) / S := by
      intro x
      rw [← sub_sub, Real.exp_sub, Real.exp_log hS]
    refine ⟨(s :: r).map fun s => { s with logW := s.logW - (lmax + Real.log S) }, rfl, ?_, ?_, ?_, ?_⟩
    · have : getWeightEvolution ((s :: r).map fun s => { s with logW := s.logW - (lmax + Real.log S) }) =
          (((s :: r).map Smp.logW).map fun x => Real.exp (x - lmax)).map fun x => x / S := by
        unfold getWeightEvolution getLogWeightEvolution
        simp only [List.map_map]
        apply List.map_congr_left
        intro q _
        exact hw q.logW
      rw [this]
      have hd : ∀ l : List ℝ, (l.map fun x => x / S).sum = l.sum / S := by
        intro l
        induction l with
        | nil => simp
        | cons a l ih => rw [List.map_cons, List.sum_cons, List.sum_cons, ih, add_div]
      rw [hd]
      exact div_self hS.ne'
    · intro w hw
      obtain ⟨x, _, rfl⟩ := List.mem_map.1 hw
      exact Real.exp_pos _
    · unfold getWeightEvolution
      rw [List.map_map]
      have : (Real.log ∘ Real.exp) = id := by
        funext x; simp
      rw [this, List.map_id]
    · refine ⟨Real.exp (lmax + Real.log S), Real.exp_pos _, ?_⟩
      unfold getWeightEvolution getLogWeightEvolution
      simp only [List.map_map]
      apply List.map_congr_left
      intro q _
      simp only [Function.comp_apply]
      rw [← Real.exp_add]
      congr 1
      ring

/-- **C132.**  Scale evolution: the hyperparameters of each sample; a sample without them is an error. -/
theorem C132_scale (sl : List Smp) (nh : ℕ) :
    (∀ hy : Smp → List ℝ, (∀ s ∈ sl, s.hyper = some (hy s) ∧ (hy s).length = nh) →
      getScaleEvolution sl = some (sl.map hy)) ∧
    ((∃ s ∈ sl, s.hyper = none) → getScaleEvolution sl = none) := by
  constructor
  · intro hy h
    have : sl.mapM Smp.hyper = some (sl.map hy) := by
      induction sl with
      | nil => rfl
      | cons s r ih =>
        rw [List.mapM_cons, (h s List.mem_cons_self).1, ih fun q hq => h q (List.mem_cons_of_mem _ hq)]
        rfl
    unfold getScaleEvolution
    rw [this]
    exact asarray_some (np := nh) (by
      intro q hq
      obtain ⟨s, hs, rfl⟩ := List.mem_map.1 hq
      exact (h s hs).2)
  · rintro ⟨s, hs, e⟩
    have : sl.mapM Smp.hyper = none := by
      induction sl with
      | nil => simp at hs
      | cons q r ih =>
        rw [List.mapM_cons]
        rcases List.mem_cons.1 hs with rfl | hs
        · rw [e]; rfl
        · rw [ih hs]
          cases q.hyper <;> rfl
    unfold getScaleEvolution
    rw [this]; rfl

/-- **C132.**  The lists have one entry for each sample, in the order of the samples. -/
theorem C132_lists (sl : List Smp) (i : ℕ) :
    (getLogLikelihoodEvolution sl)[i]? = sl[i]?.map Smp.logL ∧
    (getLogWeightEvolution sl)[i]? = sl[i]?.map Smp.logW ∧
    (getWeightEvolution sl)[i]? = sl[i]?.map (fun s => Real.exp s.logW) ∧
    (getDescent sl)[i]? = sl[i]?.map (fun s => (s.parent, s.start, s.id)) := by
  simp [getLogLikelihoodEvolution, getLogWeightEvolution, getWeightEvolution, getDescent, Function.comp_def]

theorem foldr_max_ge (l : List ℕ) : ∀ x ∈ l, x ≤ l.foldr max 0 := by
  induction l with
  | nil => intro x hx; simp at hx
  | cons a l ih =>
    intro x hx
    rw [List.foldr_cons]
    rcases List.mem_cons.1 hx with rfl | hx
    · exact le_max_left _ _
    · exact le_trans (ih x hx) (le_max_right _ _)

/-- **C132.**  `WalkerList.allPars` does pad with zeros: all rows are equally long, row `i` begins with the parameters
of walker `i`, and the rest of it is zero; so the walkers are known from the table and the numbers of parameters. -/
theorem C132_padded (ws : List (Walker ℝ ℝ)) :
    ∃ nap, (∀ r ∈ Phantoms.allPars ws, r.length = nap) ∧ (∀ w ∈ ws, w.allpars.length ≤ nap) ∧
      (ws ≠ [] → ∃ w ∈ ws, w.allpars.length = nap) ∧
      ∀ (i : ℕ) (w : Walker ℝ ℝ), ws[i]? = some w → ∃ r : List ℝ, (Phantoms.allPars ws)[i]? = some r ∧
        r.take w.allpars.length = w.allpars ∧ ∀ j, w.allpars.length ≤ j → r.getD j 0 = 0 := by
  let nap := (ws.map fun w => w.allpars.length).foldr max 0
  have hle : ∀ w ∈ ws, w.allpars.length ≤ nap := fun w hw =>
    foldr_max_ge _ _ (List.mem_map_of_mem (f := fun w : Walker ℝ ℝ => w.allpars.length) hw)
  refine ⟨nap, ?_, hle, ?_, ?_⟩
  · intro r hr
    obtain ⟨w, hw, rfl⟩ := List.mem_map.1 hr
    have := hle w hw
    simp only [Phantoms.padRow, List.length_append, List.length_replicate]
    omega
  · intro h0
    have key : ∀ l : List ℕ, l ≠ [] → l.foldr max 0 ∈ l := by
      intro l
      induction l with
      | nil => intro h; exact absurd rfl h
      | cons a l ih =>
        intro _
        rw [List.foldr_cons]
        rcases l with _ | ⟨b, l⟩
        · simp
        · rcases le_total a ((b :: l).foldr max 0) with h | h
          · rw [max_eq_right h]
            exact List.mem_cons_of_mem _ (ih (by simp))
          · rw [max_eq_left h]; exact List.mem_cons_self
    obtain ⟨w, hw, e⟩ := List.mem_map.1 (key (ws.map fun w => w.allpars.length) (by simpa using h0))
    exact ⟨w, hw, e⟩
  · intro i w hw
    refine ⟨Phantoms.padRow nap w.allpars, ?_, ?_, ?_⟩
    · show (ws.map fun w => Phantoms.padRow nap w.allpars)[i]? = _
      rw [List.getElem?_map, hw]; rfl
    · simp [Phantoms.padRow]
    · intro j hj
      unfold Phantoms.padRow
      rw [List.getD_eq_getElem?_getD, List.getElem?_append_right hj, List.getElem?_replicate]
      split <;> rfl

/-- **The tables of a dynamic model are not zero-padded**, as their documentation says (`SampleList.py` 404-406 and 426-428,
`WalkerList.py` 260-262): whenever two samples, or two walkers, have different numbers of parameters there is no table
and no column, whichever is asked for. -/
theorem C132_counterexample_dynamic :
    (∀ (sl : List Smp) (s t : Smp) (kpar : Kpar), s ∈ sl → t ∈ sl → s.parameters.length ≠ t.parameters.length →
      getParameterEvolution sl kpar = none ∧ getParAndWgtEvolution sl = none) ∧
    ∀ (np : Walker ℝ ℝ → ℕ) (ws : List (Walker ℝ ℝ)) (v w : Walker ℝ ℝ) (kpar : Kpar), v ∈ ws → w ∈ ws →
      np v ≤ v.allpars.length → np w ≤ w.allpars.length → np v ≠ np w → walkerEvolution np ws kpar = none := by
  have key : ∀ (pe : List (List ℝ)) (kpar : Kpar), asarray pe = none → pick pe kpar = none := by
    intro pe kpar h
    cases kpar <;> simp [pick, h]
  constructor
  · intro sl s t kpar hs ht hne
    have := asarray_none (List.mem_map_of_mem (f := Smp.parameters) hs)
      (List.mem_map_of_mem (f := Smp.parameters) ht) hne
    refine ⟨key _ _ this, ?_⟩
    unfold getParAndWgtEvolution
    rw [this]; rfl
  · intro np ws v w kpar hv hw h1 h2 hne
    refine key _ _ (asarray_none (List.mem_map_of_mem (f := fun w : Walker ℝ ℝ => w.allpars.take (np w)) hv)
      (List.mem_map_of_mem (f := fun w : Walker ℝ ℝ => w.allpars.take (np w)) hw) ?_)
    simp only [List.length_take, min_eq_left h1, min_eq_left h2]
    exact hne

/-- Two samples with two parameters, and one of a larger model. -/
def s1 : Smp := ⟨0, -1, 0, 2, true, [1, 2], some [3], -5, 0⟩
/-- See `s1`. -/
def s2 : Smp := ⟨1, 0, 1, 2, true, [4, 5], some [6], -4, 1⟩
/-- See `s1`. -/
def s3 : Smp := ⟨2, 0, 1, 3, true, [7, 8, 9], some [6], -3, 2⟩

example : Static [s1, s2] 2 ∧ getParameterEvolution [s1, s2] (.one (-1)) = some (.column [2, 5]) ∧
    getScaleEvolution [s1, s2] = some [[3], [6]] ∧ getMaximumNumberOfParameters [s1, s3, s2] = some 3 ∧
    getParameterEvolution [s1, s3] .all = none := by
  have h : Static [s1, s2] 2 := by
    intro s hs
    rcases List.mem_pair.1 hs with rfl | rfl <;> rfl
  refine ⟨h, ?_, ?_, rfl, ?_⟩
  · have := (C132_column [s1, s2] 2 h (by simp)).2.1 1 (le_refl _) (by omega)
    simpa [s1, s2] using this
  · exact (C132_scale [s1, s2] 1).1 (fun s => s.hyper.getD []) (by
      intro s hs
      rcases List.mem_pair.1 hs with rfl | rfl <;> exact ⟨rfl, rfl⟩)
  · exact (C132_counterexample_dynamic.1 [s1, s3] s1 s3 .all (by simp) (by simp) (by decide)).1

end

end Evolution
end BF
