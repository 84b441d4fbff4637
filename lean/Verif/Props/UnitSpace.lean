import Mathlib.Tactic.Linarith
import Verif.UnitSpace
import Verif.Props.Phantoms

/-!
# C144: unit space
-/

noncomputable section

namespace BF.UnitSpace

open BF.Routing

variable {ν : Type}

/-! ## Specification -/

/-- The maps to unit space and back for number `i` in the array of all parameters: first those of the model, then, with
errors in x, one for each of the xdata, then the hyperparameters. -/
inductive Own (hyper : List (Option Maps)) : Problem ν → ℕ → (ℝ → ℝ) → (ℝ → ℝ) → Prop
  /-- A parameter of a model has the maps of its prior. -/
  | plain (c : Chain Maps ν) (i : ℕ) (pr : Maps) (hi : i < c.np) (h : c.getPrior i = some pr) :
      Own hyper (.plain c) i pr.d2u pr.u2d
  | xy (c : Chain Maps ν) (q : Maps) (xdata : List ℝ) (i : ℕ) (pr : Maps) (hi : i < c.np)
      (h : c.getPrior i = some pr) : Own hyper (.xy c q xdata) i pr.d2u pr.u2d
  /-- The prior of the xdata is about the distance to the measured x. -/
  | nuisance (c : Chain Maps ν) (q : Maps) (xdata : List ℝ) (k : ℕ) (x : ℝ) (h : xdata[k]? = some x) :
      Own hyper (.xy c q xdata) (c.np + k) (fun d => q.d2u (d - x)) (fun u => q.u2d u + x)
  /-- A hyperparameter has the maps of its prior. -/
  | hyper (p : Problem ν) (j : ℕ) (pr : Maps) (h : hyper[j]? = some (some pr)) :
      Own hyper p (p.npars + j) pr.d2u pr.u2d
  /-- Without a prior it is zero. -/
  | fixed (p : Problem ν) (j : ℕ) (h : hyper[j]? = some none) :
      Own hyper p (p.npars + j) (fun _ => 0) (fun _ => 0)

/-- The place of an index in the array of all parameters: a negative one counts from the end. -/
def At (n : ℕ) (kp : ℤ) (i : ℕ) : Prop := i < n ∧ (kp = i ∨ kp = (i : ℤ) - n)

/-- An index of the engines: not negative for parameters of the problem, negative for hyperparameters. -/
def Index (p : Problem ν) (hyper : List (Option Maps)) (kp : ℤ) : Prop :=
  (0 ≤ kp ∧ kp < p.npars) ∨ (kp < 0 ∧ -(hyper.length : ℤ) ≤ kp)

/-! ## One parameter -/

/-- One parameter goes to unit space by its own map, and comes back by its own map. -/
theorem one_spec (p : Problem ν) (hyper : List (Option Maps)) (kp : ℤ) (hk : Index p hyper kp) (i : ℕ)
    (hi : At (p.npars + hyper.length) kp i) :
    (∀ d, (domain2UnitOne p hyper d kp).isSome = (unit2DomainOne p hyper d kp).isSome) ∧
    ∀ d, (domain2UnitOne p hyper d kp).isSome → ∃ go back, Own hyper p i go back ∧
      ∀ v, domain2UnitOne p hyper v kp = some (go v) ∧ unit2DomainOne p hyper v kp = some (back v) := by
  obtain ⟨hi1, hi2⟩ := hi
  by_cases h0 : 0 ≤ kp
  · have hlt : kp < p.npars := by
      rcases hk with h | h
      · exact h.2
      · omega
    have e : kp = i := by omega
    subst e
    have hlt : i < p.npars := by exact_mod_cast hlt
    simp only [domain2UnitOne, unit2DomainOne, if_pos h0, Int.toNat_natCast]
    rcases p with c | ⟨c, q, xdata⟩
    · simp only [Problem.domain2Unit, Problem.unit2Domain, Chain.mapOne]
      rcases hg : c.getPrior i with _ | pr
      · simp
      · refine ⟨fun _ => by simp, fun _ _ => ⟨_, _, .plain c i pr hlt hg, fun v => by simp⟩⟩
    · simp only [Problem.domain2Unit, Problem.unit2Domain, Chain.mapOne]
      by_cases hc : i < c.np
      · simp only [if_pos hc]
        rcases hg : c.getPrior i with _ | pr
        · simp
        · refine ⟨fun _ => by simp, fun _ _ => ⟨_, _, .xy c q xdata i pr hc hg, fun v => by simp⟩⟩
      · simp only [if_neg hc]
        obtain ⟨k, rfl⟩ := Nat.exists_eq_add_of_le (not_lt.1 hc)
        simp only [Nat.add_sub_cancel_left]
        rcases hx : xdata[k]? with _ | x
        · simp
        · refine ⟨fun _ => by simp, fun _ _ => ⟨_, _, .nuisance c q xdata k x hx, fun v => by simp⟩⟩
  · have hb : -(hyper.length : ℤ) ≤ kp := by
      rcases hk with h | h
      · omega
      · exact h.2
    simp only [domain2UnitOne, unit2DomainOne, if_neg h0]
    refine ⟨fun _ => rfl, fun _ _ => ?_⟩
    obtain ⟨j, rfl⟩ : ∃ j, i = p.npars + j := ⟨i - p.npars, by omega⟩
    have hj : j < hyper.length := by omega
    have hf : fromEnd hyper kp = hyper[j]? := by
      unfold fromEnd
      rw [if_pos (by omega)]
      congr 1
      omega
    simp only [errDomain2Unit, errUnit2Domain, hf]
    rcases he : hyper[j]? with _ | o
    · rw [List.getElem?_eq_none_iff] at he
      omega
    · rcases o with _ | pr
      · exact ⟨_, _, .fixed p j he, fun v => ⟨rfl, rfl⟩⟩
      · exact ⟨_, _, .hyper p j pr he, fun v => ⟨rfl, rfl⟩⟩

/-! ## Lists of parameters -/

theorem mapList_spec (one : ℝ → ℤ → Option ℝ) (kpar : List ℤ) (vals us : List ℝ) (h : mapList one kpar vals = some us) :
    us.length = kpar.length ∧ kpar.length ≤ vals.length ∧
      ∀ i < kpar.length, one (vals.getD i 0) (kpar.getD i 0) = some (us.getD i 0) := by
  induction kpar generalizing vals us with
  | nil =>
    simp only [mapList, Option.some.injEq] at h
    subst h
    simp
  | cons kp kpar ih =>
    rcases vals with _ | ⟨v, vals⟩
    · simp [mapList] at h
    · simp only [mapList] at h
      rcases h1 : one v kp with _ | u
      · simp [h1] at h
      · rcases h2 : mapList one kpar vals with _ | us'
        · simp [h1, h2] at h
        · simp only [h1, h2, Option.some.injEq] at h
          subst h
          obtain ⟨a, b, c⟩ := ih vals us' h2
          refine ⟨by simp [a], by simpa using b, ?_⟩
          intro i hi
          rcases i with _ | i
          · simpa using h1
          · simpa using c i (by simpa using hi)

theorem mapList_some (one : ℝ → ℤ → Option ℝ) (kpar : List ℤ) (vals us : List ℝ) (hl : us.length = kpar.length)
    (hv : kpar.length ≤ vals.length)
    (h : ∀ i < kpar.length, one (vals.getD i 0) (kpar.getD i 0) = some (us.getD i 0)) :
    mapList one kpar vals = some us := by
  induction kpar generalizing vals us with
  | nil =>
    have : us = [] := List.length_eq_zero_iff.1 hl
    simp [mapList, this]
  | cons kp kpar ih =>
    rcases vals with _ | ⟨v, vals⟩
    · simp at hv
    · rcases us with _ | ⟨u, us⟩
      · simp at hl
      · have h1 := h 0 (by simp)
        have h2 := ih vals us (by simpa using hl) (by simpa using hv) fun i hi => by
          simpa using h (i + 1) (by simpa using hi)
        simp only [List.getD_cons_zero] at h1
        simp only [mapList, h1, h2]

/-- A list of selected parameters: each value goes to unit space by the map of the parameter that has been selected. -/
theorem C144_list (p : Problem ν) (hyper : List (Option Maps)) (dval us : List ℝ) (kpar : List ℤ)
    (hk : ∀ kp ∈ kpar, Index p hyper kp) (h : domain2UnitList p hyper dval kpar = some us) :
    us.length = kpar.length ∧ ∀ a < kpar.length, ∀ i, At (p.npars + hyper.length) (kpar.getD a 0) i →
      ∃ go back, Own hyper p i go back ∧ us.getD a 0 = go (dval.getD a 0) := by
  obtain ⟨h1, h2, h3⟩ := mapList_spec _ _ _ _ h
  refine ⟨h1, fun a ha i hi => ?_⟩
  have hm : kpar.getD a 0 ∈ kpar := by
    rw [List.getD_eq_getElem?_getD, List.getElem?_eq_getElem ha]
    exact List.getElem_mem ha
  obtain ⟨go, back, ho, hv⟩ := (one_spec p hyper _ (hk _ hm) i hi).2 (dval.getD a 0) (by rw [h3 a ha]; rfl)
  refine ⟨go, back, ho, ?_⟩
  have := (hv (dval.getD a 0)).1
  rw [h3 a ha] at this
  exact Option.some.inj this

/-- And the same on the way back. -/
theorem C144_back (p : Problem ν) (hyper : List (Option Maps)) (uval ds : List ℝ) (kpar : List ℤ)
    (hk : ∀ kp ∈ kpar, Index p hyper kp) (h : unit2DomainList p hyper uval kpar = some ds) :
    ds.length = kpar.length ∧ ∀ a < kpar.length, ∀ i, At (p.npars + hyper.length) (kpar.getD a 0) i →
      ∃ go back, Own hyper p i go back ∧ ds.getD a 0 = back (uval.getD a 0) := by
  obtain ⟨h1, h2, h3⟩ := mapList_spec _ _ _ _ h
  refine ⟨h1, fun a ha i hi => ?_⟩
  have hm : kpar.getD a 0 ∈ kpar := by
    rw [List.getD_eq_getElem?_getD, List.getElem?_eq_getElem ha]
    exact List.getElem_mem ha
  obtain ⟨hs, ho⟩ := one_spec p hyper _ (hk _ hm) i hi
  obtain ⟨go, back, ho, hv⟩ := ho (uval.getD a 0) (by rw [hs, h3 a ha]; rfl)
  refine ⟨go, back, ho, ?_⟩
  have := (hv (uval.getD a 0)).2
  rw [h3 a ha] at this
  exact Option.some.inj this

/-- There and back again: values at which the maps of their parameters are inverse to each other. -/
theorem C144_round_trip (p : Problem ν) (hyper : List (Option Maps)) (dval us : List ℝ) (kpar : List ℤ)
    (hk : ∀ kp ∈ kpar, Index p hyper kp) (hl : dval.length = kpar.length)
    (h : domain2UnitList p hyper dval kpar = some us)
    (hinv : ∀ a < kpar.length, ∀ i, At (p.npars + hyper.length) (kpar.getD a 0) i → ∀ go back, Own hyper p i go back →
      back (go (dval.getD a 0)) = dval.getD a 0) :
    unit2DomainList p hyper us kpar = some dval := by
  obtain ⟨h1, h2, h3⟩ := mapList_spec _ _ _ _ h
  refine mapList_some _ _ _ _ hl (by omega) fun a ha => ?_
  have hm : kpar.getD a 0 ∈ kpar := by
    rw [List.getD_eq_getElem?_getD, List.getElem?_eq_getElem ha]
    exact List.getElem_mem ha
  obtain ⟨i, hi⟩ : ∃ i, At (p.npars + hyper.length) (kpar.getD a 0) i := by
    rcases hk _ hm with ⟨a1, a2⟩ | ⟨a1, a2⟩
    · exact ⟨(kpar.getD a 0).toNat, by omega, by omega⟩
    · exact ⟨(kpar.getD a 0 + (p.npars + hyper.length : ℕ)).toNat, by omega, by omega⟩
  obtain ⟨go, back, ho, hv⟩ := (one_spec p hyper _ (hk _ hm) i hi).2 (dval.getD a 0) (by rw [h3 a ha]; rfl)
  have e : us.getD a 0 = go (dval.getD a 0) := by
    have := (hv (dval.getD a 0)).1
    rw [h3 a ha] at this
    exact Option.some.inj this
  rw [(hv _).2, e, hinv a ha i hi go back ho]

/-! ## All parameters -/

theorem makeIndex_spec (np nh : ℕ) : (makeIndex np (np + nh)).length = np + nh ∧
    ∀ i < np + nh, (makeIndex np (np + nh)).getD i 0 = if i < np then (i : ℤ) else (i : ℤ) - (np + nh : ℕ) := by
  unfold makeIndex
  simp only [Nat.add_sub_cancel_left]
  refine ⟨by simp, fun i hi => ?_⟩
  rw [List.getD_eq_getElem?_getD]
  by_cases h : i < np
  · rw [if_pos h, List.getElem?_append_left (by simpa using h)]
    simp [h]
  · rw [if_neg h, List.getElem?_append_right (by simpa using h)]
    simp only [List.length_map, List.length_range, List.getElem?_map]
    rw [List.getElem?_range (by omega)]
    simp only [Option.map_some, Option.getD_some]
    omega

/-- Without a list all parameters are mapped, and all hyperparameters after them, each with its own map. -/
theorem C144_all (p : Problem ν) (hyper : List (Option Maps)) (dval us : List ℝ)
    (hl : dval.length = p.npars + hyper.length) (h : domain2UnitAll p hyper dval = some us) :
    us.length = dval.length ∧ ∀ i < dval.length,
      ∃ go back, Own hyper p i go back ∧ us.getD i 0 = go (dval.getD i 0) := by
  unfold domain2UnitAll at h
  rw [hl] at h
  obtain ⟨m1, m2⟩ := makeIndex_spec p.npars hyper.length
  have hk : ∀ kp ∈ makeIndex p.npars (p.npars + hyper.length), Index p hyper kp := by
    intro kp hkp
    obtain ⟨i, hi, rfl⟩ := List.getElem_of_mem hkp
    have := m2 i (by omega)
    rw [List.getD_eq_getElem?_getD, List.getElem?_eq_getElem hi, Option.getD_some] at this
    rw [this]
    by_cases hc : i < p.npars
    · rw [if_pos hc]; left; omega
    · rw [if_neg hc]; right; omega
  obtain ⟨h1, h2⟩ := C144_list p hyper dval us _ hk h
  refine ⟨by omega, fun i hi => h2 i (by omega) i ⟨by omega, ?_⟩⟩
  rw [m2 i (by omega)]
  by_cases hc : i < p.npars
  · rw [if_pos hc]; left; rfl
  · rw [if_neg hc]; right; rfl

/-! ## The box in unit space -/

/-- The index of a place in the array of all parameters. -/
theorem own_value (p : Problem ν) (hyper : List (Option Maps)) (i : ℕ) (go back : ℝ → ℝ) (h : Own hyper p i go back)
    (v : ℝ) : domain2UnitOne p hyper v (if i < p.npars then (i : ℤ) else (i : ℤ) - (p.npars + hyper.length : ℕ))
      = some (go v) := by
  have hyp : ∀ j o, hyper[j]? = some o →
      fromEnd hyper (((p.npars + j : ℕ) : ℤ) - (p.npars + hyper.length : ℕ)) = some o ∧ j < hyper.length := by
    intro j o hj
    obtain ⟨hlt, -⟩ := List.getElem?_eq_some_iff.1 hj
    refine ⟨?_, hlt⟩
    unfold fromEnd
    rw [if_pos (by omega), ← hj]
    congr 1
    omega
  rcases h with ⟨c, i, pr, hi, hg⟩ | ⟨c, q, xdata, i, pr, hi, hg⟩ | ⟨c, q, xdata, k, x, hx⟩ | ⟨_, j, pr, hj⟩ | ⟨_, j, hj⟩
  · rw [if_pos (by simpa [Problem.npars] using hi)]
    simp [domain2UnitOne, Problem.domain2Unit, Chain.mapOne, hg]
  · rw [if_pos (by simp only [Problem.npars]; omega)]
    simp [domain2UnitOne, Problem.domain2Unit, Chain.mapOne, hg, hi]
  · obtain ⟨hlt, -⟩ := List.getElem?_eq_some_iff.1 hx
    rw [if_pos (by simp only [Problem.npars]; omega)]
    unfold domain2UnitOne
    rw [if_pos (by omega), Int.toNat_natCast]
    simp [Problem.domain2Unit, hx]
  · obtain ⟨e, hlt⟩ := hyp j _ hj
    rw [if_neg (by omega)]
    unfold domain2UnitOne
    rw [if_neg (by omega)]
    simp only [errDomain2Unit, e]
  · obtain ⟨e, hlt⟩ := hyp j _ hj
    rw [if_neg (by omega)]
    unfold domain2UnitOne
    rw [if_neg (by omega)]
    simp only [errDomain2Unit, e]

/-- A parameter has only one map to unit space. -/
theorem own_unique (p : Problem ν) (hyper : List (Option Maps)) (i : ℕ) (g b g' b' : ℝ → ℝ) (h : Own hyper p i g b)
    (h' : Own hyper p i g' b') : g = g' := by
  funext v
  have := (own_value p hyper i g b h v).symm.trans (own_value p hyper i g' b' h' v)
  exact Option.some.inj this

theorem getD_zip (f : ℝ → ℝ → ℝ) (a b : List ℝ) (i : ℕ) (ha : i < a.length) (hb : i < b.length) :
    (List.zipWith f a b).getD i 0 = f (a.getD i 0) (b.getD i 0) := by
  simp [List.getD_eq_getElem?_getD, List.getElem?_zipWith, ha, hb]

/-- What is inside the box of parameters is inside the box in unit space. -/
theorem C144_box (p : Problem ν) (hyper : List (Option Maps)) (lo hi umin umax vals us : List ℝ)
    (hlo : lo.length = p.npars + hyper.length) (hhi : hi.length = p.npars + hyper.length)
    (hv : vals.length = p.npars + hyper.length) (h : getUnitMinmax p hyper (some (lo, hi)) = some (umin, umax))
    (hu : domain2UnitAll p hyper vals = some us)
    (hmono : ∀ i g b, Own hyper p i g b → MonotoneOn g (Set.Icc (lo.getD i 0) (hi.getD i 0)))
    (hin : ∀ i < vals.length, lo.getD i 0 ≤ vals.getD i 0 ∧ vals.getD i 0 ≤ hi.getD i 0) :
    umin.length = vals.length ∧ umax.length = vals.length ∧
      ∀ i < vals.length, umin.getD i 0 ≤ us.getD i 0 ∧ us.getD i 0 ≤ umax.getD i 0 := by
  simp only [getUnitMinmax] at h
  rcases h1 : domain2UnitAll p hyper hi with _ | uh
  · simp [h1] at h
  · rcases h2 : domain2UnitAll p hyper lo with _ | ul
    · simp [h1, h2] at h
    · simp only [h1, h2, Option.some.injEq, Prod.mk.injEq] at h
      obtain ⟨rfl, rfl⟩ := h
      obtain ⟨l1, s1⟩ := C144_all p hyper hi uh hhi h1
      obtain ⟨l2, s2⟩ := C144_all p hyper lo ul hlo h2
      obtain ⟨l3, s3⟩ := C144_all p hyper vals us hv hu
      refine ⟨by simp; omega, by omega, fun i hi' => ?_⟩
      obtain ⟨g1, b1, o1, e1⟩ := s1 i (by omega)
      obtain ⟨g2, b2, o2, e2⟩ := s2 i (by omega)
      obtain ⟨g3, b3, o3, e3⟩ := s3 i hi'
      obtain rfl := own_unique p hyper i _ _ _ _ o1 o2
      obtain rfl := own_unique p hyper i _ _ _ _ o1 o3
      obtain ⟨a, c⟩ := hin i hi'
      have m := hmono i g1 b1 o1
      rw [getD_zip _ _ _ _ (by omega) (by omega), e1, e2, e3]
      have x1 := m ⟨le_refl _, a.trans c⟩ ⟨a, c⟩ a
      have x2 := m ⟨a, c⟩ ⟨a.trans c, le_refl _⟩ c
      exact ⟨(min_le_left _ _).trans x1, x2⟩

/-- Without phantoms it is all of unit space. -/
theorem C144_no_phantoms (p : Problem ν) (hyper : List (Option Maps)) :
    getUnitMinmax p hyper none = some (List.replicate (p.npars + hyper.length) 0,
      List.replicate (p.npars + hyper.length) 1) := by
  simp [getUnitMinmax]

/-- The lower side plus the range is the upper side, and the range is not negative. -/
theorem C144_range (p : Problem ν) (hyper : List (Option Maps)) (box : Option (List ℝ × List ℝ))
    (umin umax uran low : List ℝ) (hbox : ∀ b, box = some b → b.1.length = b.2.length)
    (h : getUnitMinmax p hyper box = some (umin, umax)) (hr : getUnitRange p hyper box = some (uran, low)) :
    low = umin ∧ uran.length = umax.length ∧
      ∀ i < umax.length, 0 ≤ uran.getD i 0 ∧ low.getD i 0 + uran.getD i 0 = umax.getD i 0 := by
  simp only [getUnitRange, h, Option.map_some, Option.some.injEq, Prod.mk.injEq] at hr
  obtain ⟨rfl, rfl⟩ := hr
  have key : umin.length = umax.length ∧ ∀ i < umax.length, umin.getD i 0 ≤ umax.getD i 0 := by
    rcases box with _ | ⟨lo, hi⟩
    · simp only [getUnitMinmax, Option.some.injEq, Prod.mk.injEq] at h
      obtain ⟨rfl, rfl⟩ := h
      refine ⟨by simp, fun i hi => ?_⟩
      rw [getD_zip _ _ _ _ (by simpa using hi) hi]
      exact min_le_right _ _
    · simp only [getUnitMinmax] at h
      rcases h1 : domain2UnitAll p hyper hi with _ | uh
      · simp [h1] at h
      · rcases h2 : domain2UnitAll p hyper lo with _ | ul
        · simp [h1, h2] at h
        · simp only [h1, h2, Option.some.injEq, Prod.mk.injEq] at h
          obtain ⟨rfl, rfl⟩ := h
          have l1 := (mapList_spec _ _ _ _ h1).1
          have l2 := (mapList_spec _ _ _ _ h2).1
          have e := hbox _ rfl
          dsimp only at e
          rw [e] at l2
          refine ⟨by simp; omega, fun i hi => ?_⟩
          rw [getD_zip _ _ _ _ (by omega) hi]
          exact min_le_right _ _
  refine ⟨rfl, by simp [key.1], fun i hi => ?_⟩
  rw [getD_zip _ _ _ _ hi (by omega)]
  have := key.2 i hi
  exact ⟨abs_nonneg _, by rw [abs_of_nonneg (sub_nonneg.2 this), add_sub_cancel]⟩

/-- After any history of stored walkers and requests, at a level above all levels asked before: all walkers that were
stored and are above the level are inside the box in unit space. The maps are monotone in an interval that the
parameters are in. -/
theorem C144_phantoms {β : Type} [LinearOrder β] (p : Problem ν) (hyper : List (Option Maps))
    (ops : List (Phantoms.Op ℝ β)) (hn : ∀ w ∈ Phantoms.stored ops, w.allpars.length = p.npars + hyper.length)
    (l : β) (hl : ∀ l' ∈ Phantoms.asked ops, l' < (l : WithBot β))
    (hmono : ∀ i g b, Own hyper p i g b → ∃ S : Set ℝ, S.OrdConnected ∧ MonotoneOn g S ∧
      ∀ w ∈ Phantoms.stored ops, w.allpars.getD i 0 ∈ S)
    (w : Walker ℝ β) (hw : w ∈ Phantoms.stored ops) (hlow : l < w.logL) (us : List ℝ)
    (hu : domain2UnitAll p hyper w.allpars = some us) :
    ∃ box, (Phantoms.getMinmax (ops.foldl Phantoms.Op.run Phantoms.empty) l).2 = some box ∧
      ∀ umin umax, getUnitMinmax p hyper box = some (umin, umax) →
        ∀ i < w.allpars.length, umin.getD i 0 ≤ us.getD i 0 ∧ us.getD i 0 ≤ umax.getD i 0 := by
  obtain ⟨ans, h1, -, h3⟩ := Phantoms.C41_box_partial _ ops hn l hl
  have ha : w ∈ Phantoms.above l (Phantoms.stored ops) := by
    simp [Phantoms.above, hw, hlow]
  obtain ⟨b, rfl, b1, b2, hb⟩ := h3 (List.ne_nil_of_mem ha)
  refine ⟨_, h1, fun umin umax h => ?_⟩
  have hwl := hn w hw
  refine (C144_box p hyper b.1 b.2 umin umax w.allpars us b1 b2 hwl h hu ?_
    fun i hi => ?_).2.2
  · intro i g bk o
    obtain ⟨S, hS, hm, hin⟩ := hmono i g bk o
    have mem : ∀ w ∈ Phantoms.above l (Phantoms.stored ops), w.allpars.getD i 0 ∈ S := fun w hw =>
      hin w (List.mem_of_mem_filter hw)
    by_cases hi : i < p.npars + hyper.length
    · obtain ⟨w1, m1, e1⟩ := hb.2.1 i _ (List.getElem?_eq_getElem (by omega))
      obtain ⟨w2, m2, e2⟩ := hb.2.2 i _ (List.getElem?_eq_getElem (by omega))
      have x1 := mem w1 m1
      have x2 := mem w2 m2
      rw [List.getD_eq_getElem?_getD, e1] at x1
      rw [List.getD_eq_getElem?_getD, e2] at x2
      refine hm.mono fun v hv => ?_
      rw [List.getD_eq_getElem?_getD, List.getD_eq_getElem?_getD, List.getElem?_eq_getElem (show i < b.1.length by omega),
        List.getElem?_eq_getElem (show i < b.2.length by omega)] at hv
      exact hS.out x1 x2 hv
    · intro x hx y hy _
      have e1 : b.1.getD i 0 = 0 := by simp [List.getD_eq_getElem?_getD, b1, hi]
      have e2 : b.2.getD i 0 = 0 := by simp [List.getD_eq_getElem?_getD, b2, hi]
      rw [e1, e2] at hx hy
      have : x = y := by
        rw [le_antisymm hx.2 hx.1, le_antisymm hy.2 hy.1]
      rw [this]
  obtain ⟨lo, hi', e1, e2, e3, e4⟩ := hb.1 w ha i w.allpars[i] (List.getElem?_eq_getElem hi)
  simp only [List.getD_eq_getElem?_getD, e1, e2, List.getElem?_eq_getElem hi, Option.getD_some]
  exact ⟨e3, e4⟩

/-! ## What goes wrong -/

/-- A hyperparameter without a prior does not come back: it becomes zero. -/
theorem C144_counterexample_no_prior (p : Problem ν) (v : ℝ) :
    (domain2UnitOne p [none] v (-1)).bind (fun u => unit2DomainOne p [none] u (-1)) = some 0 := by
  simp [domain2UnitOne, unit2DomainOne, errDomain2Unit, errUnit2Domain, fromEnd]

/-- When there are less values than parameters and hyperparameters, the values are given to the last hyperparameters:
the second parameter of this array goes to unit space with the prior of the second hyperparameter. -/
theorem C144_counterexample_short (pr h0 h1 : Maps) (a b : ℝ) :
    domain2UnitAll (.plain (.last (.base ⟨1, [pr], ([] : List Unit)⟩))) [some h0, some h1] [a, b]
      = some [pr.d2u a, h1.d2u b] := by
  rfl

/-! ## The hypotheses can be met -/

/-- From -5 to 5. -/
def wide : Maps := ⟨fun d => (d + 5) / 10, fun u => 10 * u - 5⟩

/-- From 0 to 2. -/
def half : Maps := ⟨fun d => d / 2, fun u => 2 * u⟩

/-- A model with two parameters, two xdata and one hyperparameter. -/
def demo : Problem Unit := .xy (.last (.base ⟨2, [wide, half], []⟩)) wide [1, 3]

/-- Going there and back. -/
example : domain2UnitAll demo [some half] [0, 1, 1, 5, 2] = some [(0 + 5) / 10, 1 / 2, (1 - 1 + 5) / 10, (5 - 3 + 5) / 10, 2 / 2] ∧
    getUnitMinmax demo [some half] (some ([0, 1, 1, 3, 1], [5, 2, 2, 5, 2])) ≠ none ∧
    (∀ kp ∈ makeIndex 4 5, Index demo [some half] kp) := by
  refine ⟨rfl, ?_, ?_⟩
  · exact Option.some_ne_none _
  · intro kp hkp
    have : kp ∈ ([0, 1, 2, 3, -1] : List ℤ) := hkp
    have h4 : demo.npars = 4 := rfl
    simp only [List.mem_cons, List.not_mem_nil, or_false] at this
    unfold Index
    rw [h4]
    simp only [List.length_cons, List.length_nil]
    omega

/-- All maps to unit space of this problem are monotone. -/
example : ∀ i g b, Own [some half] demo i g b → Monotone g := by
  have hw : Monotone wide.d2u := fun x y h => by simp only [wide]; linarith
  have hh : Monotone half.d2u := fun x y h => by simp only [half]; linarith
  intro i g b h
  rcases h with _ | ⟨c, q, xdata, i, pr, hi, hg⟩ | ⟨c, q, xdata, k, x, hx⟩ | ⟨_, j, pr, hj⟩ | ⟨_, j, hj⟩
  · have : i < 2 := hi
    rcases i with _ | _ | i
    · obtain rfl : wide = pr := Option.some.inj hg
      exact hw
    · obtain rfl : half = pr := Option.some.inj hg
      exact hh
    · omega
  · exact fun x y h => hw (by linarith)
  · rcases j with _ | j
    · obtain rfl : half = pr := by simpa using hj
      exact hh
    · simp at hj
  · exact fun _ _ _ => le_refl _

end BF.UnitSpace
