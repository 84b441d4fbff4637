import Verif.Mixed

/-!
# Mixed models (C151)
-/

namespace BF.Mixed

/-- What was set last, and what is left when it is None. -/
def Last : List (Option (List ℤ)) → List ℤ → List ℤ
  | [], l => l
  | x :: h, _ => Last h (x.getD [])

/-- Any number of calls of `setMixedModel`. -/
def calls : List (Option (List ℤ)) → Mdl → Mdl
  | [], m => m
  | x :: h, m => calls h (setMixedModel m x)

theorem calls_linear (h : List (Option (List ℤ))) : ∀ (m : Mdl) (l : List ℤ), m.linear = l.toFinset →
    (calls h m).linear = (Last h l).toFinset := by
  induction h with
  | nil => intro m l hm; exact hm
  | cons x h ih =>
    intro m l _
    refine ih _ _ ?_
    cases x <;> simp [setMixedModel]

/-- C151. After any calls of `setMixedModel`, a number is a non-linear index exactly when it is the index of a parameter
that is not in the list set last. -/
theorem C151_index_partial (np : ℕ) (h : List (Option (List ℤ))) (k : ℤ) :
    k ∈ getNonLinearIndex np (calls h (construct none)) ↔ 0 ≤ k ∧ k < np ∧ k ∉ Last h [] := by
  have := calls_linear h (construct none) [] (by simp [construct])
  unfold getNonLinearIndex
  rw [this]
  simp only [Finset.mem_sdiff, List.mem_toFinset, List.mem_map, List.mem_range]
  constructor
  · rintro ⟨⟨j, hj, rfl⟩, h2⟩
    exact ⟨by omega, by omega, h2⟩
  · rintro ⟨h1, h2, h3⟩
    exact ⟨⟨k.toNat, by omega, by omega⟩, h3⟩

/-- C151. With a list of valid indices, every parameter is either linear or non-linear: the numbers of both add up to
the number of parameters. -/
theorem C151_split_partial (np : ℕ) (h : List (Option (List ℤ))) (hv : ∀ k ∈ Last h [], 0 ≤ k ∧ k < np) :
    (getNonLinearIndex np (calls h (construct none))).card + (Last h []).toFinset.card = np := by
  have hl := calls_linear h (construct none) [] (by simp [construct])
  have hsub : (Last h []).toFinset ⊆ ((List.range np).map fun k : ℕ => (k : ℤ)).toFinset := by
    intro k hk
    have := hv k (by simpa using hk)
    simp only [List.mem_toFinset, List.mem_map, List.mem_range]
    exact ⟨k.toNat, by omega, by omega⟩
  have hc : ((List.range np).map fun k : ℕ => (k : ℤ)).toFinset.card = np := by
    rw [List.toFinset_card_of_nodup]
    · simp
    · exact List.nodup_range.map (fun a b h => by simpa using h)
  unfold getNonLinearIndex
  rw [hl, Finset.card_sdiff_of_subset hsub, hc]
  have := Finset.card_le_card hsub
  rw [hc] at this
  omega

/-- C151. A model is mixed exactly when the list set last has an item. -/
theorem C151_isMixed (h : List (Option (List ℤ))) :
    isMixed (calls h (construct none)) = true ↔ Last h [] ≠ [] := by
  have hl := calls_linear h (construct none) [] (by simp [construct])
  unfold isMixed
  rw [decide_eq_true_iff, hl, Finset.card_pos]
  simp

/-- C151. A copy has the same linear indices, and setting those of the copy does nothing to the original or the other
way around: each has what was set on it last. -/
theorem C151_copy (np : ℕ) (h h1 h2 : List (Option (List ℤ))) (k : ℤ) :
    let m := calls h (construct none)
    (k ∈ getNonLinearIndex np (calls h1 (construct (some m))) ↔ 0 ≤ k ∧ k < np ∧ k ∉ Last h1 (Last h [])) ∧
    (k ∈ getNonLinearIndex np (calls h2 m) ↔ 0 ≤ k ∧ k < np ∧ k ∉ Last h2 (Last h [])) := by
  intro m
  have hm : m.linear = (Last h []).toFinset := calls_linear h (construct none) [] (by simp [construct])
  have key : ∀ (g : List (Option (List ℤ))) (m' : Mdl), m'.linear = (Last h []).toFinset →
      (k ∈ getNonLinearIndex np (calls g m') ↔ 0 ≤ k ∧ k < np ∧ k ∉ Last g (Last h [])) := by
    intro g m' hm'
    unfold getNonLinearIndex
    rw [calls_linear g m' _ hm']
    simp only [Finset.mem_sdiff, List.mem_toFinset, List.mem_map, List.mem_range]
    constructor
    · rintro ⟨⟨j, hj, rfl⟩, h2⟩
      exact ⟨by omega, by omega, h2⟩
    · rintro ⟨h1, h2, h3⟩
      exact ⟨⟨k.toNat, by omega, by omega⟩, h3⟩
  exact ⟨key h1 _ (by simp [construct, hm]), key h2 _ hm⟩

/-- A negative index, as it is used for parameters elsewhere (-1 is the last one), or an index beyond the last parameter
is accepted and the model is mixed from then on, but all parameters are still reported as non-linear. -/
theorem C151_counterexample_index (np : ℕ) (i : ℤ) (hi : i < 0 ∨ np ≤ i) :
    isMixed (setMixedModel (construct none) (some [i])) = true ∧
    (getNonLinearIndex np (setMixedModel (construct none) (some [i]))).card = np := by
  refine ⟨by simp [isMixed, setMixedModel], ?_⟩
  have hc : ((List.range np).map fun k : ℕ => (k : ℤ)).toFinset.card = np := by
    rw [List.toFinset_card_of_nodup]
    · simp
    · exact List.nodup_range.map (fun a b h => by simpa using h)
  unfold getNonLinearIndex setMixedModel
  rw [Finset.sdiff_eq_self_of_disjoint, hc]
  rw [Finset.disjoint_left]
  intro k hk hk'
  simp only [List.mem_toFinset, List.mem_map, List.mem_range, List.mem_cons, List.not_mem_nil, or_false] at hk hk'
  obtain ⟨j, hj, rfl⟩ := hk
  omega

/-! Non-vacuity: three parameters, of which the first is linear. -/
example : (∀ k ∈ Last [some [2], none, some [0]] [], 0 ≤ k ∧ k < ((3 : ℕ) : ℤ)) ∧
    getNonLinearIndex 3 (calls [some [2], none, some [0]] (construct none)) = {1, 2} := by
  decide

end BF.Mixed
