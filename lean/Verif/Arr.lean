import Mathlib.Data.List.Basic

/-!
# numpy fancy indexing

`a[idx]` and `a[idx] = vals` for one dimensional arrays and index arrays of non-negative integers.
`none` is the IndexError or the ValueError of numpy (lengths that differ; the broadcasting of one
value is not used in the modelled code).
-/

namespace BF.Arr

variable {α : Type*}

/-- `a[idx]`. -/
def gather (a : List α) : List ℕ → Option (List α)
  | [] => some []
  | i :: is => match a[i]?, gather a is with
      | some v, some vs => some (v :: vs)
      | _, _ => none

/-- `a[idx] = vals`; from left to right, as numpy does. -/
def scatter : List α → List ℕ → List α → Option (List α)
  | a, [], [] => some a
  | a, i :: is, v :: vs => if i < a.length then scatter (a.set i v) is vs else none
  | _, _, _ => none

theorem gather_spec (a : List α) (idx : List ℕ) (h : ∀ i ∈ idx, i < a.length) :
    ∃ vs, gather a idx = some vs ∧ vs.length = idx.length ∧
      ∀ (j i : ℕ), idx[j]? = some i → vs[j]? = a[i]? := by
  induction idx with
  | nil => exact ⟨[], rfl, rfl, by simp⟩
  | cons i is ih =>
    obtain ⟨vs, h1, h2, h3⟩ := ih fun j hj => h j (by simp [hj])
    have hi : i < a.length := h i (by simp)
    refine ⟨a[i] :: vs, by simp [gather, h1, List.getElem?_eq_getElem hi], by simp [h2], ?_⟩
    intro j k hj
    cases j with
    | zero =>
      obtain rfl : i = k := by simpa using hj
      simp [List.getElem?_eq_getElem hi]
    | succ j => simpa using h3 j k (by simpa using hj)

theorem gather_some (a : List α) (idx : List ℕ) (vs : List α) (h : gather a idx = some vs) :
    vs.length = idx.length ∧ (∀ i ∈ idx, i < a.length) := by
  induction idx generalizing vs with
  | nil => simp [gather] at h; simp [← h]
  | cons i is ih =>
    simp only [gather] at h
    split at h
    · rename_i v vs' h1 h2
      obtain rfl := Option.some.inj h
      obtain ⟨a1, a2⟩ := ih vs' h2
      refine ⟨by simp [a1], ?_⟩
      intro j hj
      rcases List.mem_cons.1 hj with rfl | hj
      · exact (List.getElem?_eq_some_iff.1 h1).1
      · exact a2 j hj
    · exact absurd h (by simp)

theorem scatter_spec (a : List α) (idx : List ℕ) (vals : List α) (hlen : vals.length = idx.length)
    (h : ∀ i ∈ idx, i < a.length) (hnd : idx.Nodup) :
    ∃ b, scatter a idx vals = some b ∧ b.length = a.length ∧
      (∀ (j i : ℕ), idx[j]? = some i → b[i]? = vals[j]?) ∧
      (∀ i, i ∉ idx → b[i]? = a[i]?) := by
  induction idx generalizing a vals with
  | nil =>
    obtain rfl : vals = [] := List.length_eq_zero_iff.1 (by simpa using hlen)
    exact ⟨a, rfl, rfl, by simp, by simp⟩
  | cons i is ih =>
    cases vals with
    | nil => simp at hlen
    | cons v vs =>
      have hi : i < a.length := h i (by simp)
      obtain ⟨hni, hnd'⟩ := List.nodup_cons.1 hnd
      obtain ⟨b, h1, h2, h3, h4⟩ := ih (a.set i v) vs (by simpa using hlen)
        (fun j hj => by simpa using h j (by simp [hj])) hnd'
      refine ⟨b, by simp [scatter, hi, h1], by simpa using h2, ?_, ?_⟩
      · intro j k hj
        cases j with
        | zero =>
          obtain rfl : i = k := by simpa using hj
          rw [h4 i hni]
          simp [hi]
        | succ j => simpa using h3 j k (by simpa using hj)
      · intro k hk
        have hk' : k ≠ i ∧ k ∉ is := by simpa using hk
        rw [h4 k hk'.2, List.getElem?_set_ne (fun h => hk'.1 h.symm)]

end BF.Arr
