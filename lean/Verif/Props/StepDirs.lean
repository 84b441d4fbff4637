import Verif.Engines
import Mathlib.Tactic.Linarith
import Mathlib.Tactic.Ring

/-!
# The directions of steps

C120, a part of it: the steps of the step engine and the velocities of the chord engine have no preferred direction.
-/

noncomputable section

namespace BF.Engines

variable {π β : Type*}

/-- The same as `e` but for the random numbers: each is replaced by its mirror image in the unit interval, which is as
probable. -/
def Env.mirrored (e : Env π β) : Env π β := { e with rand := fun k => 1 - e.rand k }

theorem zipWith_range_neg (f g : ℕ → ℝ → ℝ) (h : ∀ i r, g i r = -f i r) (l : List ℝ) (is : List ℕ) :
    List.zipWith g is l = (List.zipWith f is l).map fun s => -s := by
  induction is generalizing l with
  | nil => simp
  | cons i is ih =>
    cases l with
    | nil => simp
    | cons r l => simp [h, ih]

/-- With mirrored random numbers the step engine makes the opposite step; no component is larger than half of the range, and
there is one for each of the ranges. -/
theorem C120_step_directions (e : Env π β) (urange : List ℝ) (k : ℕ) :
    newStep e.mirrored urange k = (newStep e urange k).map (fun s => -s)
      ∧ (newStep e urange k).length = urange.length
      ∧ ((∀ j, 0 ≤ e.rand j ∧ e.rand j ≤ 1) → ∀ (i : ℕ) (s r : ℝ), (newStep e urange k)[i]? = some s → urange[i]? = some r →
        |s| ≤ |r| / 2) := by
  refine ⟨?_, ?_, ?_⟩
  · unfold newStep
    apply zipWith_range_neg
    intro i r
    simp only [Env.mirrored]
    ring
  · simp [newStep]
  · intro hr i s r hs hu
    have hi : i < urange.length := (List.getElem?_eq_some_iff.1 hu).1
    rw [newStep, List.getElem?_zipWith, List.getElem?_range hi, hu] at hs
    simp only [Option.some.injEq] at hs
    rw [← hs, abs_mul]
    have h1 : |e.rand (k + i) - 0.5| ≤ 1 / 2 := by
      rw [abs_le]
      constructor <;> linarith [(hr (k + i)).1, (hr (k + i)).2]
    nlinarith [abs_nonneg r]

/-- With mirrored random numbers the velocities of the chord engine are the opposite ones; every direction can be drawn. -/
theorem C120_velocity_directions (e : Env π β) (np k : ℕ) :
    newVel e.mirrored np k = (newVel e np k).map (fun v => -v)
      ∧ ∀ v : List ℝ, v.length = np → (∀ x ∈ v, |x| ≤ 1 / 2) →
        ∃ rand : ℕ → ℝ, (∀ j, 0 ≤ rand j ∧ rand j ≤ 1) ∧ newVel { e with rand := rand } np k = v := by
  constructor
  · simp only [newVel, Env.mirrored, List.map_map]
    apply List.map_congr_left
    intro i _
    simp only [Function.comp]
    ring
  · intro v hv hx
    refine ⟨fun j => v.getD (j - k) 0 + 1 / 2, ?_, ?_⟩
    · intro j
      rcases lt_or_ge (j - k) v.length with h | h
      · have := abs_le.1 (hx _ (List.getElem_mem h))
        have h2 : v.getD (j - k) 0 = v[j - k] := by simp [h]
        simp only [h2]
        constructor <;> linarith [this.1, this.2]
      · have h2 : v.getD (j - k) 0 = 0 := by simp [h]
        simp only [h2]
        constructor <;> norm_num
    · apply List.ext_getElem
      · simp [newVel, hv]
      · intro i h1 h2
        simp only [newVel, List.getElem_map, List.getElem_range, Nat.add_sub_cancel_left]
        have h3 : v.getD i 0 = v[i] := by simp [h2]
        rw [h3]
        norm_num

/-- Two ranges, random numbers 1/4 and 3/4. -/
example (e : Env π β) (h0 : e.rand 0 = 1 / 4) (h1 : e.rand 1 = 3 / 4) :
    newStep e [2, 4] 0 = [-1 / 2, 1] ∧ newStep e.mirrored [2, 4] 0 = [1 / 2, -1] := by
  simp [newStep, Env.mirrored, List.range_succ, h0, h1]
  norm_num

end BF.Engines
