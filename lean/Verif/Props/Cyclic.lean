import Verif.Cyclic
import Mathlib.Tactic.Linarith
import Mathlib.Tactic.Ring
import Mathlib.Tactic.NormNum
import Mathlib.Algebra.Order.Floor.Ring

/-!
# C40: residuals of a periodic quantity are folded to the nearest equivalent
-/

namespace BF.Cyclic

/-- `a` and `b` differ by a whole number of periods. -/
def Equiv (period a b : ℝ) : Prop := ∃ n : ℤ, a = b + n * period

/-- The folded residual differs from the plain one by a whole number of periods. -/
theorem C40_equivalent (period res : ℝ) : Equiv period (cyclize period res) res := by
  unfold cyclize
  dsimp only
  split_ifs
  · exact ⟨1, by simp⟩
  · exact ⟨-1, by simp [sub_eq_add_neg]⟩
  · exact ⟨0, by simp⟩

/-- It is at most half a period when the residual is within one and a half period. -/
theorem C40_half (period res : ℝ) (h : |res| ≤ 3 / 2 * period) :
    |cyclize period res| ≤ period / 2 := by
  rw [abs_le] at h ⊢
  unfold cyclize
  dsimp only
  split_ifs <;> constructor <;> linarith [h.1, h.2]

/-- There is no equivalent nearer to zero. -/
theorem C40_nearest (period res b : ℝ) (hp : 0 < period) (h : |res| ≤ 3 / 2 * period)
    (hb : Equiv period b res) : |cyclize period res| ≤ |b| := by
  obtain ⟨n, hn⟩ := hb
  obtain ⟨m, hm⟩ := C40_equivalent period res
  have hh := C40_half period res h
  rcases eq_or_ne n m with rfl | hne
  · rw [hm, hn]
  · have h1 : (1 : ℝ) ≤ |(n : ℝ) - m| := by
      rw [← Int.cast_sub, ← Int.cast_abs]
      exact_mod_cast Int.one_le_abs (sub_ne_zero.2 hne)
    have h2 : |b - cyclize period res| = |(n : ℝ) - m| * period := by
      rw [hm, hn, show res + n * period - (res + m * period) = (n - m) * period by ring, abs_mul,
        abs_of_pos hp]
    have h3 : |b - cyclize period res| ≤ |b| + |cyclize period res| := abs_sub _ _
    have h4 : period ≤ |(n : ℝ) - m| * period := by nlinarith
    linarith

/-- A residual within half a period stays as it is; so folding twice is folding once. -/
theorem C40_idempotent (period res : ℝ) (h : |res| ≤ 3 / 2 * period) :
    cyclize period (cyclize period res) = cyclize period res := by
  have := abs_le.1 (C40_half period res h)
  have key : ∀ r, -(period / 2) ≤ r → r ≤ period / 2 → cyclize period r = r := by
    intro r h1 h2
    unfold cyclize
    dsimp only
    rw [if_neg (by linarith), if_neg (by linarith)]
  exact key _ this.1 this.2

/-- The condition is needed: two periods apart is folded to one period apart only. -/
theorem C40_counterexample_far : ¬ |cyclize 1 2| ≤ 1 / 2 := by
  norm_num [cyclize]

/-- The residuals of cyclic data: every one is equivalent to data minus model, and at most half a period
when data and model are within one and a half period. -/
theorem C40_residuals (period : ℝ) (ydata result : List ℝ) (hl : ydata.length = result.length) :
    ∃ res, residuals (.all period) ydata result = some res ∧ res.length = ydata.length ∧
      ∀ (i : ℕ) (y f r : ℝ), ydata[i]? = some y → result[i]? = some f → res[i]? = some r →
        Equiv period r (y - f) ∧ (|y - f| ≤ 3 / 2 * period → |r| ≤ period / 2) := by
  refine ⟨_, rfl, by simp [cycor1, hl], ?_⟩
  intro i y f r hy hf hr
  simp only [cycor1, List.getElem?_map, List.getElem?_zipWith, hy, hf, Option.map_some,
    Option.some.injEq] at hr
  subst hr
  exact ⟨C40_equivalent _ _, C40_half _ _⟩

theorem cycor2_spec (ks : List (ℕ × ℝ)) (row : List ℝ) (hnd : (ks.map Prod.fst).Nodup)
    (hk : ∀ k ∈ ks, k.1 < row.length) :
    ∃ res, cycor2 ks row = some res ∧ res.length = row.length ∧
      (∀ i, i ∉ ks.map Prod.fst → res[i]? = row[i]?) ∧
      (∀ k ∈ ks, res[k.1]? = (row[k.1]?).map (cyclize k.2)) := by
  induction ks generalizing row with
  | nil => exact ⟨row, rfl, rfl, by simp, by simp⟩
  | cons k ks ih =>
    obtain ⟨key, period⟩ := k
    simp only [List.map_cons, List.nodup_cons] at hnd
    have hkey : key < row.length := hk (key, period) (by simp)
    obtain ⟨res, h1, h2, h3, h4⟩ := ih (row.set key (cyclize period row[key])) hnd.2
      (fun k hk' => by simpa using hk k (by simp [hk']))
    refine ⟨res, ?_, by simpa using h2, ?_, ?_⟩
    · simp [cycor2, List.getElem?_eq_getElem hkey, h1]
    · intro i hi
      simp only [List.map_cons, List.mem_cons, not_or] at hi
      rw [h3 i hi.2, List.getElem?_set_ne (fun h => hi.1 h.symm)]
    · intro k hk'
      rcases List.mem_cons.1 hk' with rfl | hk2
      · rw [h3 _ hnd.1]
        simp [hkey]
      · rw [h4 k hk2, List.getElem?_set_ne]
        rintro rfl
        exact hnd.1 (List.mem_map_of_mem hk2)

/-- With periods for some of the outputs, these are folded and the others are left alone. -/
theorem C40_columns (periods : List (ℕ × ℝ)) (ydata result : List ℝ)
    (hl : ydata.length = result.length) (hnd : (periods.map Prod.fst).Nodup)
    (hk : ∀ k ∈ periods, k.1 < ydata.length) :
    ∃ res, residualsRow (.columns periods) ydata result = some res ∧ res.length = ydata.length ∧
      ∀ (i : ℕ) (y f r : ℝ), ydata[i]? = some y → result[i]? = some f → res[i]? = some r →
        ((∀ p, (i, p) ∉ periods) → r = y - f) ∧
        (∀ p, (i, p) ∈ periods →
          Equiv p r (y - f) ∧ (|y - f| ≤ 3 / 2 * p → |r| ≤ p / 2)) := by
  have hlen : (List.zipWith (· - ·) ydata result).length = ydata.length := by simp [hl]
  obtain ⟨res, h1, h2, h3, h4⟩ := cycor2_spec periods (List.zipWith (· - ·) ydata result) hnd
    (fun k h => by rw [hlen]; exact hk k h)
  refine ⟨res, h1, by rw [h2, hlen], ?_⟩
  intro i y f r hy hf hr
  have hz : (List.zipWith (fun x1 x2 => x1 - x2) ydata result)[i]? = some (y - f) := by
    simp [List.getElem?_zipWith, hy, hf]
  refine ⟨fun hno => ?_, fun p hp => ?_⟩
  · have : i ∉ periods.map Prod.fst := by
      intro hmem
      obtain ⟨⟨a, b⟩, hab, rfl⟩ := List.mem_map.1 hmem
      exact hno b hab
    rw [h3 i this, hz] at hr
    exact (Option.some.inj hr).symm
  · have := h4 (i, p) hp
    simp only [hr, hz, Option.map_some, Option.some.injEq] at this
    rw [this]
    exact ⟨C40_equivalent _ _, C40_half _ _⟩

/-- Without a period the residuals are data minus model. -/
theorem C40_plain (ydata result : List ℝ) :
    residuals .none ydata result = some (List.zipWith (· - ·) ydata result) := rfl

example : cyclize 360 350 = -10 := by norm_num [cyclize]
example : cyclize 360 (-350) = 10 := by norm_num [cyclize]
example : |(350 : ℝ)| ≤ 3 / 2 * 360 := by norm_num [abs_of_pos]
example : residualsRow (.columns [(1, 360)]) [400, 355] [10, 5] = some [390, -10] := by
  norm_num [residualsRow, cycor2, cyclize]

end BF.Cyclic
