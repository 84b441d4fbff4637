import Verif.Basis
import Mathlib.Tactic.NormNum
import Mathlib.Tactic.Linarith
import Mathlib.Tactic.Ring
import Mathlib.Tactic.FieldSimp
import Mathlib.Algebra.Order.BigOperators.Group.List

/-!
# C39: the orthonormal basis is orthonormal
-/

namespace BF

/-! ## Specification -/

/-- The vectors of `B` have length `n`, are unit vectors and orthogonal to each other. -/
structure Orthonormal (n : ℕ) (B : List (List ℝ)) : Prop where
  len : ∀ u ∈ B, u.length = n
  unit : ∀ u ∈ B, dot u u = 1
  orth : B.Pairwise fun u v => dot u v = 0

/-- Linear combinations of the vectors of `B`. -/
inductive Comb (n : ℕ) (B : List (List ℝ)) : List ℝ → Prop
  | zero : Comb n B (List.replicate n 0)
  | add (c : ℝ) {u v : List ℝ} : u ∈ B → Comb n B v →
      Comb n B (List.zipWith (fun a b => c * a + b) u v)

/-- The vectors that a call has to be orthogonal to: those that were handed out since the last reset,
or none when there are as many as dimensions. -/
def Basis.since (b : Basis) (n : ℕ) (reset : Bool) : List (List ℝ) :=
  let old := if reset then [] else b.basis.getD []
  if n ≤ old.length then [] else old

/-- The states that are reached by calls with vectors of length `n` that do not depend linearly on the
vectors handed out before them. -/
inductive Basis.Reach (n : ℕ) : Basis → Prop
  | new : Basis.Reach n ⟨none⟩
  | call {b : Basis} (vec : List ℝ) (reset : Bool) : Basis.Reach n b → vec.length = n →
      ¬ Comb n (b.since n reset) vec → Basis.Reach n (b.normalise vec reset).2

/-! ## Lemmas on the inner product -/

theorem dot_comm (u v : List ℝ) : dot u v = dot v u := by
  unfold dot
  rw [List.zipWith_comm]
  congr 1
  congr 1
  funext a b
  exact mul_comm b a

theorem dot_cons (a b : ℝ) (u v : List ℝ) : dot (a :: u) (b :: v) = a * b + dot u v := by
  simp [dot]

theorem dot_nil_left (v : List ℝ) : dot [] v = 0 := by simp [dot]

theorem dot_nil_right (v : List ℝ) : dot v [] = 0 := by simp [dot]

theorem dot_comb (w u v : List ℝ) (c : ℝ) (h1 : u.length = w.length) (h2 : v.length = w.length) :
    dot w (List.zipWith (fun a b => c * a + b) u v) = c * dot w u + dot w v := by
  induction w generalizing u v with
  | nil => simp [dot]
  | cons x w ih =>
    cases u with
    | nil => simp at h1
    | cons a u =>
      cases v with
      | nil => simp at h2
      | cons b v =>
        simp only [List.zipWith_cons_cons, dot_cons]
        rw [ih u v (by simpa using h1) (by simpa using h2)]
        ring

theorem dot_sub (w u v : List ℝ) (h1 : u.length = w.length) (h2 : v.length = w.length) :
    dot w (List.zipWith (· - ·) u v) = dot w u - dot w v := by
  induction w generalizing u v with
  | nil => simp [dot]
  | cons x w ih =>
    cases u with
    | nil => simp at h1
    | cons a u =>
      cases v with
      | nil => simp at h2
      | cons b v =>
        simp only [List.zipWith_cons_cons, dot_cons]
        rw [ih u v (by simpa using h1) (by simpa using h2)]
        ring

theorem dot_zeros (w : List ℝ) (v : List ℝ) : dot w (v.map fun _ => 0) = 0 := by
  induction w generalizing v with
  | nil => simp [dot]
  | cons x w ih =>
    cases v with
    | nil => simp [dot]
    | cons b v => simp only [List.map_cons, dot_cons, ih]; ring

theorem dot_div (w u : List ℝ) (c : ℝ) : dot w (u.map (· / c)) = dot w u / c := by
  induction w generalizing u with
  | nil => simp [dot]
  | cons x w ih =>
    cases u with
    | nil => simp [dot]
    | cons a u => simp only [List.map_cons, dot_cons, ih]; ring

theorem dot_self_nonneg (u : List ℝ) : 0 ≤ dot u u := by
  induction u with
  | nil => simp [dot]
  | cons x u ih => rw [dot_cons]; nlinarith [mul_self_nonneg x]

theorem dot_self_eq_zero (u : List ℝ) (h : dot u u = 0) : ∀ x ∈ u, x = 0 := by
  induction u with
  | nil => simp
  | cons x u ih =>
    rw [dot_cons] at h
    have h1 := mul_self_nonneg x
    have h2 := dot_self_nonneg u
    intro y hy
    rcases List.mem_cons.1 hy with rfl | hy
    · exact mul_self_eq_zero.1 (by linarith)
    · exact ih (by linarith) y hy

theorem projSum_length (n : ℕ) (vec : List ℝ) (B : List (List ℝ)) (hv : vec.length = n)
    (hB : ∀ u ∈ B, u.length = n) : (projSum vec B).length = n := by
  induction B with
  | nil => simpa [projSum] using hv
  | cons u B ih =>
    simp only [projSum, List.length_zipWith]
    rw [ih fun x hx => hB x (by simp [hx]), hB u (by simp)]
    simp

theorem projSum_comb (n : ℕ) (vec : List ℝ) (B B' : List (List ℝ)) (hv : vec.length = n)
    (hsub : ∀ u ∈ B, u ∈ B') : Comb n B' (projSum vec B) := by
  induction B with
  | nil =>
    have : projSum vec [] = List.replicate n 0 := by simp [projSum, ← hv, List.map_const']
    rw [this]
    exact Comb.zero
  | cons u B ih =>
    exact Comb.add (dot u vec) (hsub u (by simp)) (ih fun x hx => hsub x (by simp [hx]))

theorem dot_projSum (n : ℕ) (w vec : List ℝ) (B : List (List ℝ)) (hw : w.length = n)
    (hv : vec.length = n) (hB : ∀ u ∈ B, u.length = n) :
    dot w (projSum vec B) = (B.map fun u => dot u vec * dot w u).sum := by
  induction B with
  | nil => simpa [projSum] using dot_zeros w vec
  | cons u B ih =>
    have hB' : ∀ x ∈ B, x.length = n := fun x hx => hB x (by simp [hx])
    simp only [projSum, List.map_cons, List.sum_cons]
    rw [dot_comb w u _ _ (by rw [hB u (by simp), hw])
      (by rw [projSum_length n vec B hv hB', hw]), ih hB']

theorem sum_proj (n : ℕ) (B : List (List ℝ)) (hB : Orthonormal n B) (b vec : List ℝ) (hb : b ∈ B) :
    (B.map fun u => dot u vec * dot b u).sum = dot b vec := by
  induction B with
  | nil => simp at hb
  | cons u B ih =>
    have hp := List.pairwise_cons.1 hB.orth
    have hB' : Orthonormal n B := ⟨fun x hx => hB.len x (by simp [hx]),
      fun x hx => hB.unit x (by simp [hx]), hp.2⟩
    simp only [List.map_cons, List.sum_cons]
    rcases List.mem_cons.1 hb with rfl | hb
    · rw [hB.unit b (by simp), mul_one]
      have : (B.map fun u => dot u vec * dot b u) = B.map fun _ => 0 := by
        apply List.map_congr_left
        intro x hx
        rw [hp.1 x hx, mul_zero]
      rw [this]
      simp
    · rw [ih hB' hb, dot_comm b u, hp.1 b hb, mul_zero, zero_add]

theorem zero_sub_eq (u v : List ℝ) (h : u.length = v.length)
    (hz : ∀ x ∈ List.zipWith (· - ·) u v, x = 0) : u = v := by
  induction u generalizing v with
  | nil => cases v with
    | nil => rfl
    | cons => simp at h
  | cons a u ih =>
    cases v with
    | nil => simp at h
    | cons b v =>
      simp only [List.zipWith_cons_cons, List.mem_cons, forall_eq_or_imp] at hz
      rw [ih v (by simpa using h) hz.2, sub_eq_zero.1 hz.1]

theorem normalise_eq (b : Basis) (vec : List ℝ) (reset : Bool) :
    (b.normalise vec reset).2.basis =
      some (b.since vec.length reset ++ [(b.normalise vec reset).1]) := rfl

theorem since_cases (b : Basis) (n : ℕ) (reset : Bool) :
    b.since n reset = [] ∨
      (b.since n reset = b.basis.getD [] ∧ (b.basis.getD []).length < n) := by
  unfold Basis.since
  cases reset with
  | true => left; simp
  | false =>
    by_cases h : n ≤ (b.basis.getD []).length
    · left; simp [h]
    · right; exact ⟨by simp [h], by omega⟩

/-! ## The property -/

/-- One call: when the vectors that count are orthonormal and the new one does not depend on them, the
vector that is handed out is a unit vector, orthogonal to all of them, and all of them together are
again orthonormal. The given vector is a combination of the new basis, so no direction is lost. -/
theorem C39_call (n : ℕ) (b : Basis) (vec : List ℝ) (reset : Bool) (hv : vec.length = n)
    (hB : Orthonormal n (b.since n reset)) (hind : ¬ Comb n (b.since n reset) vec) :
    dot (b.normalise vec reset).1 (b.normalise vec reset).1 = 1 ∧
    (∀ u ∈ b.since n reset, dot u (b.normalise vec reset).1 = 0) ∧
    Orthonormal n (b.since n reset ++ [(b.normalise vec reset).1]) := by
  subst hv
  set B := b.since vec.length reset with hBdef
  have hlen := projSum_length vec.length vec B rfl hB.len
  set w := List.zipWith (· - ·) vec (projSum vec B) with hw
  have hwlen : w.length = vec.length := by rw [hw, List.length_zipWith, hlen, Nat.min_self]
  have hout : (b.normalise vec reset).1 = w.map (· / Real.sqrt (dot w w)) := rfl
  have hpos : 0 < dot w w := by
    rcases lt_or_eq_of_le (dot_self_nonneg w) with h | h
    · exact h
    · exfalso
      apply hind
      have heq := zero_sub_eq vec (projSum vec B) hlen.symm (dot_self_eq_zero w h.symm)
      have hc := projSum_comb vec.length vec B B rfl (fun _ h => h)
      rwa [← heq] at hc
  have hs : Real.sqrt (dot w w) * Real.sqrt (dot w w) = dot w w := Real.mul_self_sqrt hpos.le
  have hsne : Real.sqrt (dot w w) ≠ 0 := (Real.sqrt_pos.2 hpos).ne'
  have hunit : dot (b.normalise vec reset).1 (b.normalise vec reset).1 = 1 := by
    rw [hout, dot_div, dot_comm, dot_div]
    field_simp
    rw [sq, hs]
  have horth : ∀ u ∈ B, dot u (b.normalise vec reset).1 = 0 := by
    intro u hu
    rw [hout, dot_div, hw, dot_sub u vec _ (hB.len u hu).symm (by rw [hlen, hB.len u hu]),
      dot_projSum vec.length u vec B (hB.len u hu) rfl hB.len, sum_proj vec.length B hB u vec hu]
    simp
  refine ⟨hunit, horth, ?_, ?_, ?_⟩
  · intro u hu
    rcases List.mem_append.1 hu with h | h
    · exact hB.len u h
    · rw [List.mem_singleton.1 h, hout, List.length_map, hwlen]
  · intro u hu
    rcases List.mem_append.1 hu with h | h
    · exact hB.unit u h
    · rw [List.mem_singleton.1 h]; exact hunit
  · rw [List.pairwise_append]
    refine ⟨hB.orth, List.pairwise_singleton _ _, ?_⟩
    intro u hu v hv
    rw [List.mem_singleton.1 hv]
    exact horth u hu

theorem reach_spec (n : ℕ) (hn : 0 < n) (b : Basis) (h : b.Reach n) :
    Orthonormal n (b.basis.getD []) ∧ (b.basis.getD []).length ≤ n := by
  induction h with
  | new => exact ⟨⟨by simp, by simp, by simp⟩, by simp⟩
  | @call b vec reset hr hv hind ih =>
    have hsince : Orthonormal n (b.since n reset) := by
      rcases since_cases b n reset with h0 | ⟨h0, _⟩
      · rw [h0]; exact ⟨by simp, by simp, by simp⟩
      · rw [h0]; exact ih.1
    rw [normalise_eq, hv]
    refine ⟨(C39_call n b vec reset hv hsince hind).2.2, ?_⟩
    simp only [Option.getD_some, List.length_append, List.length_singleton]
    rcases since_cases b n reset with h0 | ⟨h0, h1⟩
    · rw [h0]; exact hn
    · rw [h0]; omega

/-- Any history of calls: the vectors handed out since the last reset are orthonormal, and there are
never more of them than dimensions. -/
theorem C39_history (n : ℕ) (hn : 0 < n) (b : Basis) (h : b.Reach n) (vec : List ℝ) (reset : Bool)
    (hv : vec.length = n) (hind : ¬ Comb n (b.since n reset) vec) :
    let out := b.normalise vec reset
    dot out.1 out.1 = 1 ∧ (∀ u ∈ b.since n reset, dot u out.1 = 0) ∧
      Orthonormal n (out.2.basis.getD []) ∧ (out.2.basis.getD []).length ≤ n := by
  have hsince : Orthonormal n (b.since n reset) := by
    have ih := reach_spec n hn b h
    rcases since_cases b n reset with h0 | ⟨h0, _⟩
    · rw [h0]; exact ⟨by simp, by simp, by simp⟩
    · rw [h0]; exact ih.1
  obtain ⟨h1, h2, _⟩ := C39_call n b vec reset hv hsince hind
  obtain ⟨h3, h4⟩ := reach_spec n hn _ (Basis.Reach.call vec reset h hv hind)
  exact ⟨h1, h2, h3, h4⟩

/-- After as many vectors as there are dimensions, or on request, it starts again: the new basis is
the normalised vector only. -/
theorem C39_restart (b : Basis) (vec : List ℝ) (reset : Bool)
    (h : reset = true ∨ vec.length ≤ (b.basis.getD []).length) :
    (b.normalise vec reset).2.basis = some [(b.normalise vec reset).1] ∧
      (b.normalise vec reset).1 = vec.map (· / Real.sqrt (dot vec vec)) := by
  have hs : b.since vec.length reset = [] := by
    unfold Basis.since
    rcases h with rfl | h
    · simp
    · cases reset <;> simp [h]
  refine ⟨by rw [normalise_eq, hs]; rfl, ?_⟩
  have : (b.normalise vec reset).1 = (List.zipWith (· - ·) vec (projSum vec (b.since vec.length reset))).map
      (· / Real.sqrt (dot (List.zipWith (· - ·) vec (projSum vec (b.since vec.length reset)))
        (List.zipWith (· - ·) vec (projSum vec (b.since vec.length reset))))) := rfl
  rw [this, hs]
  have hz : List.zipWith (· - ·) vec (projSum vec []) = vec := by
    simp only [projSum]
    clear this hs h
    induction vec with
    | nil => rfl
    | cons x v ih => simp only [List.map_cons, List.zipWith_cons_cons, ih, sub_zero]
  rw [hz]

/-- Otherwise the vectors that count are all those handed out before. -/
theorem C39_continue (b : Basis) (n : ℕ) (h : (b.basis.getD []).length < n) :
    b.since n false = b.basis.getD [] := by
  unfold Basis.since
  simp only [Bool.false_eq_true, if_false]
  rw [if_neg (by omega)]

/-- A plane: the vectors (3,4) and (1,0). -/
example : ∃ b : Basis, b.Reach 2 ∧ b.basis.getD [] = [[3 / 5, 4 / 5], [4 / 5, -(3 / 5)]] := by
  have h5 : Real.sqrt 25 = 5 := by
    rw [show (25 : ℝ) = 5 * 5 by norm_num]; exact Real.sqrt_mul_self (by norm_num)
  have h4 : Real.sqrt (16 / 25) = 4 / 5 := by
    rw [show (16 / 25 : ℝ) = 4 / 5 * (4 / 5) by norm_num]; exact Real.sqrt_mul_self (by norm_num)
  have e1 : (Basis.mk none).normalise [3, 4] false = ([3 / 5, 4 / 5], ⟨some [[3 / 5, 4 / 5]]⟩) := by
    simp [Basis.normalise, projSum, dot]
    norm_num [h5]
  have e2 : (Basis.mk (some [[3 / 5, 4 / 5]])).normalise [1, 0] false =
      ([4 / 5, -(3 / 5)], ⟨some [[3 / 5, 4 / 5], [4 / 5, -(3 / 5)]]⟩) := by
    simp [Basis.normalise, projSum, dot]
    norm_num [h4]
  have r1 : Basis.Reach 2 ⟨some [[3 / 5, 4 / 5]]⟩ := by
    have := Basis.Reach.call (n := 2) [3, 4] false Basis.Reach.new rfl (by
      intro h
      have key : ∀ v, Comb 2 ((Basis.mk none).since 2 false) v → v = [0, 0] := by
        intro v hv
        induction hv with
        | zero => rfl
        | add c hu _ _ => simp [Basis.since] at hu
      have := key _ h
      norm_num at this)
    rwa [e1] at this
  refine ⟨⟨some [[3 / 5, 4 / 5], [4 / 5, -(3 / 5)]]⟩, ?_, rfl⟩
  have := Basis.Reach.call (n := 2) [1, 0] false r1 rfl (by
    intro h
    have key : ∀ v, Comb 2 ((Basis.mk (some [[3 / 5, 4 / 5]])).since 2 false) v →
        ∃ t : ℝ, v = [3 * t, 4 * t] := by
      intro v hv
      induction hv with
      | zero => exact ⟨0, by simp [List.replicate]⟩
      | @add c u v hu _ ih =>
        obtain ⟨t, rfl⟩ := ih
        have : u = [3 / 5, 4 / 5] := by simpa [Basis.since] using hu
        subst this
        exact ⟨c / 5 + t, by simp; constructor <;> ring⟩
    obtain ⟨t, ht⟩ := key _ h
    simp only [List.cons.injEq, and_true] at ht
    have : t = 0 := by linarith [ht.2]
    rw [this] at ht
    norm_num at ht)
  rwa [e2] at this

end BF
