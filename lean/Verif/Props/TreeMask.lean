import Verif.Props.Tree
import Mathlib.Algebra.Order.Floor.Semiring
import Mathlib.Combinatorics.Colex
import Mathlib.Data.Nat.BitIndices

/-!
# C138: how a decision tree splits categories

Each category sets one bit in an integer: category `c` is the value `2 ^ c`. Booleans are 0 or 1.
-/

noncomputable section

namespace BF.Tree

open Finset

/-! ## Specification -/

/-- Point `i` goes to the left leaf of the tree: it gets the value of the first parameter. -/
def Left (d : Data) (t : Tree) (i : ℕ) : Prop := ∃ o, baseResult d t [1, 0] = some o ∧ o.at i = some 1

/-- The tree sends the points of the categories in `S` to the left, those of the other ones of the `ncat` categories to
the right. -/
def Selects (dim ncat : ℕ) (t : Tree) (S : Finset ℕ) : Prop :=
  ∀ c < ncat, ∀ (d : Data) (i : ℕ), i < d.n → d.cat dim i = 2 ^ c → (Left d t i ↔ c ∈ S)

/-! ## Masks -/

theorem left_iff (d : Data) (dim k : ℕ) (ml mr : Option ℕ) (i : ℕ) (hi : i < d.n) :
    Left d (.branch dim none (some k) (.leaf ml) (.leaf mr)) i
      ↔ (2 ≤ k ∧ d.cat dim i &&& k ≠ 0) ∨ (k < 2 ∧ d.cat dim i = k) := by
  obtain ⟨o, h1, h2⟩ := C59_mask d dim k 1 0 ml mr
  have h2 := h2 i hi
  constructor
  · rintro ⟨o', e1, e2⟩
    rw [h1] at e1
    cases e1
    rw [h2] at e2
    by_contra hn
    rw [if_neg hn] at e2
    norm_num at e2
  · intro h
    exact ⟨o, h1, by rw [h2, if_pos h]⟩

theorem pow_and (c k : ℕ) : 2 ^ c &&& k ≠ 0 ↔ k.testBit c = true := by
  constructor
  · intro h
    by_contra hn
    apply h
    apply Nat.eq_of_testBit_eq
    intro j
    rw [Nat.testBit_and, Nat.testBit_two_pow, Nat.zero_testBit]
    by_cases hj : c = j
    · subst hj
      simpa using hn
    · simp [hj]
  · intro h h0
    have := congrArg (fun n => n.testBit c) h0
    simp only [Nat.testBit_and, Nat.testBit_two_pow_self, h, Nat.zero_testBit, Bool.and_self] at this
    cases this

theorem left_bit (d : Data) (dim k : ℕ) (ml mr : Option ℕ) (i c : ℕ) (hi : i < d.n) (hc : d.cat dim i = 2 ^ c) :
    Left d (.branch dim none (some k) (.leaf ml) (.leaf mr)) i ↔ k.testBit c = true := by
  rw [left_iff d dim k ml mr i hi, hc, pow_and]
  constructor
  · rintro (⟨_, h⟩ | ⟨h1, h2⟩)
    · exact h
    · rw [← h2, Nat.testBit_two_pow_self]
  · intro h
    by_cases hk : 2 ≤ k
    · exact Or.inl ⟨hk, h⟩
    · right
      refine ⟨by omega, ?_⟩
      have hk1 : k = 1 := by
        rcases Nat.lt_or_ge k 1 with h0 | h0
        · obtain rfl : k = 0 := by omega
          simp at h
        · omega
      subst hk1
      rw [show (1 : ℕ) = 2 ^ 0 from rfl, Nat.testBit_two_pow] at h
      have : 0 = c := by simpa using h
      rw [← this]
      norm_num

/-- The table with one point, of category `c`. -/
def onePoint (c : ℕ) : Data := ⟨1, fun _ _ => 0, fun _ _ => 2 ^ c⟩

theorem selects_iff (dim ncat k : ℕ) (ml mr : Option ℕ) (S : Finset ℕ) :
    Selects dim ncat (.branch dim none (some k) (.leaf ml) (.leaf mr)) S
      ↔ ∀ c < ncat, (k.testBit c = true ↔ c ∈ S) := by
  constructor
  · intro h c hc
    rw [← h c hc (onePoint c) 0 (by simp [onePoint]) rfl, left_bit (onePoint c) dim k ml mr 0 c (by simp [onePoint]) rfl]
  · intro h c hc d i hi hcat
    rw [left_bit d dim k ml mr i c hi hcat, h c hc]

theorem sum_bit (S : Finset ℕ) (c : ℕ) : (∑ i ∈ S, 2 ^ i).testBit c = true ↔ c ∈ S := by
  rw [← Nat.mem_bitIndices, ← List.mem_toFinset, toFinset_bitIndices_sum_two_pow]

theorem newMask_iff (itype : ℕ) (split : ℝ) (h0 : 0 ≤ split) (m : ℕ) (hm : 1 ≤ m) :
    newMask itype split = m ↔ ((m : ℝ) - 1) / 2 ^ itype ≤ split ∧ split < m / 2 ^ itype := by
  have hp : (0 : ℝ) < 2 ^ itype := by positivity
  unfold newMask
  rw [Nat.floor_eq_iff (by positivity), div_le_iff₀ hp, lt_div_iff₀ hp]
  constructor
  · rintro ⟨a, b⟩
    constructor <;> linarith
  · rintro ⟨a, b⟩
    constructor <;> linarith

theorem newMask_range (itype : ℕ) (split : ℝ) (h0 : 0 ≤ split) (h1 : split < 1) :
    1 ≤ newMask itype split ∧ newMask itype split ≤ 2 ^ itype := by
  have hp : (0 : ℝ) < 2 ^ itype := by positivity
  constructor
  · unfold newMask
    rw [Nat.one_le_floor_iff]
    nlinarith
  · have : newMask itype split < 2 ^ itype + 1 := by
      unfold newMask
      rw [Nat.floor_lt (by positivity)]
      push_cast
      nlinarith
    omega

/-- The mask of a set of categories. -/
theorem sum_lt (itype : ℕ) (S : Finset ℕ) (hS : ∀ c ∈ S, c < itype) : ∑ c ∈ S, 2 ^ c < 2 ^ itype := by
  apply Nat.lt_pow_two_of_testBit
  intro j hj
  by_contra h
  have := (sum_bit S j).1 (by simpa using h)
  exact absurd (hS j this) (by omega)

theorem one_le_sum (S : Finset ℕ) (hne : S.Nonempty) : 1 ≤ ∑ c ∈ S, 2 ^ c := by
  obtain ⟨c, hc⟩ := hne
  exact le_trans Nat.one_le_two_pow (single_le_sum (f := fun c : ℕ => 2 ^ c) (fun _ _ => Nat.zero_le _) hc)

/-! ## C138 -/

/-- C138: a leaf that is split on an axis of categories, with a random number between 0 and 1: for each set of
categories that is not empty there is a range of random numbers of length `2 ^ -ncat`, so all sets are equally likely,
for which the points in these categories go to the left and all others go to the right. -/
theorem C138_birth (dim ncat : ℕ) (hn : 2 ≤ ncat) (mk : Option ℕ) (split : ℝ) (h0 : 0 ≤ split) (h1 : split < 1)
    (S : Finset ℕ) (hS : ∀ c ∈ S, c < ncat) (hne : S.Nonempty) :
    Selects dim ncat (sprout dim ncat split (.leaf mk)) S
      ↔ ((∑ c ∈ S, 2 ^ c : ℕ) - 1 : ℝ) / 2 ^ ncat ≤ split ∧ split < (∑ c ∈ S, 2 ^ c : ℕ) / 2 ^ ncat := by
  have hs : sprout dim ncat split (.leaf mk)
      = .branch dim none (some (newMask ncat split)) (.leaf none) (.leaf none) := by
    simp only [sprout]
    rw [if_neg (by omega)]
  rw [hs, selects_iff, ← newMask_iff ncat split h0 _ (one_le_sum S hne)]
  obtain ⟨m1, m2⟩ := newMask_range ncat split h0 h1
  have hlt := sum_lt ncat S hS
  constructor
  · intro h
    have hm : newMask ncat split < 2 ^ ncat := by
      refine lt_of_le_of_ne m2 fun he => ?_
      obtain ⟨c, hc⟩ := hne
      have := (h c (hS c hc)).2 hc
      rw [he, Nat.testBit_two_pow] at this
      have := hS c hc
      simp at *
      omega
    apply Nat.eq_of_testBit_eq
    intro c
    rcases Nat.lt_or_ge c ncat with hc | hc
    · rw [Bool.eq_iff_iff, h c hc, sum_bit]
    · have hp : 2 ^ ncat ≤ 2 ^ c := Nat.pow_le_pow_right (by norm_num) hc
      rw [Nat.testBit_lt_two_pow (lt_of_lt_of_le hm hp), Nat.testBit_lt_two_pow (lt_of_lt_of_le hlt hp)]
  · intro h c _
    rw [h, sum_bit]

/-- C138 is false of the last range of random numbers, that of length `2 ^ -ncat` below 1: then no point goes to the
left and the left leaf is empty. -/
theorem C138_counterexample_empty (dim ncat : ℕ) (hn : 2 ≤ ncat) (mk : Option ℕ) (split : ℝ)
    (h0 : 1 - 1 / 2 ^ ncat ≤ split) (h1 : split < 1) :
    Selects dim ncat (sprout dim ncat split (.leaf mk)) ∅ := by
  have hs : sprout dim ncat split (.leaf mk)
      = .branch dim none (some (newMask ncat split)) (.leaf none) (.leaf none) := by
    simp only [sprout]
    rw [if_neg (by omega)]
  have hp : (0 : ℝ) < 2 ^ ncat := by positivity
  have hp1 : (1 : ℝ) ≤ 2 ^ ncat := one_le_pow₀ (by norm_num)
  have hdiv : 1 / (2 : ℝ) ^ ncat ≤ 1 := by rw [div_le_one hp]; exact hp1
  have hm : newMask ncat split = 2 ^ ncat := by
    rw [newMask_iff ncat split (by linarith) _ Nat.one_le_two_pow]
    push_cast
    rw [sub_div, div_self hp.ne']
    exact ⟨h0, h1⟩
  rw [hs, selects_iff, hm]
  intro c hc
  rw [Nat.testBit_two_pow]
  simp
  omega

/-- C138 is false of booleans: a leaf that is split on an axis of booleans with a random number of 1 / 2 or more
separates nothing: all points, true or false, go to the right. With a smaller random number the true ones go to the
left and the false ones to the right. -/
theorem C138_counterexample_boolean (dim : ℕ) (mk : Option ℕ) (split : ℝ) (h0 : 0 ≤ split) (h1 : split < 1) (d : Data)
    (i : ℕ) (hi : i < d.n) (hb : d.cat dim i = 0 ∨ d.cat dim i = 1) :
    (1 / 2 ≤ split → ¬ Left d (sprout dim 1 split (.leaf mk)) i) ∧
    (split < 1 / 2 → (Left d (sprout dim 1 split (.leaf mk)) i ↔ d.cat dim i = 1)) := by
  have hs : sprout dim 1 split (.leaf mk)
      = .branch dim none (some (newMask 1 split)) (.leaf none) (.leaf none) := by
    simp [sprout]
  rw [hs, left_iff d dim _ none none i hi]
  constructor
  · intro h
    have hm : newMask 1 split = 2 := by
      rw [newMask_iff 1 split h0 2 (by norm_num)]
      norm_num
      exact ⟨by linarith, h1⟩
    rw [hm]
    rcases hb with hb | hb <;> rw [hb] <;> simp
  · intro h
    have hm : newMask 1 split = 1 := by
      rw [newMask_iff 1 split h0 1 (by norm_num)]
      norm_num
      exact ⟨h0, by linarith⟩
    rw [hm]
    simp

/-- C138: varying a branch on categories with a random integer `k` moves one category, number `k` modulo the number of
categories, to the other side. All others stay where they are. -/
theorem C138_vary (dim ncat m : ℕ) (hn : 2 ≤ ncat) (split mean u : ℝ) (k : ℕ) (S : Finset ℕ)
    (h : Selects dim ncat (.branch dim none (some m) (.leaf none) (.leaf none)) S) :
    Selects dim ncat (varyNode dim ncat split (some (mean, u, k)) (.branch dim none (some m) (.leaf none) (.leaf none)))
      (if k % ncat ∈ S then S.erase (k % ncat) else insert (k % ncat) S) := by
  have hv : varyNode dim ncat split (some (mean, u, k)) (.branch dim none (some m) (.leaf none) (.leaf none))
      = .branch dim none (some (m ^^^ 2 ^ (k % ncat))) (.leaf none) (.leaf none) := by
    simp only [varyNode]
    rw [if_neg (by omega), if_neg (by omega)]
    rfl
  rw [hv, selects_iff]
  rw [selects_iff] at h
  intro c hc
  have hh := h c hc
  rw [Nat.testBit_xor, Nat.testBit_two_pow]
  by_cases hck : k % ncat = c
  · rw [hck]
    by_cases hcS : c ∈ S
    · rw [if_pos hcS, hh.2 hcS]
      simp
    · rw [if_neg hcS]
      have : m.testBit c = false := by
        by_contra hb
        exact hcS (hh.1 (by simpa using hb))
      simp [this]
  · have e : (m.testBit c ^^ decide (k % ncat = c)) = m.testBit c := by simp [hck]
    rw [e, hh]
    have hck' : c ≠ k % ncat := fun h => hck h.symm
    split_ifs
    · simp [hck']
    · simp [hck']

/-- Varying a branch time after time. -/
def varyAll (dim ncat : ℕ) (t : Tree) (ks : List ℕ) : Tree :=
  ks.foldl (fun t k => varyNode dim ncat 0 (some (0, 0, k)) t) t

theorem varyAll_mask (dim ncat : ℕ) (hn : 2 ≤ ncat) (ks : List ℕ) (m : ℕ) :
    ∃ m', varyAll dim ncat (.branch dim none (some m) (.leaf none) (.leaf none)) ks
      = .branch dim none (some m') (.leaf none) (.leaf none) := by
  induction ks generalizing m with
  | nil => exact ⟨m, rfl⟩
  | cons k ks ih =>
    obtain ⟨m', h⟩ := ih (m ^^^ 2 ^ (k % ncat))
    refine ⟨m', ?_⟩
    rw [← h]
    simp only [varyAll, List.foldl_cons, varyNode]
    rw [if_neg (by omega), if_neg (by omega)]
    rfl

/-- C138: by variations each division of the categories can be reached from each other one. -/
theorem C138_reach (dim ncat m : ℕ) (hn : 2 ≤ ncat) (S : Finset ℕ) (hS : ∀ c ∈ S, c < ncat) :
    ∃ ks, ks.length ≤ ncat ∧
      Selects dim ncat (varyAll dim ncat (.branch dim none (some m) (.leaf none) (.leaf none)) ks) S := by
  have key : ∀ n ≤ ncat, ∃ ks : List ℕ, ks.length ≤ n ∧ ∃ m',
      varyAll dim ncat (.branch dim none (some m) (.leaf none) (.leaf none)) ks
        = .branch dim none (some m') (.leaf none) (.leaf none) ∧ ∀ c < n, (m'.testBit c = true ↔ c ∈ S) := by
    intro n
    induction n with
    | zero => exact fun _ => ⟨[], by simp, m, rfl, fun c hc => absurd hc (by omega)⟩
    | succ n ih =>
      intro hle
      obtain ⟨ks, hl, m', hv, hb⟩ := ih (by omega)
      by_cases hc : (m'.testBit n = true ↔ n ∈ S)
      · refine ⟨ks, by omega, m', hv, fun c hcn => ?_⟩
        rcases Nat.lt_succ_iff_lt_or_eq.1 hcn with h | rfl
        · exact hb c h
        · exact hc
      · refine ⟨ks ++ [n], by simp; omega, m' ^^^ 2 ^ n, ?_, ?_⟩
        · unfold varyAll at hv ⊢
          rw [List.foldl_append, hv]
          simp only [List.foldl_cons, List.foldl_nil, varyNode]
          rw [if_neg (by omega), if_neg (by omega), Nat.mod_eq_of_lt (by omega : n < ncat)]
          rfl
        · intro c hcn
          rw [Nat.testBit_xor, Nat.testBit_two_pow]
          rcases Nat.lt_succ_iff_lt_or_eq.1 hcn with h | rfl
          · have : n ≠ c := by omega
            simp only [this, decide_false, Bool.xor_false]
            exact hb c h
          · simp only [decide_true, Bool.xor_true]
            rcases hmc : m'.testBit c with _ | _
            · rw [hmc] at hc
              by_cases hcS : c ∈ S
              · simp [hcS]
              · exact absurd (by simp [hcS]) hc
            · rw [hmc] at hc
              by_cases hcS : c ∈ S
              · exact absurd (by simp [hcS]) hc
              · simp [hcS]
  obtain ⟨ks, hl, m', hv, hb⟩ := key ncat le_rfl
  refine ⟨ks, hl, ?_⟩
  rw [hv, selects_iff]
  exact hb

/-- C138 is false of a variation that empties the mask: the tree no longer passes its own consistency check. -/
theorem C138_counterexample_check (dim ncat : ℕ) (hn : 2 ≤ ncat) (itypes : List ℕ) (hi : getItem itypes dim = some ncat) :
    check itypes (.branch dim none (some 1) (.leaf none) (.leaf none)) ∧
    ¬ check itypes (varyNode dim ncat 0 (some (0, 0, 0)) (.branch dim none (some 1) (.leaf none) (.leaf none))) := by
  have hp : 2 < 2 ^ (ncat + 1) := by
    have : 2 ^ 2 ≤ 2 ^ (ncat + 1) := Nat.pow_le_pow_right (by norm_num) (by omega)
    omega
  constructor
  · intro q hq
    simp only [walk, List.map_cons, List.map_nil, List.cons_append, List.nil_append, List.mem_cons,
      List.not_mem_nil, or_false] at hq
    rcases hq with rfl | rfl | rfl
    · exact ⟨ncat, hi, by omega, by omega, by omega⟩
    · trivial
    · trivial
  · intro h
    have hv : varyNode dim ncat 0 (some (0, 0, 0)) (.branch dim none (some 1) (.leaf none) (.leaf none))
        = .branch dim none (some 0) (.leaf none) (.leaf none) := by
      simp only [varyNode]
      rw [if_neg (by omega), if_neg (by omega)]
      simp
    rw [hv] at h
    obtain ⟨tp, _, _, h3, _⟩ := h ([], .branch dim none (some 0) (.leaf none) (.leaf none)) (by simp [walk])
    omega

/-- Three categories: a random number of 0.6 selects the categories 0 and 2. -/
example (dim : ℕ) : Selects dim 3 (sprout dim 3 0.6 (.leaf none)) {0, 2} := by
  rw [C138_birth dim 3 (by norm_num) none 0.6 (by norm_num) (by norm_num) {0, 2} (by simp) (by simp)]
  norm_num

end BF.Tree
