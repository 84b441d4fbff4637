import Verif.SplinesDyn
import Mathlib.Tactic.Linarith
import Mathlib.Tactic.FieldSimp
import Mathlib.Tactic.IntervalCases

/-!
# C101: splines with a variable set of knots
-/

noncomputable section

namespace BF.SplinesDyn

open BF.Dynamic

/-! ## Specification -/

/-- Each element is more than `d` above the one before. -/
def Spaced (d : ℝ) (l : List ℝ) : Prop := ∀ (i : ℕ) (a b : ℝ), l[i]? = some a → l[i + 1]? = some b → a + d < b

/-- The difference between parameters and knots, plus one. -/
def Spl.extra (s : Spl) : ℕ := if s.border = 0 then s.order else 0

/-- What a user expects of the model, as part of a chain in which `offset` parameters come before. -/
structure Good (offset : ℕ) (s : Spl) : Prop where
  dist : 0 ≤ s.minDistance
  spaced : Spaced s.minDistance s.knots
  two : 2 ≤ s.minKnots
  least : s.minKnots ≤ s.knots.length
  most : ∀ m, s.maxKnots = some m → s.knots.length ≤ m
  size : s.npbase + 1 = s.knots.length + s.extra
  chain : s.params.length = s.npchain
  room : offset + s.npbase ≤ s.npchain
  fresh : s.basis = ⟨s.knots, s.npbase, s.border⟩

/-- Parameters of other models, order, border, limits and the ends of the knots are the same. -/
structure Same (offset : ℕ) (s s' : Spl) : Prop where
  before : s'.params.take offset = s.params.take offset
  after : s'.params.drop (offset + s'.npbase) = s.params.drop (offset + s.npbase)
  first : s'.knots.head? = s.knots.head?
  last : s'.knots.getLast? = s.knots.getLast?
  order : s'.order = s.order
  border : s'.border = s.border
  minK : s'.minKnots = s.minKnots
  maxK : s'.maxKnots = s.maxKnots
  minD : s'.minDistance = s.minDistance

theorem Same.refl (offset : ℕ) (s : Spl) : Same offset s s := ⟨rfl, rfl, rfl, rfl, rfl, rfl, rfl, rfl, rfl⟩

theorem Same.trans {offset : ℕ} {s t u : Spl} (h : Same offset s t) (k : Same offset t u) : Same offset s u :=
  ⟨k.before.trans h.before, k.after.trans h.after, k.first.trans h.first, k.last.trans h.last, k.order.trans h.order,
    k.border.trans h.border, k.minK.trans h.minK, k.maxK.trans h.maxK, k.minD.trans h.minD⟩

/-! ## Lists -/

theorem ins_get (l : List ℝ) (k : ℕ) (x : ℝ) (hk : k ≤ l.length) (i : ℕ) :
    (l.take k ++ [x] ++ l.drop k)[i]? = if i < k then l[i]? else if i = k then some x else l[i - 1]? := by
  rw [List.append_assoc, List.getElem?_append]
  simp only [List.length_take, min_eq_left hk]
  split
  · rw [List.getElem?_take, if_pos (by assumption)]
  · rename_i h
    rcases Nat.lt_or_eq_of_le (Nat.le_of_not_lt h) with h' | h'
    · rw [if_neg (by omega), show i - k = (i - k - 1) + 1 by omega]
      simp only [List.singleton_append, List.getElem?_cons_succ, List.getElem?_drop]
      rw [show k + (i - k - 1) = i - 1 by omega]
    · subst h'; simp

theorem del_get (l : List ℝ) (k : ℕ) (hk : k < l.length) (i : ℕ) :
    (l.take k ++ l.drop (k + 1))[i]? = if i < k then l[i]? else l[i + 1]? := by
  rw [List.getElem?_append]
  simp only [List.length_take, min_eq_left hk.le]
  split
  · rw [List.getElem?_take, if_pos (by assumption)]
  · rw [List.getElem?_drop, show k + 1 + (i - k) = i + 1 by omega]

theorem spaced_ins (d : ℝ) (l : List ℝ) (h : Spaced d l) (k : ℕ) (x a b : ℝ) (hk1 : 1 ≤ k) (ha : l[k - 1]? = some a)
    (hb : l[k]? = some b) (hl : a + d < x) (hr : x + d < b) : Spaced d (l.take k ++ [x] ++ l.drop k) := by
  have hk : k < l.length := (List.getElem?_eq_some_iff.1 hb).1
  intro i p q hp hq
  rw [ins_get l k x hk.le] at hp hq
  rcases lt_trichotomy (i + 1) k with h1 | h1 | h1
  · rw [if_pos (by omega)] at hp; rw [if_pos h1] at hq; exact h i p q hp hq
  · rw [if_pos (by omega)] at hp
    rw [if_neg (by omega), if_pos h1] at hq
    rw [show i = k - 1 by omega, ha] at hp
    cases hp; cases hq; exact hl
  · rw [if_neg (by omega), if_neg (by omega)] at hq
    rw [if_neg (by omega)] at hp
    by_cases h2 : i = k
    · rw [if_pos h2] at hp
      rw [show i + 1 - 1 = k by omega, hb] at hq
      cases hp; cases hq; exact hr
    · rw [if_neg h2] at hp
      rw [show i + 1 - 1 = (i - 1) + 1 by omega] at hq
      exact h _ p q hp hq

theorem spaced_del (d : ℝ) (hd : 0 ≤ d) (l : List ℝ) (h : Spaced d l) (k : ℕ) (hk : k < l.length) :
    Spaced d (l.take k ++ l.drop (k + 1)) := by
  intro i p q hp hq
  rw [del_get l k hk] at hp hq
  rcases lt_trichotomy (i + 1) k with h1 | h1 | h1
  · rw [if_pos (by omega)] at hp; rw [if_pos h1] at hq; exact h i p q hp hq
  · rw [if_pos (by omega)] at hp
    rw [if_neg (by omega)] at hq
    have hm : l[i + 1]? = some l[i + 1] := List.getElem?_eq_getElem (by omega)
    have h2 := h i p _ hp hm
    have h3 := h (i + 1) _ q hm hq
    linarith
  · rw [if_neg (by omega)] at hp hq
    exact h _ p q hp hq

theorem spaced_set (d : ℝ) (l : List ℝ) (h : Spaced d l) (k : ℕ) (y : ℝ) (hl : ∀ a, 1 ≤ k → l[k - 1]? = some a → a + d < y)
    (hr : ∀ b, l[k + 1]? = some b → y + d < b) : Spaced d (l.set k y) := by
  intro i p q hp hq
  rw [List.getElem?_set] at hp hq
  by_cases h1 : k = i
  · subst h1
    rw [if_neg (by omega)] at hq
    rw [if_pos rfl] at hp
    split at hp
    · cases hp; exact hr q hq
    · cases hp
  · rw [if_neg h1] at hp
    by_cases h2 : k = i + 1
    · rw [if_pos h2] at hq
      split at hq
      · cases hq; exact hl p (by omega) (by rw [h2]; exact hp)
      · cases hq
    · rw [if_neg h2] at hq
      exact h i p q hp hq

theorem spaced_lt (d : ℝ) (hd : 0 ≤ d) (l : List ℝ) (h : Spaced d l) : ∀ (n i : ℕ) (a b : ℝ), l[i]? = some a →
    l[i + n + 1]? = some b → a < b := by
  intro n
  induction n with
  | zero => intro i a b ha hb; have := h i a b ha hb; linarith
  | succ n ih =>
    intro i a b ha hb
    have hlen := (List.getElem?_eq_some_iff.1 hb).1
    have hm : l[i + n + 1]? = some l[i + n + 1] := List.getElem?_eq_getElem (by omega)
    have h1 := ih i a _ ha hm
    have h2 := h (i + n + 1) _ b hm hb
    linarith

/-! ## grow -/

theorem seg_spec (x : ℝ) : ∀ (ts : List ℝ) (k j : ℕ), seg x ts k = some j → k ≤ j ∧ ∃ t, ts[j - k]? = some t ∧ x ≤ t := by
  intro ts
  induction ts with
  | nil => intro k j h; simp [seg] at h
  | cons t ts ih =>
    intro k j h
    simp only [seg] at h
    split at h
    · obtain ⟨h1, u, h2, h3⟩ := ih _ _ h
      exact ⟨by omega, u, by rw [show j - k = (j - (k + 1)) + 1 by omega]; simpa using h2, h3⟩
    · rename_i hx
      have : k = j := by simpa using h
      exact ⟨by omega, t, by simp [this], not_lt.1 hx⟩

theorem seg_some (x : ℝ) : ∀ (ts : List ℝ) (k : ℕ) (b : ℝ), ts.getLast? = some b → x ≤ b → ∃ j, seg x ts k = some j := by
  intro ts
  induction ts with
  | nil => intro k b h; simp at h
  | cons t ts ih =>
    intro k b h hx
    simp only [seg]
    split
    · rename_i ht
      cases ts with
      | nil => simp at h; linarith
      | cons u us => exact ih _ b (by simpa using h) hx
    · exact ⟨k, rfl⟩

theorem place_spec (knots : List ℝ) (d : ℝ) (rand : ℕ → ℝ) : ∀ (n i k : ℕ) (x : ℝ) (i' : ℕ),
    place knots d rand n i = .found (k, x, i') →
    1 ≤ k ∧ ∃ a b, knots[k - 1]? = some a ∧ knots[k]? = some b ∧ a + d < x ∧ x + d < b := by
  intro n
  induction n with
  | zero => intro i k x i' h; simp [place] at h
  | succ n ih =>
    intro i k x i' h
    simp only [place] at h
    split at h
    · split at h
      · cases h
      · rename_i hj
        obtain ⟨h1, -⟩ := seg_spec _ _ _ _ hj
        split at h
        · rename_i ha hb
          split at h
          · rename_i hc
            injection h with h
            simp only [Prod.mk.injEq] at h
            obtain ⟨rfl, rfl, -⟩ := h
            exact ⟨h1, _, _, ha, hb, by linarith [hc.1], by linarith [hc.2]⟩
          · exact ih _ _ _ _ h
        · cases h
    · cases h

theorem location_bounds (n k e np : ℕ) (hk1 : 1 ≤ k) (hk : k < n) (hs : np + 1 = n + e) :
    1 ≤ location np n k ∧ location np n k ≤ np := by
  unfold location
  have : ((np : ℤ) - n) = e - 1 := by omega
  rw [this]
  omega

theorem ends_ins (l : List ℝ) (k : ℕ) (x : ℝ) (hk1 : 1 ≤ k) (hk : k < l.length) :
    (l.take k ++ [x] ++ l.drop k).head? = l.head? ∧ (l.take k ++ [x] ++ l.drop k).getLast? = l.getLast? := by
  constructor
  · rw [List.head?_eq_getElem?, List.head?_eq_getElem?, ins_get l k x hk.le, if_pos (by omega)]
  · rw [List.getLast?_append_of_ne_nil _ (by simp; omega), List.getLast?_drop, if_neg (by omega)]

theorem ends_del (l : List ℝ) (k : ℕ) (hk1 : 1 ≤ k) (hk : k + 1 < l.length) :
    (l.take k ++ l.drop (k + 1)).head? = l.head? ∧ (l.take k ++ l.drop (k + 1)).getLast? = l.getLast? := by
  constructor
  · rw [List.head?_eq_getElem?, List.head?_eq_getElem?, del_get l k (by omega), if_pos (by omega)]
  · rw [List.getLast?_append_of_ne_nil _ (by simp; omega), List.getLast?_drop, if_neg (by omega)]

theorem ends_set (l : List ℝ) (k : ℕ) (y : ℝ) (hk1 : 1 ≤ k) (hk : k + 1 < l.length) :
    (l.set k y).head? = l.head? ∧ (l.set k y).getLast? = l.getLast? := by
  constructor
  · rw [List.head?_eq_getElem?, List.head?_eq_getElem?, List.getElem?_set, if_neg (by omega)]
  · rw [List.getLast?_eq_getElem?, List.getLast?_eq_getElem?, List.length_set, List.getElem?_set, if_neg (by omega)]

variable (good : List ℝ → Bool)

/-- C101, growth. A growth that succeeds puts one knot strictly between two others, more than the minimum distance away from both;
the parameter at its place is multiplied by 0.7 and doubled, all others stay. -/
theorem C101_grow (s s' : Spl) (offset : ℕ) (force : Bool) (rand : ℕ → ℝ) (fuel i i' : ℕ) (hG : Good offset s)
    (h : grow good s offset force rand fuel i = some (s', true, i')) :
    (force = false → ∀ m, s.maxKnots = some m → s.knots.length < m) ∧
    ∃ k x a b j v, 1 ≤ k ∧ s.knots[k - 1]? = some a ∧ s.knots[k]? = some b ∧ a + s.minDistance < x ∧ x + s.minDistance < b ∧
      offset ≤ j ∧ j < offset + s.npbase ∧ s.params[j]? = some v ∧ j + 1 = offset + location s.npbase s.knots.length k ∧
      s' = { s with
        knots := s.knots.take k ++ [x] ++ s.knots.drop k
        npbase := s.npbase + 1
        npchain := s.npchain + 1
        basis := ⟨s.knots.take k ++ [x] ++ s.knots.drop k, s.npbase + 1, s.border⟩
        params := s.params.take j ++ [v * (7 / 10), v * (7 / 10)] ++ s.params.drop (j + 1) } := by
  simp only [grow] at h
  split at h
  · simp at h
  · rename_i hmax
    constructor
    · intro hf m hm
      by_contra hc
      exact hmax ⟨hf, by simp [hm]; omega⟩
    · split at h
      · cases h
      · cases h
      · rename_i k x i1 hp
        obtain ⟨hk1, a, b, ha, hb, hl, hr⟩ := place_spec _ _ _ _ _ _ _ _ hp
        have hk : k < s.knots.length := (List.getElem?_eq_some_iff.1 hb).1
        obtain ⟨hl1, hl2⟩ := location_bounds _ k _ _ hk1 hk hG.size
        set loc := location s.npbase s.knots.length k with hloc
        split at h
        · simp at h
        · rename_i bs hbs
          split at h
          · cases h
          · rename_i v hv
            split at h
            · cases h
            · rename_i p hpp
              simp only [Option.some.injEq, Prod.mk.injEq, true_and] at h
              refine ⟨k, x, a, b, loc + offset - 1, v, hk1, ha, hb, hl, hr, by omega, by omega, hv, by omega, ?_⟩
              rw [← h.1]
              have hb' : bs = ⟨s.knots.take k ++ [x] ++ s.knots.drop k, s.npbase + 1, s.border⟩ := by
                simp only [makeBasis] at hbs
                split at hbs
                · exact (Option.some.inj hbs).symm
                · cases hbs
              have hp' : p = s.params.take (loc + offset - 1) ++ [v * (7 / 10), v * (7 / 10)] ++
                  s.params.drop (loc + offset - 1 + 1) := by
                simp only [insertPars, List.length_set] at hpp
                split at hpp
                · rw [← Option.some.inj hpp]
                  have hj : loc + offset - 1 < s.params.length := (List.getElem?_eq_some_iff.1 hv).1
                  rw [show offset + loc = (loc + offset - 1) + 1 by omega]
                  generalize loc + offset - 1 = j at *
                  rw [List.drop_set_of_lt (by omega), List.take_add_one, List.take_set_of_le (le_refl j)]
                  simp [hj]
                · cases hpp
              rw [hb', hp']

/-- C101, shrinking. A success takes out one inner knot; the two parameters around it become one, within the limits of the prior
that is asked: 1.4 times their mean, weighted with the distances, when that is within the limits. -/
theorem C101_shrink (s s' : Spl) (offset : ℕ) (prior : ℕ → Option Lim) (r : ℕ) (hG : Good offset s)
    (h : shrink good s offset prior r = some (s', true)) :
    s.minKnots < s.knots.length ∧
    ∃ k j v, 1 ≤ k ∧ k + 1 < s.knots.length ∧ offset ≤ j ∧ j + 1 < offset + s.npbase ∧
      j + 1 = offset + location s.npbase s.knots.length k ∧ (∃ lim p q a t b, prior j = some lim ∧ ¬ lim.isOut v ∧
        s.params[j]? = some p ∧ s.params[j + 1]? = some q ∧
        s.knots[k - 1]? = some a ∧ s.knots[k]? = some t ∧ s.knots[k + 1]? = some b ∧
        (¬ lim.isOut (7 / 5 * ((p * (t - a) + q * (b - t)) / (b - a))) → v = 7 / 5 * ((p * (t - a) + q * (b - t)) / (b - a)))) ∧
      s' = { s with
        knots := s.knots.take k ++ s.knots.drop (k + 1)
        npbase := s.npbase - 1
        npchain := s.npchain - 1
        basis := ⟨s.knots.take k ++ s.knots.drop (k + 1), s.npbase - 1, s.border⟩
        params := s.params.take j ++ [v] ++ s.params.drop (j + 2) } := by
  simp only [shrink] at h
  split at h
  · simp at h
  · rename_i hmin
    refine ⟨by omega, ?_⟩
    split at h
    · cases h
    · rename_i hn
      have hk : r % (s.knots.length - 2) < s.knots.length - 2 := Nat.mod_lt _ (by omega)
      generalize hkk : r % (s.knots.length - 2) + 1 = k at h
      have hk1 : 1 ≤ k := by omega
      have hk2 : k + 1 < s.knots.length := by omega
      obtain ⟨hl1, hl2⟩ := location_bounds _ k _ _ hk1 (by omega) hG.size
      split at h
      · rename_i a t b ha ht hb
        generalize hloc : location s.npbase s.knots.length k = loc at *
        split at h
        · rename_i p q lim hp hq hlim
          generalize hv1 : merged lim p q _ _ _ = v at h
          split at h
          · cases h
          · rename_i hout
            split at h
            · simp at h
            · rename_i bs hbs
              split at h
              · cases h
              · rename_i w hw
                simp only [Option.some.injEq, Prod.mk.injEq, and_true] at h
                have hj : offset + loc - 1 + 1 < s.params.length := (List.getElem?_eq_some_iff.1 hq).1
                have hlt : location s.npbase s.knots.length k < s.npbase := by
                  unfold location
                  have hsz := hG.size
                  have : ((s.npbase : ℤ) - s.knots.length) = s.extra - 1 := by omega
                  rw [this]
                  omega
                have hmerge : ¬ lim.isOut (7 / 5 * ((p * (t - a) + q * (b - t)) / (b - a))) →
                    v = 7 / 5 * ((p * (t - a) + q * (b - t)) / (b - a)) := by
                  intro hno
                  have e : 7 / 5 * (p * ((t - a) / (b - a)) + q * ((b - t) / (b - a))) =
                      7 / 5 * ((p * (t - a) + q * (b - t)) / (b - a)) := by ring
                  rw [← hv1, merged]
                  rw [e, if_neg hno]
                refine ⟨k, offset + loc - 1, v, hk1, hk2, by omega, by omega, by omega,
                  ⟨lim, p, q, a, t, b, hlim, hout, hp, hq, ha, ht, hb, hmerge⟩, ?_⟩
                rw [← h]
                have hb' : bs = ⟨s.knots.take k ++ s.knots.drop (k + 1), s.npbase - 1, s.border⟩ := by
                  simp only [makeBasis] at hbs
                  split at hbs
                  · exact (Option.some.inj hbs).symm
                  · cases hbs
                have hw' : w.set (offset + loc - 1) v = s.params.take (offset + loc - 1) ++ [v] ++
                    s.params.drop (offset + loc - 1 + 2) := by
                  simp only [deletePars] at hw
                  split at hw
                  · cases hw
                  · split at hw
                    · rw [← Option.some.inj hw]
                      rw [show s.params.drop (offset + loc) = s.params[offset + loc - 1 + 1] :: s.params.drop (offset + loc - 1 + 2) by
                        have e := List.drop_eq_getElem_cons hj
                        have e2 : offset + loc - 1 + 1 = offset + loc := by omega
                        rw [← e]
                        exact congrArg (fun n => s.params.drop n) e2.symm]
                      rw [List.set_append_right _ _ (by simp)]
                      simp only [List.length_take, min_eq_left (show offset + loc - 1 ≤ s.params.length by omega), Nat.sub_self,
                        List.set_cons_zero]
                      simp
                    · cases hw
                rw [hb', hw']
        · cases h
      · cases h

theorem vary_found (kn : List ℝ) (kk : ℕ) (d : ℝ) (rand : ℕ → ℝ) : ∀ (n i : ℕ) (x y : ℝ) (i' : ℕ),
    varyLoop kn kk d rand n i x = .found (y, i') →
    ∃ a b, kn[kk - 1]? = some a ∧ kn[kk + 1]? = some b ∧ a + d < y ∧ y + d < b := by
  intro n
  induction n with
  | zero => intro i x y i' h; simp [varyLoop] at h
  | succ n ih =>
    intro i x y i' h
    simp only [varyLoop] at h
    split at h
    · cases h
    · rename_i a ha
      split at h
      · split at h
        · rename_i h1
          split at h
          · cases h
          · rename_i b hb
            split at h
            · rename_i h2
              injection h with h
              simp only [Prod.mk.injEq] at h
              rw [← h.1]
              exact ⟨a, b, ha, hb, by linarith, by linarith⟩
            · exact ih _ _ _ _ h
        · exact ih _ _ _ _ h
      · split at h
        · cases h
        · rename_i b hb
          split at h
          · rename_i h2
            injection h with h
            simp only [Prod.mk.injEq] at h
            rw [← h.1]
            exact ⟨a, b, ha, hb, by linarith [h2.1], by linarith [h2.2]⟩
          · exact ih _ _ _ _ h

/-- C101, variation. A success moves one inner knot, which stays more than the minimum distance away from its neighbours; no
parameter changes. -/
theorem C101_vary (s s' : Spl) (loc : Option ℕ) (r : ℕ) (rand : ℕ → ℝ) (fuel i i' : ℕ)
    (h : vary good s loc r rand fuel i = some (s', true, i')) :
    ∃ k y a b, 1 ≤ k ∧ s.knots[k - 1]? = some a ∧ s.knots[k + 1]? = some b ∧ a + s.minDistance < y ∧ y + s.minDistance < b ∧
      (∀ l, loc = some l → k = l) ∧
      s' = { s with
        knots := s.knots.set k y
        basis := ⟨s.knots.set k y, s.npbase, s.border⟩ } := by
  simp only [vary] at h
  split at h
  · simp at h
  · rename_i h0
    push Not at h0
    split at h
    · cases h
    · split at h
      · cases h
      · cases h
      · rename_i y i1 hv
        obtain ⟨a, b, ha, hb, h1, h2⟩ := vary_found _ _ _ _ _ _ _ _ _ hv
        split at h
        · cases h
        · rename_i bs hbs
          simp only [Option.some.injEq, Prod.mk.injEq, true_and] at h
          have hb' : bs = ⟨s.knots.set (loc.getD (r % (s.knots.length - 2) + 1)) y, s.npbase, s.border⟩ := by
            simp only [makeBasis] at hbs
            split at hbs
            · exact (Option.some.inj hbs).symm
            · cases hbs
          refine ⟨_, y, a, b, ?_, ha, hb, h1, h2, ?_, ?_⟩
          · cases loc with
            | none => simp
            | some l =>
              have : l ≠ 0 := fun hl => h0.2.1 (by rw [hl])
              simp; omega
          · intro l hl; simp [hl]
          · rw [← h.1, hb']

/-- The basis can be made for all knots in ascending order (in `BasicSplines` for cubic and lower orders). -/
def CanMake : Prop := ∀ l : List ℝ, Spaced 0 l → good l = true

theorem spaced_zero {d : ℝ} (hd : 0 ≤ d) {l : List ℝ} (h : Spaced d l) : Spaced 0 l :=
  fun i a b ha hb => by have := h i a b ha hb; linarith

theorem good_true {good : List ℝ → Bool} (hg : CanMake good) {s : Spl} (h : Spaced 0 s.knots) :
    makeBasis good s = some ⟨s.knots, s.npbase, s.border⟩ := by
  simp [makeBasis, hg s.knots h]

theorem grow_good (s s' : Spl) (offset : ℕ) (rand : ℕ → ℝ) (fuel i i' : ℕ) (b : Bool) (hg : CanMake good) (hG : Good offset s)
    (h : grow good s offset false rand fuel i = some (s', b, i')) : Good offset s' ∧ Same offset s s' := by
  cases b with
  | true =>
    obtain ⟨hm, k, x, a, b, j, v, hk1, ha, hb, hl, hr, hj1, hj2, hv, -, rfl⟩ := C101_grow good s s' offset false rand fuel i i' hG h
    have hk : k < s.knots.length := (List.getElem?_eq_some_iff.1 hb).1
    have hj : j < s.params.length := (List.getElem?_eq_some_iff.1 hv).1
    have hlen : (s.knots.take k ++ [x] ++ s.knots.drop k).length = s.knots.length + 1 := by
      simp only [List.length_append, List.length_take, List.length_drop, List.length_singleton]; omega
    have hne := hG.size
    have hch := hG.chain
    have hrm := hG.room
    have hls := hG.least
    obtain ⟨e1, e2⟩ := ends_ins s.knots k x hk1 hk
    constructor
    · refine ⟨hG.dist, spaced_ins _ _ hG.spaced k x a b hk1 ha hb hl hr, hG.two, ?_, ?_, ?_, ?_, ?_, rfl⟩
      · simp only [hlen]; omega
      · intro m hm'
        have := hm rfl m hm'
        simp only [hlen]; omega
      · simp only [hlen, Spl.extra] at hne ⊢
        omega
      · simp only [List.length_append, List.length_take, List.length_drop, List.length_cons, List.length_nil]
        omega
      · simp only; omega
    · refine ⟨?_, ?_, e1, e2, rfl, rfl, rfl, rfl, rfl⟩
      · simp only [List.append_assoc]
        rw [List.take_append_of_le_length (by simp; omega), List.take_take, min_eq_left hj1]
      · simp only [List.drop_append, List.length_append, List.length_take, List.length_cons, List.length_nil, List.drop_drop]
        rw [List.drop_eq_nil_of_le (by simp; omega), List.drop_eq_nil_of_le (by simp; omega)]
        simp only [List.nil_append]
        congr 1; omega
  | false =>
    simp only [grow] at h
    split at h
    · simp only [Option.some.injEq, Prod.mk.injEq] at h
      rw [← h.1]; exact ⟨hG, Same.refl _ _⟩
    · split at h
      · cases h
      · cases h
      · rename_i k x i1 hp
        obtain ⟨hk1, a, b, ha, hb, hl, hr⟩ := place_spec _ _ _ _ _ _ _ _ hp
        have hsp := spaced_zero hG.dist (spaced_ins _ _ hG.spaced k x a b hk1 ha hb hl hr)
        rw [good_true hg (by exact hsp)] at h
        simp only at h
        split at h
        · cases h
        · split at h
          · cases h
          · simp at h

theorem shrink_good (s s' : Spl) (offset : ℕ) (prior : ℕ → Option Lim) (r : ℕ) (b : Bool) (hg : CanMake good) (hG : Good offset s)
    (h : shrink good s offset prior r = some (s', b)) : Good offset s' ∧ Same offset s s' := by
  cases b with
  | true =>
    obtain ⟨hm, k, j, v, hk1, hk2, hj1, hj2, -, -, rfl⟩ := C101_shrink good s s' offset prior r hG h
    have hlen : (s.knots.take k ++ s.knots.drop (k + 1)).length = s.knots.length - 1 := by
      simp only [List.length_append, List.length_take, List.length_drop]; omega
    have hne := hG.size
    have hch := hG.chain
    have hrm := hG.room
    have hls := hG.least
    obtain ⟨e1, e2⟩ := ends_del s.knots k hk1 hk2
    constructor
    · refine ⟨hG.dist, spaced_del _ hG.dist _ hG.spaced k (by omega), hG.two, ?_, ?_, ?_, ?_, ?_, rfl⟩
      · simp only [hlen]; omega
      · intro m hm'
        have := hG.most m hm'
        simp only [hlen]; omega
      · simp only [hlen, Spl.extra] at hne ⊢
        omega
      · simp only [List.length_append, List.length_take, List.length_drop, List.length_cons, List.length_nil]
        omega
      · simp only; omega
    · refine ⟨?_, ?_, e1, e2, rfl, rfl, rfl, rfl, rfl⟩
      · simp only [List.append_assoc]
        rw [List.take_append_of_le_length (by simp; omega), List.take_take, min_eq_left hj1]
      · simp only [List.drop_append, List.length_append, List.length_take, List.length_cons, List.length_nil, List.drop_drop]
        rw [List.drop_eq_nil_of_le (by simp; omega), List.drop_eq_nil_of_le (by simp; omega)]
        simp only [List.nil_append]
        congr 1; omega
  | false =>
    simp only [shrink] at h
    split at h
    · simp only [Option.some.injEq, Prod.mk.injEq] at h
      rw [← h.1]; exact ⟨hG, Same.refl _ _⟩
    · split at h
      · cases h
      · have hk : r % (s.knots.length - 2) < s.knots.length - 2 := Nat.mod_lt _ (by omega)
        have hsp := spaced_zero hG.dist (spaced_del _ hG.dist _ hG.spaced (r % (s.knots.length - 2) + 1) (by omega))
        split at h
        · split at h
          · split at h
            · cases h
            · rw [good_true hg (by exact hsp)] at h
              simp only at h
              split at h
              · cases h
              · simp at h
          · cases h
        · cases h

theorem vary_good (s s' : Spl) (offset : ℕ) (loc : Option ℕ) (r : ℕ) (rand : ℕ → ℝ) (fuel i i' : ℕ) (b : Bool) (hG : Good offset s)
    (h : vary good s loc r rand fuel i = some (s', b, i')) : Good offset s' ∧ Same offset s s' := by
  cases b with
  | true =>
    obtain ⟨k, y, a, b, hk1, ha, hb, h1, h2, -, rfl⟩ := C101_vary good s s' loc r rand fuel i i' h
    have hk : k + 1 < s.knots.length := (List.getElem?_eq_some_iff.1 hb).1
    obtain ⟨e1, e2⟩ := ends_set s.knots k y hk1 hk
    refine ⟨⟨hG.dist, spaced_set _ _ hG.spaced k y ?_ ?_, hG.two, ?_, ?_, ?_, hG.chain, hG.room, rfl⟩,
      rfl, rfl, e1, e2, rfl, rfl, rfl, rfl, rfl⟩
    · intro c _ hc; rw [ha] at hc; cases hc; exact h1
    · intro c hc; rw [hb] at hc; cases hc; exact h2
    · simp only [List.length_set]; exact hG.least
    · simp only [List.length_set]; exact hG.most
    · simp only [List.length_set]; exact hG.size
  | false =>
    simp only [vary] at h
    split at h
    · simp only [Option.some.injEq, Prod.mk.injEq] at h
      rw [← h.1]; exact ⟨hG, Same.refl _ _⟩
    · split at h
      · cases h
      · split at h
        · cases h
        · cases h
        · split at h
          · cases h
          · simp at h

/-- C101. After any sequence of births, deaths and variations, with any random numbers: the knots ascend with more than the
minimum distance between them, the ends are where they were, the number of knots is within its limits, the number of
parameters and the basis belong to the knots, and the parameters of the other models in the chain are the same. -/
theorem C101_history (offset : ℕ) (prior : ℕ → Option Lim) (hg : CanMake good) : ∀ (ops : List Op) (s s' : Spl),
    (∀ op ∈ ops, ∀ f rand fuel, op = .grow f rand fuel → f = false) → Good offset s →
    runAll good offset prior ops s = some s' → Good offset s' ∧ Same offset s s' := by
  intro ops
  induction ops with
  | nil =>
    intro s s' _ hG h
    rw [← Option.some.inj h]; exact ⟨hG, Same.refl _ _⟩
  | cons op ops ih =>
    intro s s' hf hG h
    simp only [runAll] at h
    split at h
    · cases h
    · rename_i s1 h1
      have : Good offset s1 ∧ Same offset s s1 := by
        cases op with
        | grow f rand fuel =>
          have hff := hf _ (by simp) f rand fuel rfl
          subst hff
          simp only [Op.run, Option.map_eq_some_iff] at h1
          obtain ⟨⟨t, b, i⟩, h1, rfl⟩ := h1
          exact grow_good good s t offset rand fuel 0 i b hg hG h1
        | shrink r =>
          simp only [Op.run, Option.map_eq_some_iff] at h1
          obtain ⟨⟨t, b⟩, h1, rfl⟩ := h1
          exact shrink_good good s t offset prior r b hg hG h1
        | vary loc r rand fuel =>
          simp only [Op.run, Option.map_eq_some_iff] at h1
          obtain ⟨⟨t, b, i⟩, h1, rfl⟩ := h1
          exact vary_good good s t offset loc r rand fuel 0 i b hG h1
      obtain ⟨h2, h3⟩ := ih s1 s' (fun o ho => hf o (by simp [ho])) this.1 h
      exact ⟨h2, this.2.trans h3⟩

/-! ## When a growth ends -/

/-- Where draw number `i` puts a knot. -/
def spot (l : List ℝ) (rand : ℕ → ℝ) (i : ℕ) (x : ℝ) : Prop :=
  ∃ a b, l.head? = some a ∧ l.getLast? = some b ∧ x = a + rand i * (b - a)

theorem spaced_mono {l : List ℝ} (h : Spaced 0 l) : ∀ (i j : ℕ) (a b : ℝ), i ≤ j → l[i]? = some a → l[j]? = some b → a ≤ b := by
  intro i j a b hij
  induction j generalizing b with
  | zero => intro ha hb; rw [show i = 0 by omega] at ha; rw [ha] at hb; cases hb; rfl
  | succ j ih =>
    intro ha hb
    rcases Nat.lt_or_ge i (j + 1) with hlt | hge
    · have hj : j + 1 < l.length := (List.getElem?_eq_some_iff.1 hb).1
      have hc : l[j]? = some l[j] := List.getElem?_eq_getElem (by omega)
      have h1 := ih l[j] (by omega) ha hc
      have h2 := h j _ _ hc hb
      linarith
    · rw [show i = j + 1 by omega] at ha; rw [ha] at hb; cases hb; rfl

theorem seg_before (x : ℝ) : ∀ (ts : List ℝ) (k j : ℕ), seg x ts k = some j → ∀ i t, k + i < j → ts[i]? = some t → t < x := by
  intro ts
  induction ts with
  | nil => intro k j h; simp [seg] at h
  | cons t ts ih =>
    intro k j h i u hi hu
    simp only [seg] at h
    split at h
    · rename_i htx
      cases i with
      | zero => simp at hu; rw [← hu]; exact htx
      | succ i => exact ih _ _ h i u (by omega) (by simpa using hu)
    · cases h; omega

/-- One turn of the search: there is a segment for a draw between 0 and 1. -/
theorem place_step (l : List ℝ) (d : ℝ) (rand : ℕ → ℝ) (n i : ℕ) (h2 : 2 ≤ l.length) (hs : Spaced 0 l)
    (hr : 0 ≤ rand i ∧ rand i ≤ 1) : ∃ x k a b, spot l rand i x ∧ 1 ≤ k ∧ l[k - 1]? = some a ∧ l[k]? = some b ∧ a ≤ x ∧ x ≤ b ∧
      place l d rand (n + 1) i = if x - a > d ∧ b - x > d then .found (k, x, i + 1) else place l d rand n (i + 1) := by
  obtain ⟨a0, ha0⟩ : ∃ a, l.head? = some a := by
    rw [List.head?_eq_getElem?]; exact ⟨_, List.getElem?_eq_getElem (by omega)⟩
  obtain ⟨b0, hb0⟩ : ∃ b, l.getLast? = some b := by
    rw [List.getLast?_eq_getElem?]; exact ⟨_, List.getElem?_eq_getElem (by omega)⟩
  have hab : a0 ≤ b0 := by
    rw [List.head?_eq_getElem?] at ha0
    rw [List.getLast?_eq_getElem?] at hb0
    exact spaced_mono hs 0 _ a0 b0 (Nat.zero_le _) ha0 hb0
  have hx : rand i * (b0 - a0) + a0 ≤ b0 := by nlinarith [hr.1, hr.2]
  have hl : (l.drop 1).getLast? = some b0 := by rw [List.getLast?_drop, if_neg (by omega), hb0]
  obtain ⟨k, hk⟩ := seg_some _ (l.drop 1) 1 b0 hl hx
  obtain ⟨h1, t, ht, hxt⟩ := seg_spec _ _ _ _ hk
  rw [List.getElem?_drop, show 1 + (k - 1) = k by omega] at ht
  have hlt : k < l.length := (List.getElem?_eq_some_iff.1 ht).1
  have hp : l[k - 1]? = some l[k - 1] := List.getElem?_eq_getElem (by omega)
  refine ⟨rand i * (b0 - a0) + a0, k, _, t, ⟨a0, b0, ha0, hb0, by ring⟩, h1, hp, ht, ?_, hxt, ?_⟩
  · rcases Nat.lt_or_ge 1 k with hgt | hle
    · exact (seg_before _ _ _ _ hk (k - 2) _ (by omega) (by
        rw [List.getElem?_drop, show 1 + (k - 2) = k - 1 by omega]; exact hp)).le
    · rw [List.head?_eq_getElem?] at ha0
      have e : l[k - 1]? = l[0]? := congrArg (fun n : ℕ => l[n]?) (by omega)
      rw [e, ha0] at hp
      rw [← Option.some.inj hp]
      nlinarith [hr.1]
  simp only [place, ha0, hb0, hk, hp, ht]

theorem place_not_raised (l : List ℝ) (d : ℝ) (rand : ℕ → ℝ) (h2 : 2 ≤ l.length) (hs : Spaced 0 l)
    (hr : ∀ i, 0 ≤ rand i ∧ rand i ≤ 1) : ∀ n i, place l d rand n i ≠ .raised := by
  intro n
  induction n with
  | zero => intro i h; simp [place] at h
  | succ n ih =>
    intro i h
    obtain ⟨x, k, a, b, -, -, -, -, -, -, he⟩ := place_step l d rand n i h2 hs (hr i)
    rw [he] at h
    split at h
    · cases h
    · exact ih _ h

theorem place_found (l : List ℝ) (d : ℝ) (rand : ℕ → ℝ) (h2 : 2 ≤ l.length) (hs : Spaced 0 l)
    (hr : ∀ i, 0 ≤ rand i ∧ rand i ≤ 1) : ∀ n i m x, m < n → spot l rand (i + m) x → (∀ t ∈ l, d < |x - t|) →
    ∃ k y j, place l d rand n i = .found (k, y, j) := by
  intro n
  induction n with
  | zero => intro i m x hm; omega
  | succ n ih =>
    intro i m x hm hx hfar
    obtain ⟨y, k, a, b, hy, hk1, ha, hb, hay, hyb, he⟩ := place_step l d rand n i h2 hs (hr i)
    rw [he]
    by_cases hc : y - a > d ∧ b - y > d
    · rw [if_pos hc]; exact ⟨_, _, _, rfl⟩
    · rw [if_neg hc]
      cases m with
      | succ m => exact ih (i + 1) m x (by omega) (by rw [show i + 1 + m = i + (m + 1) by omega]; exact hx) hfar
      | zero =>
        exfalso
        have hxy : y = x := by
          obtain ⟨a1, b1, h1, h2, h3⟩ := hy
          obtain ⟨a2, b2, h4, h5, h6⟩ := hx
          rw [h1] at h4; rw [h2] at h5; cases h4; cases h5
          rw [h3, h6]; rfl
        subst hxy
        have h1 := hfar a (List.mem_of_getElem? ha)
        have h2 := hfar b (List.mem_of_getElem? hb)
        rw [abs_of_nonneg (by linarith)] at h1
        rw [abs_of_nonpos (by linarith)] at h2
        exact hc ⟨h1, by linarith⟩

theorem length_two {offset : ℕ} {s : Spl} (hG : Good offset s) : 2 ≤ s.knots.length := by
  have := hG.two; have := hG.least; omega

/-- The part of growth after the search. -/
theorem grow_of_place (s : Spl) (offset : ℕ) (force : Bool) (rand : ℕ → ℝ) (fuel i k j : ℕ) (x : ℝ) (hg : CanMake good)
    (hG : Good offset s) (hmax : force = true ∨ ∀ m, s.maxKnots = some m → s.knots.length < m)
    (hp : place s.knots s.minDistance rand fuel i = .found (k, x, j)) :
    ∃ s' i', grow good s offset force rand fuel i = some (s', true, i') := by
  obtain ⟨hk1, a, b, ha, hb, hl, hr⟩ := place_spec _ _ _ _ _ _ _ _ hp
  have hk : k < s.knots.length := (List.getElem?_eq_some_iff.1 hb).1
  obtain ⟨hl1, hl2⟩ := location_bounds _ k _ _ hk1 hk hG.size
  have hsp := spaced_zero hG.dist (spaced_ins _ _ hG.spaced k x a b hk1 ha hb hl hr)
  have hch := hG.chain
  have hrm := hG.room
  simp only [grow]
  rw [if_neg]
  · rw [hp]
    dsimp only
    rw [good_true hg (by exact hsp)]
    dsimp only
    rw [List.getElem?_eq_getElem (by omega)]
    dsimp only
    simp only [insertPars, List.length_set]
    rw [if_pos (by omega)]
    exact ⟨_, _, rfl⟩
  · rintro ⟨hf, hm⟩
    rcases hmax with h | h
    · rw [hf] at h; cases h
    · cases hmk : s.maxKnots with
      | none => simp [hmk] at hm
      | some m => have := h m hmk; simp [hmk] at hm; omega

/-- C101, growth ends well: when there is room for a knot, and a draw that is more than the minimum distance away from all knots,
then the model grows. -/
theorem C101_grow_succeeds (s : Spl) (offset : ℕ) (force : Bool) (rand : ℕ → ℝ) (fuel i m : ℕ) (x : ℝ) (hg : CanMake good)
    (hG : Good offset s) (hmax : force = true ∨ ∀ m, s.maxKnots = some m → s.knots.length < m)
    (hr : ∀ i, 0 ≤ rand i ∧ rand i ≤ 1) (hm : m < fuel) (hx : spot s.knots rand (i + m) x)
    (hfar : ∀ t ∈ s.knots, s.minDistance < |x - t|) :
    ∃ s' i', grow good s offset force rand fuel i = some (s', true, i') := by
  obtain ⟨k, y, j, hp⟩ := place_found s.knots s.minDistance rand (length_two hG) (spaced_zero hG.dist hG.spaced) hr fuel i m x hm hx hfar
  exact grow_of_place good s offset force rand fuel i k j y hg hG hmax hp

/-- C101, false as such: when no gap is wider than twice the minimum distance, growth never ends, whatever the draws. -/
theorem C101_counterexample_hang (s : Spl) (offset : ℕ) (force : Bool) (rand : ℕ → ℝ)
    (hmax : force = true ∨ ∀ m, s.maxKnots = some m → s.knots.length < m)
    (hgap : ∀ (i : ℕ) (a b : ℝ), s.knots[i]? = some a → s.knots[i + 1]? = some b → b - a ≤ 2 * s.minDistance) :
    ∀ fuel i, grow good s offset force rand fuel i = none := by
  intro fuel i
  simp only [grow]
  rw [if_neg]
  · split
    · rfl
    · rfl
    · rename_i k x j hp
      obtain ⟨hk1, a, b, ha, hb, hl, hr⟩ := place_spec _ _ _ _ _ _ _ _ hp
      have := hgap (k - 1) a b ha (by rw [show k - 1 + 1 = k by omega]; exact hb)
      linarith
  · rintro ⟨hf, hm⟩
    rcases hmax with h | h
    · rw [hf] at h; cases h
    · cases hmk : s.maxKnots with
      | none => simp [hmk] at hm
      | some m => have := h m hmk; simp [hmk] at hm; omega

/-! ## Shrinking and varying do not raise -/

theorem stay_in (q : Lim) (x : ℝ) (hq : ∀ a b, q.low = some a → q.high = some b → a ≤ b) : ¬ q.isOut (q.stay x) := by
  simp only [Lim.stay]
  split_ifs with h1 h2
  · cases hl : q.low with
    | none => simp [hl] at h1
    | some a =>
      simp only [Lim.isOut, hl, Option.getD_some, Option.elim_some, lt_irrefl, false_or]
      cases hh : q.high with
      | none => simp
      | some b => simpa using hq a b hl hh
  · cases hh : q.high with
    | none => simp [hh] at h2
    | some b =>
      simp only [Lim.isOut, hh, Option.getD_some, Option.elim_some, lt_irrefl, or_false]
      cases hl : q.low with
      | none => simp
      | some a => simpa using hq a b hl hh
  · simp only [Lim.isOut, not_or]; exact ⟨h1, h2⟩

theorem out_mean (q : Lim) (a b c : ℝ) (ha : ¬ q.isOut a) (hb : ¬ q.isOut b) (hc : ¬ q.isOut c) : ¬ q.isOut ((a + b + c) / 3) := by
  simp only [Lim.isOut, not_or] at *
  constructor
  · cases hl : q.low with
    | none => simp
    | some l =>
      simp only [hl, Option.elim_some, not_lt] at *
      linarith [ha.1, hb.1, hc.1]
  · cases hl : q.high with
    | none => simp
    | some l =>
      simp only [hl, Option.elim_some, not_lt] at *
      linarith [ha.2, hb.2, hc.2]

theorem merged_in (q : Lim) (p r a t b : ℝ) (hq : ∀ a b, q.low = some a → q.high = some b → a ≤ b) (hp : ¬ q.isOut p)
    (hr : ¬ q.isOut r) : ¬ q.isOut (merged q p r a t b) := by
  simp only [merged]
  split_ifs with h
  · exact out_mean q _ _ _ (stay_in q _ hq) hp hr
  · exact h

/-- C101, shrinking ends well: above the minimum, with the two parameters within the limits of the prior that is asked, the
model loses a knot. -/
theorem C101_shrink_succeeds (s : Spl) (offset : ℕ) (prior : ℕ → Option Lim) (r : ℕ) (hg : CanMake good) (hG : Good offset s)
    (hmin : s.minKnots < s.knots.length)
    (hprior : ∀ j p q, offset ≤ j → j + 1 < offset + s.npbase → s.params[j]? = some p → s.params[j + 1]? = some q →
      ∃ lim, prior j = some lim ∧ ¬ lim.isOut p ∧ ¬ lim.isOut q ∧ ∀ a b, lim.low = some a → lim.high = some b → a ≤ b) :
    ∃ s', shrink good s offset prior r = some (s', true) := by
  have h2 := hG.two
  have hsz := hG.size
  have hch := hG.chain
  have hrm := hG.room
  have hk : r % (s.knots.length - 2) < s.knots.length - 2 := Nat.mod_lt _ (by omega)
  have hsp := spaced_zero hG.dist (spaced_del _ hG.dist _ hG.spaced (r % (s.knots.length - 2) + 1) (by omega))
  obtain ⟨hl1, hl2⟩ := location_bounds _ (r % (s.knots.length - 2) + 1) _ _ (by omega) (by omega) hG.size
  have hlt : location s.npbase s.knots.length (r % (s.knots.length - 2) + 1) < s.npbase := by
    unfold location
    have : ((s.npbase : ℤ) - s.knots.length) = s.extra - 1 := by omega
    rw [this]
    omega
  simp only [shrink]
  rw [if_neg (by omega), if_neg (by omega), List.getElem?_eq_getElem (by omega), List.getElem?_eq_getElem (by omega),
    List.getElem?_eq_getElem (by omega)]
  dsimp only
  generalize hloc : location s.npbase s.knots.length (r % (s.knots.length - 2) + 1) = loc at *
  obtain ⟨lim, hlim, h1, h3, h4⟩ := hprior (offset + loc - 1) _ _ (by omega) (by omega) (List.getElem?_eq_getElem (by omega))
    (List.getElem?_eq_getElem (by omega))
  rw [List.getElem?_eq_getElem (by omega), List.getElem?_eq_getElem (by omega), hlim]
  dsimp only
  rw [if_neg (merged_in lim _ _ _ _ _ h4 h1 h3), good_true hg (by exact hsp)]
  dsimp only
  simp only [deletePars]
  rw [if_neg (by omega), if_pos (by omega)]
  exact ⟨_, rfl⟩

theorem vary_not_raised (kn : List ℝ) (kk : ℕ) (d : ℝ) (rand : ℕ → ℝ) (hk1 : 1 ≤ kk) (hk : kk + 1 < kn.length) :
    ∀ n i x, varyLoop kn kk d rand n i x ≠ .raised := by
  intro n
  induction n with
  | zero => intro i x h; simp [varyLoop] at h
  | succ n ih =>
    intro i x h
    simp only [varyLoop, List.getElem?_eq_getElem (show kk - 1 < kn.length by omega), List.getElem?_eq_getElem hk] at h
    split_ifs at h <;> first | exact ih _ _ h | cases h

/-- C101, varying an inner knot ends well: a first pair of draws that adds up to one leaves the knot where it is, which is allowed. -/
theorem C101_vary_succeeds (s : Spl) (offset l : ℕ) (rand : ℕ → ℝ) (fuel : ℕ) (hg : CanMake good) (hG : Good offset s) (hl1 : 1 ≤ l)
    (hl : l + 1 < s.knots.length) :
    (∀ n i x, varyLoop s.knots l s.minDistance rand n i x ≠ .raised) ∧
    (0 < fuel → rand 0 + rand 1 = 1 → vary good s (some l) 0 rand fuel 0 = some (s, true, 2)) := by
  refine ⟨vary_not_raised s.knots l _ rand hl1 hl, fun hf hr => ?_⟩
  obtain ⟨n, rfl⟩ : ∃ n, fuel = n + 1 := ⟨fuel - 1, by omega⟩
  have e0 : s.knots[l - 1]? = some s.knots[l - 1] := List.getElem?_eq_getElem (by omega)
  have e1 : s.knots[l]? = some s.knots[l] := List.getElem?_eq_getElem (by omega)
  have e2 : s.knots[l + 1]? = some s.knots[l + 1] := List.getElem?_eq_getElem (by omega)
  have h1 := hG.spaced (l - 1) _ _ e0 (by rw [show l - 1 + 1 = l by omega]; exact e1)
  have h2 := hG.spaced l _ _ e1 e2
  simp only [vary]
  rw [if_neg (by simp only [Option.some.injEq]; omega)]
  simp only [Option.getD_some, e1, varyLoop, e0, e2, zero_add, hr, sub_self, lt_irrefl, if_false, zero_mul, add_zero]
  rw [if_pos ⟨by linarith, by linarith⟩]
  dsimp only
  have hset : s.knots.set l s.knots[l] = s.knots := by simp
  rw [hset, good_true hg (by exact spaced_zero hG.dist hG.spaced)]
  dsimp only
  have hfr := hG.fresh
  obtain ⟨kn, o, bo, mi, ma, md, nb, nc, pa, ba⟩ := s
  simp only at hfr
  simp [hfr]

/-- C101, false as such: the check lets the last knot through; then either the draws never end, or there is an IndexError. -/
theorem C101_counterexample_last (s : Spl) (r : ℕ) (rand : ℕ → ℝ) (h3 : 3 ≤ s.knots.length) (fuel i : ℕ) :
    vary good s (some (s.knots.length - 1)) r rand fuel i = none := by
  simp only [vary]
  rw [if_neg (by simp only [Option.some.injEq]; omega)]
  split
  · rfl
  · rename_i x hx
    split
    · rfl
    · rfl
    · rename_i y j hv
      obtain ⟨a, b, ha, hb, -⟩ := vary_found _ _ _ _ _ _ _ _ _ hv
      simp only [Option.getD_some] at hb
      rw [List.getElem?_eq_none (by omega)] at hb
      cases hb

/-! ## Construction, copy and the alternative variation -/

/-- C101, start: knots at equal distances, given in ascending order, and a fraction of at most one. -/
theorem C101_start (n order border minKnots : ℕ) (maxKnots : Option ℕ) (fraction first step : ℝ) (hstep : 0 < step)
    (hf : 0 ≤ fraction ∧ fraction ≤ 1) (hg : CanMake good) (h2 : 2 ≤ minKnots) (hmin : minKnots ≤ n)
    (hmax : ∀ m, maxKnots = some m → n ≤ m) :
    ∃ s, construct good ((List.range n).map fun i : ℕ => first + step * i) order border minKnots maxKnots fraction = some s ∧
      Good 0 s ∧ s.knots.length = n ∧ s.npbase = if border = 0 then n + order - 1 else n - 1 := by
  set kn := (List.range n).map fun i : ℕ => first + step * i with hkn
  have hlen : kn.length = n := by simp [hkn]
  have hget : ∀ (i : ℕ) (a : ℝ), kn[i]? = some a → a = first + step * i := by
    intro i a h
    simp only [hkn, List.getElem?_map, Option.map_eq_some_iff] at h
    obtain ⟨j, hj, rfl⟩ := h
    have := List.getElem?_range (n := n) (i := i)
    obtain ⟨h1, h2⟩ := List.getElem?_eq_some_iff.1 hj
    simp only [List.getElem_range] at h2
    rw [h2]
  have hsp : Spaced 0 kn := by
    intro i a b ha hb
    rw [hget _ _ ha, hget _ _ hb]; push_cast; linarith
  have hh : kn.head? = some (first + step * (0 : ℕ)) := by
    rw [List.head?_eq_getElem?]
    simp [hkn, List.getElem?_range (show 0 < n by omega)]
  have hl : kn.getLast? = some (first + step * (n - 1 : ℕ)) := by
    rw [List.getLast?_eq_getElem?, hlen]
    simp [hkn, List.getElem?_range (show n - 1 < n by omega)]
  have hc : ¬ (kn.length < minKnots ∨ maxKnots.elim false (fun m => decide (m < kn.length)) = true) := by
    rw [hlen]
    rintro (h | h)
    · omega
    · cases hm : maxKnots with
      | none => simp [hm] at h
      | some m => have := hmax m hm; simp [hm] at h; omega
  simp only [construct, hg kn hsp, if_true]
  rw [if_neg hc, hh, hl]
  refine ⟨_, rfl, ?_, hlen, by simp only [hlen]⟩
  have hn1 : ((n - 1 : ℕ) : ℝ) = n - 1 := by rw [Nat.cast_sub (by omega)]; simp
  have hn : (0 : ℝ) < n := by exact_mod_cast (show 0 < n by omega)
  have hd : first + step * ((n - 1 : ℕ) : ℝ) - (first + step * ((0 : ℕ) : ℝ)) = step * (n - 1) := by rw [hn1]; push_cast; ring
  have hn0 : (1 : ℝ) ≤ n := by exact_mod_cast (show 1 ≤ n by omega)
  have hq0 : 0 ≤ step * (n - 1) / (n : ℝ) := by
    apply div_nonneg (mul_nonneg hstep.le (by linarith)) hn.le
  have hq1 : step * (n - 1) / (n : ℝ) < step := by
    rw [div_lt_iff₀ hn]; nlinarith
  refine ⟨?_, ?_, h2, ?_, ?_, ?_, ?_, ?_, rfl⟩
  · simp only [hd, hlen]
    exact mul_nonneg hf.1 hq0
  · intro i a b ha hb
    rw [hget _ _ ha, hget _ _ hb]
    simp only [hd, hlen]; push_cast
    nlinarith [hf.1, hf.2]
  · simp only [hlen]; exact hmin
  · simp only [hlen]; exact hmax
  · simp only [hlen, Spl.extra]; split_ifs <;> omega
  · simp
  · simp

/-- C101, copy of a model that is not periodic: the same in everything. -/
theorem C101_copy (s : Spl) (offset : ℕ) (hG : Good offset s) (hb : s.border = 0) : copy s = some s := by
  have := length_two hG
  simp only [copy]
  rw [if_neg (by omega), ← hb]

/-- C101, false as such: the copy of a periodic model is not periodic, while it has the number of parameters of a periodic one. -/
theorem C101_counterexample_copy (s s' : Spl) (offset : ℕ) (hG : Good offset s) (hb : s.border ≠ 0) (h : copy s = some s') :
    s'.border = 0 ∧ s'.npbase + 1 = s'.knots.length ∧ ¬ Good offset s' := by
  simp only [copy] at h
  split at h
  · cases h
  · have h := Option.some.inj h
    subst h
    have h1 := hG.size
    have h2 := hG.fresh
    simp only [Spl.extra, if_neg hb] at h1
    refine ⟨rfl, by simpa using h1, fun hc => ?_⟩
    have h3 := hc.fresh
    simp only [h2] at h3
    injection h3 with _ _ h3
    exact hb h3

theorem shrink_max (s : Spl) (m : Option ℕ) (offset : ℕ) (prior : ℕ → Option Lim) (r : ℕ) :
    shrink good { s with maxKnots := m } offset prior r =
      (shrink good s offset prior r).map fun p => ({ p.1 with maxKnots := m }, p.2) := by
  simp only [shrink, makeBasis]
  split_ifs
  · rfl
  · rfl
  all_goals
    cases s.knots[r % (s.knots.length - 2) + 1 - 1]? with
    | none => rfl
    | some a =>
      cases s.knots[r % (s.knots.length - 2) + 1]? with
      | none => rfl
      | some t =>
        cases s.knots[r % (s.knots.length - 2) + 1 + 1]? with
        | none => rfl
        | some b =>
          dsimp only
          split
          · split_ifs
            · rfl
            · first
              | rfl
              | (split <;> rfl)
          · rfl

theorem grow_max (s : Spl) (m : Option ℕ) (offset : ℕ) (rand : ℕ → ℝ) (fuel i : ℕ) :
    grow good { s with maxKnots := m } offset true rand fuel i =
      (grow good s offset true rand fuel i).map fun p => ({ p.1 with maxKnots := m }, p.2) := by
  simp only [grow, makeBasis, Bool.true_eq_false, false_and, if_false]
  split
  · rfl
  · rfl
  · split_ifs
    · dsimp only
      split
      · rfl
      · split <;> rfl
    · rfl

theorem grow_force (s : Spl) (offset : ℕ) (rand : ℕ → ℝ) (fuel i : ℕ) (h : s.maxKnots = none) :
    grow good s offset true rand fuel i = grow good s offset false rand fuel i := by
  simp [grow, h]

/-- C101, the alternative variation: a knot more and a knot less, also when the number of knots is at its maximum. -/
theorem C101_alt (s s' : Spl) (offset : ℕ) (prior : ℕ → Option Lim) (rand : ℕ → ℝ) (fuel r : ℕ) (b : Bool) (hg : CanMake good)
    (hG : Good offset s) (h : varyAlt good s offset prior rand fuel r = some (s', b)) :
    b = true ∧ Good offset s' ∧ Same offset s s' ∧ s'.knots.length = s.knots.length := by
  set t : Spl := { s with maxKnots := none } with ht
  have hGt : Good offset t := ⟨hG.dist, hG.spaced, hG.two, hG.least, by simp [ht], hG.size, hG.chain, hG.room, hG.fresh⟩
  have hs : s = { t with maxKnots := s.maxKnots } := rfl
  rw [hs] at h
  simp only [varyAlt, grow_max, grow_force good t offset rand fuel 0 rfl] at h
  cases hgr : grow good t offset false rand fuel 0 with
  | none => simp [hgr] at h
  | some p =>
    obtain ⟨u, c, j⟩ := p
    obtain ⟨hGu, hSu⟩ := grow_good good t u offset rand fuel 0 j c hg hGt hgr
    cases c with
    | false =>
      exfalso
      simp only [grow] at hgr
      rw [if_neg (by simp [ht])] at hgr
      split at hgr
      · cases hgr
      · cases hgr
      · rename_i k x i1 hp
        obtain ⟨hk1, a, b, ha, hb, hl, hr⟩ := place_spec _ _ _ _ _ _ _ _ hp
        rw [good_true hg (by exact spaced_zero hGt.dist (spaced_ins _ _ hGt.spaced k x a b hk1 ha hb hl hr))] at hgr
        simp only at hgr
        split at hgr
        · cases hgr
        · split at hgr
          · cases hgr
          · simp at hgr
    | true =>
      obtain ⟨-, k, x, a, b', j', v, hk1, ha, hb, -, -, -, -, -, -, hu⟩ := C101_grow good t u offset false rand fuel 0 j hGt hgr
      have hk : k < t.knots.length := (List.getElem?_eq_some_iff.1 hb).1
      have hulen : u.knots.length = s.knots.length + 1 := by
        rw [hu]
        simp only [List.length_append, List.length_take, List.length_drop, List.length_singleton]
        have : t.knots.length = s.knots.length := rfl
        omega
      simp only [hgr, Option.map_some, shrink_max] at h
      cases hsh : shrink good u offset prior r with
      | none => simp [hsh] at h
      | some p =>
        obtain ⟨w, c⟩ := p
        simp only [hsh, Option.map_some, Option.some.injEq, Prod.mk.injEq] at h
        obtain ⟨hGw, hSw⟩ := shrink_good good u w offset prior r c hg hGu hsh
        obtain ⟨h1, rfl⟩ := h
        have hminu : u.minKnots = s.minKnots := by rw [hu]
        have hlow := hG.least
        cases c with
        | false =>
          exfalso
          simp only [shrink] at hsh
          rw [if_neg (by omega)] at hsh
          split at hsh
          · cases hsh
          · have hk : r % (u.knots.length - 2) < u.knots.length - 2 := Nat.mod_lt _ (by omega)
            have hsp := spaced_zero hGu.dist (spaced_del _ hGu.dist _ hGu.spaced (r % (u.knots.length - 2) + 1) (by omega))
            split at hsh
            · split at hsh
              · split at hsh
                · cases hsh
                · rw [good_true hg (by exact hsp)] at hsh
                  simp only at hsh
                  split at hsh
                  · cases hsh
                  · simp at hsh
              · cases hsh
            · cases hsh
        | true =>
          obtain ⟨-, k', _, _, hk1', hk2', -, -, -, -, hw⟩ := C101_shrink good u w offset prior r hGu hsh
          have hwlen : w.knots.length = s.knots.length := by
            rw [hw]
            simp only [List.length_append, List.length_take, List.length_drop]
            omega
          have hS := hSu.trans hSw
          subst h1
          refine ⟨rfl, ⟨hGw.dist, hGw.spaced, hGw.two, hGw.least, ?_, hGw.size, hGw.chain, hGw.room, hGw.fresh⟩,
            ⟨hS.before, hS.after, hS.first, hS.last, hS.order, hS.border, hS.minK, rfl, hS.minD⟩, hwlen⟩
          intro m hm
          simp only [hwlen]
          exact hG.most m hm

/-- C101, false as such: with a minimum below two, a model of two knots does not refuse to shrink but raises. -/
theorem C101_counterexample_min (s : Spl) (offset : ℕ) (prior : ℕ → Option Lim) (r : ℕ) (h2 : s.knots.length = 2) (hm : s.minKnots ≤ 1) :
    shrink good s offset prior r = none := by
  simp only [shrink, h2]
  rw [if_neg (by omega), if_pos (by omega)]

/-! ## Examples -/

/-- A cubic spline on four knots. -/
def cubic : Spl := ⟨[0, 1, 2, 3], 3, 0, 2, some 6, 3 / 400, 6, 6, [1, 2, 3, 4, 5, 6], ⟨[0, 1, 2, 3], 6, 0⟩⟩

theorem cubic_good : Good 0 cubic := by
  refine ⟨by norm_num [cubic], ?_, by norm_num [cubic], by norm_num [cubic], by simp [cubic], rfl, rfl, by norm_num [cubic], rfl⟩
  intro i a b ha hb
  have hi : i + 1 < 4 := (List.getElem?_eq_some_iff.1 hb).1
  have : i = 0 ∨ i = 1 ∨ i = 2 := by omega
  rcases this with rfl | rfl | rfl <;> simp [cubic] at ha hb <;> subst ha <;> subst hb <;> norm_num [cubic]

theorem all_can : CanMake (fun _ => true) := fun _ _ => rfl

/-- A growth: the draw 1/2 puts a knot at 3/2, the fourth parameter becomes two of 0.7 times its value. -/
theorem cubic_grow : ∃ s', grow (fun _ => true) cubic 0 false (fun _ => 1 / 2) 1 0 = some (s', true, 1) ∧
    s'.knots = [0, 1, 3 / 2, 2, 3] ∧ s'.params = [1, 2, 3, 4 * (7 / 10), 4 * (7 / 10), 5, 6] := by
  have hl : location 6 4 2 = 4 := rfl
  refine ⟨_, by norm_num [grow, cubic, place, seg, makeBasis, insertPars, hl]; rfl, ?_, ?_⟩
  · norm_num
  · norm_num

/-- The hypotheses of `C101_grow_succeeds` can be met. -/
example : ∃ s' i', grow (fun _ => true) cubic 0 false (fun _ => 1 / 2) 1 0 = some (s', true, i') := by
  refine C101_grow_succeeds _ cubic 0 false _ 1 0 0 (3 / 2) all_can cubic_good (Or.inr (by simp [cubic])) (fun _ => by norm_num)
    (by norm_num) ⟨0, 3, rfl, rfl, by norm_num⟩ ?_
  intro t ht
  simp only [cubic, List.mem_cons, List.not_mem_nil, or_false] at ht
  rcases ht with rfl | rfl | rfl | rfl <;> norm_num [cubic, abs_of_pos, abs_of_neg]

/-- A death: the first inner knot goes. -/
theorem cubic_shrink : shrink (fun _ => true) cubic 0 (fun _ => some ⟨none, none⟩) 0 =
    some (⟨[0, 2, 3], 3, 0, 2, some 6, 3 / 400, 5, 5, [1, 2, 49 / 10, 5, 6], ⟨[0, 2, 3], 5, 0⟩⟩, true) := by
  have hl : location 6 4 1 = 3 := rfl
  norm_num [shrink, cubic, merged, Lim.isOut, makeBasis, deletePars, hl]

/-- A history that succeeds. -/
example : ∃ s', runAll (fun _ => true) 0 (fun _ => some ⟨none, none⟩) [.shrink 0, .grow false (fun _ => 1 / 2) 1] cubic = some s' ∧
    s'.knots.length = 4 := by
  have hl : location 5 3 1 = 3 := rfl
  refine ⟨_, by simp only [runAll, Op.run, cubic_shrink]; norm_num [grow, place, seg, makeBasis, insertPars, hl]; rfl, ?_⟩
  norm_num

/-- The hypotheses of `C101_shrink_succeeds` can be met. -/
example : ∃ s', shrink (fun _ => true) cubic 0 (fun _ => some ⟨some 0, some 10⟩) 1 = some (s', true) := by
  refine C101_shrink_succeeds _ cubic 0 _ 1 all_can cubic_good (by norm_num [cubic]) ?_
  intro j p q _ _ hp hq
  have hj : j + 1 < 6 := (List.getElem?_eq_some_iff.1 hq).1
  have : j = 0 ∨ j = 1 ∨ j = 2 ∨ j = 3 ∨ j = 4 := by omega
  rcases this with rfl | rfl | rfl | rfl | rfl <;> simp [cubic] at hp hq <;> subst hp <;> subst hq <;> norm_num [Lim.isOut]

/-- A variation that moves a knot: 2/5 to the left of 1. -/
example : ∃ s', vary (fun _ => true) cubic (some 1) 0 (fun i => if i = 0 then 1 / 5 else 2 / 5) 1 0 = some (s', true, 2) ∧
    s'.knots = [0, 3 / 5, 2, 3] := by
  refine ⟨_, by norm_num [vary, cubic, varyLoop, makeBasis]; rfl, ?_⟩
  norm_num

/-- The alternative variation. -/
example : ∃ s' b, varyAlt (fun _ => true) cubic 0 (fun _ => some ⟨none, none⟩) (fun _ => 1 / 2) 1 0 = some (s', b) := by
  obtain ⟨s', h, -⟩ := cubic_grow
  obtain ⟨h1, h2⟩ := grow_good (fun _ => true) cubic s' 0 (fun _ => 1 / 2) 1 0 1 true all_can cubic_good h
  obtain ⟨-, k, x, a, b, j, v, _, _, hb, _, _, _, _, _, _, hs⟩ := C101_grow _ cubic s' 0 false _ 1 0 1 cubic_good h
  have hk : k < cubic.knots.length := (List.getElem?_eq_some_iff.1 hb).1
  have hlen : s'.minKnots < s'.knots.length := by
    rw [hs]
    simp only [List.length_append, List.length_take, List.length_drop, List.length_singleton]
    simp only [cubic, List.length_cons, List.length_nil] at hk ⊢
    omega
  obtain ⟨t, ht⟩ := C101_shrink_succeeds (fun _ => true) s' 0 (fun _ => some ⟨none, none⟩) 0 all_can h1 hlen
    (fun _ _ _ _ _ _ _ => ⟨_, rfl, by simp [Lim.isOut], by simp [Lim.isOut], by simp⟩)
  have hforce : grow (fun _ => true) cubic 0 true (fun _ => 1 / 2) 1 0 = some (s', true, 1) := by
    rw [← h]; simp [grow, cubic]
  exact ⟨t, true, by simp only [varyAlt, hforce, ht]⟩

/-- A model from the constructor. -/
example : ∃ s, construct (fun _ => true) ((List.range 4).map fun i : ℕ => (0 : ℝ) + 1 * i) 3 0 2 (some 6) (1 / 100) = some s ∧
    Good 0 s ∧ s.knots.length = 4 ∧ s.npbase = 6 :=
  C101_start _ 4 3 0 2 (some 6) (1 / 100) 0 1 (by norm_num) (by norm_num) all_can (by norm_num) (by norm_num) (by simp)

/-- A periodic model. -/
def ring : Spl := { cubic with
  border := 1
  npbase := 3
  npchain := 3
  params := [1, 2, 3]
  basis := ⟨[0, 1, 2, 3], 3, 1⟩ }

example : Good 0 ring ∧ ring.border ≠ 0 ∧ ∃ s', copy ring = some s' :=
  ⟨⟨cubic_good.dist, cubic_good.spaced, cubic_good.two, cubic_good.least, cubic_good.most, rfl, rfl, by norm_num [ring], rfl⟩,
    by simp [ring], ⟨_, rfl⟩⟩

/-- No room: `C101_counterexample_hang` applies. -/
example : ∀ fuel i, grow (fun _ => true) { cubic with minDistance := 1 / 2 } 0 false (fun _ => 1 / 2) fuel i = none := by
  refine C101_counterexample_hang _ _ 0 false _ (Or.inr (by simp [cubic])) ?_
  intro i a b ha hb
  have hi : i + 1 < 4 := (List.getElem?_eq_some_iff.1 hb).1
  have : i = 0 ∨ i = 1 ∨ i = 2 := by omega
  rcases this with rfl | rfl | rfl <;> simp [cubic] at ha hb <;> subst ha <;> subst hb <;> norm_num

/-- A first-order spline behind a model of one parameter. -/
def second : Spl := ⟨[0, 1, 2], 1, 0, 2, none, 1 / 100, 3, 4, [5, 1, 1, 1], ⟨[0, 1, 2], 3, 0⟩⟩

/-- C101, false as such: behind other models in a chain, shrinking asks for the prior of another parameter. Here all three
parameters are within their own limits, the joined one is not. -/
theorem C101_counterexample_prior : ∃ (prior : ℕ → Option Lim) (s' : Spl),
    (∀ j p, j < 3 → second.params[1 + j]? = some p → ∃ lim, prior j = some lim ∧ ¬ lim.isOut p) ∧
    shrink (fun _ => true) second 1 prior 0 = some (s', true) ∧
    ∃ lim v, prior 1 = some lim ∧ s'.params[1 + 1]? = some v ∧ lim.isOut v := by
  have hl : location 3 3 1 = 2 := rfl
  refine ⟨fun k => some ⟨some 0, some (if k = 2 then 2 else 1)⟩, _, ?_, by
    norm_num [shrink, second, merged, Lim.isOut, makeBasis, deletePars, hl]; rfl, ?_⟩
  · intro j p hj hp
    have : j = 0 ∨ j = 1 ∨ j = 2 := by omega
    rcases this with rfl | rfl | rfl <;> simp [second] at hp <;> subst hp <;> norm_num [Lim.isOut]
  · refine ⟨_, _, rfl, rfl, ?_⟩
    norm_num [Lim.isOut]

/-- C101, false as such: a birth adds the new parameter to the list of fitted ones behind all parameters of the model
(`BirthEngine.py` 79-168), while it is put in the middle. A kept parameter behind it moves one up and will be fitted. -/
theorem C101_counterexample_keep : ∃ s', grow (fun _ => true) cubic 0 false (fun _ => 1 / 2) 1 0 = some (s', true, 1) ∧
    cubic.params[4]? = some 5 ∧ s'.params[5]? = some 5 ∧
    (4 : ℤ) ∉ [0, 1, 2, 3, (5 : ℤ)] ∧ 5 ∈ fitBirth [0, 1, 2, 3, 5] cubic.npbase 1 0 ∧ 4 ∉ fitBirth [0, 1, 2, 3, 5] cubic.npbase 1 0 := by
  obtain ⟨s', h, -, hp⟩ := cubic_grow
  refine ⟨s', h, rfl, by rw [hp]; rfl, by decide, by decide, by decide⟩

end BF.SplinesDyn
