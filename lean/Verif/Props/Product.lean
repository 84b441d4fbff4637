import Verif.Product
import Mathlib.Analysis.Calculus.Deriv.Mul
import Mathlib.Analysis.Calculus.Deriv.Add
import Mathlib.Analysis.Calculus.Deriv.Pow
import Mathlib.Tactic.Ring
import Mathlib.Tactic.Linarith

/-!
# C46: a product model is a product of one dimensional models

The parameters are divided over the components in order: component `j` has the `np` parameters from
place `start ms j` on.
-/

namespace BF.Product

/-- The number of parameters of the components before number `j`. -/
def start (ms : List Comp) (j : ℕ) : ℕ := ((ms.take j).map Comp.np).sum

/-- The parameters of component `j`. -/
noncomputable def own (ms : List Comp) (p : List ℝ) (j : ℕ) (m : Comp) : List ℝ :=
  (p.drop (start ms j)).take m.np

/-- The value at coordinates `xs`: the product over the components. -/
noncomputable def value (ms : List Comp) (xs p : List ℝ) : ℝ :=
  ((List.range ms.length).map fun j =>
    match ms[j]?, xs[j]? with
    | some m, some x => m.res x (own ms p j m)
    | _, _ => 1).prod

/-- `m` lists the partial derivatives of its own result, one for each of its parameters. -/
def Comp.Proper (m : Comp) : Prop :=
  ∀ (x : ℝ) (q : List ℝ), q.length = m.np →
    (m.par x q).length = m.np ∧
    ∀ (i : ℕ) (v d : ℝ), q[i]? = some v → (m.par x q)[i]? = some d →
      HasDerivAt (fun t => m.res x (q.set i t)) d v

theorem npars_foldl (ms : List Comp) (n : ℕ) :
    ms.foldl (fun np m => np + m.np) n = n + (ms.map Comp.np).sum := by
  induction ms generalizing n with
  | nil => simp
  | cons m ms ih => simp [ih]; omega

/-- The product model has as many parameters as its components together. -/
theorem C46_npars (ms : List Comp) : npars ms = (ms.map Comp.np).sum := by
  simp [npars, npars_foldl]

/-- The product written from the right end of the parameters on. -/
noncomputable def prodFrom : List Comp → List ℝ → List ℝ → ℝ
  | m :: ms, x :: xs, p => m.res x (p.take m.np) * prodFrom ms xs (p.drop m.np)
  | _, _, _ => 1

theorem value_cons (m : Comp) (ms : List Comp) (x : ℝ) (xs p : List ℝ) :
    value (m :: ms) (x :: xs) p = m.res x (p.take m.np) * value ms xs (p.drop m.np) := by
  simp only [value, List.length_cons, List.range_succ_eq_map, List.map_cons, List.prod_cons,
    List.map_map]
  congr 1
  congr 1
  apply List.map_congr_left
  intro j _
  simp only [Function.comp, List.getElem?_cons_succ]
  rcases ms[j]? with _ | m' <;> rcases xs[j]? with _ | x' <;> try rfl
  simp [own, start, List.drop_drop]

theorem value_eq (ms : List Comp) (xs p : List ℝ) (h : xs.length = ms.length) :
    value ms xs p = prodFrom ms xs p := by
  induction ms generalizing xs p with
  | nil => simp [value, prodFrom]
  | cons m ms ih =>
    cases xs with
    | nil => simp at h
    | cons x xs => rw [value_cons, prodFrom, ih xs _ (by simpa using h)]

theorem take_drop_eq (p : List ℝ) (n k : ℕ) : (p.take (n + k)).drop n = (p.drop n).take k := by
  rw [List.drop_take]
  simp

theorem resLoop_eq (ms : List Comp) (xs ys p : List ℝ) (k n : ℕ) (r : ℝ) (hx : xs.drop k = ys)
    (h : ys.length = ms.length) :
    resLoop xs p ms k n r = some (r * prodFrom ms ys (p.drop n)) := by
  induction ms generalizing ys k n r with
  | nil => simp [resLoop, prodFrom]
  | cons m ms ih =>
    cases ys with
    | nil => simp at h
    | cons x ys =>
      have h1 : xs[k]? = some x := by
        have := congrArg (fun l => l[0]?) hx
        simpa using this
      have h2 : xs.drop (k + 1) = ys := by
        have := congrArg (List.drop 1) hx
        simpa using this
      simp only [resLoop, h1, prodFrom]
      rw [ih ys (k + 1) (n + m.np) _ h2 (by simpa using h), take_drop_eq, List.drop_drop, mul_assoc]

/-- The result is the product of the results of the components, each at its own coordinate and its own
parameters. -/
theorem C46_result (ms : List Comp) (xs p : List ℝ) (h : xs.length = ms.length) :
    baseResult ms xs p = some (value ms xs p) := by
  rw [baseResult, resLoop_eq ms xs xs p 0 0 1 (by simp) h, value_eq ms xs p h]
  simp

/-- The partials written from the right end. -/
noncomputable def partFrom : List Comp → List ℝ → List ℝ → List ℝ
  | m :: ms, x :: xs, p =>
      (m.par x (p.take m.np)).map (· * prodFrom ms xs (p.drop m.np)) ++
        (partFrom ms xs (p.drop m.np)).map (m.res x (p.take m.np) * ·)
  | _, _, _ => []

theorem parLoop_eq (ms : List Comp) (xs ys p : List ℝ) (k n : ℕ) (r : ℝ) (part : List ℝ)
    (hx : xs.drop k = ys) (h : ys.length = ms.length) :
    parLoop xs p ms k n r part =
      some (part.map (· * prodFrom ms ys (p.drop n)) ++ (partFrom ms ys (p.drop n)).map (r * ·)) := by
  induction ms generalizing ys k n r part with
  | nil => simp [parLoop, prodFrom, partFrom]
  | cons m ms ih =>
    cases ys with
    | nil => simp at h
    | cons x ys =>
      have h1 : xs[k]? = some x := by
        have := congrArg (fun l => l[0]?) hx
        simpa using this
      have h2 : xs.drop (k + 1) = ys := by
        have := congrArg (List.drop 1) hx
        simpa using this
      simp only [parLoop, h1, prodFrom, partFrom]
      rw [ih ys (k + 1) (n + m.np) _ _ h2 (by simpa using h), take_drop_eq, List.drop_drop]
      simp [Function.comp_def, mul_assoc]

theorem take_set_ge (p : List ℝ) (n i : ℕ) (t : ℝ) (h : n ≤ i) : (p.set i t).take n = p.take n := by
  apply List.ext_getElem?
  intro j
  rw [List.getElem?_take, List.getElem?_take]
  split_ifs with hj
  · rw [List.getElem?_set_ne (by omega)]
  · rfl

theorem take_set_lt (p : List ℝ) (n i : ℕ) (t : ℝ) :
    (p.set i t).take n = (p.take n).set i t := by
  rw [List.take_set]

theorem drop_set_lt (p : List ℝ) (n i : ℕ) (t : ℝ) (h : i < n) : (p.set i t).drop n = p.drop n := by
  apply List.ext_getElem?
  intro j
  rw [List.getElem?_drop, List.getElem?_drop, List.getElem?_set_ne (by omega)]

theorem drop_set_ge (p : List ℝ) (n i : ℕ) (t : ℝ) (h : n ≤ i) :
    (p.set i t).drop n = (p.drop n).set (i - n) t := by
  rw [List.drop_set]
  rw [if_neg (by omega)]

theorem partFrom_spec (ms : List Comp) (xs p : List ℝ) (hx : xs.length = ms.length)
    (hm : ∀ m ∈ ms, m.Proper) (hp : p.length = (ms.map Comp.np).sum) :
    (partFrom ms xs p).length = p.length ∧
    ∀ (i : ℕ) (v d : ℝ), p[i]? = some v → (partFrom ms xs p)[i]? = some d →
      HasDerivAt (fun t => prodFrom ms xs (p.set i t)) d v := by
  induction ms generalizing xs p with
  | nil => simp_all [partFrom]
  | cons m ms ih =>
    cases xs with
    | nil => simp at hx
    | cons x xs =>
      simp only [List.map_cons, List.sum_cons] at hp
      have hq : (p.take m.np).length = m.np := by simp; omega
      obtain ⟨g1, g2⟩ := hm m (by simp) x (p.take m.np) hq
      obtain ⟨k1, k2⟩ := ih xs (p.drop m.np) (by simpa using hx) (fun m' h => hm m' (by simp [h]))
        (by simp; omega)
      refine ⟨by simp [partFrom, g1, k1]; omega, ?_⟩
      intro i v d hv hd
      simp only [partFrom] at hd
      simp only [prodFrom]
      rcases lt_or_ge i m.np with hi | hi
      · rw [List.getElem?_append_left (by simp [g1, hi]), List.getElem?_map] at hd
        rcases h1 : (m.par x (p.take m.np))[i]? with _ | d1
        · simp [h1] at hd
        · simp only [h1, Option.map_some, Option.some.injEq] at hd
          subst hd
          have := g2 i v d1 (by simpa [List.getElem?_take, hi] using hv) h1
          simp only [take_set_lt, drop_set_lt p m.np i _ hi]
          exact this.mul_const _
      · rw [List.getElem?_append_right (by simp [g1, hi]), List.getElem?_map] at hd
        simp only [List.length_map, g1] at hd
        rcases h1 : (partFrom ms xs (p.drop m.np))[i - m.np]? with _ | d1
        · simp [h1] at hd
        · simp only [h1, Option.map_some, Option.some.injEq] at hd
          subst hd
          have := k2 (i - m.np) v d1
            (by rw [List.getElem?_drop, show m.np + (i - m.np) = i by omega, hv]) h1
          simp only [take_set_ge p m.np i _ hi, drop_set_ge p m.np i _ hi]
          exact this.const_mul _

/-- One partial for every parameter, which is the derivative of the value to that parameter. -/
theorem C46_partial (ms : List Comp) (xs p : List ℝ) (hx : xs.length = ms.length)
    (hm : ∀ m ∈ ms, m.Proper) (hp : p.length = npars ms) :
    ∃ part, basePartial ms xs p = some part ∧ part.length = p.length ∧
      ∀ (i : ℕ) (v d : ℝ), p[i]? = some v → part[i]? = some d →
        HasDerivAt (fun t => value ms xs (p.set i t)) d v := by
  obtain ⟨h1, h2⟩ := partFrom_spec ms xs p hx hm (by rw [hp, C46_npars])
  refine ⟨partFrom ms xs p, ?_, h1, ?_⟩
  · rw [basePartial, parLoop_eq ms xs xs p 0 0 1 [] (by simp) hx]
    simp
  · intro i v d hv hd
    have : (fun t => value ms xs (p.set i t)) = fun t => prodFrom ms xs (p.set i t) := by
      funext t
      rw [value_eq ms xs _ hx]
    rw [this]
    exact h2 i v d hv hd

/-- Models for the examples: `a + b * x` and `a * x`. -/
noncomputable def exLine : Comp := ⟨2, fun x q => q.getD 0 0 + q.getD 1 0 * x, fun x _ => [1, x]⟩
noncomputable def exScale : Comp := ⟨1, fun x q => q.getD 0 0 * x, fun x _ => [x]⟩

example : exLine.Proper := by
  intro x q hq
  refine ⟨rfl, ?_⟩
  intro i v d hv hd
  match q, hq with
  | [a, b], _ =>
    match i with
    | 0 =>
      obtain rfl : a = v := by simpa using hv
      obtain rfl : 1 = d := by simpa [exLine] using hd
      have h : HasDerivAt (fun t : ℝ => t + b * x) 1 a := HasDerivAt.add_const (b * x) (hasDerivAt_id' a)
      simpa only [exLine, List.set_cons_zero, List.set_cons_succ, List.getD_cons_zero,
        List.getD_cons_succ, one_mul] using h
    | 1 =>
      obtain rfl : b = v := by simpa using hv
      obtain rfl : x = d := by simpa [exLine] using hd
      have h : HasDerivAt (fun t : ℝ => a + t * x) (1 * x) b :=
        HasDerivAt.const_add a ((hasDerivAt_id' b).mul_const x)
      simpa only [exLine, List.set_cons_zero, List.set_cons_succ, List.getD_cons_zero,
        List.getD_cons_succ, one_mul] using h
    | (i + 2) => simp at hv

example : baseResult [exLine, exScale] [2, 3] [1, 10, 5] = some 315 := by
  norm_num [baseResult, resLoop, exLine, exScale]

example : basePartial [exLine, exScale] [2, 3] [1, 10, 5] = some [15, 30, 63] := by
  norm_num [basePartial, parLoop, exLine, exScale]

end BF.Product
