import Verif.RepDeriv
import Verif.Props.Combi
import Verif.Props.CompoundDeriv

/-!
# C133: derivatives to x of repeating and combi models; repeated compound models
-/

namespace BF.RepDeriv

open BF.Arr BF.Dynamic Finset

variable {α : Type*}

theorem derLoop_eq [Add α] (r : Rep α) (der : List α → α) (params : List α) : ∀ (n ke : ℕ) (pars : List α) (acc : α),
    derLoop r der params n ke pars acc = repLoop { r with f := der } params n ke pars acc := by
  intro n
  induction n with
  | zero => intro ke pars acc; rfl
  | succ n ih =>
    intro ke pars acc
    unfold derLoop repLoop
    have e1 : ({ r with f := der } : Rep α).index = r.index := rfl
    have e2 : ({ r with f := der } : Rep α).delta = r.delta := rfl
    rw [e1, e2]
    cases scatter pars r.index ((params.drop ke).take r.delta) with
    | none => rfl
    | some pars' => exact ih _ _ _

/-- **C133.**  The derivative of a repeating model is the sum of the derivative of the repeated model over its components. -/
theorem C133_sum [AddCommMonoid α] (r : Rep α) (der : List α → α) (p : ℕ → α) :
    baseDerivative r der ((List.range (size r.m r.same r.ncomp)).map p)
      = some (∑ j ∈ range r.ncomp, der (block r.m r.same p j)) := by
  obtain ⟨nc, m, same, f⟩ := r
  have h := C25_result (⟨nc, m, same, der⟩ : Rep α) p
  refine Eq.trans ?_ h
  cases nc with
  | zero => rfl
  | succ n => exact derLoop_eq ⟨n + 1, m, same, f⟩ der _ n m _ 0

/-- **C133.**  The derivative of a repeating model is the true derivative of its result, whenever that is so for the
repeated model: for all numbers of components and all choices of shared parameters. -/
theorem C133_repeating (ncomp m : ℕ) (same : List ℕ) (res der : List ℝ → ℝ → ℝ) (p : ℕ → ℝ) (x : ℝ)
    (h : ∀ q : List ℝ, q.length = m → HasDerivAt (res q) (der q x) x) :
    ∃ (d : ℝ) (value : ℝ → ℝ),
      baseDerivative ⟨ncomp, m, same, fun q => res q x⟩ (fun q => der q x)
        ((List.range (size m same ncomp)).map p) = some d ∧
      (∀ y, Rep.baseResult ⟨ncomp, m, same, fun q => res q y⟩ ((List.range (size m same ncomp)).map p)
        = some (value y)) ∧
      HasDerivAt value d x := by
  refine ⟨∑ j ∈ range ncomp, der (block m same p j) x, fun y => ∑ j ∈ range ncomp, res (block m same p j) y,
    C133_sum ⟨ncomp, m, same, fun q => res q x⟩ (fun q => der q x) p,
    fun y => C25_result ⟨ncomp, m, same, fun q => res q y⟩ p, ?_⟩
  exact HasDerivAt.fun_sum fun j _ => h _ (by simp [block])

open BF.Compound BF.Combi in
theorem regular_repeated (b : Base ℝ) (x : ℝ) (o : Bin) (ho : o = .add ∨ o = .mul) (n : ℕ) : ∀ p : List ℝ,
    p.length = b.np * (n + 1) → (∀ q : List ℝ, q.length = b.np → TrueAt b x q) →
    Regular (repeated o (.base b) n) x p := by
  have hnp : ∀ n, (repeated o (Expr.base b) n).np = b.np * (n + 1) := by
    intro n
    induction n with
    | zero => simp [repeated, Expr.np]
    | succ n ih => simp [repeated, Expr.np, ih]; ring
  induction n with
  | zero =>
    intro p hp h
    exact h p (by simpa using hp)
  | succ n ih =>
    intro p hp h
    have h1 : Regular (repeated o (.base b) n) x (p.take (repeated o (Expr.base b) n).np) := by
      refine ih _ ?_ h
      rw [List.length_take, hnp, hp]
      exact min_eq_left (Nat.mul_le_mul_left _ (by omega))
    have h2 : Regular (.base b) x (p.drop (repeated o (Expr.base b) n).np) := by
      refine h _ ?_
      rw [List.length_drop, hnp, hp, ← Nat.mul_sub, show n + 1 + 1 - (n + 1) = 1 by omega, Nat.mul_one]
    rcases ho with rfl | rfl <;> exact ⟨h1, h2⟩

open BF.Compound BF.Combi in
/-- **C133.**  The derivative of a combi model, of any number of copies that are added or multiplied, with any offsets and
factors, is the true derivative of its result, whenever that is so for the model in it. -/
theorem C133_combi (b : Base ℝ) (x : ℝ) (o : Bin) (ho : o = .add ∨ o = .mul) (n : ℕ) (ak bk : List ℕ) (av mv : ℕ → ℕ → ℝ)
    (ha : ∀ i ∈ ak, i < b.np) (hb : ∀ i ∈ bk, i < b.np) (han : ak.Nodup) (hbn : bk.Nodup) (p : ℕ → ℝ)
    (h : ∀ q : List ℝ, q.length = b.np → TrueAt b x q) :
    ∃ (c : Combined ℝ) (d : ℝ) (value : ℝ → ℝ), (mk b.np (n + 1) ak av bk mv).combine = some c ∧
      combiDerivative c ((repeated o (.base b) n).build.derivative x)
        ((List.range (size b.np (ak ++ bk) (n + 1))).map p) = some d ∧
      (∀ y, baseResult c ((repeated o (.base b) n).build.result y)
        ((List.range (size b.np (ak ++ bk) (n + 1))).map p) = some (value y)) ∧
      HasDerivAt value d x := by
  have hnp : ∀ n, (repeated o (Expr.base b) n).np = b.np * (n + 1) := by
    intro n
    induction n with
    | zero => simp [repeated, Expr.np]
    | succ n ih => simp [repeated, Expr.np, ih]; ring
  let l : List ℝ := (List.range (b.np * (n + 1))).map fun k => fullPar b.np ak av bk mv p (k / b.np) (k % b.np)
  have hl : l.length = b.np * (n + 1) := by simp [l]
  have hf : ¬ FreshPipe (repeated o (.base b) n) := by
    cases n with
    | zero => exact id
    | succ n => rcases ho with rfl | rfl <;> exact id
  obtain ⟨d, hd, hv⟩ := (C19_derivative_partial (repeated o (.base b) n) x l (by rw [hl, hnp])
    (regular_repeated b x o ho n l hl h)).2 hf
  refine ⟨_, d, fun y => (repeated o (.base b) n).value y l,
    combine_eq b.np (n + 1) (by omega) ak bk av mv ha hb, ?_, ?_, hv⟩
  · unfold combiDerivative
    rw [expand_eq b.np (n + 1) ak bk av mv ha hb han hbn]
    exact hd
  · intro y
    simp only [baseResult]
    rw [expand_eq b.np (n + 1) ak bk av mv ha hb han hbn, Option.bind_some]
    exact (C17_result _ y _ (by rw [hnp, hl])).2

theorem repLoop_longer [AddCommMonoid α] (r : Rep α) (p : ℕ → α) (S N : ℕ) (h : S ≤ N) : ∀ (n ke : ℕ) (pars : List α) (acc : α),
    ke + n * r.delta ≤ S →
    repLoop r ((List.range N).map p) n ke pars acc = repLoop r ((List.range S).map p) n ke pars acc := by
  intro n
  induction n with
  | zero => intro ke pars acc _; rfl
  | succ n ih =>
    intro ke pars acc hk
    have hk' : ke + r.delta + n * r.delta ≤ S := by
      have : (n + 1) * r.delta = n * r.delta + r.delta := by ring
      omega
    have e : (((List.range N).map p).drop ke).take r.delta = (((List.range S).map p).drop ke).take r.delta := by
      apply List.ext_getElem?
      intro i
      by_cases hi : i < r.delta
      · rw [List.getElem?_take_of_lt hi, List.getElem?_take_of_lt hi, List.getElem?_drop, List.getElem?_drop,
          List.getElem?_map, List.getElem?_map, List.getElem?_range (by omega), List.getElem?_range (by omega)]
      · rw [List.getElem?_take_eq_none (by omega), List.getElem?_take_eq_none (by omega)]
    simp only [repLoop]
    rw [e]
    cases scatter pars r.index ((((List.range S).map p).drop ke).take r.delta) with
    | none => rfl
    | some pars' => exact ih _ _ _ hk'

theorem rank_nil (i : ℕ) : rank [] i = i := by simp [rank]

open BF.Compound in
/-- **A compound model can not be repeated**: the repeating model of `l + r` has `ncomp` times the parameters of both, but
in each component the second model is called without any parameters and the first one with parameters that are
meant for others.  (Most models raise an IndexError without parameters; nothing is said here about what `r` does.)
With one component of a line plus something, or two, none of the parameters of `r` has an effect. -/
theorem C133_counterexample_compound (l r : Base ℝ) (ncomp : ℕ) (x : ℝ) (p : ℕ → ℝ) :
    chainNp (Expr.bin .add (.base l) (.base r)).build ncomp 0 = ncomp * (l.np + r.np) ∧
    (1 ≤ ncomp → Rep.baseResult (chainRep (Expr.bin .add (.base l) (.base r)).build ncomp x)
        ((List.range (ncomp * (l.np + r.np))).map p) =
      some (∑ j ∈ range ncomp, (l.res ((List.range l.np).map fun i => p (j * l.np + i)) x + r.res [] x))) := by
  have hb : (Expr.bin .add (.base l) (.base r)).build =
      .cons .nop (.base false l) (.last .add (.base false r)) := rfl
  rw [hb]
  refine ⟨by simp [chainNp, Chain.np, Node.np], fun hn => ?_⟩
  obtain ⟨n, rfl⟩ : ∃ n, ncomp = n + 1 := ⟨ncomp - 1, by omega⟩
  let R : Rep ℝ := chainRep (.cons .nop (.base false l) (.last .add (.base false r))) (n + 1) x
  have hm : R.m = l.np := rfl
  have hd : R.delta = l.np := by rw [delta_eq]; exact rank_nil _
  have hS : size R.m R.same R.ncomp = (n + 1) * l.np := by
    show l.np + (n + 1 - 1) * rank [] l.np = _
    rw [rank_nil]
    simp only [Nat.add_sub_cancel]
    ring
  have hle : (n + 1) * l.np ≤ (n + 1) * (l.np + r.np) := Nat.mul_le_mul_left _ (by omega)
  have hfull := C25_result R p
  rw [hS] at hfull
  have e1 : R.baseResult ((List.range ((n + 1) * (l.np + r.np))).map p) =
      R.baseResult ((List.range ((n + 1) * l.np)).map p) := by
    show repLoop R _ n R.m _ 0 = repLoop R _ n R.m _ 0
    rw [repLoop_longer R p _ _ hle n R.m _ 0 (by rw [hd, hm]; exact le_of_eq (by ring))]
    congr 1
    rw [← List.map_take, ← List.map_take, List.take_range, List.take_range, hm,
      min_eq_left (by nlinarith [Nat.zero_le (n * l.np)]), min_eq_left (by nlinarith [Nat.zero_le (n * l.np)])]
  show R.baseResult _ = _
  rw [e1, hfull]
  congr 1
  apply sum_congr rfl
  intro j hj
  have e2 : block R.m R.same p j = (List.range l.np).map fun i => p (j * l.np + i) := by
    unfold block
    rw [hm]
    apply List.map_congr_left
    intro i hi
    show p (if j = 0 ∨ i ∈ ([] : List ℕ) then i else l.np + (j - 1) * rank [] l.np + rank [] i) = _
    rw [rank_nil, rank_nil]
    rcases j with _ | j
    · simp
    · rw [if_neg (by simp), Nat.add_sub_cancel]
      congr 1
      ring
  rw [e2]
  show ((Chain.cons .nop (.base false l) (.last .add (.base false r))).result x _).getD 0 = _
  unfold Chain.result
  have hlen : ((List.range l.np).map fun i => p (j * l.np + i)).length = l.np := by simp
  simp only [Chain.recResult, Node.result, operate, Node.np]
  rw [List.take_of_length_le (by rw [List.take_of_length_le (by rw [hlen])]; rw [hlen]),
    List.take_of_length_le (by rw [hlen]), List.drop_of_length_le (by rw [hlen])]
  simp

/-- A line and a constant, repeated twice: six parameters, at x = 0 the value should be `(1 + 3) + (4 + 6)`, but it is that
of the lines with the first four parameters, plus twice what the constant gives without parameter. -/
example (r : BF.Compound.Base ℝ) (hr : r.np = 1) :
    Rep.baseResult (chainRep (BF.Compound.Expr.bin .add (.base BF.Compound.line) (.base r)).build 2 0) [1, 2, 3, 4, 5, 6] =
      some (1 + 3 + 2 * r.res [] 0) := by
  have := (C133_counterexample_compound BF.Compound.line r 2 0 (fun k => (k : ℝ) + 1)).2 (by omega)
  rw [hr] at this
  simp only [BF.Compound.line] at this ⊢
  norm_num [List.range_succ, sum_range_succ] at this ⊢
  rw [this]
  congr 1
  ring

/-- Three parabolas `q0 (x - q1)^2` with the same top. -/
example : ∃ d value, baseDerivative ⟨3, 2, [1], fun q => q.getD 0 0 * (5 - q.getD 1 0) ^ 2⟩
      (fun q => q.getD 0 0 * (2 * (5 - q.getD 1 0))) ((List.range (size 2 [1] 3)).map fun k : ℕ => (k : ℝ) + 1) = some d ∧
    (∀ y, Rep.baseResult ⟨3, 2, [1], fun q => q.getD 0 0 * (y - q.getD 1 0) ^ 2⟩
      ((List.range (size 2 [1] 3)).map fun k : ℕ => (k : ℝ) + 1) = some (value y)) ∧ HasDerivAt value d 5 :=
  C133_repeating 3 2 [1] (fun q y => q.getD 0 0 * (y - q.getD 1 0) ^ 2) (fun q y => q.getD 0 0 * (2 * (y - q.getD 1 0)))
    (fun k : ℕ => (k : ℝ) + 1) 5 (by
      intro q _
      have := (((hasDerivAt_id (5 : ℝ)).sub_const (q.getD 1 0)).pow 2).const_mul (q.getD 0 0)
      simpa using this)

end BF.RepDeriv
