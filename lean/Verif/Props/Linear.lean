import Verif.Props.CompoundDeriv
import Verif.Props.Fixed
import Verif.Props.Fitters
import Verif.LinearModels

/-!
# Which compound and fixed models are linear (C128)

The manual: "Compound models are non-linear unless all its constituents are linear and its operations
are additive"; "fixed models are non-linear, except when the model is linear and the parameters are fixed
with constants". The linear fitters have no check: they use the partials at whatever the parameters are.
-/

noncomputable section

namespace BF.Linear

open BF.Compound BF.Fitters BF.Fixed BF.LinearModels BF.Arr BF.Dynamic Finset
open BF.Combi (set_map_range)

/-! ## Specification -/

/-- The first `n` parameters. -/
def vec (n : ℕ) (p : ℕ → ℝ) : List ℝ := (List.range n).map p

/-- A model, given by its number of parameters, its result and its partials, is linear in its parameters:
for all parameters the result is an offset plus the inner product of the parameters with the partials, and
the partials do not depend on the parameters. -/
def IsLinear (np : ℕ) (res : ℝ → List ℝ → Option ℝ) (par : ℝ → List ℝ → Option (List ℝ))
    (m : Lin ℝ) : Prop :=
  m.np = np ∧ ∀ (x : ℝ) (p : ℕ → ℝ),
    res x (vec np p) = some (m.off x + ∑ k ∈ range np, p k * m.part x k) ∧
    par x (vec np p) = some (vec np (m.part x))

/-- A base model is linear. -/
def LinearBase (b : Base ℝ) : Prop :=
  ∃ m, IsLinear b.np (fun x p => some (b.res p x)) (fun x p => some (b.par p x)) m

/-- The expressions that are linear: sums and differences of linear models, in whatever brackets, and
products and quotients of linear ones of which one, the denominator, has no parameters. -/
def LinearExpr : Expr ℝ → Prop
  | .base b => LinearBase b
  | .bin .add l r => LinearExpr l ∧ LinearExpr r
  | .bin .sub l r => LinearExpr l ∧ LinearExpr r
  | .bin .mul l r => LinearExpr l ∧ LinearExpr r ∧ (l.np = 0 ∨ r.np = 0)
  | .bin .div l r => LinearExpr l ∧ LinearExpr r ∧ r.np = 0
  | .bin .pip _ _ => False

/-- What the sum of weighted squares is: with the result of the model itself. -/
def chi (res : ℝ → List ℝ → Option ℝ) (np : ℕ) (d : Data ℝ) (p : ℕ → ℝ) : ℝ :=
  ∑ i ∈ range d.n, (d.y i - (res (d.x i) (vec np p)).getD 0) ^ 2 * d.fitWgts i

/-! ## Lists -/

theorem vec_length (n : ℕ) (p : ℕ → ℝ) : (vec n p).length = n := by simp [vec]

theorem vec_take (a b : ℕ) (p : ℕ → ℝ) : (vec (a + b) p).take a = vec a p := by
  apply List.ext_getElem
  · simp [vec]
  · intro i h1 h2; simp [vec]

theorem vec_drop (a b : ℕ) (p : ℕ → ℝ) : (vec (a + b) p).drop a = vec b fun l => p (a + l) := by
  apply List.ext_getElem
  · simp [vec]
  · intro i h1 h2; simp [vec]

theorem vec_congr (n : ℕ) (p q : ℕ → ℝ) (h : ∀ k < n, p k = q k) : vec n p = vec n q :=
  List.map_congr_left fun k hk => h k (List.mem_range.1 hk)

theorem vec_join (a b : ℕ) (f g : ℕ → ℝ) :
    vec a f ++ vec b g = vec (a + b) fun k => if k < a then f k else g (k - a) := by
  apply List.ext_getElem
  · simp [vec]
  · intro i h1 h2
    rw [List.getElem_append]
    by_cases h : i < a
    · simp [vec, h]
    · simp [vec, h]

theorem sum_join (a b : ℕ) (p f g : ℕ → ℝ) :
    ∑ k ∈ range (a + b), p k * (if k < a then f k else g (k - a))
      = ∑ k ∈ range a, p k * f k + ∑ k ∈ range b, p (a + k) * g k := by
  rw [sum_range_add]
  congr 1
  · exact sum_congr rfl fun k hk => by rw [if_pos (mem_range.1 hk)]
  · exact sum_congr rfl fun k _ => by rw [if_neg (by omega), Nat.add_sub_cancel_left]

theorem pipeOK_of_linear (e : Expr ℝ) : LinearExpr e → ∀ f, PipeOK f e := by
  induction e with
  | base b => intro _ f; trivial
  | bin o l r ihl ihr =>
    intro h f
    cases o <;> (try exact h.elim) <;>
    · simp only [LinearExpr] at h
      cases r <;> exact ⟨ihl h.1 _, ihr (by tauto) _⟩

theorem not_fresh (e : Expr ℝ) (h : LinearExpr e) : ¬ FreshPipe e := by
  cases e with
  | base b => exact fun h => h
  | bin o l r => cases o <;> first | exact h.elim | (cases r <;> exact fun h => h)

/-- The partials of the compound in terms of those of its operands. -/
theorem partials_bin (o : Bin) (l r : Expr ℝ) (x : ℝ) (p Dl Dr : List ℝ) (hp : p.length = l.np + r.np)
    (ho : o ≠ .pip) (hok : PipeOK false l) (h1 : l.build.copy.partials x (p.take l.np) = some Dl)
    (h3 : r.build.copy.partials x (p.drop l.np) = some Dr) :
    (Expr.bin o l r).build.copy.partials x p
      = joinPartial o.op false (some (l.value x (p.take l.np))) (some (r.value x (p.drop l.np)))
          (r.build.copy.derivative (l.value x (p.take l.np)) (p.drop l.np)) (some Dl) Dr := by
  have hl : (p.take l.np).length = l.np := by simp [hp]
  have hr : (p.drop l.np).length = r.np := by simp [hp]
  have hloose := loose_of_pipeOK l hok
  have e1 : l.build.copy.recPartial x p 0 none none = some Dl := by
    rw [← h1, Chain.partials]
    have := recPartial_take l.build.copy x p 0 none none hloose
    rw [Chain.copy_np, build_np, Nat.zero_add] at this
    exact this.symm
  have e2 : l.build.copy.recResult x p none = some (l.value x (p.take l.np)) := by
    rw [← (C17_result l x _ hl).2, Chain.result, Chain.copy_recResult]
    conv_rhs => rw [← build_np l]
    rw [recResult_take]
  have e3 : (p.drop l.np).take r.np = p.drop l.np := List.take_of_length_le (by omega)
  have e4 : (rnode (decide (o = .pip)) r).result x (p.drop l.np)
      = some (r.value x (p.drop l.np)) := by
    rw [rnode_result, (C17_result r x _ hr).2]
  rw [copy_build, Chain.partials, snoc_recPartial _ _ _ _ _ _ _ _ hloose, e1]
  simp only [List.drop_zero, Nat.zero_add]
  rw [e2, Chain.copy_np, build_np, rnode_np, e3, e4, rnode_piped]
  have : (if o.op ≠ Op.pip then some x else some (l.value x (p.take l.np))) = some x := by
    cases o <;> simp [Bin.op] at ho ⊢
  rw [this]
  simp only [Option.bind_some]
  rw [rnode_partials _ _ _ _ hr, h3, rnode_derivative]
  simp [ho]

/-! ## Compound models -/

/-- The same for the value of an expression and the partials of a copy. -/
def LinearAs (e : Expr ℝ) (m : Lin ℝ) : Prop :=
  m.np = e.np ∧ ∀ (x : ℝ) (p : ℕ → ℝ),
    e.value x (vec e.np p) = m.off x + ∑ k ∈ range e.np, p k * m.part x k ∧
    e.build.copy.partials x (vec e.np p) = some (vec e.np (m.part x))

theorem linear_copy (e : Expr ℝ) : LinearExpr e → ∃ m, LinearAs e m := by
  induction e with
  | base b =>
    rintro ⟨m, h1, h2⟩
    refine ⟨m, h1, fun x p => ⟨Option.some.inj (h2 x p).1, ?_⟩⟩
    have : (vec b.np p).take b.np = vec b.np p := List.take_of_length_le (by simp [vec])
    show (Expr.base b).build.copy.partials x (vec b.np p) = some (vec b.np (m.part x))
    rw [← (h2 x p).2]
    simp [Expr.build, Chain.copy, Node.copy, Chain.partials, Chain.recPartial, joinPartial,
        Node.partials, Node.np, this]
  | bin o l r ihl ihr =>
    intro h
    have hop : o ≠ .pip := by rintro rfl; exact h
    have hok : PipeOK false l := by
      refine pipeOK_of_linear l ?_ _
      cases o <;> first | exact h.elim | exact h.1
    obtain ⟨ml, l1, l2⟩ := ihl (by cases o <;> first | exact h.elim | exact h.1)
    obtain ⟨mr, r1, r2⟩ := ihr (by
      cases o <;> first | exact h.elim | exact h.2 | exact h.2.1)
    have hlen : ∀ p : ℕ → ℝ, (vec (l.np + r.np) p).length = l.np + r.np := vec_length _
    have hpart : ∀ (x : ℝ) (p : ℕ → ℝ), (Expr.bin o l r).build.copy.partials x (vec (l.np + r.np) p)
        = joinPartial o.op false (some (l.value x (vec l.np p)))
          (some (r.value x (vec r.np fun k => p (l.np + k))))
          (r.build.copy.derivative (l.value x (vec l.np p)) (vec r.np fun k => p (l.np + k)))
          (some (vec l.np (ml.part x))) (vec r.np (mr.part x)) := by
      intro x p
      have := partials_bin o l r x (vec (l.np + r.np) p) (vec l.np (ml.part x)) (vec r.np (mr.part x))
        (hlen p) hop hok (by rw [vec_take]; exact (l2 x p).2) (by rw [vec_drop]; exact (r2 x _).2)
      rw [vec_take, vec_drop] at this
      exact this
    have hmap : ∀ (n : ℕ) (f : ℕ → ℝ) (g : ℝ → ℝ), (vec n f).map g = vec n fun k => g (f k) := by
      intro n f g; simp [vec, Function.comp_def]
    have hneg : ∀ (n : ℕ) (q f : ℕ → ℝ),
        ∑ k ∈ range n, q k * -f k = -∑ k ∈ range n, q k * f k := by
      intro n q f; rw [← sum_neg_distrib]; exact sum_congr rfl fun k _ => by ring
    have hscale : ∀ (n : ℕ) (q f : ℕ → ℝ) (c : ℝ),
        ∑ k ∈ range n, q k * (f k * c) = (∑ k ∈ range n, q k * f k) * c := by
      intro n q f c; rw [sum_mul]; exact sum_congr rfl fun k _ => by ring
    cases o
    case pip => exact h.elim
    case add =>
      refine ⟨⟨l.np + r.np, fun x => ml.off x + mr.off x,
        fun x k => if k < l.np then ml.part x k else mr.part x (k - l.np)⟩, rfl, fun x p => ⟨?_, ?_⟩⟩
      · show l.value x ((vec (l.np + r.np) p).take l.np) + r.value x ((vec (l.np + r.np) p).drop l.np)
          = _ + ∑ k ∈ range (l.np + r.np), p k * (if k < l.np then _ else _)
        rw [vec_take, vec_drop, (l2 x p).1, (r2 x _).1, sum_join]
        ring
      · show (Expr.bin .add l r).build.copy.partials x (vec (l.np + r.np) p) = _
        rw [hpart]
        simp only [joinPartial, Bin.op, Option.getD_some, vec_join]
        rfl
    case sub =>
      refine ⟨⟨l.np + r.np, fun x => ml.off x - mr.off x,
        fun x k => if k < l.np then ml.part x k else - mr.part x (k - l.np)⟩, rfl, fun x p => ⟨?_, ?_⟩⟩
      · show l.value x ((vec (l.np + r.np) p).take l.np) - r.value x ((vec (l.np + r.np) p).drop l.np)
          = _ + ∑ k ∈ range (l.np + r.np), p k * (if k < l.np then _ else _)
        rw [vec_take, vec_drop, (l2 x p).1, (r2 x _).1,
          sum_join l.np r.np p (ml.part x) (fun k => - mr.part x k), hneg]
        ring
      · show (Expr.bin .sub l r).build.copy.partials x (vec (l.np + r.np) p) = _
        rw [hpart]
        simp only [joinPartial, Bin.op, Option.getD_some, hmap, vec_join]
        rfl
    case mul =>
      have hl0 : ∀ (x : ℝ) (p : ℕ → ℝ), l.np = 0 → l.value x (vec l.np p) = ml.off x := by
        intro x p h0; rw [(l2 x p).1, h0]; simp
      have hr0 : ∀ (x : ℝ) (p : ℕ → ℝ), r.np = 0 → r.value x (vec r.np p) = mr.off x := by
        intro x p h0; rw [(r2 x p).1, h0]; simp
      refine ⟨⟨l.np + r.np, fun x => ml.off x * mr.off x, fun x k =>
        if k < l.np then ml.part x k * mr.off x else mr.part x (k - l.np) * ml.off x⟩, rfl,
        fun x p => ⟨?_, ?_⟩⟩
      · show l.value x ((vec (l.np + r.np) p).take l.np) * r.value x ((vec (l.np + r.np) p).drop l.np)
          = _ + ∑ k ∈ range (l.np + r.np), p k * (if k < l.np then _ else _)
        rw [vec_take, vec_drop, sum_join l.np r.np p (fun k => ml.part x k * mr.off x)
          (fun k => mr.part x k * ml.off x), hscale, hscale r.np (fun k => p (l.np + k))]
        rcases h.2.2 with h0 | h0
        · rw [hl0 x p h0, (r2 x _).1, h0]
          simp; ring
        · rw [hr0 x _ h0, (l2 x _).1, h0]
          simp; ring
      · show (Expr.bin .mul l r).build.copy.partials x (vec (l.np + r.np) p) = _
        rw [hpart]
        simp only [joinPartial, Bin.op, hmap, vec_join, Option.bind_eq_bind, Option.bind_some]
        congr 1
        apply vec_congr
        intro k hk
        show _ = if k < l.np then _ else _
        by_cases hkl : k < l.np
        · rw [if_pos hkl, if_pos hkl, hr0 x _ (by rcases h.2.2 with h0 | h0 <;> omega)]
        · rw [if_neg hkl, if_neg hkl,
            hl0 x _ (by change k < l.np + r.np at hk; rcases h.2.2 with h0 | h0 <;> omega)]
    case div =>
      have h0 : r.np = 0 := h.2.2
      have hr0 : ∀ (x : ℝ) (p : ℕ → ℝ), r.value x (vec r.np p) = mr.off x := by
        intro x p; rw [(r2 x p).1, h0]; simp
      refine ⟨⟨l.np + r.np, fun x => ml.off x / mr.off x, fun x k => ml.part x k / mr.off x⟩, rfl,
        fun x p => ⟨?_, ?_⟩⟩
      · show l.value x ((vec (l.np + r.np) p).take l.np) / r.value x ((vec (l.np + r.np) p).drop l.np)
          = ml.off x / mr.off x + ∑ k ∈ range (l.np + r.np), p k * (ml.part x k / mr.off x)
        rw [vec_take, vec_drop, hr0, (l2 x p).1, h0, Nat.add_zero, add_div, sum_div]
        congr 1
        exact sum_congr rfl fun k _ => by ring
      · show (Expr.bin .div l r).build.copy.partials x (vec (l.np + r.np) p) = _
        rw [hpart]
        simp only [joinPartial, Bin.op, hmap, vec_join, Option.bind_eq_bind, Option.bind_some]
        congr 1
        apply vec_congr
        intro k hk
        change k < l.np + r.np at hk
        rw [if_pos (by omega), hr0]

/-- A compound of linear models, with sums and differences and with products by and quotients by models
without parameters, is linear: for all parameters its result is an offset plus the inner product of the
parameters with its partials, which do not depend on the parameters. -/
theorem C128_compound (e : Expr ℝ) (h : LinearExpr e) :
    ∃ m, IsLinear e.build.np e.build.result e.build.partials m := by
  obtain ⟨m, h1, h2⟩ := linear_copy e h
  refine ⟨m, by rw [build_np, h1], fun x p => ?_⟩
  rw [build_np]
  refine ⟨?_, ?_⟩
  · rw [(C17_result e x (vec e.np p) (vec_length _ _)).2, (h2 x p).1]
  · rw [← (h2 x p).2, ← build_eq_copy e (not_fresh e h)]

/-! ## The linear fitter -/

/-- For whatever model that is linear in its parameters the linear fitter, which finds the partials and
the offset at the parameters that the model happens to have, returns parameters for which the weighted sum
of squares is as small as it can be. -/
theorem C128_fit (np : ℕ) (res : ℝ → List ℝ → Option ℝ) (par : ℝ → List ℝ → Option (List ℝ))
    (m : Lin ℝ) (hm : IsLinear np res par m)
    (solve : ℕ → (ℕ → ℕ → ℝ) → (ℕ → ℝ) → Option (ℕ → ℝ)) (hsolve : SolveSpec solve)
    (d : Data ℝ) (hd : d.Good) (s s' : Fitter) (hi : s.fitIndex = none) (hn : s.nnorm = 0)
    (h : fit solve m d s none = some s') (q : ℕ → ℝ) :
    chi res np d s'.params ≤ chi res np d q := by
  have key : ∀ p, chi res np d p = chiTotal m d s p := by
    intro p
    unfold chi chiTotal chiSquared
    rw [hn, range_zero, sum_empty, add_zero]
    refine sum_congr rfl fun i _ => ?_
    rw [(hm.2 (d.x i) p).1, Option.getD_some, Lin.result, hm.1]
  rw [key, key]
  exact C30_all solve hsolve m d hd s s' hi (by rw [hn]; simp) h q

/-- The offset is the result with all parameters zero, and the partials are those at any parameters; so
there is only one way in which a model is linear. -/
theorem linear_unique (np : ℕ) (res : ℝ → List ℝ → Option ℝ) (par : ℝ → List ℝ → Option (List ℝ))
    (m : Lin ℝ) (hm : IsLinear np res par m) (x : ℝ) :
    res x (vec np fun _ => 0) = some (m.off x) ∧ ∀ p, par x (vec np p) = some (vec np (m.part x)) := by
  refine ⟨?_, fun p => (hm.2 x p).2⟩
  rw [(hm.2 x fun _ => 0).1]
  simp

/-! ## Products -/

/-- The product of two linear models that both have a parameter that matters at some point, is not linear,
whatever else they are. -/
theorem C128_product (l r : Expr ℝ) (ml mr : Lin ℝ)
    (hl : IsLinear l.build.np l.build.result l.build.partials ml)
    (hr : IsLinear r.build.np r.build.result r.build.partials mr) (x : ℝ) (i j : ℕ)
    (hi : i < l.np) (hj : j < r.np) (gi : ml.part x i ≠ 0) (gj : mr.part x j ≠ 0) :
    ¬ ∃ m, IsLinear (Expr.bin .mul l r).build.np (Expr.bin .mul l r).build.result
      (Expr.bin .mul l r).build.partials m := by
  rintro ⟨m, -, h⟩
  rw [build_np] at h
  have hv : ∀ p : ℕ → ℝ, (ml.off x + ∑ k ∈ range l.np, p k * ml.part x k)
      * (mr.off x + ∑ k ∈ range r.np, p (l.np + k) * mr.part x k)
      = m.off x + ∑ k ∈ range (l.np + r.np), p k * m.part x k := by
    intro p
    have h1 := (h x p).1
    rw [(C17_result _ x (vec _ p) (vec_length _ _)).2] at h1
    have h2 := Option.some.inj h1
    have h3 := (hl.2 x p).1
    rw [build_np, (C17_result l x _ (vec_length _ _)).2] at h3
    have h4 := (hr.2 x fun k => p (l.np + k)).1
    rw [build_np, (C17_result r x _ (vec_length _ _)).2] at h4
    rw [← Option.some.inj h3, ← Option.some.inj h4]
    rw [← vec_take l.np r.np p, ← vec_drop l.np r.np p]
    exact h2
  have hs : ∀ (n k0 : ℕ) (a : ℝ) (g : ℕ → ℝ), k0 < n →
      ∑ k ∈ range n, (if k = k0 then a else 0) * g k = a * g k0 := by
    intro n k0 a g hk
    simp [ite_mul, sum_ite_eq', hk]
  have hF : ∀ a b : ℝ, (ml.off x + a * ml.part x i) * (mr.off x + b * mr.part x j)
      = m.off x + (a * m.part x i + b * m.part x (l.np + j)) := by
    intro a b
    have := hv fun k => (if k = i then a else 0) + (if k = l.np + j then b else 0)
    have e1 : ∑ k ∈ range l.np, ((if k = i then a else 0) + (if k = l.np + j then b else 0)) * ml.part x k
        = a * ml.part x i := by
      rw [← hs l.np i a _ hi]
      refine sum_congr rfl fun k hk => ?_
      have hk' : ¬ k = l.np + j := by have := mem_range.1 hk; omega
      rw [if_neg hk', add_zero]
    have e2 : ∑ k ∈ range r.np, ((if l.np + k = i then a else 0)
        + (if l.np + k = l.np + j then b else 0)) * mr.part x k = b * mr.part x j := by
      rw [← hs r.np j b _ hj]
      refine sum_congr rfl fun k hk => ?_
      rw [if_neg (by omega), zero_add]
      simp
    have e3 : ∑ k ∈ range (l.np + r.np), ((if k = i then a else 0)
        + (if k = l.np + j then b else 0)) * m.part x k = a * m.part x i + b * m.part x (l.np + j) := by
      simp only [add_mul, sum_add_distrib]
      rw [hs _ i a _ (by omega), hs _ (l.np + j) b _ (by omega)]
    rw [e1, e2, e3] at this
    exact this
  have h11 := hF 1 1
  have h10 := hF 1 0
  have h01 := hF 0 1
  have h00 := hF 0 0
  have : ml.part x i * mr.part x j = 0 := by linarith
  rcases mul_eq_zero.1 this with h | h
  · exact gi h
  · exact gj h

/-! ## Fixed models -/

/-- What replaces a parameter: a constant, or a model that is linear itself. -/
def LinearFix : Fix ℝ → Prop
  | .val _ => True
  | .mdl n res par =>
      ∃ m, IsLinear n (fun x p => some (res x p)) (fun x p => some (par x p)) m

/-- `f` is affine. -/
def Affine (f : (ℕ → ℝ) → ℝ) : Prop := ∃ (c : ℝ) (φ : (ℕ → ℝ) →ₗ[ℝ] ℝ), ∀ p, f p = c + φ p

theorem affine_const (v : ℝ) : Affine fun _ => v := ⟨v, 0, fun p => by simp⟩

theorem affine_coord (k : ℕ) : Affine fun p => p k :=
  ⟨0, LinearMap.proj k, fun p => by simp⟩

theorem affine_sum (n : ℕ) (f : ℕ → (ℕ → ℝ) → ℝ) (g : ℕ → ℝ) (h : ∀ k < n, Affine (f k)) :
    Affine fun p => ∑ k ∈ range n, f k p * g k := by
  induction n with
  | zero => exact ⟨0, 0, fun p => by simp⟩
  | succ n ih =>
    obtain ⟨c, φ, h1⟩ := ih fun k hk => h k (by omega)
    obtain ⟨c', φ', h2⟩ := h n (by omega)
    refine ⟨c + g n * c', φ + g n • φ', fun p => ?_⟩
    show ∑ k ∈ range (n + 1), f k p * g k = _
    have := h1 p
    simp only at this
    rw [sum_range_succ, this, h2 p]
    simp; ring

/-- A linear model of which parameters are fixed, with constants or with linear models, is linear in the
parameters that it is left with. -/
theorem C128_fixed (n : ℕ) (ks : List ℕ) (F : ℕ → Fix ℝ) (h : ∀ i ∈ ks, i < n) (hnd : ks.Nodup)
    (hF : ∀ i, LinearFix (F i)) (g : ℝ → ℕ → ℝ) (R : ℝ → List ℝ → ℝ)
    (hR : ∀ x p, R x (vec n p) = ∑ i ∈ range n, p i * g x i) :
    ∃ m, IsLinear (fm n ks F).npbase (fun x p => (fm n ks F).result (R x) x p)
      (fun x p => (fm n ks F).partials (fun _ i => g x i) x p) m := by
  have hpar : ∀ i m res par, F i = .mdl m res par → ∀ y l, l.length = m → (par y l).length = m := by
    intro i m res par hi y l hl
    have := hF i
    rw [hi] at this
    obtain ⟨ml, -, h2⟩ := this
    have hv : l = vec m fun k => l.getD k 0 := by
      apply List.ext_getElem
      · simp [vec, hl]
      · intro j h1 h2
        simp [vec, h1]
    rw [hv, Option.some.inj (h2 y fun k => l.getD k 0).2, vec_length]
  have hnp : (fm n ks F).npbase = total n ks F := (C22_result n ks F h hnd (R 0) 0 fun _ => 0).1
  rw [hnp]
  set T := total n ks F with hT
  have hres : ∀ x (p : ℕ → ℝ), (fm n ks F).result (R x) x (vec T p)
      = some (∑ i ∈ range n, fullPar n ks F x p i * g x i) := by
    intro x p
    have := (C22_result n ks F h hnd (R x) x p).2
    rw [← hR x]
    exact this
  -- the result is affine
  have haff : ∀ x, Affine fun p => ∑ i ∈ range n, fullPar n ks F x p i * g x i := by
    intro x
    refine affine_sum n _ _ fun i hi => ?_
    unfold fullPar
    by_cases hik : i ∈ ks
    · simp only [if_pos hik]
      have hFi := hF i
      cases hv : F i with
      | val v => exact affine_const v
      | mdl m res par =>
        rw [hv] at hFi
        obtain ⟨ml, -, h2⟩ := hFi
        obtain ⟨c, φ, h3⟩ := affine_sum m (fun l p => p (off n ks F i + l)) (fun k => ml.part x k)
          fun l _ => affine_coord _
        refine ⟨ml.off x + c, φ, fun p => ?_⟩
        have := Option.some.inj (h2 x fun l => p (off n ks F i + l)).1
        have h3' := h3 p
        simp only at h3'
        rw [add_assoc, ← h3']
        exact this
    · simp only [if_neg hik]
      exact affine_coord _
  choose c φ hcφ using haff
  -- it depends on the first parameters only
  have hdep : ∀ x (p q : ℕ → ℝ), (∀ k < T, p k = q k) → φ x p = φ x q := by
    intro x p q hpq
    have h1 := hres x p
    rw [vec_congr T p q hpq, hres x q] at h1
    have h2 := Option.some.inj h1
    have e1 := hcφ x p
    have e2 := hcφ x q
    simp only at e1 e2
    rw [e1, e2] at h2
    linarith
  have hφ : ∀ x (p : ℕ → ℝ), φ x p = ∑ k ∈ range T, p k * φ x (Pi.single k 1) := by
    intro x p
    rw [hdep x p (∑ k ∈ range T, p k • Pi.single (M := fun _ => ℝ) k 1)]
    · rw [map_sum]
      exact sum_congr rfl fun k _ => by rw [map_smul, smul_eq_mul]
    · intro k hk
      rw [Finset.sum_apply, sum_eq_single k]
      · simp
      · intro b _ hb; simp [Pi.single_apply, Ne.symm hb]
      · intro hk'; exact absurd (mem_range.2 hk) hk'
  refine ⟨⟨T, c, fun x k => φ x (Pi.single k 1)⟩, rfl, fun x p => ⟨?_, ?_⟩⟩
  · show (fm n ks F).result (R x) x (vec T p) = some (c x + ∑ k ∈ range T, p k * φ x (Pi.single k 1))
    rw [hres, ← hφ, ← hcφ]
  · -- the partials are the derivatives
    obtain ⟨part, h1, h2, -, -⟩ := C22_partials n ks F h hnd hpar (fun _ i => g x i) x p
    show (fm n ks F).partials (fun _ i => g x i) x (vec T p) = some (vec T fun k => φ x (Pi.single k 1))
    have h1' : (fm n ks F).partials (fun _ i => g x i) x (vec T p) = some part := h1
    rw [h1']
    congr 1
    apply List.ext_getElem
    · rw [h2, vec_length]
    · intro k hk1 hk2
      have hk : k < T := by rw [vec_length] at hk2; exact hk2
      have hRf : HasFDerivAt (fun q : Fin n → ℝ => R x (List.ofFn q))
          (∑ i : Fin n, (fun (_ : List ℝ) i => g x i) (full n ks F x p) i
            • ContinuousLinearMap.proj (R := ℝ) (φ := fun _ : Fin n => ℝ) i)
          (fun i => fullPar n ks F x p i) := by
        have e : (fun q : Fin n → ℝ => R x (List.ofFn q))
            = ⇑(∑ i : Fin n, g x i • ContinuousLinearMap.proj (R := ℝ) (φ := fun _ : Fin n => ℝ) i) := by
          funext q
          have hl : List.ofFn q = vec n fun k => if hk : k < n then q ⟨k, hk⟩ else 0 := by
            apply List.ext_getElem
            · simp [vec]
            · intro i h1 h2
              have : i < n := by simpa using h1
              simp [vec, this]
          rw [hl, hR, sum_range]
          simp [mul_comm]
        rw [e]
        exact ContinuousLinearMap.hasFDerivAt _
      obtain ⟨der, value, d1, d2, d3⟩ := C22_partials_true n ks F h hnd hpar (R x) (fun _ i => g x i) x p
        hRf (by
          intro i hi m res par hFi l gg hl hgg
          have := hF i
          rw [hFi] at this
          obtain ⟨ml, -, h2'⟩ := this
          have e2 := Option.some.inj (h2' x fun l => p (off n ks F i + l)).2
          have e2' : par x ((List.range m).map fun l => p (off n ks F i + l)) = vec m (ml.part x) := e2
          rw [e2', vec, List.getElem?_map, List.getElem?_range hl] at hgg
          have hgg' : ml.part x l = gg := by simpa using hgg
          have e3 : ∀ t, res x (((List.range m).map fun l => p (off n ks F i + l)).set l t)
              = ml.off x + ∑ k ∈ range m, Function.update (fun l => p (off n ks F i + l)) l t k
                  * ml.part x k := by
            intro t
            rw [set_map_range]
            exact Option.some.inj (h2' x _).1
          simp only [e3]
          have e4 : ∀ t, ml.off x + ∑ k ∈ range m, Function.update (fun l => p (off n ks F i + l)) l t k
                  * ml.part x k = (ml.off x + ∑ k ∈ (range m).erase l, p (off n ks F i + k) * ml.part x k)
                    + t * gg := by
            intro t
            rw [← add_sum_erase _ _ (mem_range.2 hl), Function.update_self, ← hgg',
              sum_congr rfl fun k hk => by
                rw [Function.update_of_ne (ne_of_mem_erase hk)]]
            ring
          simp only [e4]
          have hd := ((hasDerivAt_id (p (off n ks F i + l))).mul_const gg).const_add
            (ml.off x + ∑ k ∈ (range m).erase l, p (off n ks F i + k) * ml.part x k)
          rw [one_mul] at hd
          exact hd)
        k hk
      have d1' : part[k]? = some der := by
        have : (some part).bind (fun l => l[k]?) = some der := by rw [← h1]; exact d1
        simpa using this
      have hv : ∀ t, value t = c x + φ x (Function.update p k t) := by
        intro t
        have := d2 t
        rw [set_map_range] at this
        have h4 := hres x (Function.update p k t)
        have h5 : some (value t) = some (∑ i ∈ range n, fullPar n ks F x (Function.update p k t) i * g x i) := by
          rw [← h4, ← this]; rfl
        rw [Option.some.inj h5, ← hcφ]
      have hup : ∀ t, Function.update p k t = p + (t - p k) • Pi.single (M := fun _ => ℝ) k 1 := by
        intro t
        funext j
        by_cases hj : j = k
        · subst hj; simp
        · simp [Function.update_of_ne hj, Pi.single_apply, hj]
      have hv' : value = fun t => (c x + φ x p - p k * φ x (Pi.single k 1)) + t * φ x (Pi.single k 1) := by
        funext t
        rw [hv, hup, map_add, map_smul, smul_eq_mul]
        ring
      have hd : HasDerivAt value (φ x (Pi.single k 1)) (p k) := by
        rw [hv']
        simpa using ((hasDerivAt_id (p k)).mul_const (φ x (Pi.single k 1))).const_add
          (c x + φ x p - p k * φ x (Pi.single k 1))
      have := d3.unique hd
      rw [List.getElem?_eq_getElem hk1] at d1'
      rw [Option.some.inj d1', this]
      simp [vec]

/-! ## Polynomials of polynomials -/

/-- The result and the partials of `PolynomialModel( 1, fixed={1:pm} )`, `n` times, starting with
`PolynomialModel( 1 )`, as in the manual (`docs/manual.md` 266-270). -/
def nested : ℕ → (ℝ → List ℝ → ℝ) × (ℝ → List ℝ → List ℝ)
  | 0 => (fun x p => p.getD 0 0 + p.getD 1 0 * x, fun x _ => [1, x])
  | n + 1 =>
    let f : FM ℝ := fm 2 [1] fun _ => .mdl (n + 2) (nested n).1 (nested n).2
    (fun x p => (f.result (fun q => q.getD 0 0 + q.getD 1 0 * x) x p).getD 0,
      fun x p => (f.partials (fun _ i => if i = 0 then 1 else x) x p).getD [])

/-- The series of models is the series of polynomials: of degree one more each time, with the parameters in
order of the powers. It is linear, though a parameter is replaced by a model. -/
theorem C128_nested (n : ℕ) :
    IsLinear (n + 2) (fun x p => some ((nested n).1 x p)) (fun x p => some ((nested n).2 x p))
      ⟨n + 2, fun _ => 0, fun x k => x ^ k⟩ := by
  induction n with
  | zero =>
    refine ⟨rfl, fun x p => ⟨?_, ?_⟩⟩
    · simp [nested, vec, List.range_succ, sum_range_succ]
    · simp [nested, vec, List.range_succ]
  | succ n ih =>
    set F : ℕ → Fix ℝ := fun _ => .mdl (n + 2) (nested n).1 (nested n).2 with hF
    have hin : ∀ i ∈ [1], i < 2 := by simp
    have hnd : [1].Nodup := by simp
    have hT : total 2 [1] F = n + 3 := by simp [total, extra, hF, Fix.np]; omega
    have hoff : off 2 [1] F 1 = 1 := by simp [off, extra]
    have hrank : rank [1] 0 = 0 := by simp [rank]
    have hfull : ∀ (x : ℝ) (p : ℕ → ℝ), full 2 [1] F x p
        = [p 0, ∑ k ∈ range (n + 2), p (1 + k) * x ^ k] := by
      intro x p
      have h1 := Option.some.inj (ih.2 x fun l => p (1 + l)).1
      rw [zero_add] at h1
      show [fullPar 2 [1] F x p 0, fullPar 2 [1] F x p 1] = _
      have e0 : fullPar 2 [1] F x p 0 = p 0 := by
        rw [fullPar, if_neg (by simp), hrank]
      have e1 : fullPar 2 [1] F x p 1 = (nested n).1 x (vec (n + 2) fun l => p (1 + l)) := by
        rw [fullPar, if_pos (by simp), hoff]
        rfl
      rw [e0, e1, h1]
    refine ⟨rfl, fun x p => ⟨?_, ?_⟩⟩
    · have h1 := (C22_result 2 [1] F hin hnd (fun q => q.getD 0 0 + q.getD 1 0 * x) x p).2
      rw [hT, hfull] at h1
      have h2 : (nested (n + 1)).1 x (vec (n + 3) p) = p 0
          + (∑ k ∈ range (n + 2), p (1 + k) * x ^ k) * x := by
        show (((fm 2 [1] F).result (fun q => q.getD 0 0 + q.getD 1 0 * x) x (vec (n + 3) p)).getD 0) = _
        have : vec (n + 3) p = (List.range (n + 3)).map p := rfl
        rw [this, h1]
        simp
      show some ((nested (n + 1)).1 x (vec (n + 3) p)) = some (0 + ∑ k ∈ range (n + 3), p k * x ^ k)
      rw [h2, sum_range_succ' _ (n + 2), sum_mul, zero_add, add_comm]
      congr 2
      · exact sum_congr rfl fun k _ => by rw [pow_succ, add_comm 1 k]; ring
      · simp
    · have hpar : ∀ i m res par, F i = .mdl m res par → ∀ y l, l.length = m → (par y l).length = m := by
        intro i m res par hi y l hl
        simp only [hF, Fix.mdl.injEq] at hi
        obtain ⟨rfl, rfl, rfl⟩ := hi
        have hv : l = vec (n + 2) fun k => l.getD k 0 := by
          apply List.ext_getElem
          · simp [vec, hl]
          · intro j h1 h2
            simp [vec, h1]
        rw [hv, Option.some.inj (ih.2 y fun k => l.getD k 0).2, vec_length]
      obtain ⟨part, g1, g2, g3, g4⟩ := C22_partials 2 [1] F hin hnd hpar
        (fun _ i => if i = 0 then 1 else x) x p
      rw [hT] at g1 g2
      have e1 : (nested (n + 1)).2 x (vec (n + 3) p) = part := by
        show ((fm 2 [1] F).partials (fun _ i => if i = 0 then 1 else x) x (vec (n + 3) p)).getD [] = _
        have : vec (n + 3) p = (List.range (n + 3)).map p := rfl
        rw [this, g1]
        rfl
      show some ((nested (n + 1)).2 x (vec (n + 3) p)) = some (vec (n + 3) fun k => x ^ k)
      rw [e1]
      congr 1
      apply List.ext_getElem?
      intro k
      by_cases hk : k < n + 3
      · have hv : (vec (n + 3) fun k => x ^ k)[k]? = some (x ^ k) := by
          simp [vec, hk]
        rw [hv]
        cases k with
        | zero =>
          have := g3 0 (by omega) (by simp)
          rw [hrank] at this
          rw [this]
          simp
        | succ k =>
          have hsub : subPar 2 [1] F x p 1 = vec (n + 2) fun k => x ^ k := by
            unfold subPar
            rw [hoff]
            exact Option.some.inj (ih.2 x fun l => p (1 + l)).2
          have := g4 1 (by simp) k (x ^ k) (by
            rw [hsub, vec, List.getElem?_map, List.getElem?_range (by omega)]; rfl)
          rw [hoff, add_comm 1 k] at this
          rw [this, if_neg (by omega), pow_succ, mul_comm]
      · rw [List.getElem?_eq_none (by omega), List.getElem?_eq_none (by rw [vec_length]; omega)]

/-- The fit of such a series is the fit of the polynomial: no polynomial of the degree has a smaller sum of
squares. -/
theorem C128_nested_fit (n : ℕ) (solve : ℕ → (ℕ → ℕ → ℝ) → (ℕ → ℝ) → Option (ℕ → ℝ))
    (hsolve : SolveSpec solve) (d : Data ℝ) (hd : d.Good) (s s' : Fitter) (hi : s.fitIndex = none)
    (hn : s.nnorm = 0)
    (h : fit solve ⟨n + 2, fun _ => 0, fun x k => x ^ k⟩ d s none = some s') (q : ℕ → ℝ) :
    ∑ i ∈ range d.n, (d.y i - (nested n).1 (d.x i) (vec (n + 2) s'.params)) ^ 2 * d.fitWgts i
      ≤ ∑ i ∈ range d.n, (d.y i - ∑ k ∈ range (n + 2), q k * d.x i ^ k) ^ 2 * d.fitWgts i := by
  have h1 := C128_fit (n + 2) _ _ _ (C128_nested n) solve hsolve d hd s s' hi hn h q
  unfold chi at h1
  simp only [Option.getD_some] at h1
  refine h1.trans (le_of_eq (sum_congr rfl fun i _ => ?_))
  have := Option.some.inj ((C128_nested n).2 (d.x i) q).1
  rw [this, zero_add]

/-! ## Examples -/

/-- `PolynomialModel( 1 )`. -/
def straight : Base ℝ :=
  ⟨2, false, fun p x => p.getD 0 0 + p.getD 1 0 * x, fun _ x => [1, x], fun p _ => p.getD 1 0⟩

/-- A model without parameters: `PowerModel( 2, fixed={0:1} )`. -/
def square : Base ℝ := ⟨0, true, fun _ x => x ^ 2, fun _ _ => [], fun _ x => 2 * x⟩

theorem straight_linear : LinearBase straight :=
  ⟨⟨2, fun _ => 0, fun x k => x ^ k⟩, rfl, fun x p =>
    ⟨by simp [straight, vec, List.range_succ, sum_range_succ],
      by simp [straight, vec, List.range_succ]⟩⟩

theorem square_linear : LinearBase square :=
  ⟨⟨0, fun x => x ^ 2, fun _ _ => 0⟩, rfl, fun x p => ⟨by simp [square], by simp [square, vec]⟩⟩

/-- `PM( 1 ) - square * ( PM( 1 ) + square )`: a linear model of four parameters with an offset. -/
example : LinearExpr (.bin .sub (.base straight)
    (.bin .mul (.base square) (.bin .add (.base straight) (.base square)))) :=
  ⟨straight_linear, square_linear, ⟨straight_linear, square_linear⟩, Or.inl rfl⟩

/-- `PM( 1 ) * PM( 1 )` is not linear. -/
example : ¬ ∃ m, IsLinear (Expr.bin .mul (.base straight) (.base straight)).build.np
    (Expr.bin .mul (.base straight) (.base straight)).build.result
    (Expr.bin .mul (.base straight) (.base straight)).build.partials m := by
  have hs : IsLinear (Expr.base straight).build.np (Expr.base straight).build.result
      (Expr.base straight).build.partials ⟨2, fun _ => 0, fun x k => x ^ k⟩ := by
    refine ⟨rfl, fun x p => ⟨?_, ?_⟩⟩
    · simp [Expr.build, Chain.np, Node.np, Chain.result, Chain.recResult, operate, Node.result, straight,
        vec, List.range_succ, sum_range_succ]
    · simp [Expr.build, Chain.np, Node.np, Chain.partials, Chain.recPartial, joinPartial, Node.partials,
        straight, vec, List.range_succ]
  exact C128_product _ _ _ _ hs hs 1 0 0 (by simp [Expr.np, straight]) (by simp [Expr.np, straight])
    (by simp) (by simp)

/-- The dictionary `{0:3, 2:PolynomialModel( 1 )}`. -/
def someFix (i : ℕ) : Fix ℝ :=
  if i = 0 then .val 3 else .mdl 2 (fun x p => p.getD 0 0 + p.getD 1 0 * x) (fun x _ => [1, x])

/-- `PolynomialModel( 2, fixed={0:3, 2:PolynomialModel( 1 )} )` is linear. -/
example : ∃ m, IsLinear (fm 3 [0, 2] someFix).npbase
    (fun x p => (fm 3 [0, 2] someFix).result (fun q => ∑ k ∈ range 3, q.getD k 0 * x ^ k) x p)
    (fun x p => (fm 3 [0, 2] someFix).partials (fun _ k => x ^ k) x p) m := by
  refine C128_fixed 3 [0, 2] someFix (by simp) (by simp) ?_ (fun x k => x ^ k)
    (fun x q => ∑ k ∈ range 3, q.getD k 0 * x ^ k) ?_
  · intro i
    unfold someFix
    by_cases hi : i = 0
    · simp only [if_pos hi]; trivial
    · simp only [if_neg hi]
      exact straight_linear
  · intro x p
    refine sum_congr rfl fun k hk => ?_
    have := mem_range.1 hk
    simp [vec, this]

end BF.Linear
