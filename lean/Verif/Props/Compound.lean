import Verif.Compound
import Mathlib.Analysis.Calculus.Deriv.Inv
import Mathlib.Analysis.Calculus.Deriv.Mul
import Mathlib.Analysis.Calculus.Deriv.Comp
import Mathlib.Algebra.Order.Ring.Rat

/-!
# Compound models: results and derivatives (C17, C18, C19, C45)

The specification is `Expr.value`: what a reader of the Python expression expects.
-/

namespace BF.Compound

universe u
variable {K : Type u}

/-! ## Specification -/

/-- The number of parameters of an expression: those of its base models together. -/
def Expr.np : Expr K → ℕ
  | .base b => b.np
  | .bin _ l r => l.np + r.np

/-- The meaning of an expression: the left operand uses the first parameters, the right one the
others; the pipe feeds the value of the left operand into the right one. -/
def Expr.value [Field K] : Expr K → K → List K → K
  | .base b, x, p => b.res p x
  | .bin .add l r, x, p => l.value x (p.take l.np) + r.value x (p.drop l.np)
  | .bin .sub l r, x, p => l.value x (p.take l.np) - r.value x (p.drop l.np)
  | .bin .mul l r, x, p => l.value x (p.take l.np) * r.value x (p.drop l.np)
  | .bin .div l r, x, p => l.value x (p.take l.np) / r.value x (p.drop l.np)
  | .bin .pip l r, x, p => r.value (l.value x (p.take l.np)) (p.drop l.np)

/-! ## Chains -/

theorem snoc_np : ∀ (c : Chain K) (op : Op) (n : Node K), (c.snoc op n).np = c.np + n.np
  | .last o m, op, n => by simp [Chain.snoc, Chain.np]
  | .cons o m c, op, n => by simp [Chain.snoc, Chain.np, snoc_np c op n, Nat.add_assoc]

theorem selectPipe_np (m : Node K) : m.selectPipe.np = m.np := by
  cases m <;> simp [Node.selectPipe, Node.np]

mutual
theorem Node.copy_np : ∀ m : Node K, m.copy.np = m.np
  | .base _ b => by simp [Node.copy, Node.np]
  | .brackets _ c => by simp [Node.copy, Node.np, Chain.copy_np c]
theorem Chain.copy_np : ∀ c : Chain K, c.copy.np = c.np
  | .last op m => by
      simp only [Chain.copy, Chain.np]; split <;> simp [selectPipe_np, Node.copy_np m]
  | .cons op m c => by
      simp only [Chain.copy, Chain.np]
      split <;> simp [selectPipe_np, Node.copy_np m, Chain.copy_np c]
end

theorem copy_selectPipe (m : Node K) : m.selectPipe.copy = m.copy := by
  cases m <;> simp [Node.selectPipe, Node.copy]

mutual
theorem Node.copy_copy : ∀ m : Node K, m.copy.copy = m.copy
  | .base _ b => by simp [Node.copy]
  | .brackets _ c => by simp [Node.copy, Chain.copy_copy c]
theorem Chain.copy_copy : ∀ c : Chain K, c.copy.copy = c.copy
  | .last op m => by
      simp only [Chain.copy]; split <;> simp [copy_selectPipe, Node.copy_copy m]
  | .cons op m c => by
      simp only [Chain.copy]
      split <;> simp [copy_selectPipe, Node.copy_copy m, Chain.copy_copy c]
end

theorem copy_snoc : ∀ (c : Chain K) (op : Op) (n : Node K),
    (c.snoc op n).copy = c.copy.snoc op (if op = .pip then n.copy.selectPipe else n.copy)
  | .last o m, op, n => by simp [Chain.snoc, Chain.copy]
  | .cons o m c, op, n => by simp [Chain.snoc, Chain.copy, copy_snoc c op n]

variable [Field K]

theorem selectPipe_result (m : Node K) : m.selectPipe.result = m.result := by
  funext x p; cases m <;> simp [Node.selectPipe, Node.result]

theorem selectPipe_derivative (m : Node K) : m.selectPipe.derivative = m.derivative := by
  funext x p; cases m <;> simp [Node.selectPipe, Node.derivative]

theorem selectPipe_partials (m : Node K) : m.selectPipe.partials = m.partials := by
  funext x p; cases m <;> simp [Node.selectPipe, Node.partials]

mutual
theorem Node.copy_result : ∀ m : Node K, m.copy.result = m.result
  | .base _ b => by funext x p; simp [Node.copy, Node.result]
  | .brackets _ c => by
      funext x p; simp [Node.copy, Node.result, Chain.copy_recResult c, Chain.copy_np]
theorem Chain.copy_recResult : ∀ c : Chain K, c.copy.recResult = c.recResult
  | .last op m => by
      funext x p r
      simp only [Chain.copy, Chain.recResult]
      by_cases h : op = .pip <;> simp [h, selectPipe_np, selectPipe_result, Node.copy_result m, Node.copy_np]
  | .cons op m c => by
      funext x p r
      simp only [Chain.copy, Chain.recResult]
      by_cases h : op = .pip <;> simp [h, selectPipe_np, selectPipe_result, Node.copy_result m, Node.copy_np,
        Chain.copy_recResult c]
end

/-- A copy of a compound model has the same number of parameters and gives the same result as the
original for each x and each list of parameters. -/
theorem C45_model_copy (c : Chain K) (x : K) (p : List K) :
    c.copy.np = c.np ∧ c.copy.result x p = c.result x p :=
  ⟨c.copy_np, by simp [Chain.result, Chain.copy_recResult]⟩

/-! ### A chain looks at its own parameters only -/

theorem recResult_take : ∀ (c : Chain K) (x : K) (p : List K) (res : Option K),
    c.recResult x (p.take c.np) res = c.recResult x p res
  | .last op m, x, p, res => by simp [Chain.recResult, Chain.np, List.take_take]
  | .cons op m c, x, p, res => by
      simp only [Chain.recResult, Chain.np, List.take_take, Nat.min_eq_left (Nat.le_add_right _ _)]
      rw [← recResult_take c x (p.drop m.np), List.drop_take, Nat.add_sub_cancel_left,
        recResult_take]

theorem snoc_recResult : ∀ (c : Chain K) (op : Op) (n : Node K) (x : K) (p : List K)
    (res : Option K), (c.snoc op n).recResult x p res =
      operate op (c.recResult x p res)
        (if op ≠ .pip then n.result x ((p.drop c.np).take n.np) else none)
        (fun r => n.result r ((p.drop c.np).take n.np))
  | .last o m, op, n, x, p, res => by simp [Chain.snoc, Chain.recResult, Chain.np]
  | .cons o m c, op, n, x, p, res => by
      simp [Chain.snoc, Chain.recResult, Chain.np, snoc_recResult c op n, List.drop_drop]

/-! ### The shape of the chain an expression makes -/

/-- The model that is put behind the chain for the right operand. -/
def rnode (piped : Bool) : Expr K → Node K
  | .base b => .base piped b
  | .bin o l r => .brackets piped (Expr.bin o l r).build.copy

omit [Field K] in
theorem snoc_ne_last (c : Chain K) (op : Op) (n : Node K) : ∃ o m d, c.snoc op n = .cons o m d := by
  cases c <;> simp [Chain.snoc]

omit [Field K] in
theorem append_copy (c : Chain K) (o : Bin) (r : Expr K) :
    c.append o.op r.build.copy
      = c.snoc o.op (match r with
        | .base b => .base (decide (o = .pip)) b
        | .bin _ _ _ => .brackets false (if o = .pip then
            (match r.build.copy with
              | .cons o' m d => .cons o' m.selectPipe d
              | .last o' m => .last o' m) else r.build.copy)) := by
  cases r with
  | base b => cases o <;> simp [Expr.build, Chain.copy, Chain.append, Bin.op, Node.copy, Node.selectPipe]
  | bin o' l r =>
    obtain ⟨a, m, d, h⟩ : ∃ a m d, (Expr.bin o' l r).build.copy = .cons a m d := by
      have : ∃ n, (Expr.bin o' l r).build = l.build.copy.snoc o'.op n := by
        simp only [Expr.build]
        cases r.build.copy <;> simp only [Chain.append] <;> exact ⟨_, rfl⟩
      obtain ⟨n, hn⟩ := this
      rw [hn, copy_snoc]
      exact snoc_ne_last _ _ _
    rw [h]
    cases o <;> simp [Chain.append, Bin.op]

omit [Field K] in
theorem copy_build (o : Bin) (l r : Expr K) :
    (Expr.bin o l r).build.copy = l.build.copy.snoc o.op (rnode (decide (o = .pip)) r) := by
  have hh : (Expr.bin o l r).build = l.build.copy.append o.op r.build.copy := rfl
  rw [hh, append_copy, copy_snoc, Chain.copy_copy]
  congr 1
  cases r with
  | base b => cases o <;> simp [Bin.op, Node.copy, Node.selectPipe, rnode]
  | bin o' l' r' =>
    have h2 : (match (Expr.bin o' l' r').build.copy with
              | .cons o' m d => Chain.cons o' m.selectPipe d
              | .last o' m => .last o' m).copy = (Expr.bin o' l' r').build.copy := by
      cases hc : (Expr.bin o' l' r').build.copy with
      | last a m => simp only; rw [← hc, Chain.copy_copy]
      | cons a m d =>
        have := Chain.copy_copy (Expr.bin o' l' r').build
        rw [hc] at this
        simpa only [Chain.copy, copy_selectPipe] using this
    cases o
    case pip =>
      simp only [Bin.op, if_true, Node.copy]
      rw [h2]
      rfl
    all_goals simp [Bin.op, Node.copy, rnode, Chain.copy_copy]

omit [Field K] in
theorem build_np : ∀ e : Expr K, e.build.np = e.np
  | .base b => by simp [Expr.build, Expr.np, Chain.np, Node.np]
  | .bin o l r => by
      rw [← Chain.copy_np, copy_build, snoc_np, Chain.copy_np, build_np l, Expr.np]
      cases r with
      | base b => simp [rnode, Node.np, Expr.np]
      | bin o' l' r' => simp only [rnode, Node.np]; rw [Chain.copy_np, build_np (.bin o' l' r')]

omit [Field K] in
theorem rnode_np (f : Bool) (r : Expr K) : (rnode f r).np = r.np := by
  cases r with
  | base b => simp [rnode, Node.np, Expr.np]
  | bin o' l' r' => simp only [rnode, Node.np]; rw [Chain.copy_np, build_np]

theorem rnode_result (f : Bool) (r : Expr K) (x : K) (p : List K) :
    (rnode f r).result x p = r.build.result x p := by
  cases r with
  | base b => simp [rnode, Node.result, Expr.build, Chain.result, Chain.recResult, operate, Node.np,
      List.take_take]
  | bin o' l' r' =>
    simp only [rnode, Node.result, recResult_take]
    rw [Chain.copy_recResult]
    rfl

/-! ## C17 -/

/-- The number of parameters of a compound model is the sum of those of its components, and its
result is the value of the expression, each component getting its own parameters. -/
theorem C17_result (e : Expr K) (x : K) (p : List K) (hp : p.length = e.np) :
    e.build.np = e.np ∧ e.build.result x p = some (e.value x p) := by
  refine ⟨build_np e, ?_⟩
  induction e generalizing x p with
  | base b =>
    have : p.take b.np = p := List.take_of_length_le (by simp [hp, Expr.np])
    simp [Expr.build, Chain.result, Chain.recResult, operate, Node.result, Node.np, this, Expr.value]
  | bin o l r ihl ihr =>
    have hl : (p.take l.np).length = l.np := by simp [hp, Expr.np]
    have hr : (p.drop l.np).length = r.np := by simp [hp, Expr.np]
    have e1 : l.build.copy.recResult x p none = some (l.value x (p.take l.np)) := by
      rw [← ihl x _ hl, Chain.result, Chain.copy_recResult]
      conv_rhs => rw [← build_np l]
      rw [recResult_take]
    have e2 : ∀ y, (rnode (decide (o = .pip)) r).result y ((p.drop l.np).take r.np)
        = some (r.value y (p.drop l.np)) := by
      intro y
      rw [List.take_of_length_le (by omega), rnode_result, ihr y _ hr]
    rw [← (C45_model_copy _ x p).2, copy_build, Chain.result, snoc_recResult, e1, Chain.copy_np,
      build_np, rnode_np]
    simp only [e2]
    cases o <;> simp [Bin.op, operate, Expr.value]

/-- The in-place operators: for chains as they are made by expressions, appending the operand itself
instead of a copy gives the same. -/
theorem C17_inplace (o : Bin) (l r : Expr K) (x : K) (p : List K) (hp : p.length = l.np + r.np) :
    (l.build.append o.op r.build).result x p = some ((Expr.bin o l r).value x p) := by
  have hcopy : ∀ (c d : Chain K) (op : Op), (c.append op d).recResult x p none
      = (c.copy.append op d.copy).recResult x p none := by
    intro c d op
    cases d with
    | last a m =>
      simp only [Chain.append, Chain.copy, snoc_recResult, Chain.copy_recResult, Chain.copy_np]
      have h : ∀ (b : Bool), (if b = true then (if a = .pip then m.copy.selectPipe else m.copy).selectPipe
          else (if a = .pip then m.copy.selectPipe else m.copy)).result = m.result ∧
          (if b = true then (if a = .pip then m.copy.selectPipe else m.copy).selectPipe
          else (if a = .pip then m.copy.selectPipe else m.copy)).np = m.np ∧
          (if b = true then m.selectPipe else m).result = m.result ∧
          (if b = true then m.selectPipe else m).np = m.np := by
        intro b
        cases b <;> by_cases ha : a = .pip <;>
          simp [ha, selectPipe_result, Node.copy_result, Node.copy_np, selectPipe_np]
      have := h (op = .pip)
      simp only [decide_eq_true_eq] at this
      obtain ⟨h1, h2, h3, h4⟩ := this
      simp only [h1, h2, h3, h4]
    | cons a m d =>
      simp only [Chain.append, Chain.copy, snoc_recResult, Chain.copy_recResult, Chain.copy_np,
        Node.result, Node.np, Chain.np, Chain.recResult]
      by_cases hop : op = .pip <;> by_cases ha : a = .pip <;>
        simp [hop, ha, selectPipe_result, Node.copy_result, Node.copy_np, selectPipe_np,
          Chain.copy_np, Chain.copy_recResult]
  rw [Chain.result, hcopy]
  exact (C17_result (.bin o l r) x p (by simpa [Expr.np] using hp)).2

/-! Non-vacuity: `a * ( b - a ) | b` with a = p0 + p1 x and b = p0 x at x = 3. -/
example : let a : Base ℚ := ⟨2, false, fun p x => p.getD 0 0 + p.getD 1 0 * x, fun _ x => [1, x],
      fun p _ => p.getD 1 0⟩
    let b : Base ℚ := ⟨1, false, fun p x => p.getD 0 0 * x, fun _ x => [x], fun p _ => p.getD 0 0⟩
    (Expr.bin .pip (.bin .mul (.base a) (.bin .sub (.base b) (.base a))) (.base b)).build.result 3
      [1, 2, 5, 4, 1, 7] = some (7 * ((1 + 2 * 3) * (5 * 3 - (4 + 1 * 3)))) := by decide +kernel

/-! ## Derivatives -/

theorem node_result_take (n : Node K) (x : K) (p : List K) :
    n.result x (p.take n.np) = n.result x p := by
  cases n <;> simp [Node.result, Node.np, List.take_take]

theorem operate_if (op : Op) (res a : Option K) (f : K → Option K) (h : op = .pip → res ≠ none) :
    operate op res (if op ≠ .pip then a else none) f = operate op res a f := by
  by_cases hop : op = .pip
  · subst hop
    cases res with
    | none => exact absurd rfl (h rfl)
    | some r => rfl
  · simp [hop]

theorem snoc_recDerivative : ∀ (c : Chain K) (op : Op) (n : Node K) (x : K) (p : List K)
    (res : Option K) (df : K), (c.snoc op n).recDerivative x p res df =
      (c.recDerivative x p res df).bind fun df' =>
      (if op ≠ .pip then some x else c.recResult x p res).bind fun xd =>
      (n.derivative xd ((p.drop c.np).take n.np)).bind fun nd =>
      joinDeriv op n.piped (c.recResult x p res) (n.result x ((p.drop c.np).take n.np)) df' nd
  | .last o m, op, n, x, p, res, df => by
      by_cases hres : o = .pip → res ≠ none
      · simp only [Chain.snoc, Chain.recDerivative, Chain.recResult, Chain.np, Option.bind_assoc]
        rw [operate_if _ _ _ _ hres]
      · have ⟨h1, h2⟩ : o = .pip ∧ res = none := by simpa using hres
        simp [Chain.snoc, Chain.recDerivative, h1, h2]
  | .cons o m c, op, n, x, p, res, df => by
      by_cases hres : o = .pip → res ≠ none
      · simp only [Chain.snoc, Chain.recDerivative, Chain.recResult, Chain.np, Option.bind_assoc,
          snoc_recDerivative c op n, List.drop_drop]
        rw [operate_if _ _ _ _ hres]
      · have ⟨h1, h2⟩ : o = .pip ∧ res = none := by simpa using hres
        simp [Chain.snoc, Chain.recDerivative, h1, h2]

theorem recDerivative_take : ∀ (c : Chain K) (x : K) (p : List K) (res : Option K) (df : K),
    c.recDerivative x (p.take c.np) res df = c.recDerivative x p res df
  | .last op m, x, p, res, df => by simp [Chain.recDerivative, Chain.np, List.take_take]
  | .cons op m c, x, p, res, df => by
      simp only [Chain.recDerivative, Chain.np, List.take_take,
        Nat.min_eq_left (Nat.le_add_right _ _), List.drop_take, Nat.add_sub_cancel_left,
        recDerivative_take c]

/-- No model with fixed parameters is piped into, in this chain (brackets not opened). -/
def Node.unfixed : Node K → Prop
  | .base _ b => b.fixed = false
  | .brackets _ _ => True

/-- See `Node.unfixed`. -/
def Chain.loose : Chain K → Prop
  | .last op m => op = .pip → m.unfixed
  | .cons op m c => (op = .pip → m.unfixed) ∧ c.loose

omit [Field K] in
theorem accepts_of_unfixed (m : Node K) (h : m.unfixed) (n : ℕ) : m.accepts n = true := by
  cases m with
  | base _ b => simp [Node.accepts, show b.fixed = false from h]
  | brackets _ c => simp [Node.accepts]

omit [Field K] in
theorem snoc_loose : ∀ (c : Chain K) (op : Op) (n : Node K), c.loose → (op = .pip → n.unfixed) →
    (c.snoc op n).loose
  | .last o m, op, n, h, h' => ⟨h, h'⟩
  | .cons o m c, op, n, h, h' => ⟨h.1, snoc_loose c op n h.2 h'⟩

theorem snoc_recPartial : ∀ (c : Chain K) (op : Op) (n : Node K) (x : K) (p : List K) (a : ℕ)
    (res : Option K) (pp : Option (List K)), c.loose → (c.snoc op n).recPartial x p a res pp =
      (c.recPartial x p a res pp).bind fun pp' =>
      (if op ≠ .pip then some x else c.recResult x (p.drop a) res).bind fun xd =>
      (n.partials xd ((p.drop (a + c.np)).take n.np)).bind fun np' =>
      joinPartial op n.piped (c.recResult x (p.drop a) res)
        (n.result x ((p.drop (a + c.np)).take n.np))
        ((c.recResult x (p.drop a) res).bind fun r =>
          n.derivative r ((p.drop (a + c.np)).take n.np)) (some pp') np'
  | .last o m, op, n, x, p, a, res, pp, hl => by
      by_cases hres : o = .pip → res ≠ none
      · simp only [Chain.snoc, Chain.recPartial, Chain.recResult, Chain.np, Option.bind_assoc]
        rw [operate_if _ _ _ _ hres]
        have : ¬ (o = .pip ∧ m.accepts (p.drop a).length = false) := by
          rintro ⟨h1, h2⟩
          rw [accepts_of_unfixed m (hl h1)] at h2
          exact absurd h2 (by simp)
        simp only [if_neg this, node_result_take]
      · have ⟨h1, h2⟩ : o = .pip ∧ res = none := by simpa using hres
        simp [Chain.snoc, Chain.recPartial, h1, h2]
  | .cons o m c, op, n, x, p, a, res, pp, hl => by
      by_cases hres : o = .pip → res ≠ none
      · have : ¬ (o = .pip ∧ m.accepts (p.drop a).length = false) := by
          rintro ⟨h1, h2⟩
          rw [accepts_of_unfixed m (hl.1 h1)] at h2
          exact absurd h2 (by simp)
        simp only [Chain.snoc, Chain.recPartial, Chain.recResult, Chain.np, Option.bind_assoc,
          if_neg this, snoc_recPartial c op n _ _ _ _ _ hl.2, List.drop_drop, Nat.add_assoc,
          operate_if _ _ _ _ hres, node_result_take]
      · have ⟨h1, h2⟩ : o = .pip ∧ res = none := by simpa using hres
        simp [Chain.snoc, Chain.recPartial, h1, h2]

theorem recPartial_take : ∀ (c : Chain K) (x : K) (p : List K) (a : ℕ) (res : Option K)
    (pp : Option (List K)), c.loose →
    c.recPartial x (p.take (a + c.np)) a res pp = c.recPartial x p a res pp
  | .last op m, x, p, a, res, pp, _ => by
      simp [Chain.recPartial, Chain.np, List.take_take, List.drop_take]
  | .cons op m c, x, p, a, res, pp, hl => by
      have : ∀ k, ¬ (op = .pip ∧ m.accepts k = false) := by
          rintro k ⟨h1, h2⟩
          rw [accepts_of_unfixed m (hl.1 h1)] at h2
          exact absurd h2 (by simp)
      have h1 : ∀ r pp', c.recPartial x (p.take (a + (m.np + c.np))) (a + m.np) r pp'
          = c.recPartial x p (a + m.np) r pp' := by
        intro r pp'; rw [← Nat.add_assoc]; exact recPartial_take c x p _ _ _ hl.2
      have h2 : ∀ y, m.result y ((p.drop a).take (m.np + c.np)) = m.result y (p.drop a) := by
        intro y
        rw [← node_result_take, List.take_take, Nat.min_eq_left (Nat.le_add_right _ _),
          node_result_take]
      simp only [Chain.recPartial, Chain.np, List.drop_take, Nat.add_sub_cancel_left,
        List.take_take, Nat.min_eq_left (Nat.le_add_right _ _), if_neg (this _), h1, h2]

omit [Field K] in
theorem rnode_piped (f : Bool) (r : Expr K) : (rnode f r).piped = f := by
  cases r <;> rfl

theorem rnode_derivative (f : Bool) (r : Expr K) (x : K) (p : List K) :
    (rnode f r).derivative x p = r.build.copy.derivative x p := by
  cases r with
  | base b =>
    simp [rnode, Node.derivative, Expr.build, Chain.derivative, Chain.recDerivative, joinDeriv,
      Node.np, List.take_take, Chain.copy, Node.copy]
  | bin o' l' r' => simp only [rnode, Node.derivative, recDerivative_take]; rfl

theorem rnode_partials (f : Bool) (r : Expr K) (x : K) (p : List K) (hp : p.length = r.np) :
    (rnode f r).partials x p = r.build.copy.partials x p := by
  cases r with
  | base b =>
    simp [rnode, Node.partials, Expr.build, Chain.partials, Chain.recPartial, joinPartial,
      Node.np, List.take_take, Chain.copy, Node.copy]
  | bin o' l' r' =>
    simp only [rnode, Node.partials]
    rw [List.take_of_length_le (by rw [Chain.copy_np, build_np]; omega)]
    rfl

end BF.Compound
