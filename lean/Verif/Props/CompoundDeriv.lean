import Verif.Props.Compound
import Mathlib.Tactic.FieldSimp
import Mathlib.Tactic.Ring
import Mathlib.Tactic.Positivity
import Mathlib.Analysis.Calculus.Deriv.Pow
import Mathlib.Analysis.Calculus.Deriv.Add
import Mathlib.Analysis.Calculus.Deriv.Shift

/-!
# Derivatives of compound models (C18, C19)
-/

namespace BF.Compound

/-! ## Specification -/

/-- At `x` and `p` the base model returns its true derivatives: to x and to each parameter. -/
structure TrueAt (b : Base ℝ) (x : ℝ) (p : List ℝ) : Prop where
  der : HasDerivAt (fun y => b.res p y) (b.der p x) x
  len : (b.par p x).length = b.np
  par : ∀ (k : ℕ) (v d : ℝ), p[k]? = some v → (b.par p x)[k]? = some d →
    HasDerivAt (fun t => b.res (p.set k t) x) d v

/-- Every base model of the expression returns true derivatives where it is evaluated and no
denominator is zero. -/
def Regular : Expr ℝ → ℝ → List ℝ → Prop
  | .base b, x, p => TrueAt b x p
  | .bin .pip l r, x, p =>
      Regular l x (p.take l.np) ∧ Regular r (l.value x (p.take l.np)) (p.drop l.np)
  | .bin .div l r, x, p => Regular l x (p.take l.np) ∧ Regular r x (p.drop l.np) ∧
      r.value x (p.drop l.np) ≠ 0
  | .bin _ l r, x, p => Regular l x (p.take l.np) ∧ Regular r x (p.drop l.np)

/-- Only the last model of a chain may be a piped model with fixed parameters. -/
def PipeOK : Bool → Expr ℝ → Prop
  | _, .base _ => True
  | last, .bin .pip l (.base b) => PipeOK false l ∧ (last = true ∨ b.fixed = false)
  | _, .bin _ l r => PipeOK false l ∧ PipeOK true r

/-- The last operation is a pipe into a compound. -/
def FreshPipe : Expr ℝ → Prop
  | .bin .pip _ (.bin _ _ _) => True
  | _ => False

theorem build_eq_copy (e : Expr ℝ) (h : ¬ FreshPipe e) : e.build = e.build.copy := by
  cases e with
  | base b => simp [Expr.build, Chain.copy, Node.copy]
  | bin o l r =>
    rw [copy_build]
    show l.build.copy.append o.op r.build.copy = _
    rw [append_copy]
    cases r with
    | base b => rfl
    | bin o' l' r' =>
      cases o
      case pip => exact absurd trivial h
      all_goals simp [rnode]

theorem regular_split {o : Bin} {l r : Expr ℝ} {x : ℝ} {p : List ℝ}
    (h : Regular (.bin o l r) x p) :
    Regular l x (p.take l.np) ∧
    Regular r (if o = .pip then l.value x (p.take l.np) else x) (p.drop l.np) ∧
    (o = .div → r.value x (p.drop l.np) ≠ 0) := by
  cases o <;> simp only [Regular] at h
  case div => exact ⟨h.1, by simpa using h.2.1, fun _ => h.2.2⟩
  all_goals exact ⟨h.1, by simpa using h.2, by simp⟩

theorem derivative_copy (e : Expr ℝ) : ∀ (x : ℝ) (p : List ℝ), p.length = e.np → Regular e x p →
    ∃ d, e.build.copy.derivative x p = some d ∧ HasDerivAt (fun y => e.value y p) d x := by
  induction e with
  | base b =>
    intro x p hp h
    refine ⟨b.der p x, ?_, h.der⟩
    have : p.take b.np = p := List.take_of_length_le (by simp [hp, Expr.np])
    simp [Expr.build, Chain.copy, Node.copy, Chain.derivative, Chain.recDerivative, joinDeriv,
      Node.derivative, Node.np, this]
  | bin o l r ihl ihr =>
    intro x p hp h
    obtain ⟨hrl, hrr, hz⟩ := regular_split h
    have hl : (p.take l.np).length = l.np := by simp [hp, Expr.np]
    have hr : (p.drop l.np).length = r.np := by simp [hp, Expr.np]
    obtain ⟨dl, h1, h2⟩ := ihl x _ hl hrl
    obtain ⟨dr, h3, h4⟩ := ihr _ _ hr hrr
    have e1 : l.build.copy.recDerivative x p none 0 = some dl := by
      rw [← h1, Chain.derivative]
      conv_rhs => rw [← build_np l, ← Chain.copy_np]
      rw [recDerivative_take]
    have e2 : l.build.copy.recResult x p none = some (l.value x (p.take l.np)) := by
      rw [← (C17_result l x _ hl).2, Chain.result, Chain.copy_recResult]
      conv_rhs => rw [← build_np l]
      rw [recResult_take]
    have e3 : (p.drop l.np).take r.np = p.drop l.np := List.take_of_length_le (by omega)
    have e4 : (rnode (decide (o = .pip)) r).result x (p.drop l.np)
        = some (r.value x (p.drop l.np)) := by
      rw [rnode_result, (C17_result r x _ hr).2]
    have key : (Expr.bin o l r).build.copy.derivative x p
        = joinDeriv o.op (decide (o = .pip)) (some (l.value x (p.take l.np)))
            (some (r.value x (p.drop l.np))) dl dr := by
      rw [copy_build, Chain.derivative, snoc_recDerivative, e1, e2, Chain.copy_np, build_np,
        rnode_np, e3, e4, rnode_piped]
      have : (if o.op ≠ Op.pip then some x else some (l.value x (p.take l.np)))
          = some (if o = .pip then l.value x (p.take l.np) else x) := by
        cases o <;> simp [Bin.op]
      rw [this]
      simp only [Option.bind_some]
      rw [rnode_derivative, h3]
      simp
    rw [key]
    cases o
    case add => exact ⟨_, rfl, h2.add (by simpa using h4)⟩
    case sub => exact ⟨_, rfl, h2.sub (by simpa using h4)⟩
    case mul =>
      refine ⟨_, rfl, ?_⟩
      have h4' : HasDerivAt (fun y => r.value y (p.drop l.np)) dr x := by simpa using h4
      have := h2.mul h4'
      rwa [mul_comm (l.value x _) dr] at this
    case div =>
      refine ⟨_, rfl, ?_⟩
      have h4' : HasDerivAt (fun y => r.value y (p.drop l.np)) dr x := by simpa using h4
      have := h2.div h4' (hz rfl)
      rwa [mul_comm (l.value x _) dr, pow_two] at this
    case pip =>
      refine ⟨dl * dr, by simp [joinDeriv, Bin.op], ?_⟩
      have h4' : HasDerivAt (fun y => r.value y (p.drop l.np)) dr (l.value x (p.take l.np)) := by
        simpa using h4
      have := h4'.comp x h2
      rw [mul_comm]
      exact this

/-- The x derivative of a copied compound model, and of a compound model whose last operation is not
a pipe into a compound, is the true derivative of its value. -/
theorem C19_derivative_partial (e : Expr ℝ) (x : ℝ) (p : List ℝ) (hp : p.length = e.np)
    (hr : Regular e x p) :
    (∃ d, e.build.copy.derivative x p = some d ∧ HasDerivAt (fun y => e.value y p) d x) ∧
    (¬ FreshPipe e →
      ∃ d, e.build.derivative x p = some d ∧ HasDerivAt (fun y => e.value y p) d x) := by
  refine ⟨derivative_copy e x p hp hr, fun hf => ?_⟩
  rw [build_eq_copy e hf]
  exact derivative_copy e x p hp hr

/-! ## Parameter derivatives -/

theorem rnode_unfixed (f : Bool) (r : Expr ℝ) (h : ∀ b, r = .base b → b.fixed = false) :
    (rnode f r).unfixed := by
  cases r with
  | base b => exact h b rfl
  | bin o l r => trivial

theorem pipeOK_split {last : Bool} {o : Bin} {l r : Expr ℝ} (h : PipeOK last (.bin o l r)) :
    PipeOK false l ∧ PipeOK true r ∧
      (last = false → o = .pip → ∀ b, r = .base b → b.fixed = false) := by
  cases r with
  | base b =>
    cases o
    case pip =>
      refine ⟨h.1, trivial, fun hl _ b' hb => ?_⟩
      cases hb
      rcases h.2 with h2 | h2
      · rw [hl] at h2; exact absurd h2 (by simp)
      · exact h2
    all_goals exact ⟨h.1, trivial, by simp⟩
  | bin o' l' r' =>
    cases o <;> exact ⟨h.1, h.2, fun _ _ b hb => by cases hb⟩

theorem pipeOK_true {l : Expr ℝ} (h : PipeOK false l) : PipeOK true l := by
  cases l with
  | base b => trivial
  | bin o l r =>
    cases r with
    | base b =>
      cases o
      case pip => exact ⟨h.1, Or.inl rfl⟩
      all_goals exact h
    | bin o' l' r' => cases o <;> exact h

theorem loose_of_pipeOK (e : Expr ℝ) (h : PipeOK false e) : e.build.copy.loose := by
  induction e with
  | base b => simp [Expr.build, Chain.copy, Node.copy, Chain.loose]
  | bin o l r ihl ihr =>
    obtain ⟨h1, h2, h3⟩ := pipeOK_split h
    rw [copy_build]
    refine snoc_loose _ _ _ (ihl h1) fun ho => rnode_unfixed _ _ (h3 rfl ?_)
    cases o <;> simp [Bin.op] at ho ⊢

/-- The columns are the derivatives to the parameters. -/
def TruePartials (f : List ℝ → ℝ) (p : List ℝ) (D : List ℝ) : Prop :=
  D.length = p.length ∧
  ∀ (k : ℕ) (v d : ℝ), p[k]? = some v → D[k]? = some d → HasDerivAt (fun t => f (p.set k t)) d v

theorem set_same {p : List ℝ} {k : ℕ} {v : ℝ} (h : p[k]? = some v) : p.set k v = p := by
  apply List.ext_getElem?
  intro i
  rw [List.getElem?_set]
  split
  · rename_i h'; subst h'
    rw [if_pos (List.getElem?_eq_some_iff.1 h).1, h]
  · rfl

/-- Chain rule for a list of partials. -/
theorem map_true (f : List ℝ → ℝ) (p D : List ℝ) (hf : TruePartials f p D) (h : ℝ → ℝ) (a : ℝ)
    (ha : HasDerivAt h a (f p)) : TruePartials (fun q => h (f q)) p (D.map (· * a)) := by
  refine ⟨by simp [hf.1], ?_⟩
  intro k v d hv hd
  rw [List.getElem?_map] at hd
  cases hdk : D[k]? with
  | none => rw [hdk] at hd; exact absurd hd (by simp)
  | some d' =>
    rw [hdk] at hd
    obtain rfl : d' * a = d := by simpa using hd
    have h1 := hf.2 k v d' hv hdk
    rw [← set_same hv] at ha
    rw [mul_comm]
    exact ha.comp v h1

/-- Partials of a function of two groups of parameters. -/
theorem join_true (F : List ℝ → List ℝ → ℝ) (n : ℕ) (p Dl Dr : List ℝ) (hn : n ≤ p.length)
    (hl : TruePartials (fun q => F q (p.drop n)) (p.take n) Dl)
    (hr : TruePartials (fun q => F (p.take n) q) (p.drop n) Dr) :
    TruePartials (fun q => F (q.take n) (q.drop n)) p (Dl ++ Dr) := by
  have hll : Dl.length = n := by rw [hl.1]; simp [hn]
  refine ⟨by simp [hll, hr.1]; omega, ?_⟩
  intro k v d hv hd
  by_cases hk : k < n
  · rw [List.getElem?_append_left (by simp [hll, hk])] at hd
    have hvt : (p.take n)[k]? = some v := by rw [List.getElem?_take_of_lt hk]; exact hv
    have hset : ∀ t, (p.set k t).take n = (p.take n).set k t := fun t => by
      rw [List.take_set]
    have hdrop : ∀ t, (p.set k t).drop n = p.drop n := fun t => List.drop_set_of_lt hk
    simp only [hset, hdrop]
    exact hl.2 k v d hvt hd
  · push Not at hk
    rw [List.getElem?_append_right (by simp [hll, hk]), hll] at hd
    have hvt : (p.drop n)[k - n]? = some v := by
      rw [List.getElem?_drop, Nat.add_sub_cancel' hk]; exact hv
    have hset : ∀ t, (p.set k t).drop n = (p.drop n).set (k - n) t := fun t => by
      rw [List.drop_set, if_neg (by omega)]
    have htake : ∀ t, (p.set k t).take n = p.take n := fun t => List.take_set_of_le hk
    simp only [hset, htake]
    exact hr.2 (k - n) v d hvt hd

theorem partials_copy (e : Expr ℝ) : ∀ (x : ℝ) (p : List ℝ), p.length = e.np → Regular e x p →
    PipeOK true e →
    ∃ D, e.build.copy.partials x p = some D ∧ TruePartials (fun q => e.value x q) p D := by
  induction e with
  | base b =>
    intro x p hp h _
    have : p.take b.np = p := List.take_of_length_le (by simp [hp, Expr.np])
    refine ⟨b.par p x, ?_, ?_, h.par⟩
    · simp [Expr.build, Chain.copy, Node.copy, Chain.partials, Chain.recPartial, joinPartial,
        Node.partials, Node.np, this]
    · rw [h.len, hp]; rfl
  | bin o l r ihl ihr =>
    intro x p hp h hok
    obtain ⟨hrl, hrr, hz⟩ := regular_split h
    obtain ⟨ok1, ok2, -⟩ := pipeOK_split hok
    have hl : (p.take l.np).length = l.np := by simp [hp, Expr.np]
    have hr : (p.drop l.np).length = r.np := by simp [hp, Expr.np]
    have hle : l.np ≤ p.length := by simp [hp, Expr.np]
    obtain ⟨Dl, h1, h2⟩ := ihl x _ hl hrl (pipeOK_true ok1)
    obtain ⟨Dr, h3, h4⟩ := ihr _ _ hr hrr ok2
    obtain ⟨dr, h5, h6⟩ := derivative_copy r _ _ hr hrr
    have hloose := loose_of_pipeOK l ok1
    have e1 : l.build.copy.recPartial x p 0 none none = some Dl := by
      rw [← h1, Chain.partials]
      have := recPartial_take l.build.copy x p 0 none none hloose
      rw [Chain.copy_np, build_np, Nat.zero_add] at this
      exact this.symm
    have e2 : l.build.copy.recResult x p none = some (l.value x (p.take l.np)) := by
      rw [← (C17_result l x _ hl).2, Chain.result, Chain.copy_recResult]
      conv_rhs => rw [← build_np l]
      rw [recResult_take]
    have e3 : (p.drop l.np).take r.np = p.drop l.np := List.take_of_length_le (by omega)
    have e4 : (rnode (decide (o = .pip)) r).result x (p.drop l.np)
        = some (r.value x (p.drop l.np)) := by
      rw [rnode_result, (C17_result r x _ hr).2]
    have key : (Expr.bin o l r).build.copy.partials x p
        = joinPartial o.op (decide (o = .pip)) (some (l.value x (p.take l.np)))
            (some (r.value x (p.drop l.np)))
            (r.build.copy.derivative (l.value x (p.take l.np)) (p.drop l.np)) (some Dl) Dr := by
      rw [copy_build, Chain.partials, snoc_recPartial _ _ _ _ _ _ _ _ hloose, e1]
      simp only [List.drop_zero, Nat.zero_add]
      rw [e2, Chain.copy_np, build_np,
        rnode_np, e3, e4, rnode_piped]
      have : (if o.op ≠ Op.pip then some x else some (l.value x (p.take l.np)))
          = some (if o = .pip then l.value x (p.take l.np) else x) := by
        cases o <;> simp [Bin.op]
      rw [this]
      simp only [Option.bind_some]
      rw [rnode_partials _ _ _ _ hr, h3, rnode_derivative]
      simp
    rw [key]
    set u := l.value x (p.take l.np) with hu
    set w := r.value x (p.drop l.np) with hw
    have hid : ∀ y : ℝ, HasDerivAt (fun t : ℝ => t) 1 y := fun y => hasDerivAt_id y
    have hjoin : ∀ (G : ℝ → ℝ → ℝ) (a b : ℝ), o ≠ .pip → HasDerivAt (fun t => G t w) a u →
        HasDerivAt (fun t => G u t) b w →
        TruePartials (fun q => G (l.value x (q.take l.np)) (r.value x (q.drop l.np))) p
          (Dl.map (· * a) ++ Dr.map (· * b)) := by
      intro G a b ho ha hb
      refine join_true (fun q1 q2 => G (l.value x q1) (r.value x q2)) l.np p _ _ hle ?_ ?_
      · exact map_true _ _ _ h2 (fun t => G t w) a ha
      · have h4' : TruePartials (fun q => r.value x q) (p.drop l.np) Dr := by simpa [ho] using h4
        exact map_true _ _ _ h4' (fun t => G u t) b hb
    cases o
    case add =>
      refine ⟨_, rfl, ?_⟩
      have := hjoin (· + ·) 1 1 (by simp) ((hid _).add_const _) ((hid _).const_add _)
      simpa [Expr.value] using this
    case sub =>
      refine ⟨_, rfl, ?_⟩
      have := hjoin (· - ·) 1 (-1) (by simp) ((hid _).sub_const _) ((hid _).const_sub _)
      simpa [Expr.value] using this
    case mul =>
      refine ⟨_, rfl, ?_⟩
      have := hjoin (· * ·) w u (by simp) (by simpa using (hid u).mul_const w)
        (by simpa using (hid w).const_mul u)
      simpa [Expr.value] using this
    case div =>
      refine ⟨_, rfl, ?_⟩
      have hw0 : w ≠ 0 := hz rfl
      have := hjoin (· / ·) (1 / w) (- u / (w * w)) (by simp) ((hid u).div_const w)
        (by
          have h := (hasDerivAt_inv hw0).const_mul u
          have e : - u / (w * w) = u * -(w ^ 2)⁻¹ := by rw [pow_two, div_eq_mul_inv]; ring
          rw [e]
          simpa only [div_eq_mul_inv] using h)
      simpa [Expr.value, div_eq_mul_inv] using this
    case pip =>
      have h4' : TruePartials (fun q => r.value u q) (p.drop l.np) Dr := by simpa using h4
      have h5' : r.build.copy.derivative u (p.drop l.np) = some dr := by simpa using h5
      have h6' : HasDerivAt (fun y => r.value y (p.drop l.np)) dr u := by simpa using h6
      refine ⟨Dl.map (· * dr) ++ Dr, by simp [joinPartial, Bin.op, h5'], ?_⟩
      exact join_true (fun q1 q2 => r.value (l.value x q1) q2) l.np p _ _ hle
        (map_true _ _ _ h2 (fun t => r.value t (p.drop l.np)) dr h6') h4'

/-- The parameter derivatives of a copied compound model, and of a compound model whose last
operation is not a pipe into a compound, are one per parameter, in order, and each is the true
derivative of the value to that parameter, provided no model with fixed parameters stands behind a
pipe and before another model. -/
theorem C18_partial_derivatives_partial (e : Expr ℝ) (x : ℝ) (p : List ℝ) (hp : p.length = e.np)
    (hr : Regular e x p) (hok : PipeOK true e) :
    (∃ D, e.build.copy.partials x p = some D ∧ D.length = e.np ∧
      ∀ (k : ℕ) (v d : ℝ), p[k]? = some v → D[k]? = some d →
        HasDerivAt (fun t => e.value x (p.set k t)) d v) ∧
    (¬ FreshPipe e → e.build.partials x p = e.build.copy.partials x p) := by
  refine ⟨?_, fun hf => by rw [← build_eq_copy e hf]⟩
  obtain ⟨D, h1, h2, h3⟩ := partials_copy e x p hp hr hok
  exact ⟨D, h1, h2.trans hp, h3⟩

/-- Asking the parameter derivatives or the x derivative of a model that was just piped into a
compound fails, whatever the models and the parameters. -/
theorem C18_counterexample (l : Expr ℝ) (o : Bin) (r1 r2 : Expr ℝ) (hl : PipeOK false l) (x : ℝ)
    (p : List ℝ) :
    (Expr.bin .pip l (.bin o r1 r2)).build.partials x p = none ∧
    (Expr.bin .pip l (.bin o r1 r2)).build.derivative x p = none := by
  have h : ∃ c, (Expr.bin .pip l (.bin o r1 r2)).build
      = l.build.copy.snoc .pip (.brackets false c) := by
    show ∃ c, l.build.copy.append Bin.pip.op (Expr.bin o r1 r2).build.copy = _
    rw [append_copy]
    exact ⟨_, rfl⟩
  obtain ⟨c, hc⟩ := h
  rw [hc]
  constructor
  · rw [Chain.partials, snoc_recPartial _ _ _ _ _ _ _ _ (loose_of_pipeOK l hl)]
    simp only [joinPartial, Node.piped]
    cases l.build.copy.recPartial x p 0 none none <;> simp
  · rw [Chain.derivative, snoc_recDerivative]
    simp only [joinDeriv, Node.piped]
    cases l.build.copy.recDerivative x p none 0 <;> simp

/-- With a model with fixed parameters behind a pipe and before another model, the parameter
derivatives fail. -/
theorem C18_counterexample_fixed (a b c : Base ℝ) (hb : b.fixed = true) (hc : 0 < c.np)
    (hbp : 0 < b.np) (x : ℝ) (p : List ℝ) (hp : p.length = a.np + b.np + c.np) :
    (Expr.bin .add (.bin .pip (.base a) (.base b)) (.base c)).build.partials x p = none ∧
    (Expr.bin .add (.bin .pip (.base a) (.base b)) (.base c)).build.copy.partials x p = none := by
  have : (Expr.bin .add (.bin .pip (.base a) (.base b)) (.base c)).build.partials x p = none := by
    have h1 : a.np + b.np + c.np - a.np ≠ b.np := by omega
    have h2 : a.np + b.np + c.np - a.np ≠ 1 := by omega
    simp [Expr.build, Chain.copy, Node.copy, Chain.append, Chain.snoc, Bin.op, Node.selectPipe,
      Chain.partials, Chain.recPartial, Node.accepts, hb, hp, Node.np, h1, h2]
  refine ⟨this, ?_⟩
  rw [← build_eq_copy _ (by simp [FreshPipe])]
  exact this

/-! ## Non-vacuity

A line `p0 + p1 x`, divided by an exponential free second model `1 + q0² x²`, piped into a line. -/

/-- `p0 + p1 x`. -/
def line : Base ℝ := ⟨2, false, fun p x => p.getD 0 0 + p.getD 1 0 * x, fun _ x => [1, x],
  fun p _ => p.getD 1 0⟩

/-- `1 + q0² x²`. -/
def bump : Base ℝ := ⟨1, false, fun p x => 1 + (p.getD 0 0) ^ 2 * x ^ 2,
  fun p x => [2 * p.getD 0 0 * x ^ 2], fun p x => 2 * (p.getD 0 0) ^ 2 * x⟩

theorem line_true (x a b : ℝ) : TrueAt line x [a, b] where
  der := by
    have := ((hasDerivAt_id x).const_mul b).const_add a
    simpa [line] using this
  len := rfl
  par := by
    intro k v d hv hd
    match k with
    | 0 =>
      obtain rfl : a = v := by simpa using hv
      obtain rfl : 1 = d := by simpa [line] using hd
      have := (hasDerivAt_id a).add_const (b * x)
      simpa [line] using this
    | 1 =>
      obtain rfl : b = v := by simpa using hv
      obtain rfl : x = d := by simpa [line] using hd
      have := ((hasDerivAt_id b).mul_const x).const_add a
      simpa [line] using this
    | k + 2 => simp at hv

theorem bump_true (x a : ℝ) : TrueAt bump x [a] where
  der := by
    have := (((hasDerivAt_id x).pow 2).const_mul (a ^ 2)).const_add 1
    simp only [bump, List.getD_cons_zero]
    exact this.congr_deriv (by simp; ring)
  len := rfl
  par := by
    intro k v d hv hd
    match k with
    | 0 =>
      obtain rfl : a = v := by simpa using hv
      obtain rfl : 2 * a * x ^ 2 = d := by simpa [bump] using hd
      have := (((hasDerivAt_id a).pow 2).mul_const (x ^ 2)).const_add 1
      simp only [bump, List.set_cons_zero, List.getD_cons_zero]
      exact this.congr_deriv (by simp)
    | k + 1 => simp at hv

/-- `( line / bump ) | line`. -/
def demo : Expr ℝ := .bin .pip (.bin .div (.base line) (.base bump)) (.base line)

theorem demo_regular (x a b c d e : ℝ) : Regular demo x [a, b, c, d, e] := by
  refine ⟨⟨line_true x a b, bump_true x c, ?_⟩, line_true _ d e⟩
  simp [Expr.value, bump, Expr.np, line]
  positivity

example (x a b c d e : ℝ) : ∃ D, demo.build.partials x [a, b, c, d, e] = some D ∧ D.length = 5 := by
  obtain ⟨⟨D, h1, h2, -⟩, h3⟩ := C18_partial_derivatives_partial demo x [a, b, c, d, e] rfl
    (demo_regular x a b c d e) (by simp [PipeOK, demo, line])
  exact ⟨D, (h3 (by simp [FreshPipe, demo])).trans h1, h2⟩

end BF.Compound
