import Verif.Pipes
import Mathlib.Analysis.Calculus.Deriv.Add
import Mathlib.Analysis.Calculus.Deriv.Mul
import Mathlib.Analysis.Calculus.Deriv.Inv
import Mathlib.Analysis.Calculus.Deriv.Pow
import Mathlib.Analysis.Calculus.Deriv.Comp
import Mathlib.Algebra.BigOperators.Fin
import Mathlib.Tactic.Ring
import Mathlib.Tactic.FieldSimp
import Mathlib.Tactic.Linarith

/-!
# C106: compound models with more inputs and outputs
-/

namespace BF
namespace Pipes

open Finset

noncomputable section

/-! ## Specification -/

/-- A vector of `N` numbers. -/
def Vec (a : Arr) (N : ℕ) (F : ℕ → ℝ) : Prop :=
  a.rshape = [N] ∧ ∀ n < N, a.get [n] = F n

/-- A table of `N` rows and `m` columns. -/
def Tab (a : Arr) (N m : ℕ) (F : ℕ → ℕ → ℝ) : Prop :=
  a.rshape = [m, N] ∧ ∀ n < N, ∀ k < m, a.get [k, n] = F n k

/-- `N` points in `d` dimensions: a vector when `d` is 1, otherwise a table. -/
def Pts (a : Arr) (N d : ℕ) (X : ℕ → ℕ → ℝ) : Prop :=
  if d = 1 then Vec a N (fun n => X n 0) else Tab a N d X

/-- A list of tables. -/
def Tabs (v : Val) (O N m : ℕ) (F : ℕ → ℕ → ℕ → ℝ) : Prop :=
  ∃ l, v = .list l ∧ l.length = O ∧ ∀ o < O, ∃ a, l[o]? = some a ∧ Tab a N m (fun n k => F n o k)

/-- The documented form of the derivative of a model with `I` inputs and `O` outputs in `N` points:
`D n o i` is the derivative in point `n` of output `o` to input `i`. -/
def DerIs (v : Val) (N I O : ℕ) (D : ℕ → ℕ → ℕ → ℝ) : Prop :=
  if I = 1 then
    if O = 1 then ∃ a, v = .arr a ∧ Vec a N (fun n => D n 0 0)
    else ∃ a, v = .arr a ∧ Tab a N O (fun n o => D n o 0)
  else
    if O = 1 then ∃ a, v = .arr a ∧ Tab a N I (fun n i => D n 0 i)
    else Tabs v O N I D

/-- The documented form of the partial derivatives to `P` parameters: a table, or a list of tables when
there are more outputs. -/
def ParIs (v : Val) (N O P : ℕ) (D : ℕ → ℕ → ℕ → ℝ) : Prop :=
  if O = 1 then ∃ a, v = .arr a ∧ Tab a N P (fun n k => D n 0 k) else Tabs v O N P D

/-- A mathematical function of inputs and parameters with more outputs, and its claimed derivatives. -/
structure Fn where
  f : (ℕ → ℝ) → (ℕ → ℝ) → ℕ → ℝ
  fx : (ℕ → ℝ) → (ℕ → ℝ) → ℕ → ℕ → ℝ
  fp : (ℕ → ℝ) → (ℕ → ℝ) → ℕ → ℕ → ℝ

/-- The methods of the model calculate the function, in the documented forms, for any number of points,
and only the first `np` parameters matter. -/
structure Mdl.Computes (m : Mdl) (F : Fn) : Prop where
  result : ∀ a N X p, Pts a N m.ndim X →
    ∃ r, m.result a p = some r ∧ Pts r N m.ndout (fun n o => F.f (X n) p o)
  derivative : ∀ a N X p, Pts a N m.ndim X →
    ∃ v, m.derivative a p = some v ∧ DerIs v N m.ndim m.ndout (fun n o i => F.fx (X n) p o i)
  part : ∀ a N X p, Pts a N m.ndim X →
    ∃ v, m.part a p = some v ∧ ParIs v N m.ndout m.np (fun n o k => F.fp (X n) p o k)
  local' : ∀ x p q, (∀ k < m.np, p k = q k) → F.f x p = F.f x q
  ndim : 0 < m.ndim
  ndout : 0 < m.ndout

/-- `g o i` are the derivatives in `x` of a function of `I` inputs and `O` outputs: along every curve
through `x` the outputs change as they say. -/
def XDiff (f : (ℕ → ℝ) → ℕ → ℝ) (g : ℕ → ℕ → ℝ) (x : ℕ → ℝ) (I O : ℕ) : Prop :=
  ∀ (c : ℝ → ℕ → ℝ) (c' : ℕ → ℝ) (t : ℝ), c t = x →
    (∀ i < I, HasDerivAt (fun s => c s i) (c' i) t) →
    ∀ o < O, HasDerivAt (fun s => f (c s) o) (∑ i ∈ range I, g o i * c' i) t

/-- `g o k` are the partial derivatives in `p` to `P` parameters. -/
def PDiff (f : (ℕ → ℝ) → ℕ → ℝ) (g : ℕ → ℕ → ℝ) (p : ℕ → ℝ) (P O : ℕ) : Prop :=
  ∀ k < P, ∀ o < O, HasDerivAt (fun s => f (Function.update p k s) o) (g o k) (p k)

/-- One step: the value so far combined with the next function. -/
def step (op : Op) (prev : ℕ → ℝ) (F : Fn) (x p : ℕ → ℝ) : ℕ → ℝ :=
  match op with
  | .nop => F.f x p
  | .add => fun o => prev o + F.f x p o
  | .sub => fun o => prev o - F.f x p o
  | .mul => fun o => prev o * F.f x p o
  | .div => fun o => prev o / F.f x p o
  | .pip => F.f prev p

/-- A model with the function that it is to calculate. -/
structure Part where
  op : Op
  mdl : Mdl
  fn : Fn

/-- The rest of the chain, from left to right, given the value so far. -/
def tailVal : List Part → (ℕ → ℝ) → (ℕ → ℝ) → (ℕ → ℝ) → ℕ → ℝ
  | [], _, _, prev => prev
  | c :: l, x, p, prev => tailVal l x (shift c.mdl.np p) (step c.op prev c.fn x p)

/-- The function of a chain that begins with `m`, `F`. -/
def chainVal (m : Mdl) (F : Fn) (l : List Part) (x p : ℕ → ℝ) : ℕ → ℝ :=
  tailVal l x (shift m.np p) (F.f x p)

/-- The number of outputs of the chain. -/
def outputs : ℕ → List Part → ℕ
  | o, [] => o
  | _, c :: l => outputs c.mdl.ndout l

/-- The number of parameters of the chain. -/
def params : List Part → ℕ
  | [] => 0
  | c :: l => c.mdl.np + params l

/-- No model is appended with the null operation, and models are added, subtracted, multiplied and
divided only when they have equally many outputs. -/
def Fits : ℕ → List Part → Prop
  | _, [] => True
  | o, c :: l => c.op ≠ .nop ∧ (c.op ≠ .pip → c.mdl.ndout = o) ∧ c.mdl.Computes c.fn ∧
      Fits c.mdl.ndout l

/-- A model that is piped and is not the last one can be evaluated at `xdata` without an exception. -/
def Harmless (x : Arr) : List Part → (ℕ → ℝ) → Prop
  | [], _ => True
  | [_], _ => True
  | c :: l, p => (c.op = .pip → (c.mdl.result x p).isSome) ∧ Harmless x l (shift c.mdl.np p)

/-- Every function has the claimed derivatives where it is evaluated; nothing is divided by 0. -/
def Smooth : List Part → (ℕ → ℝ) → (ℕ → ℝ) → (ℕ → ℝ) → Prop
  | [], _, _, _ => True
  | c :: l, x, p, prev =>
      XDiff (fun z => c.fn.f z p) (c.fn.fx (if c.op = .pip then prev else x) p)
        (if c.op = .pip then prev else x) c.mdl.ndim c.mdl.ndout ∧
      PDiff (fun q => c.fn.f (if c.op = .pip then prev else x) q)
        (c.fn.fp (if c.op = .pip then prev else x) p) p c.mdl.np c.mdl.ndout ∧
      (c.op = .div → ∀ o < c.mdl.ndout, c.fn.f x p o ≠ 0) ∧
      Smooth l x (shift c.mdl.np p) (step c.op prev c.fn x p)

/-! ## Arrays -/

theorem bshape_self : ∀ s : List ℕ, bshape s s = some s
  | [] => rfl
  | a :: s => by simp [bshape, bshape_self s]

theorem prj {d k : ℕ} (h : k < d) : (if d = 1 then 0 else k) = k := by
  split
  · omega
  · rfl

theorem proj1 {N n : ℕ} (h : n < N) : proj [N] [n] = [n] := by
  simp only [proj, List.zipWith_cons_cons, List.zipWith_nil_right, prj h]

theorem proj2 {N M n m : ℕ} (h : n < N) (h' : m < M) : proj [N, M] [n, m] = [n, m] := by
  simp only [proj, List.zipWith_cons_cons, List.zipWith_nil_right, prj h, prj h']

theorem proj12 {N n m : ℕ} (h : n < N) : proj [N] [n, m] = [n] := by
  simp only [proj, List.zipWith_cons_cons, List.zipWith_nil_left, prj h]

theorem Vec.op {a b : Arr} {N F G} (f : ℝ → ℝ → ℝ) (ha : Vec a N F) (hb : Vec b N G) :
    ∃ c, Arr.op f a b = some c ∧ Vec c N (fun n => f (F n) (G n)) := by
  refine ⟨⟨[N], fun i => f (a.get (proj a.rshape i)) (b.get (proj b.rshape i))⟩, ?_, rfl, ?_⟩
  · simp only [Arr.op, ha.1, hb.1, bshape_self]
  · intro n hn
    simp only [ha.1, hb.1, proj1 hn, ha.2 n hn, hb.2 n hn]

theorem Tab.op {a b : Arr} {N m F G} (f : ℝ → ℝ → ℝ) (ha : Tab a N m F) (hb : Tab b N m G) :
    ∃ c, Arr.op f a b = some c ∧ Tab c N m (fun n k => f (F n k) (G n k)) := by
  refine ⟨⟨[m, N], fun i => f (a.get (proj a.rshape i)) (b.get (proj b.rshape i))⟩, ?_, rfl, ?_⟩
  · simp only [Arr.op, ha.1, hb.1, bshape_self]
  · intro n hn k hk
    simp only [ha.1, hb.1, proj2 hk hn, ha.2 n hn k hk, hb.2 n hn k hk]

theorem Tab.T {a : Arr} {N m F} (ha : Tab a N m F) : Tab a.T m N (fun k n => F n k) :=
  ⟨by simp [Arr.T, ha.1], fun k hk n hn => by simp [Arr.T, ha.2 n hn k hk]⟩

/-- A table with its rows last, times a vector. -/
theorem Tab.opVec {a b : Arr} {N m F G} (f : ℝ → ℝ → ℝ) (ha : Tab a N m F) (hb : Vec b N G) :
    ∃ c, Arr.op f a.T b = some c ∧ Tab c.T N m (fun n k => f (F n k) (G n)) ∧
      Tab c m N (fun k n => f (F n k) (G n)) := by
  have hbs : bshape [N, m] [N] = some [N, m] := by simp [bshape]
  have hT : a.T.rshape = [N, m] := ha.T.1
  have key : Arr.op f a.T b = some ⟨[N, m], fun i =>
      f (a.T.get (proj a.T.rshape i)) (b.get (proj b.rshape i))⟩ := by
    simp only [Arr.op, hT, hb.1, hbs]
  have tab : Tab ⟨[N, m], fun i =>
      f (a.T.get (proj a.T.rshape i)) (b.get (proj b.rshape i))⟩ m N (fun k n => f (F n k) (G n)) := by
    refine ⟨rfl, fun k hk n hn => ?_⟩
    simp only [hT, hb.1, proj2 hn hk, proj12 hn]
    rw [hb.2 n hn, ha.T.2 k hk n hn]
  exact ⟨_, key, tab.T, tab⟩

theorem Tab.col {a : Arr} {N m F k} (ha : Tab a N m F) (hk : k < m) :
    ∃ c, a.col k = some c ∧ Vec c N (fun n => F n k) := by
  refine ⟨⟨[N], fun i => a.get (k :: i)⟩, ?_, rfl, fun n hn => ha.2 n hn k hk⟩
  simp only [Arr.col, ha.1, if_pos hk]

theorem Tab.sum0 {a : Arr} {N m F} (ha : Tab a N m F) :
    ∃ c, a.sum0 = some c ∧ Vec c m (fun k => ∑ n ∈ range N, F n k) := by
  refine ⟨⟨[m], fun i => ∑ k ∈ range N, a.get (i ++ [k])⟩, ?_, rfl, fun k hk => ?_⟩
  · simp only [Arr.sum0, ha.1]
  · exact Finset.sum_congr rfl fun n hn => ha.2 n (Finset.mem_range.1 hn) k hk

theorem Tab.sum1 {a : Arr} {N m F} (ha : Tab a N m F) :
    ∃ c, a.sum1 = some c ∧ Vec c N (fun n => ∑ k ∈ range m, F n k) := by
  refine ⟨⟨[N], fun i => ∑ k ∈ range m, a.get (k :: i)⟩, ?_, rfl, fun n hn => ?_⟩
  · simp only [Arr.sum1, ha.1]
  · exact Finset.sum_congr rfl fun k hk => ha.2 n hn k (Finset.mem_range.1 hk)

theorem Tab.append1 {a b : Arr} {N m m' F G} (ha : Tab a N m F) (hb : Tab b N m' G) :
    ∃ c, Arr.append1 a b = some c ∧
      Tab c N (m + m') (fun n k => if k < m then F n k else G n (k - m)) := by
  refine ⟨⟨[m + m', N], fun i =>
      match i with
      | j :: r => if j < m then a.get (j :: r) else b.get ((j - m) :: r)
      | [] => 0⟩, ?_, rfl, ?_⟩
  · simp only [Arr.append1, ha.1, hb.1, if_pos]
    rfl
  · intro n hn k hk
    dsimp only
    split
    · exact ha.2 n hn k (by assumption)
    · exact hb.2 n hn (k - m) (by omega)

theorem Tab.neg {a : Arr} {N m F} (ha : Tab a N m F) : Tab a.neg N m (fun n k => -F n k) :=
  ⟨ha.1, fun n hn k hk => by simp [Arr.neg, ha.2 n hn k hk]⟩

theorem Vec.neg {a : Arr} {N F} (ha : Vec a N F) : Vec a.neg N (fun n => -F n) :=
  ⟨ha.1, fun n hn => by simp [Arr.neg, ha.2 n hn]⟩

theorem assemble_tab {N m : ℕ} {col : ℕ → Option Arr} {F : ℕ → ℕ → ℝ}
    (h : ∀ k < m, ∃ c, col k = some c ∧ Vec c N (fun n => F n k)) :
    ∃ c, assemble N m col = some c ∧ Tab c N m F := by
  refine ⟨⟨[m, N], fun i =>
      match i with
      | j :: r => match col j with
          | some c => c.get r
          | none => 0
      | [] => 0⟩, ?_, rfl, ?_⟩
  · unfold assemble
    rw [if_pos]
    · rfl
    · intro k hk
      obtain ⟨c, hc, hv⟩ := h k hk
      rw [hc, Option.map_some, hv.1]
  · intro n hn k hk
    obtain ⟨c, hc, hv⟩ := h k hk
    dsimp only
    rw [hc]
    exact hv.2 n hn

theorem sequence_some {α : Type} (l : List α) (g : α → Option Arr) :
    (∀ k : ℕ, ∀ a, l[k]? = some a → ∃ b, g a = some b) →
    ∃ r, sequence (l.map g) = some r ∧ r.length = l.length ∧
      ∀ k : ℕ, ∀ a, l[k]? = some a → r[k]? = g a := by
  induction l with
  | nil => intro _; exact ⟨[], rfl, rfl, by simp⟩
  | cons a l ih =>
      intro h
      obtain ⟨b, hb⟩ := h 0 a rfl
      obtain ⟨r, hr, hl, hg⟩ := ih (fun k a' ha => h (k + 1) a' (by simpa using ha))
      refine ⟨b :: r, by simp [sequence, hb, hr], by simp [hl], ?_⟩
      intro k a' ha
      cases k with
      | zero => simp at ha; subst ha; simp [hb]
      | succ k => simpa using hg k a' (by simpa using ha)

theorem Tabs.seq {α : Type} {l : List α} {g : α → Option Arr} {O N m : ℕ} {F} (hl : l.length = O)
    (h : ∀ o < O, ∃ a b, l[o]? = some a ∧ g a = some b ∧ Tab b N m (fun n k => F n o k)) :
    ∃ v, (sequence (l.map g)).map Val.list = some v ∧ Tabs v O N m F := by
  obtain ⟨r, hr, hrl, hg⟩ := sequence_some l g (fun k a ha => by
    have hk : k < O := by
      rw [← hl]; exact (List.getElem?_eq_some_iff.1 ha).1
    obtain ⟨a', b, h1, h2, _⟩ := h k hk
    rw [h1] at ha
    cases ha
    exact ⟨b, h2⟩)
  refine ⟨.list r, by rw [hr]; rfl, r, rfl, by omega, ?_⟩
  intro o ho
  obtain ⟨a, b, h1, h2, h3⟩ := h o ho
  exact ⟨b, by rw [hg o a h1, h2], h3⟩

/-- The stack of a list of tables. -/
theorem stack_tabs {l : List Arr} {O N m : ℕ} {F : ℕ → ℕ → ℕ → ℝ} (hl : l.length = O) (hO : 0 < O)
    (h : ∀ o < O, ∃ a, l[o]? = some a ∧ Tab a N m (fun n k => F n o k)) :
    ∃ s, stack l = some s ∧ s.rshape = [m, N, O] ∧
      ∀ o < O, ∀ n < N, ∀ k < m, s.get [k, n, o] = F n o k := by
  cases l with
  | nil => simp at hl; omega
  | cons a r =>
      have sh : ∀ b ∈ a :: r, b.rshape = [m, N] := by
        intro b hb
        obtain ⟨k, hk⟩ := List.mem_iff_getElem?.1 hb
        have hk' : k < O := by rw [← hl]; exact (List.getElem?_eq_some_iff.1 hk).1
        obtain ⟨a', h1, h2⟩ := h k hk'
        rw [hk] at h1
        cases h1
        exact h2.1
      refine ⟨_, by rw [stack, if_pos (fun b hb => by rw [sh b (by simp [hb]), sh a (by simp)])], ?_, ?_⟩
      · simp [sh a (by simp), ← hl]
      · intro o ho n hn k hk
        obtain ⟨a', h1, h2⟩ := h o ho
        simp only [List.getLastD_cons, List.getLastD_nil]
        rw [h1]
        exact h2.2 n hn k hk


theorem Tab.congr {a : Arr} {N m F G} (ha : Tab a N m F) (h : ∀ n < N, ∀ k < m, F n k = G n k) :
    Tab a N m G := ⟨ha.1, fun n hn k hk => by rw [ha.2 n hn k hk, h n hn k hk]⟩

theorem Vec.congr {a : Arr} {N F G} (ha : Vec a N F) (h : ∀ n < N, F n = G n) :
    Vec a N G := ⟨ha.1, fun n hn => by rw [ha.2 n hn, h n hn]⟩

theorem Tabs.mk {v : Val} {O N m F G} (hv : Tabs v O N m F)
    (h : ∀ n < N, ∀ o < O, ∀ k < m, F n o k = G n o k) : Tabs v O N m G := by
  obtain ⟨l, h1, h2, h3⟩ := hv
  refine ⟨l, h1, h2, fun o ho => ?_⟩
  obtain ⟨a, h4, h5⟩ := h3 o ho
  exact ⟨a, h4, h5.congr fun n hn k hk => h n hn o ho k hk⟩

theorem ParIs.congr {v : Val} {O N P F G} (hv : ParIs v N O P F)
    (h : ∀ n < N, ∀ o < O, ∀ k < P, F n o k = G n o k) : ParIs v N O P G := by
  unfold ParIs at hv ⊢
  split_ifs at hv ⊢ with hO
  · subst hO
    obtain ⟨a, h1, h2⟩ := hv
    exact ⟨a, h1, h2.congr fun n hn k hk => h n hn 0 (by omega) k hk⟩
  · exact Tabs.mk hv h

theorem DerIs.congr {v : Val} {N I O F G} (hv : DerIs v N I O F)
    (h : ∀ n < N, ∀ o < O, ∀ i < I, F n o i = G n o i) : DerIs v N I O G := by
  unfold DerIs at hv ⊢
  split_ifs at hv ⊢ with hI hO hO
  · subst hI hO
    obtain ⟨a, h1, h2⟩ := hv
    exact ⟨a, h1, h2.congr fun n hn => h n hn 0 (by omega) 0 (by omega)⟩
  · subst hI
    obtain ⟨a, h1, h2⟩ := hv
    exact ⟨a, h1, h2.congr fun n hn k hk => h n hn k hk 0 (by omega)⟩
  · subst hO
    obtain ⟨a, h1, h2⟩ := hv
    exact ⟨a, h1, h2.congr fun n hn k hk => h n hn 0 (by omega) k hk⟩
  · exact Tabs.mk hv h

/-! ## The pipes -/

theorem pipe0_ok {g h : Arr} {N P G H} (hg : Tab g N P G) (hh : Vec h N H) :
    ∃ w, pipe0 (.arr g) (.arr h) = some (.arr w) ∧ Tab w N P (fun n k => H n * G n k) := by
  obtain ⟨c, h1, h2, _⟩ := hg.opVec (· * ·) hh
  refine ⟨c.T, ?_, h2.congr fun n _ k _ => mul_comm _ _⟩
  simp only [pipe0, Arr.mul, h1, Option.map_some]

theorem pipe1Loop_ok {dd : Arr} {N K P : ℕ} {D : ℕ → ℕ → ℝ} {G : ℕ → ℕ → ℕ → ℝ}
    (hd : Tab dd N K D) : ∀ (gs : List Arr) (k0 : ℕ) (pp : Arr), k0 + gs.length = K →
    (∀ j < gs.length, ∃ a, gs[j]? = some a ∧ Tab a N P (fun n p => G n (k0 + j) p)) →
    ((k0 = 0 ∧ pp = Arr.zero ∧ 0 < gs.length) ∨
      Tab pp P N (fun p n => ∑ k ∈ range k0, D n k * G n k p)) →
    ∃ w, pipe1Loop dd gs k0 pp = some w ∧ Tab w P N (fun p n => ∑ k ∈ range K, D n k * G n k p) := by
  intro gs
  induction gs with
  | nil =>
      intro k0 pp hK _ h
      rcases h with ⟨_, _, h⟩ | h
      · simp at h
      · simp at hK
        subst hK
        exact ⟨pp, rfl, h⟩
  | cons g gs ih =>
      intro k0 pp hK hg h
      simp only [List.length_cons] at hK
      obtain ⟨c, hc, hcv⟩ := hd.col (k := k0) (by omega)
      obtain ⟨a, ha, hat⟩ := hg 0 (by simp)
      simp only [List.getElem?_cons_zero, Option.some.injEq] at ha
      subst ha
      obtain ⟨q, hq, _, hqt⟩ := hat.opVec (· * ·) hcv
      have step : ∃ pp', Arr.add pp q = some pp' ∧
          Tab pp' P N (fun p n => ∑ k ∈ range (k0 + 1), D n k * G n k p) := by
        rcases h with ⟨h0, h1, _⟩ | h
        · subst h0 h1
          refine ⟨⟨q.rshape, fun i => 0 + q.get (proj q.rshape i)⟩, ?_, hqt.1, ?_⟩
          · simp only [Arr.add, Arr.op, Arr.zero, bshape]
          · intro p hp n hn
            simp only [hqt.1, proj2 hn hp, hqt.2 p hp n hn]
            simp
            ring
        · obtain ⟨w, h1, h2⟩ := h.op (· + ·) hqt
          refine ⟨w, h1, h2.congr fun p _ n _ => ?_⟩
          rw [Finset.sum_range_succ]
          simp
          ring
      obtain ⟨pp', hp1, hp2⟩ := step
      obtain ⟨w, hw1, hw2⟩ := ih (k0 + 1) pp' (by omega) (fun j hj => by
        obtain ⟨a, h1, h2⟩ := hg (j + 1) (by simp; omega)
        refine ⟨a, by simpa using h1, ?_⟩
        rw [show k0 + 1 + j = k0 + (j + 1) by omega]
        exact h2) (Or.inr hp2)
      refine ⟨w, ?_, hw2⟩
      simp only [pipe1Loop, hc, Arr.mul, hq, hp1, hw1]

theorem pipe1_ok {g h : Val} {N K O P G H} (hK : 0 < K) (hg : Tabs g K N P G) (hh : Tabs h O N K H) :
    ∃ w, pipe1 g h = some w ∧ Tabs w O N P (fun n o p => ∑ k ∈ range K, H n o k * G n k p) := by
  obtain ⟨gs, rfl, hgl, hgt⟩ := hg
  obtain ⟨hs, rfl, hhl, hht⟩ := hh
  simp only [pipe1]
  apply Tabs.seq hhl
  intro o ho
  obtain ⟨a, h1, h2⟩ := hht o ho
  obtain ⟨w, hw1, hw2⟩ := pipe1Loop_ok (P := P) (G := G) h2 gs 0 Arr.zero (by omega)
    (fun j hj => by simpa using hgt j (by omega)) (Or.inl ⟨rfl, rfl, by omega⟩)
  exact ⟨a, w.T, h1, by rw [hw1]; rfl, hw2.T⟩

theorem pipe2_ok {g : Val} {h : Arr} {N K P G H} (hK : 0 < K) (hg : Tabs g K N P G)
    (hh : Tab h N K H) :
    ∃ w, pipe2 g (.arr h) = some (.arr w) ∧
      Tab w N P (fun n p => ∑ k ∈ range K, H n k * G n k p) := by
  obtain ⟨gs, rfl, hgl, hgt⟩ := hg
  obtain ⟨s, hs1, hs2, hs3⟩ := stack_tabs hgl hK hgt
  cases gs with
  | nil => simp at hgl; omega
  | cons g0 gr =>
      obtain ⟨a, ha, hat⟩ := hgt 0 hK
      simp only [List.getElem?_cons_zero, Option.some.injEq] at ha
      subst ha
      have : ∃ c, assemble N P (fun k =>
          match s.slice3 k with
          | none => none
          | some c => match Arr.mul h.T c with
              | none => none
              | some q => q.sum0) = some c ∧
          Tab c N P (fun n p => ∑ k ∈ range K, H n k * G n k p) := by
        apply assemble_tab
        intro k hk
        have sl : s.slice3 k = some ⟨[N, K], fun i => s.get (k :: i)⟩ := by
          simp only [Arr.slice3, hs2, if_pos hk]
        have tl : Tab ⟨[N, K], fun i => s.get (k :: i)⟩ K N (fun κ n => G n κ k) :=
          ⟨rfl, fun κ hκ n hn => hs3 κ hκ n hn k hk⟩
        obtain ⟨q, hq1, hq2⟩ := hh.T.op (· * ·) tl
        obtain ⟨c, hc1, hc2⟩ := hq2.sum0
        refine ⟨c, ?_, hc2⟩
        simp only [sl, Arr.mul, hq1, hc1]
      obtain ⟨c, hc1, hc2⟩ := this
      refine ⟨c, ?_, hc2⟩
      simp only [pipe2, hs1, hat.1]
      exact (congrArg (Option.map Val.arr) hc1).trans rfl

theorem pipe3_ok {g h : Arr} {N O P G H} (hg : Tab g N P G) (hh : Tab h N O H) :
    ∃ w, pipe3 (.arr g) (.arr h) = some w ∧ Tabs w O N P (fun n o p => H n o * G n p) := by
  simp only [pipe3, hh.1]
  apply Tabs.seq (by simp)
  intro o ho
  obtain ⟨c, hc1, hc2⟩ := hh.col ho
  obtain ⟨q, hq1, hq2, _⟩ := hg.opVec (· * ·) hc2
  refine ⟨o, q.T, by simp [ho], ?_, hq2.congr fun n _ k _ => mul_comm _ _⟩
  simp only [hc1, Arr.mul, hq1, Option.map_some]

theorem pipe4_ok {g h : Arr} {N G H} (hg : Vec g N G) (hh : Vec h N H) :
    ∃ w, pipe4 (.arr g) (.arr h) = some (.arr w) ∧ Vec w N (fun n => H n * G n) := by
  obtain ⟨c, h1, h2⟩ := hg.op (· * ·) hh
  refine ⟨c, ?_, h2.congr fun n _ => mul_comm _ _⟩
  simp only [pipe4, Arr.mul, h1, Option.map_some]

theorem pipe5_ok {g : Arr} {h : Val} {N K O G H} (hO : 0 < O) (hg : Tab g N K G)
    (hh : Tabs h O N K H) :
    ∃ w, pipe5 (.arr g) h = some (.arr w) ∧
      Tab w N O (fun n o => ∑ k ∈ range K, H n o k * G n k) := by
  obtain ⟨hs, rfl, hhl, hht⟩ := hh
  obtain ⟨s, hs1, hs2, hs3⟩ := stack_tabs hhl hO hht
  have : ∃ c, assemble N O (fun k =>
      match s.first3 k with
      | none => none
      | some c => match Arr.mul c g with
          | none => none
          | some q => q.sum1) = some c ∧
      Tab c N O (fun n o => ∑ k ∈ range K, H n o k * G n k) := by
    apply assemble_tab
    intro o ho
    have sl : s.first3 o = some ⟨[K, N], fun i => s.get (i ++ [o])⟩ := by
      simp only [Arr.first3, hs2, if_pos ho]
    have tl : Tab ⟨[K, N], fun i => s.get (i ++ [o])⟩ N K (fun n k => H n o k) :=
      ⟨rfl, fun n hn k hk => hs3 o ho n hn k hk⟩
    obtain ⟨q, hq1, hq2⟩ := tl.op (· * ·) hg
    obtain ⟨c, hc1, hc2⟩ := hq2.sum1
    refine ⟨c, ?_, hc2⟩
    simp only [sl, Arr.mul, hq1, hc1]
  obtain ⟨c, hc1, hc2⟩ := this
  refine ⟨c, ?_, hc2⟩
  simp only [pipe5, hs1, hs2]
  exact (congrArg (Option.map Val.arr) hc1).trans rfl

theorem pipe6_ok {g h : Arr} {N K G H} (hg : Tab g N K G) (hh : Tab h N K H) :
    ∃ w, pipe6 (.arr g) (.arr h) = some (.arr w) ∧ Vec w N (fun n => ∑ k ∈ range K, H n k * G n k) := by
  obtain ⟨q, hq1, hq2⟩ := hh.op (· * ·) hg
  obtain ⟨c, hc1, hc2⟩ := hq2.sum1
  refine ⟨c, ?_, hc2⟩
  simp only [pipe6, Arr.mul, hq1, hc1, Option.map_some]

theorem Vec.T {a : Arr} {N F} (ha : Vec a N F) : Vec a.T N F :=
  ⟨by simp [Arr.T, ha.1], fun n hn => by simp [Arr.T, ha.2 n hn]⟩

theorem pipe7_ok {g h : Arr} {N O G H} (hg : Vec g N G) (hh : Tab h N O H) :
    ∃ w, pipe7 (.arr g) (.arr h) = some (.arr w) ∧ Tab w N O (fun n o => H n o * G n) := by
  obtain ⟨q, hq1, hq2, _⟩ := hh.opVec (· * ·) hg.T
  refine ⟨q.T, ?_, hq2⟩
  simp only [pipe7, Arr.mul, hq1, Option.map_some]

/-- The pipe for partials multiplies the matrices. -/
theorem pipePart_ok {I K O N P : ℕ} {G H v d} (hI : 0 < I) (hK : 0 < K) (hO : 0 < O)
    (hv : ParIs v N K P G) (hd : DerIs d N K O H) :
    ∃ q w, selectPipe I K O = some q ∧ q.part v d = some w ∧
      ParIs w N O P (fun n o p => ∑ k ∈ range K, H n o k * G n k p) := by
  by_cases hK1 : K = 1
  · by_cases hO1 : O = 1
    · subst hK1 hO1
      simp only [ParIs, DerIs, if_true] at hv hd
      obtain ⟨a, rfl, ha⟩ := hv
      obtain ⟨b, rfl, hb⟩ := hd
      obtain ⟨w, hw, hwt⟩ := pipe0_ok ha hb
      have : ∃ z, selectPipe I 1 1 = some ⟨pipe0, z⟩ := by
        by_cases h : I = 1
        · exact ⟨_, by simp only [selectPipe]; rw [if_pos (by simp [h])]⟩
        · exact ⟨_, by simp only [selectPipe]; rw [if_neg (by simp [h]), if_pos (by simp; omega)]⟩
      obtain ⟨z, hz⟩ := this
      refine ⟨_, _, hz, hw, ?_⟩
      simp only [ParIs, if_true]
      exact ⟨w, rfl, hwt.congr fun n _ k _ => by simp⟩
    · subst hK1
      simp only [ParIs, DerIs, if_true, if_neg hO1] at hv hd
      obtain ⟨a, rfl, ha⟩ := hv
      obtain ⟨b, rfl, hb⟩ := hd
      obtain ⟨w, hw, hwt⟩ := pipe3_ok ha hb
      have : ∃ z, selectPipe I 1 O = some ⟨pipe3, z⟩ := by
        have hO2 : O > 1 := by omega
        by_cases h : I = 1
        · subst h; exact ⟨_, by simp [selectPipe, hO1, hO2]; rfl⟩
        · have : I > 1 := by omega
          exact ⟨_, by simp [selectPipe, hO1, hO2, h, this]; rfl⟩
      obtain ⟨z, hz⟩ := this
      refine ⟨_, _, hz, hw, ?_⟩
      simp only [ParIs, if_neg hO1]
      exact Tabs.mk hwt fun n _ o _ k _ => by simp
  · have hK2 : K > 1 := by omega
    by_cases hO1 : O = 1
    · subst hO1
      simp only [ParIs, DerIs, if_true, if_neg hK1] at hv hd
      obtain ⟨b, rfl, hb⟩ := hd
      obtain ⟨w, hw, hwt⟩ := pipe2_ok hK hv hb
      have : ∃ z, selectPipe I K 1 = some ⟨pipe2, z⟩ := by
        by_cases h : I = 1
        · subst h; exact ⟨_, by simp [selectPipe, hK1, hK2]; rfl⟩
        · have : I > 1 := by omega
          exact ⟨_, by simp [selectPipe, hK1, hK2, h, this]; rfl⟩
      obtain ⟨z, hz⟩ := this
      refine ⟨_, _, hz, hw, ?_⟩
      simp only [ParIs, if_true]
      exact ⟨w, rfl, hwt⟩
    · have hO2 : O > 1 := by omega
      simp only [ParIs, DerIs, if_neg hK1, if_neg hO1] at hv hd
      obtain ⟨w, hw, hwt⟩ := pipe1_ok hK hv hd
      have : ∃ z, selectPipe I K O = some ⟨pipe1, z⟩ := by
        by_cases h : I = 1
        · subst h; exact ⟨_, by simp [selectPipe, hK1, hK2, hO1, hO2]; rfl⟩
        · have : I > 1 := by omega
          exact ⟨_, by simp [selectPipe, hK1, hK2, hO1, hO2, h, this]; rfl⟩
      obtain ⟨z, hz⟩ := this
      refine ⟨_, _, hz, hw, ?_⟩
      simp only [ParIs, if_neg hO1]
      exact hwt

/-- The pipe for derivatives multiplies the matrices. -/
theorem pipeDeriv_ok {I K O N : ℕ} {G H v d} (hI : 0 < I) (hK : 0 < K) (hO : 0 < O)
    (hv : DerIs v N I K G) (hd : DerIs d N K O H) :
    ∃ q w, selectPipe I K O = some q ∧ q.deriv v d = some w ∧
      DerIs w N I O (fun n o i => ∑ k ∈ range K, H n o k * G n k i) := by
  by_cases hI1 : I = 1
  · subst hI1
    by_cases hK1 : K = 1
    · subst hK1
      by_cases hO1 : O = 1
      · subst hO1
        simp only [DerIs, if_true] at hv hd
        obtain ⟨a, rfl, ha⟩ := hv
        obtain ⟨b, rfl, hb⟩ := hd
        obtain ⟨w, hw, hwt⟩ := pipe4_ok ha hb
        refine ⟨_, _, by simp [selectPipe]; rfl, hw, ?_⟩
        simp only [DerIs, if_true]
        exact ⟨w, rfl, hwt.congr fun n _ => by simp⟩
      · have hO2 : O > 1 := by omega
        simp only [DerIs, if_true, if_neg hO1] at hv hd
        obtain ⟨a, rfl, ha⟩ := hv
        obtain ⟨b, rfl, hb⟩ := hd
        obtain ⟨w, hw, hwt⟩ := pipe7_ok ha hb
        refine ⟨_, _, by simp [selectPipe, hO1, hO2]; rfl, hw, ?_⟩
        simp only [DerIs, if_true, if_neg hO1]
        exact ⟨w, rfl, hwt.congr fun n _ o _ => by simp⟩
    · have hK2 : K > 1 := by omega
      by_cases hO1 : O = 1
      · subst hO1
        simp only [DerIs, if_true, if_neg hK1] at hv hd
        obtain ⟨a, rfl, ha⟩ := hv
        obtain ⟨b, rfl, hb⟩ := hd
        obtain ⟨w, hw, hwt⟩ := pipe6_ok ha hb
        refine ⟨_, _, by simp [selectPipe, hK1, hK2]; rfl, hw, ?_⟩
        simp only [DerIs, if_true]
        exact ⟨w, rfl, hwt⟩
      · have hO2 : O > 1 := by omega
        simp only [DerIs, if_true, if_neg hO1, if_neg hK1] at hv hd
        obtain ⟨a, rfl, ha⟩ := hv
        obtain ⟨w, hw, hwt⟩ := pipe5_ok hO ha hd
        refine ⟨_, _, by simp [selectPipe, hK1, hK2, hO1, hO2]; rfl, hw, ?_⟩
        simp only [DerIs, if_true, if_neg hO1]
        exact ⟨w, rfl, hwt⟩
  · have hI2 : I > 1 := by omega
    by_cases hK1 : K = 1
    · subst hK1
      by_cases hO1 : O = 1
      · subst hO1
        simp only [DerIs, if_true, if_neg hI1] at hv hd
        obtain ⟨a, rfl, ha⟩ := hv
        obtain ⟨b, rfl, hb⟩ := hd
        obtain ⟨w, hw, hwt⟩ := pipe0_ok ha hb
        refine ⟨_, _, by simp [selectPipe, hI1, hI2]; rfl, hw, ?_⟩
        simp only [DerIs, if_true, if_neg hI1]
        exact ⟨w, rfl, hwt.congr fun n _ k _ => by simp⟩
      · have hO2 : O > 1 := by omega
        simp only [DerIs, if_true, if_neg hO1, if_neg hI1] at hv hd
        obtain ⟨a, rfl, ha⟩ := hv
        obtain ⟨b, rfl, hb⟩ := hd
        obtain ⟨w, hw, hwt⟩ := pipe3_ok ha hb
        refine ⟨_, _, by simp [selectPipe, hO1, hO2, hI1, hI2]; rfl, hw, ?_⟩
        simp only [DerIs, if_neg hO1, if_neg hI1]
        exact Tabs.mk hwt fun n _ o _ k _ => by simp
    · have hK2 : K > 1 := by omega
      by_cases hO1 : O = 1
      · subst hO1
        simp only [DerIs, if_true, if_neg hK1, if_neg hI1] at hv hd
        obtain ⟨b, rfl, hb⟩ := hd
        obtain ⟨w, hw, hwt⟩ := pipe2_ok hK hv hb
        refine ⟨_, _, by simp [selectPipe, hK1, hK2, hI1, hI2]; rfl, hw, ?_⟩
        simp only [DerIs, if_true, if_neg hI1]
        exact ⟨w, rfl, hwt⟩
      · have hO2 : O > 1 := by omega
        simp only [DerIs, if_neg hO1, if_neg hK1, if_neg hI1] at hv hd
        obtain ⟨w, hw, hwt⟩ := pipe1_ok hK hv hd
        refine ⟨_, _, by simp [selectPipe, hK1, hK2, hO1, hO2, hI1, hI2]; rfl, hw, ?_⟩
        simp only [DerIs, if_neg hO1, if_neg hI1]
        exact hwt

/-! ## Chains -/

/-- What a node looks like once it has been appended. -/
theorem appendNode_some {I o : ℕ} {op : Op} {m : Mdl} {nd : Node} (h : appendNode I o op m = some nd) :
    nd.op = op ∧ nd.mdl = m ∧
      ((op = .pip ∧ m.ndim = o ∧ nd.pipe = selectPipe I m.ndim m.ndout) ∨ (op ≠ .pip ∧ m.ndim = I)) := by
  unfold appendNode at h
  split_ifs at h with h1 h2 h2
  · cases h
    exact ⟨rfl, rfl, Or.inl ⟨h1, (by simpa using h2 : o = m.ndim).symm, rfl⟩⟩
  · cases h
    exact ⟨rfl, rfl, Or.inr ⟨h1, (by simpa using h2 : I = m.ndim).symm⟩⟩

/-- The list that is handed to `build`. -/
def pairs (l : List Part) : List (Op × Mdl) := l.map fun c => (c.op, c.mdl)

theorem buildFrom_cons {I o : ℕ} {c : Part} {l : List Part} {nodes : List Node}
    (h : buildFrom I o (pairs (c :: l)) = some nodes) :
    ∃ nd r, nodes = nd :: r ∧ appendNode I o c.op c.mdl = some nd ∧
      buildFrom I c.mdl.ndout (pairs l) = some r := by
  simp only [pairs, List.map_cons, buildFrom] at h
  cases h1 : appendNode I o c.op c.mdl with
  | none => rw [h1] at h; cases h
  | some nd =>
      rw [h1] at h
      dsimp only at h
      cases h2 : buildFrom I c.mdl.ndout (List.map (fun c => (c.op, c.mdl)) l) with
      | none => rw [h2] at h; cases h
      | some r =>
          rw [h2] at h
          cases h
          exact ⟨nd, r, rfl, rfl, h2⟩

/-- Points combined element by element. -/
theorem Pts.op {a b : Arr} {N d X Y} (f : ℝ → ℝ → ℝ) (ha : Pts a N d X) (hb : Pts b N d Y) :
    ∃ c, Arr.op f a b = some c ∧ Pts c N d (fun n i => f (X n i) (Y n i)) := by
  unfold Pts at *
  split_ifs at * with h
  · exact ha.op f hb
  · exact ha.op f hb

/-- One step of the result. -/
theorem operate_ok {I o N : ℕ} {x r : Arr} {X : ℕ → ℕ → ℝ} {G : ℕ → ℕ → ℝ} {c : Part}
    {nd : Node} (p : ℕ → ℝ) (hnd : appendNode I o c.op c.mdl = some nd) (hop : c.op ≠ .nop)
    (ho : c.op ≠ .pip → c.mdl.ndout = o) (hc : c.mdl.Computes c.fn)
    (hx : Pts x N I X) (hr : Pts r N o G) (next : Option Arr)
    (hnext : c.op ≠ .pip → next = c.mdl.result x p) :
    ∃ r', operate nd.op (some r) next (fun r => nd.mdl.result r p) = some r' ∧
      Pts r' N c.mdl.ndout (fun n => step c.op (G n) c.fn (X n) p) := by
  obtain ⟨e1, e2, h⟩ := appendNode_some hnd
  rw [e1, e2]
  rcases h with ⟨h1, h2, _⟩ | ⟨h1, h2⟩
  · rw [h1]
    obtain ⟨r', hr1, hr2⟩ := hc.result r N G p (by rw [h2]; exact hr)
    exact ⟨r', hr1, by simpa [step] using hr2⟩
  · obtain ⟨s, hs1, hs2⟩ := hc.result x N X p (by rw [h2]; exact hx)
    rw [hnext h1, hs1]
    have := ho h1
    rw [this] at hs2 ⊢
    match c.op, hop, h1 with
    | .add, _, _ => exact hr.op (· + ·) hs2
    | .sub, _, _ => exact hr.op (· - ·) hs2
    | .mul, _, _ => exact hr.op (· * ·) hs2
    | .div, _, _ => exact hr.op (· / ·) hs2

theorem recResult_ok {I N : ℕ} {x : Arr} {X : ℕ → ℕ → ℝ} (hx : Pts x N I X) :
    ∀ (l : List Part) (o : ℕ) (nodes : List Node) (p : ℕ → ℝ) (r : Arr) (G : ℕ → ℕ → ℝ),
      buildFrom I o (pairs l) = some nodes → Fits o l → Pts r N o G →
      ∃ w, recResult x nodes p (some r) = some w ∧
        Pts w N (outputs o l) (fun n => tailVal l (X n) p (G n)) := by
  intro l
  induction l with
  | nil =>
      intro o nodes p r G hb _ hr
      cases hb
      exact ⟨r, rfl, hr⟩
  | cons c l ih =>
      intro o nodes p r G hb hf hr
      obtain ⟨nd, rest, rfl, h1, h2⟩ := buildFrom_cons hb
      obtain ⟨f1, f2, f3, f4⟩ := hf
      obtain ⟨e1, e2, _⟩ := appendNode_some h1
      obtain ⟨r', hr1, hr2⟩ := operate_ok p h1 f1 f2 f3 hx hr
        (if nd.op = .pip then none else nd.mdl.result x p) (fun h => by rw [e1, e2, if_neg h])
      obtain ⟨w, hw1, hw2⟩ := ih c.mdl.ndout rest (shift c.mdl.np p) r' _ h2 f4 hr2
      refine ⟨w, ?_, hw2⟩
      simp only [recResult, hr1]
      rw [e2]
      exact hw1

/-- C106: the result of a chain of models of any number of inputs and outputs, put together in any
number of steps, is in every point the function that is read from left to right. -/
theorem C106_result {m : Mdl} {F : Fn} {l : List Part} {nodes : List Node} {x : Arr} {N : ℕ}
    {X : ℕ → ℕ → ℝ} (hb : build m (pairs l) = some nodes) (hm : m.Computes F) (hl : Fits m.ndout l)
    (hx : Pts x N m.ndim X) (p : ℕ → ℝ) :
    ∃ r, chainResult nodes x p = some r ∧
      Pts r N (outputs m.ndout l) (fun n o => chainVal m F l (X n) p o) := by
  unfold build at hb
  cases h : buildFrom m.ndim m.ndout (pairs l) with
  | none => rw [h] at hb; cases hb
  | some rest =>
      rw [h] at hb
      cases hb
      obtain ⟨r, hr1, hr2⟩ := hm.result x N X p hx
      obtain ⟨w, hw1, hw2⟩ := recResult_ok hx l m.ndout rest (shift m.np p) r _ h hl hr2
      refine ⟨w, ?_, hw2⟩
      simp only [chainResult, recResult, operate]
      rw [if_neg (by decide), hr1]
      exact hw1

/-! ## Derivatives to the inputs -/

theorem XDiff.op {f g : (ℕ → ℝ) → ℕ → ℝ} {f' g' D x I O}
    (h : ℝ → ℝ → ℝ) (hf : XDiff f f' x I O) (hg : XDiff g g' x I O)
    (A B : ℕ → ℝ)
    (hd : ∀ o < O, ∀ (u v : ℝ → ℝ) (u' v' t : ℝ), u t = f x o → v t = g x o → HasDerivAt u u' t →
      HasDerivAt v v' t → HasDerivAt (fun s => h (u s) (v s)) (A o * u' + B o * v') t)
    (hD : ∀ o < O, ∀ i < I, D o i = A o * f' o i + B o * g' o i) :
    XDiff (fun z o => h (f z o) (g z o)) D x I O := by
  intro c c' t hc hc' o ho
  have := hd o ho _ _ _ _ t (by rw [hc]) (by rw [hc]) (hf c c' t hc hc' o ho) (hg c c' t hc hc' o ho)
  refine this.congr_deriv ?_
  rw [Finset.mul_sum, Finset.mul_sum, ← Finset.sum_add_distrib]
  refine Finset.sum_congr rfl fun i hi => ?_
  rw [hD o ho i (Finset.mem_range.1 hi)]
  ring

theorem XDiff.comp {f g : (ℕ → ℝ) → ℕ → ℝ} {f' g' D x I K O}
    (hf : XDiff f f' x I K) (hg : XDiff g g' (f x) K O)
    (hD : ∀ o < O, ∀ i < I, D o i = ∑ k ∈ range K, g' o k * f' k i) :
    XDiff (fun z => g (f z)) D x I O := by
  intro c c' t hc hc' o ho
  have := hg (fun s => f (c s)) (fun k => ∑ i ∈ range I, f' k i * c' i) t (by rw [hc])
    (fun k hk => hf c c' t hc hc' k hk) o ho
  refine this.congr_deriv ?_
  have e : ∀ i ∈ range I, D o i * c' i = ∑ k ∈ range K, g' o k * (f' k i * c' i) := by
    intro i hi
    rw [hD o ho i (Finset.mem_range.1 hi), Finset.sum_mul]
    exact Finset.sum_congr rfl fun k _ => by ring
  rw [Finset.sum_congr rfl e, Finset.sum_comm]
  exact Finset.sum_congr rfl fun k _ => by rw [Finset.mul_sum]

/-- What the partial derivative to one input is. -/
theorem XDiff.single {f : (ℕ → ℝ) → ℕ → ℝ} {f' x I O} (hf : XDiff f f' x I O) {i o : ℕ} (hi : i < I)
    (ho : o < O) : HasDerivAt (fun s => f (Function.update x i s) o) (f' o i) (x i) := by
  have := hf (fun s => Function.update x i s) (fun j => if j = i then 1 else 0) (x i) (by simp)
    (fun j _ => by
      by_cases h : j = i
      · subst h
        simp only [Function.update_self, if_true]
        exact hasDerivAt_id (x j)
      · simpa [h] using hasDerivAt_const (x i) (x j)) o ho
  refine this.congr_deriv ?_
  simp [Finset.sum_ite_eq', hi]

/-- Differences of models with more inputs and more outputs, and products and quotients of models with
more inputs, are excluded. -/
def DerOk (I : ℕ) : List Part → Prop
  | [] => True
  | c :: l => (c.op = .sub → I = 1 ∨ c.mdl.ndout = 1) ∧ (c.op = .mul ∨ c.op = .div → I = 1) ∧ DerOk I l

theorem joinAdd_ok {N O I : ℕ} {df nextdf : Val} {D E} (hd : DerIs df N I O D) (he : DerIs nextdf N I O E)
    (nd : Node) (hop : nd.op = .add) (hI : nd.mdl.ndim = I) (hO : nd.mdl.ndout = O)
    (a b : Option Arr) :
    ∃ w, joinDeriv nd df nextdf a b = some w ∧ DerIs w N I O (fun n o i => D n o i + E n o i) := by
  unfold DerIs at *
  by_cases h1 : I = 1
  · by_cases h2 : O = 1
    · simp only [if_pos h1, if_pos h2] at hd he ⊢
      obtain ⟨a, rfl, ha⟩ := hd
      obtain ⟨b, rfl, hb⟩ := he
      obtain ⟨c, hc1, hc2⟩ := ha.op (· + ·) hb
      exact ⟨.arr c, by simp only [joinDeriv, hop, hI, hO, h1, true_or, if_true, Arr.add, hc1,
        Option.map_some], c, rfl, hc2⟩
    · simp only [if_pos h1, if_neg h2] at hd he ⊢
      obtain ⟨a, rfl, ha⟩ := hd
      obtain ⟨b, rfl, hb⟩ := he
      obtain ⟨c, hc1, hc2⟩ := ha.op (· + ·) hb
      exact ⟨.arr c, by simp only [joinDeriv, hop, hI, hO, h1, true_or, if_true, Arr.add, hc1,
        Option.map_some], c, rfl, hc2⟩
  · by_cases h2 : O = 1
    · simp only [if_neg h1, if_pos h2] at hd he ⊢
      obtain ⟨a, rfl, ha⟩ := hd
      obtain ⟨b, rfl, hb⟩ := he
      obtain ⟨c, hc1, hc2⟩ := ha.op (· + ·) hb
      exact ⟨.arr c, by simp only [joinDeriv, hop, hI, hO, h2, or_true, if_true, Arr.add, hc1,
        Option.map_some], c, rfl, hc2⟩
    · simp only [if_neg h1, if_neg h2] at hd he ⊢
      obtain ⟨ld, rfl, hl, hld⟩ := hd
      obtain ⟨le, rfl, hl', hle⟩ := he
      have e : joinDeriv nd (.list ld) (.list le) a b = (zipAdd ld le).map .list := by
        simp only [joinDeriv, hop, hI, hO, h1, h2, or_self, if_false]
      have : List.zipWith Arr.add ld le = (List.zip ld le).map fun q => Arr.add q.1 q.2 := by
        rw [List.zip, List.map_zipWith]
      rw [e, zipAdd, this]
      apply Tabs.seq (by simp [hl, hl'])
      intro o ho
      obtain ⟨a, ha1, ha2⟩ := hld o ho
      obtain ⟨b, hb1, hb2⟩ := hle o ho
      obtain ⟨c, hc1, hc2⟩ := ha2.op (· + ·) hb2
      refine ⟨(a, b), c, ?_, hc1, hc2⟩
      rw [List.getElem?_zip_eq_some]
      exact ⟨ha1, hb1⟩

theorem joinSub_ok {N O I : ℕ} {df nextdf : Val} {D E} (hd : DerIs df N I O D) (he : DerIs nextdf N I O E)
    (nd : Node) (hop : nd.op = .sub) (hOk : I = 1 ∨ O = 1) (a b : Option Arr) :
    ∃ w, joinDeriv nd df nextdf a b = some w ∧ DerIs w N I O (fun n o i => D n o i - E n o i) := by
  simp only [joinDeriv, hop]
  unfold DerIs at *
  split_ifs at hd he ⊢ with h1 h2 h2
  · obtain ⟨a, rfl, ha⟩ := hd
    obtain ⟨b, rfl, hb⟩ := he
    obtain ⟨c, hc1, hc2⟩ := ha.op (· - ·) hb
    exact ⟨.arr c, by simp only [Arr.sub, hc1, Option.map_some], c, rfl, hc2⟩
  · obtain ⟨a, rfl, ha⟩ := hd
    obtain ⟨b, rfl, hb⟩ := he
    obtain ⟨c, hc1, hc2⟩ := ha.op (· - ·) hb
    exact ⟨.arr c, by simp only [Arr.sub, hc1, Option.map_some], c, rfl, hc2⟩
  · obtain ⟨a, rfl, ha⟩ := hd
    obtain ⟨b, rfl, hb⟩ := he
    obtain ⟨c, hc1, hc2⟩ := ha.op (· - ·) hb
    exact ⟨.arr c, by simp only [Arr.sub, hc1, Option.map_some], c, rfl, hc2⟩
  · rcases hOk with h | h
    · exact absurd h h1
    · exact absurd h h2

theorem joinMul_ok {N O : ℕ} {df nextdf : Val} {D E R S} {r s : Arr} (hd : DerIs df N 1 O D)
    (he : DerIs nextdf N 1 O E) (hr : Pts r N O R) (hs : Pts s N O S)
    (nd : Node) (hop : nd.op = .mul) :
    ∃ w, joinDeriv nd df nextdf (some r) (some s) = some w ∧
      DerIs w N 1 O (fun n o i => D n o i * S n o + E n o i * R n o) := by
  simp only [joinDeriv, hop]
  unfold DerIs at *
  unfold Pts at *
  simp only [if_true] at *
  split_ifs at * with h2
  · subst h2
    obtain ⟨a, rfl, ha⟩ := hd
    obtain ⟨b, rfl, hb⟩ := he
    obtain ⟨c, hc1, hc2⟩ := ha.op (· * ·) hs
    obtain ⟨d, hd1, hd2⟩ := hb.op (· * ·) hr
    obtain ⟨e, he1, he2⟩ := hc2.op (· + ·) hd2
    exact ⟨.arr e, by simp only [Option.bind_some, Val.mulArr, Val.toArr, Arr.mul, hc1, hd1, lift2,
      Arr.add, he1, Option.map_some], e, rfl, he2⟩
  · obtain ⟨a, rfl, ha⟩ := hd
    obtain ⟨b, rfl, hb⟩ := he
    obtain ⟨c, hc1, hc2⟩ := ha.op (· * ·) hs
    obtain ⟨d, hd1, hd2⟩ := hb.op (· * ·) hr
    obtain ⟨e, he1, he2⟩ := hc2.op (· + ·) hd2
    exact ⟨.arr e, by simp only [Option.bind_some, Val.mulArr, Val.toArr, Arr.mul, hc1, hd1, lift2,
      Arr.add, he1, Option.map_some], e, rfl, he2⟩

theorem joinDiv_ok {N O : ℕ} {df nextdf : Val} {D E R S} {r s : Arr} (hd : DerIs df N 1 O D)
    (he : DerIs nextdf N 1 O E) (hr : Pts r N O R) (hs : Pts s N O S)
    (nd : Node) (hop : nd.op = .div) :
    ∃ w, joinDeriv nd df nextdf (some r) (some s) = some w ∧
      DerIs w N 1 O (fun n o i => (D n o i * S n o - E n o i * R n o) / (S n o * S n o)) := by
  simp only [joinDeriv, hop]
  unfold DerIs at *
  unfold Pts at *
  simp only [if_true] at *
  split_ifs at * with h2
  · subst h2
    obtain ⟨a, rfl, ha⟩ := hd
    obtain ⟨b, rfl, hb⟩ := he
    obtain ⟨c, hc1, hc2⟩ := ha.op (· * ·) hs
    obtain ⟨d, hd1, hd2⟩ := hb.op (· * ·) hr
    obtain ⟨e, he1, he2⟩ := hc2.op (· - ·) hd2
    obtain ⟨g, hg1, hg2⟩ := hs.op (· * ·) hs
    obtain ⟨q, hq1, hq2⟩ := he2.op (· / ·) hg2
    exact ⟨.arr q, by simp only [Option.bind_some, Val.mulArr, Val.toArr, Arr.mul, hc1, hd1, lift2,
      Arr.sub, he1, hg1, Arr.div, hq1, Option.map_some], q, rfl, hq2⟩
  · obtain ⟨a, rfl, ha⟩ := hd
    obtain ⟨b, rfl, hb⟩ := he
    obtain ⟨c, hc1, hc2⟩ := ha.op (· * ·) hs
    obtain ⟨d, hd1, hd2⟩ := hb.op (· * ·) hr
    obtain ⟨e, he1, he2⟩ := hc2.op (· - ·) hd2
    obtain ⟨g, hg1, hg2⟩ := hs.op (· * ·) hs
    obtain ⟨q, hq1, hq2⟩ := he2.op (· / ·) hg2
    exact ⟨.arr q, by simp only [Option.bind_some, Val.mulArr, Val.toArr, Arr.mul, hc1, hd1, lift2,
      Arr.sub, he1, hg1, Arr.div, hq1, Option.map_some], q, rfl, hq2⟩

theorem hasDerivAt_div_form {u v : ℝ → ℝ} {u' v' t a b : ℝ} (hu : u t = a) (hv : v t = b)
    (h1 : HasDerivAt u u' t) (h2 : HasDerivAt v v' t) (hb : b ≠ 0) :
    HasDerivAt (fun s => u s / v s) (1 / b * u' + (-a / (b * b)) * v') t := by
  have := h1.div h2 (by rw [hv]; exact hb)
  refine this.congr_deriv ?_
  rw [hu, hv]
  field_simp
  ring

/-- One step of the derivative. -/
theorem joinDeriv_ok {I o N : ℕ} {x r : Arr} {X : ℕ → ℕ → ℝ} {G : (ℕ → ℝ) → ℕ → ℝ} {g} {c : Part}
    {nd : Node} {df : Val} (p : ℕ → ℝ) (hI : 0 < I) (hnd : appendNode I o c.op c.mdl = some nd)
    (ho0 : 0 < o) (hop : c.op ≠ .nop)
    (ho : c.op ≠ .pip → c.mdl.ndout = o) (hc : c.mdl.Computes c.fn)
    (hok1 : c.op = .sub → I = 1 ∨ c.mdl.ndout = 1) (hok2 : c.op = .mul ∨ c.op = .div → I = 1)
    (hx : Pts x N I X) (hr : Pts r N o (fun n => G (X n))) (hd : DerIs df N I o g)
    (hg : ∀ n < N, XDiff G (g n) (X n) I o)
    (hs : ∀ n < N, XDiff (fun z => c.fn.f z p) (c.fn.fx (if c.op = .pip then G (X n) else X n) p)
        (if c.op = .pip then G (X n) else X n) c.mdl.ndim c.mdl.ndout)
    (hz : ∀ n < N, c.op = .div → ∀ o < c.mdl.ndout, c.fn.f (X n) p o ≠ 0) :
    ∃ xd nextdf w D, (if nd.op = .pip then some r else some x) = some xd ∧
      nd.mdl.derivative xd p = some nextdf ∧
      joinDeriv nd df nextdf (some r) (nd.mdl.result x p) = some w ∧
      DerIs w N I c.mdl.ndout D ∧
      ∀ n < N, XDiff (fun z => step c.op (G z) c.fn z p) (D n) (X n) I c.mdl.ndout := by
  obtain ⟨e1, e2, h⟩ := appendNode_some hnd
  rcases h with ⟨h1, h2, h3⟩ | ⟨h1, h2⟩
  · obtain ⟨v, hv1, hv2⟩ := hc.derivative r N _ p (by rw [h2]; exact hr)
    rw [h2] at hv2
    obtain ⟨q, w, hq, hw, hwd⟩ := pipeDeriv_ok hI ho0 hc.ndout hd hv2
    refine ⟨r, v, w, _, by rw [e1, if_pos h1], by rw [e2]; exact hv1, ?_, hwd, ?_⟩
    · simp only [joinDeriv, e1, h1, h3, h2, hq, hw]
    · intro n hn
      have hs' := hs n hn
      simp only [h1, if_true] at hs' ⊢
      rw [h2] at hs'
      exact (hg n hn).comp hs' (fun _ _ _ _ => rfl)
  · obtain ⟨v, hv1, hv2⟩ := hc.derivative x N X p (by rw [h2]; exact hx)
    obtain ⟨s, hs1, hs2⟩ := hc.result x N X p (by rw [h2]; exact hx)
    have hoo := ho h1
    rw [h2, hoo] at hv2
    rw [hoo] at hs2
    have hs' : ∀ n < N, XDiff (fun z => c.fn.f z p) (c.fn.fx (X n) p) (X n) I o := by
      intro n hn
      have := hs n hn
      rw [if_neg h1, h2, hoo] at this
      exact this
    have pre : (if nd.op = .pip then some r else some x) = some x := by rw [e1, if_neg h1]
    have pre2 : nd.mdl.derivative x p = some v := by rw [e2]; exact hv1
    have pre3 : nd.mdl.result x p = some s := by rw [e2]; exact hs1
    rw [hoo] at hok1 hz ⊢
    rw [pre3]
    match hcop : c.op, hop, h1 with
    | .add, _, _ =>
        obtain ⟨w, hw1, hw2⟩ := joinAdd_ok hd hv2 nd (by rw [e1, hcop]) (by rw [e2, h2])
          (by rw [e2, hoo]) (some r) (some s)
        refine ⟨x, v, w, _, pre, pre2, hw1, hw2, fun n hn => ?_⟩
        exact XDiff.op (· + ·) (hg n hn) (hs' n hn) (fun _ => 1) (fun _ => 1)
          (fun o _ u v u' v' t _ _ h1 h2 => (h1.add h2).congr_deriv (by ring)) (fun o _ i _ => by ring)
    | .sub, _, _ =>
        obtain ⟨w, hw1, hw2⟩ := joinSub_ok hd hv2 nd (by rw [e1, hcop]) (hok1 hcop) (some r) (some s)
        refine ⟨x, v, w, _, pre, pre2, hw1, hw2, fun n hn => ?_⟩
        exact XDiff.op (· - ·) (hg n hn) (hs' n hn) (fun _ => 1) (fun _ => -1)
          (fun o _ u v u' v' t _ _ h1 h2 => (h1.sub h2).congr_deriv (by ring)) (fun o _ i _ => by ring)
    | .mul, _, _ =>
        have hI1 := hok2 (Or.inl hcop)
        subst hI1
        obtain ⟨w, hw1, hw2⟩ := joinMul_ok hd hv2 hr hs2 nd (by rw [e1, hcop])
        refine ⟨x, v, w, _, pre, pre2, hw1, hw2, fun n hn => ?_⟩
        exact XDiff.op (· * ·) (hg n hn) (hs' n hn) (fun o => c.fn.f (X n) p o) (fun o => G (X n) o)
          (fun o _ u v u' v' t hu hv h1 h2 => (h1.mul h2).congr_deriv (by rw [hu, hv]; ring))
          (fun o _ i _ => by ring)
    | .div, _, _ =>
        have hI1 := hok2 (Or.inr hcop)
        subst hI1
        obtain ⟨w, hw1, hw2⟩ := joinDiv_ok hd hv2 hr hs2 nd (by rw [e1, hcop])
        refine ⟨x, v, w, _, pre, pre2, hw1, hw2, fun n hn => ?_⟩
        refine XDiff.op (· / ·) (hg n hn) (hs' n hn) (fun o => 1 / c.fn.f (X n) p o)
          (fun o => -G (X n) o / (c.fn.f (X n) p o * c.fn.f (X n) p o))
          (fun o ho u v u' v' t hu hv h1 h2 =>
            hasDerivAt_div_form hu hv h1 h2 (hz n hn hcop o ho)) (fun o ho i _ => ?_)
        have := hz n hn hcop o ho
        field_simp
        ring

theorem recDeriv_ok {I N : ℕ} {x : Arr} {X : ℕ → ℕ → ℝ} (hI : 0 < I) (hx : Pts x N I X) :
    ∀ (l : List Part) (o : ℕ) (nodes : List Node) (p : ℕ → ℝ) (r : Arr) (df : Val)
      (G : (ℕ → ℝ) → ℕ → ℝ) (g : ℕ → ℕ → ℕ → ℝ), 0 < o →
      buildFrom I o (pairs l) = some nodes → Fits o l → DerOk I l → Harmless x l p →
      Pts r N o (fun n => G (X n)) → DerIs df N I o g → (∀ n < N, XDiff G (g n) (X n) I o) →
      (∀ n < N, Smooth l (X n) p (G (X n))) →
      ∃ w D, recDeriv x nodes p (some r) df = some w ∧ DerIs w N I (outputs o l) D ∧
        ∀ n < N, XDiff (fun z => tailVal l z p (G z)) (D n) (X n) I (outputs o l) := by
  intro l
  induction l with
  | nil =>
      intro o nodes p r df G g _ hb _ _ _ _ hd hg _
      cases hb
      exact ⟨df, g, rfl, hd, hg⟩
  | cons c l ih =>
      intro o nodes p r df G g ho hb hf hok hh hr hd hg hs
      obtain ⟨nd, rest, rfl, h1, h2⟩ := buildFrom_cons hb
      obtain ⟨f1, f2, f3, f4⟩ := hf
      obtain ⟨k1, k2, k3⟩ := hok
      obtain ⟨e1, e2, e3⟩ := appendNode_some h1
      obtain ⟨xd, nextdf, w, D, q1, q2, q3, q4, q5⟩ := joinDeriv_ok p hI h1 ho f1 f2 f3 k1 k2 hx hr hd hg
        (fun n hn => (hs n hn).1) (fun n hn => (hs n hn).2.2.1)
      cases l with
      | nil =>
          cases h2
          refine ⟨w, D, ?_, q4, q5⟩
          simp only [recDeriv, q1, q2, q3]
      | cons c2 l2 =>
          have hn : ∃ nextres, nd.mdl.result x p = some nextres := by
            rw [e2]
            rcases e3 with ⟨a1, _, _⟩ | ⟨a1, a2⟩
            · exact Option.isSome_iff_exists.1 (hh.1 a1)
            · obtain ⟨s, hs1, _⟩ := f3.result x N X p (by rw [a2]; exact hx)
              exact ⟨s, hs1⟩
          obtain ⟨nextres, hn⟩ := hn
          obtain ⟨r', hr1, hr2⟩ := operate_ok p h1 f1 f2 f3 hx hr (some nextres)
            (fun _ => by rw [← e2, hn])
          obtain ⟨nd2, rest2, rfl, _, _⟩ := buildFrom_cons h2
          obtain ⟨w', D', w1, w2, w3⟩ := ih c.mdl.ndout (nd2 :: rest2) (shift c.mdl.np p) r' w
            (fun z => step c.op (G z) c.fn z p) D f3.ndout h2 f4 k3 hh.2 hr2 q4 q5
            (fun n hn => (hs n hn).2.2.2)
          refine ⟨w', D', ?_, w2, w3⟩
          rw [recDeriv]
          rw [hn] at q3
          simp only [q1, q2, q3, hn, hr1]
          rw [e2]
          exact w1

/-- C106: the derivative of a chain is, in the documented form, the derivative of its function to its
inputs: for chains of pipes and sums of models of any number of inputs and outputs, of differences when
there is one input or one output, and of products and quotients when there is one input. -/
theorem C106_derivative_partial {m : Mdl} {F : Fn} {l : List Part} {nodes : List Node} {x : Arr} {N : ℕ}
    {X : ℕ → ℕ → ℝ} (hb : build m (pairs l) = some nodes) (hm : m.Computes F) (hl : Fits m.ndout l)
    (hok : DerOk m.ndim l) (hx : Pts x N m.ndim X) (p : ℕ → ℝ) (hh : Harmless x l (shift m.np p))
    (hs : ∀ n < N, XDiff (fun z => F.f z p) (F.fx (X n) p) (X n) m.ndim m.ndout)
    (hs' : ∀ n < N, Smooth l (X n) (shift m.np p) (F.f (X n) p)) :
    ∃ v D, chainDerivative nodes x p = some v ∧ DerIs v N m.ndim (outputs m.ndout l) D ∧
      ∀ n < N, ∀ o < outputs m.ndout l, ∀ i < m.ndim,
        HasDerivAt (fun s => chainVal m F l (Function.update (X n) i s) p o) (D n o i) (X n i) := by
  unfold build at hb
  cases h : buildFrom m.ndim m.ndout (pairs l) with
  | none => rw [h] at hb; cases hb
  | some rest =>
      rw [h] at hb
      cases hb
      obtain ⟨r, hr1, hr2⟩ := hm.result x N X p hx
      obtain ⟨v, hv1, hv2⟩ := hm.derivative x N X p hx
      obtain ⟨w, D, w1, w2, w3⟩ := recDeriv_ok hm.ndim hx l m.ndout rest (shift m.np p) r v
        (fun z => F.f z p) _ hm.ndout h hl hok hh hr2 hv2 hs hs'
      refine ⟨w, D, ?_, w2, fun n hn o ho i hi => (w3 n hn).single hi ho⟩
      simp only [chainDerivative, recDeriv]
      rw [if_neg (by decide)]
      simp only [hv1, joinDeriv, hr1, operate]
      cases rest with
      | nil => exact w1
      | cons a b => exact w1

/-! ## Partial derivatives to the parameters -/

theorem shift_shift (a b : ℕ) (q : ℕ → ℝ) : shift b (shift a q) = shift (a + b) q := by
  funext k
  simp only [shift]
  congr 1
  omega

theorem shift_update_low {P k : ℕ} (q : ℕ → ℝ) (s : ℝ) (h : k < P) :
    shift P (Function.update q k s) = shift P q := by
  funext j
  simp only [shift]
  rw [Function.update_of_ne (by omega)]

theorem shift_update_high {P k : ℕ} (q : ℕ → ℝ) (s : ℝ) (h : P ≤ k) :
    shift P (Function.update q k s) = Function.update (shift P q) (k - P) s := by
  funext j
  by_cases hj : j = k - P
  · subst hj
    simp only [shift, Function.update_self]
    rw [show P + (k - P) = k by omega, Function.update_self]
  · rw [Function.update_of_ne hj]
    simp only [shift]
    rw [Function.update_of_ne (by omega)]

/-- Products and quotients of models with more outputs are excluded. -/
def ParOk : List Part → Prop
  | [] => True
  | c :: l => (c.op = .mul ∨ c.op = .div → c.mdl.ndout = 1) ∧ ParOk l

/-- The columns of one table followed by those of another. -/
def cat (P : ℕ) (A B : ℕ → ℕ → ℕ → ℝ) : ℕ → ℕ → ℕ → ℝ :=
  fun n o k => if k < P then A n o k else B n o (k - P)

theorem mapIdx_range (l : List Arr) (f : ℕ → Arr → Option Arr) :
    l.mapIdx f = (List.range l.length).map fun k => (l[k]?).bind (f k) := by
  apply List.ext_getElem?
  intro k
  rw [List.getElem?_mapIdx, List.getElem?_map]
  by_cases hk : k < l.length
  · rw [List.getElem?_range hk, Option.map_some, List.getElem?_eq_getElem hk, Option.map_some,
      Option.bind_some]
  · rw [List.getElem?_eq_none (not_lt.1 hk), List.getElem?_eq_none (by simpa using hk)]
    rfl

theorem appendP_ok {N O P Q : ℕ} {v w : Val} {A B} (hv : ParIs v N O P A) (hw : ParIs w N O Q B) :
    ∃ u, appendP (some v) w = some u ∧ ParIs u N O (P + Q) (cat P A B) := by
  unfold ParIs at *
  by_cases hO : O = 1
  · simp only [if_pos hO] at hv hw ⊢
    obtain ⟨a, rfl, ha⟩ := hv
    obtain ⟨b, rfl, hb⟩ := hw
    obtain ⟨c, hc1, hc2⟩ := ha.append1 hb
    exact ⟨.arr c, by simp only [appendP, hc1, Option.map_some], c, rfl, hc2⟩
  · simp only [if_neg hO] at hv hw ⊢
    obtain ⟨la, rfl, hla, hla'⟩ := hv
    obtain ⟨lb, rfl, hlb, hlb'⟩ := hw
    have e : appendP (some (.list la)) (.list lb) = (sequence ((List.range la.length).map fun k =>
        (la[k]?).bind fun a => (lb[k]?).bind (Arr.append1 a))).map .list := by
      simp only [appendP, Val.index]
      rw [mapIdx_range]
    rw [e]
    apply Tabs.seq (by simp [hla])
    intro o ho
    obtain ⟨a, ha1, ha2⟩ := hla' o ho
    obtain ⟨b, hb1, hb2⟩ := hlb' o ho
    obtain ⟨c, hc1, hc2⟩ := ha2.append1 hb2
    refine ⟨o, c, by simp [hla, ho], ?_, hc2⟩
    rw [ha1, Option.bind_some, hb1, Option.bind_some, hc1]

/-- Subtracting: the negative of a list is an array with three axes. -/
theorem appendNeg_ok {N O P Q : ℕ} {v w : Val} {A B} (hO0 : 0 < O) (hv : ParIs v N O P A)
    (hw : ParIs w N O Q B) :
    ∃ u, w.neg.bind (appendP (some v)) = some u ∧
      ParIs u N O (P + Q) (cat P A (fun n o k => -B n o k)) := by
  by_cases hO : O = 1
  · have hw' := hw
    unfold ParIs at hw'
    simp only [if_pos hO] at hw'
    obtain ⟨b, rfl, hb⟩ := hw'
    have : ParIs (.arr b.neg) N O Q (fun n o k => -B n o k) := by
      unfold ParIs
      rw [if_pos hO]
      exact ⟨b.neg, rfl, hb.neg⟩
    obtain ⟨u, hu1, hu2⟩ := appendP_ok hv this
    exact ⟨u, by simpa [Val.neg, Val.toArr] using hu1, hu2⟩
  · unfold ParIs at *
    simp only [if_neg hO] at hv hw ⊢
    obtain ⟨la, rfl, hla, hla'⟩ := hv
    obtain ⟨lb, rfl, hlb, hlb'⟩ := hw
    obtain ⟨s, hs1, hs2, hs3⟩ := stack_tabs hlb hO0 hlb'
    have e : (Val.list lb).neg.bind (appendP (some (.list la))) =
        (sequence ((List.range la.length).map fun k =>
        (la[k]?).bind fun a => (s.neg.first3 k).bind (Arr.append1 a))).map .list := by
      simp only [Val.neg, Val.toArr, hs1, Option.map_some, Option.bind_some, appendP, Val.index]
      rw [mapIdx_range]
    rw [e]
    apply Tabs.seq (by simp [hla])
    intro o ho
    obtain ⟨a, ha1, ha2⟩ := hla' o ho
    have sl : s.neg.first3 o = some ⟨[Q, N], fun i => s.neg.get (i ++ [o])⟩ := by
      simp only [Arr.first3, Arr.neg, hs2, if_pos ho]
    have tl : Tab ⟨[Q, N], fun i => s.neg.get (i ++ [o])⟩ N Q (fun n k => -B n o k) :=
      ⟨rfl, fun n hn k hk => by simp [Arr.neg, hs3 o ho n hn k hk]⟩
    obtain ⟨c, hc1, hc2⟩ := ha2.append1 tl
    refine ⟨o, c, by simp [hla, ho], ?_, hc2⟩
    rw [ha1, Option.bind_some, sl, Option.bind_some, hc1]

theorem scaleP_ok {N P : ℕ} {v : Val} {A} {r : Arr} {R : ℕ → ℝ} (f : ℝ → ℝ → ℝ) (hv : ParIs v N 1 P A)
    (hr : Vec r N R) :
    ∃ u, scaleP (Arr.op f) v (some r) = some u ∧ ParIs u N 1 P (fun n o k => f (A n o k) (R n)) := by
  simp only [ParIs, if_true] at hv ⊢
  obtain ⟨a, rfl, ha⟩ := hv
  obtain ⟨c, hc1, hc2, _⟩ := ha.opVec f hr
  exact ⟨.arr c.T, by simp only [scaleP, hc1, Option.map_some], c.T, rfl, hc2⟩

/-- One step of the partial derivatives. `q` are the parameters of the whole chain, the first `P` of
which belong to the models before. -/
theorem joinPartial_ok {I o N P : ℕ} {x r : Arr} {X : ℕ → ℕ → ℝ}
    {G : (ℕ → ℝ) → (ℕ → ℝ) → ℕ → ℝ} {g} {c : Part}
    {nd : Node} {par : Val} (q : ℕ → ℝ) (hI : 0 < I) (hnd : appendNode I o c.op c.mdl = some nd)
    (ho0 : 0 < o) (hop : c.op ≠ .nop)
    (ho : c.op ≠ .pip → c.mdl.ndout = o) (hc : c.mdl.Computes c.fn)
    (hok : c.op = .mul ∨ c.op = .div → c.mdl.ndout = 1)
    (hloc : ∀ x q q', (∀ k < P, q k = q' k) → G x q = G x q')
    (hx : Pts x N I X) (hr : Pts r N o (fun n => G (X n) q)) (hd : ParIs par N o P g)
    (hg : ∀ n < N, PDiff (G (X n)) (g n) q P o)
    (hs : ∀ n < N, XDiff (fun z => c.fn.f z (shift P q))
        (c.fn.fx (if c.op = .pip then G (X n) q else X n) (shift P q))
        (if c.op = .pip then G (X n) q else X n) c.mdl.ndim c.mdl.ndout)
    (hp : ∀ n < N, PDiff (fun p => c.fn.f (if c.op = .pip then G (X n) q else X n) p)
        (c.fn.fp (if c.op = .pip then G (X n) q else X n) (shift P q)) (shift P q) c.mdl.np c.mdl.ndout)
    (hz : ∀ n < N, c.op = .div → ∀ o < c.mdl.ndout, c.fn.f (X n) (shift P q) o ≠ 0) :
    ∃ xd nextpar w D, (if nd.op = .pip then some r else some x) = some xd ∧
      nd.mdl.part xd (shift P q) = some nextpar ∧
      joinPartial nd (some par) nextpar (some r) (nd.mdl.result x (shift P q))
        (nd.mdl.derivative r (shift P q)) = some w ∧
      ParIs w N c.mdl.ndout (P + c.mdl.np) D ∧
      ∀ n < N, PDiff (fun q => step c.op (G (X n) q) c.fn (X n) (shift P q)) (D n) q (P + c.mdl.np)
        c.mdl.ndout := by
  obtain ⟨e1, e2, h⟩ := appendNode_some hnd
  -- the parameters after the first `P` do not matter for the models before
  have low : ∀ z k s, P ≤ k → G z (Function.update q k s) = G z q := by
    intro z k s hk
    exact hloc z _ _ fun j hj => Function.update_of_ne (by omega) _ _
  rcases h with ⟨h1, h2, h3⟩ | ⟨h1, h2⟩
  · obtain ⟨v, hv1, hv2⟩ := hc.derivative r N _ (shift P q) (by rw [h2]; exact hr)
    obtain ⟨np, hn1, hn2⟩ := hc.part r N _ (shift P q) (by rw [h2]; exact hr)
    rw [h2] at hv2
    obtain ⟨qq, w, hq, hw, hwd⟩ := pipePart_ok hI ho0 hc.ndout hd hv2
    obtain ⟨u, hu1, hu2⟩ := appendP_ok hwd hn2
    refine ⟨r, np, u, _, by rw [e1, if_pos h1], by rw [e2]; exact hn1, ?_, hu2, ?_⟩
    · simp only [joinPartial, e1, h1, h3, h2, hq, e2, hv1, hw, Option.bind_some, hu1]
    · intro n hn k hk o' ho'
      have hs' := hs n hn
      have hp' := hp n hn
      simp only [h1, if_true] at hs' hp' ⊢
      simp only [step, cat]
      by_cases hkP : k < P
      · rw [if_pos hkP]
        simp only [shift_update_low q _ hkP]
        rw [h2] at hs'
        exact hs' (fun s => G (X n) (Function.update q k s)) (fun κ => g n κ k) (q k)
          (by simp) (fun κ hκ => hg n hn k hkP κ hκ) o' ho'
      · rw [if_neg hkP]
        simp only [shift_update_high q _ (not_lt.1 hkP), low (X n) k _ (not_lt.1 hkP)]
        have := hp' (k - P) (by omega) o' ho'
        simp only [shift] at this ⊢
        rw [show P + (k - P) = k by omega] at this
        exact this
  · obtain ⟨np, hn1, hn2⟩ := hc.part x N X (shift P q) (by rw [h2]; exact hx)
    obtain ⟨s, hs1, hs2⟩ := hc.result x N X (shift P q) (by rw [h2]; exact hx)
    have hoo := ho h1
    have pre : (if nd.op = .pip then some r else some x) = some x := by rw [e1, if_neg h1]
    have pre2 : nd.mdl.part x (shift P q) = some np := by rw [e2]; exact hn1
    have pre3 : nd.mdl.result x (shift P q) = some s := by rw [e2]; exact hs1
    have hp' : ∀ n < N, PDiff (fun p => c.fn.f (X n) p) (c.fn.fp (X n) (shift P q)) (shift P q)
        c.mdl.np o := by
      intro n hn
      have := hp n hn
      rw [if_neg h1, hoo] at this
      exact this
    -- both ways in which the combined value depends on a parameter
    have main : ∀ (f : ℝ → ℝ → ℝ) (A B : ℕ → ℕ → ℝ),
        (∀ a b, step c.op a c.fn b = fun p o => f (a o) (c.fn.f b p o)) →
        (∀ n < N, ∀ o' < o, ∀ (u : ℝ → ℝ) (u' t : ℝ), u t = G (X n) q o' → HasDerivAt u u' t →
          HasDerivAt (fun s => f (u s) (c.fn.f (X n) (shift P q) o')) (A n o' * u') t) →
        (∀ n < N, ∀ o' < o, ∀ (u : ℝ → ℝ) (u' t : ℝ), u t = c.fn.f (X n) (shift P q) o' →
          HasDerivAt u u' t → HasDerivAt (fun s => f (G (X n) q o') (u s)) (B n o' * u') t) →
        ∀ n < N, PDiff (fun q => step c.op (G (X n) q) c.fn (X n) (shift P q))
          (cat P (fun n o k => A n o * g n o k)
            (fun n o k => B n o * c.fn.fp (X n) (shift P q) o k) n) q (P + c.mdl.np) o := by
      intro f A B hf hA hB n hn k hk o' ho'
      simp only [hf, cat]
      by_cases hkP : k < P
      · rw [if_pos hkP]
        simp only [shift_update_low q _ hkP]
        exact hA n hn o' ho' _ _ _ (by simp) (hg n hn k hkP o' ho')
      · rw [if_neg hkP]
        simp only [shift_update_high q _ (not_lt.1 hkP), low (X n) k _ (not_lt.1 hkP)]
        have := hp' n hn (k - P) (by omega) o' ho'
        have e : shift P q (k - P) = q k := by
          simp only [shift]
          rw [show P + (k - P) = k by omega]
        rw [e] at this
        refine hB n hn o' ho' (fun s => c.fn.f (X n) (Function.update (shift P q) (k - P) s) o') _ _ ?_ this
        rw [← e, Function.update_eq_self]
    rw [hoo] at hn2 hs2 hok hz ⊢
    rw [pre3]
    match hcop : c.op, hop, h1 with
    | .add, _, _ =>
        obtain ⟨w, hw1, hw2⟩ := appendP_ok hd hn2
        rw [hcop] at main e1
        refine ⟨x, np, w, _, pre, pre2, by simp only [joinPartial, e1, hw1], hw2.congr ?_,
          main (· + ·) (fun _ _ => 1) (fun _ _ => 1) (fun _ _ => rfl)
            (fun n hn o' ho' u u' t hu h => (h.add_const _).congr_deriv (by ring))
            (fun n hn o' ho' u u' t hu h => (h.const_add _).congr_deriv (by ring))⟩
        intro n hn o' ho' k hk
        simp only [cat, one_mul]
    | .sub, _, _ =>
        obtain ⟨w, hw1, hw2⟩ := appendNeg_ok ho0 hd hn2
        rw [hcop] at main e1
        refine ⟨x, np, w, _, pre, pre2, by simp only [joinPartial, e1, hw1], hw2.congr ?_,
          main (· - ·) (fun _ _ => 1) (fun _ _ => -1) (fun _ _ => rfl)
            (fun n hn o' ho' u u' t hu h => (h.sub_const _).congr_deriv (by ring))
            (fun n hn o' ho' u u' t hu h => (h.const_sub _).congr_deriv (by ring))⟩
        intro n hn o' ho' k hk
        simp only [cat, one_mul, neg_one_mul]
    | .mul, _, _ =>
        have h1o := hok (Or.inl hcop)
        subst h1o
        have hrv : Vec r N (fun n => G (X n) q 0) := by simpa [Pts] using hr
        have hsv : Vec s N (fun n => c.fn.f (X n) (shift P q) 0) := by simpa [Pts] using hs2
        obtain ⟨a, ha1, ha2⟩ := scaleP_ok (· * ·) hd hsv
        obtain ⟨b, hb1, hb2⟩ := scaleP_ok (· * ·) hn2 hrv
        obtain ⟨w, hw1, hw2⟩ := appendP_ok ha2 hb2
        rw [hcop] at main e1
        refine ⟨x, np, w, _, pre, pre2, ?_, hw2.congr ?_,
          main (· * ·) (fun n o => c.fn.f (X n) (shift P q) o) (fun n o => G (X n) q o)
            (fun _ _ => rfl)
            (fun n hn o' ho' u u' t hu h => (h.mul_const _).congr_deriv (by ring))
            (fun n hn o' ho' u u' t hu h => h.const_mul _)⟩
        · simp only [joinPartial, e1, Option.bind_some]
          change (match scaleP (Arr.op (· * ·)) par (some s), scaleP (Arr.op (· * ·)) np (some r) with
            | some a, some b => appendP (some a) b
            | _, _ => none) = some w
          rw [ha1, hb1]
          exact hw1
        · intro n hn o' ho' k hk
          have : o' = 0 := by omega
          subst this
          simp only [cat]
          split
          · ring
          · ring
    | .div, _, _ =>
        have h1o := hok (Or.inr hcop)
        subst h1o
        have hrv : Vec r N (fun n => G (X n) q 0) := by simpa [Pts] using hr
        have hsv : Vec s N (fun n => c.fn.f (X n) (shift P q) 0) := by simpa [Pts] using hs2
        obtain ⟨a, ha1, ha2⟩ := scaleP_ok (· / ·) hd hsv
        obtain ⟨s2, hs21, hs22⟩ := hsv.op (· * ·) hsv
        obtain ⟨iv, hiv1, hiv2⟩ := hrv.neg.op (· / ·) hs22
        obtain ⟨b, hb1, hb2⟩ := scaleP_ok (· * ·) hn2 hiv2
        obtain ⟨w, hw1, hw2⟩ := appendP_ok ha2 hb2
        rw [hcop] at main e1
        refine ⟨x, np, w, _, pre, pre2, ?_, hw2.congr ?_,
          main (· / ·) (fun n o => 1 / c.fn.f (X n) (shift P q) o)
            (fun n o => -G (X n) q o / (c.fn.f (X n) (shift P q) o * c.fn.f (X n) (shift P q) o))
            (fun _ _ => rfl)
            (fun n hn o' ho' u u' t hu h => (h.div_const _).congr_deriv (by ring))
            (fun n hn o' ho' u u' t hu h => by
              have := hasDerivAt_div_form (u := fun _ => G (X n) q o') (a := G (X n) q o') rfl hu
                (hasDerivAt_const t _) h (hz n hn hcop o' ho')
              exact this.congr_deriv (by ring))⟩
        · simp only [joinPartial, e1, Option.bind_some, Option.map_some, Arr.mul, hs21, lift2]
          change (match scaleP (Arr.op (· / ·)) par (some s), scaleP (Arr.op (· * ·)) np
              (Arr.op (· / ·) r.neg s2) with
            | some a, some b => appendP (some a) b
            | _, _ => none) = some w
          rw [hiv1, ha1, hb1]
          exact hw1
        · intro n hn o' ho' k hk
          have : o' = 0 := by omega
          subst this
          simp only [cat]
          split
          · ring
          · ring

theorem recPartial_ok {I N : ℕ} {x : Arr} {X : ℕ → ℕ → ℝ} (hI : 0 < I) (hx : Pts x N I X)
    (q : ℕ → ℝ) :
    ∀ (l : List Part) (o P : ℕ) (nodes : List Node) (r : Arr) (par : Val)
      (G : (ℕ → ℝ) → (ℕ → ℝ) → ℕ → ℝ) (g : ℕ → ℕ → ℕ → ℝ), 0 < o →
      buildFrom I o (pairs l) = some nodes → Fits o l → ParOk l → Harmless x l (shift P q) →
      (∀ x q q', (∀ k < P, q k = q' k) → G x q = G x q') →
      Pts r N o (fun n => G (X n) q) → ParIs par N o P g → (∀ n < N, PDiff (G (X n)) (g n) q P o) →
      (∀ n < N, Smooth l (X n) (shift P q) (G (X n) q)) →
      ∃ w D, recPartial x nodes (shift P q) (some r) (some par) = some w ∧
        ParIs w N (outputs o l) (P + params l) D ∧
        ∀ n < N, PDiff (fun q => tailVal l (X n) (shift P q) (G (X n) q)) (D n) q (P + params l)
          (outputs o l) := by
  intro l
  induction l with
  | nil =>
      intro o P nodes r par G g _ hb _ _ _ _ _ hd hg _
      cases hb
      exact ⟨par, g, rfl, hd, hg⟩
  | cons c l ih =>
      intro o P nodes r par G g ho hb hf hok hh hloc hr hd hg hs
      obtain ⟨nd, rest, rfl, h1, h2⟩ := buildFrom_cons hb
      obtain ⟨f1, f2, f3, f4⟩ := hf
      obtain ⟨k1, k2⟩ := hok
      obtain ⟨e1, e2, e3⟩ := appendNode_some h1
      obtain ⟨xd, nextpar, w, D, q1, q2, q3, q4, q5⟩ := joinPartial_ok q hI h1 ho f1 f2 f3 k1 hloc hx hr
        hd hg (fun n hn => (hs n hn).1) (fun n hn => (hs n hn).2.1) (fun n hn => (hs n hn).2.2.1)
      cases l with
      | nil =>
          cases h2
          refine ⟨w, D, ?_, q4, q5⟩
          simp only [recPartial, q1, q2, Option.bind_some, q3]
      | cons c2 l2 =>
          have hn : ∃ nextres, nd.mdl.result x (shift P q) = some nextres := by
            rw [e2]
            rcases e3 with ⟨a1, _, _⟩ | ⟨a1, a2⟩
            · exact Option.isSome_iff_exists.1 (hh.1 a1)
            · obtain ⟨s, hs1, _⟩ := f3.result x N X (shift P q) (by rw [a2]; exact hx)
              exact ⟨s, hs1⟩
          obtain ⟨nextres, hn⟩ := hn
          obtain ⟨r', hr1, hr2⟩ := operate_ok (shift P q) h1 f1 f2 f3 hx hr (some nextres)
            (fun _ => by rw [← e2, hn])
          obtain ⟨nd2, rest2, rfl, _, _⟩ := buildFrom_cons h2
          have hsh : ∀ q, shift c.mdl.np (shift P q) = shift (P + c.mdl.np) q :=
            fun q => shift_shift P c.mdl.np q
          obtain ⟨w', D', w1, w2, w3⟩ := ih c.mdl.ndout (P + c.mdl.np) (nd2 :: rest2) r' w
            (fun z q => step c.op (G z q) c.fn z (shift P q)) D f3.ndout h2 f4 k2
            (by rw [← hsh]; exact hh.2)
            (fun z q q' hq => by
              have a1 := hloc z q q' (fun k hk => hq k (by omega))
              have a2 : ∀ z, c.fn.f z (shift P q) = c.fn.f z (shift P q') := fun z =>
                f3.local' z _ _ (fun k hk => hq (P + k) (by omega))
              rw [a1]
              cases c.op <;> simp only [step, a2])
            hr2 q4 q5 (fun n hn => by rw [← hsh]; exact (hs n hn).2.2.2)
          have hpar : P + params (c :: c2 :: l2) = P + c.mdl.np + params (c2 :: l2) := by
            simp only [params]
            omega
          refine ⟨w', D', ?_, by rw [hpar]; exact w2, ?_⟩
          · rw [recPartial]
            rw [hn] at q3
            simp only [q1, q2, Option.bind_some, hn, q3, hr1]
            rw [e2, hsh]
            exact w1
          · intro n hn
            rw [hpar]
            have := w3 n hn
            simp only [← hsh] at this
            exact this

/-- C106: the partial derivatives of a chain are, in the documented form, the derivatives of its function
to its parameters, in order: for chains of pipes, sums and differences of models of any number of inputs
and outputs, and of products and quotients of models with one output. -/
theorem C106_partials_partial {m : Mdl} {F : Fn} {l : List Part} {nodes : List Node} {x : Arr} {N : ℕ}
    {X : ℕ → ℕ → ℝ} (hb : build m (pairs l) = some nodes) (hm : m.Computes F) (hl : Fits m.ndout l)
    (hok : ParOk l) (hx : Pts x N m.ndim X) (p : ℕ → ℝ) (hh : Harmless x l (shift m.np p))
    (hs : ∀ n < N, PDiff (F.f (X n)) (F.fp (X n) p) p m.np m.ndout)
    (hs' : ∀ n < N, Smooth l (X n) (shift m.np p) (F.f (X n) p)) :
    ∃ v D, chainPartial nodes x p = some v ∧
      ParIs v N (outputs m.ndout l) (m.np + params l) D ∧
      ∀ n < N, ∀ k < m.np + params l, ∀ o < outputs m.ndout l,
        HasDerivAt (fun s => chainVal m F l (X n) (Function.update p k s) o) (D n o k) (p k) := by
  unfold build at hb
  cases h : buildFrom m.ndim m.ndout (pairs l) with
  | none => rw [h] at hb; cases hb
  | some rest =>
      rw [h] at hb
      cases hb
      obtain ⟨r, hr1, hr2⟩ := hm.result x N X p hx
      obtain ⟨v, hv1, hv2⟩ := hm.part x N X p hx
      obtain ⟨w, D, w1, w2, w3⟩ := recPartial_ok hm.ndim hx p l m.ndout m.np rest r v
        F.f _ hm.ndout h hl hok hh hm.local' hr2 hv2 hs hs'
      refine ⟨w, D, ?_, w2, fun n hn k hk o ho => w3 n hn k hk o ho⟩
      simp only [chainPartial, recPartial]
      rw [if_neg (by decide)]
      simp only [hv1, joinPartial, appendP, hr1, operate]
      cases rest with
      | nil => exact w1
      | cons a b => exact w1

/-! ## Where it fails -/

theorem headD (m : Mdl) (df nx : Val) (a b : Option Arr) :
    joinDeriv ⟨.nop, m, none⟩ df nx a b = some nx := rfl

theorem headP (m : Mdl) (nx : Val) (a b : Option Arr) (c : Option Val) :
    joinPartial ⟨.nop, m, none⟩ none nx a b c = some nx := rfl

theorem build_two {m h : Mdl} {op : Op} {nodes : List Node} (hb : build m [(op, h)] = some nodes) :
    ∃ nd, appendNode m.ndim m.ndout op h = some nd ∧ nodes = [⟨.nop, m, none⟩, nd] := by
  simp only [build, buildFrom] at hb
  cases h1 : appendNode m.ndim m.ndout op h with
  | none => rw [h1] at hb; cases hb
  | some nd => rw [h1] at hb; cases hb; exact ⟨nd, rfl, rfl⟩

theorem ParIs.list {v : Val} {N O P D} (h : ParIs v N O P D) (hO : O ≠ 1) : ∃ l, v = .list l := by
  unfold ParIs at h
  rw [if_neg hO] at h
  obtain ⟨l, h, _⟩ := h
  exact ⟨l, h⟩

/-- C106, where it fails: the partial derivatives of a product or quotient of two models with more than
one output always raise. -/
theorem C106_counterexample_product {m h : Mdl} {F H : Fn} {op : Op} {nodes : List Node} {x : Arr} {N : ℕ}
    {X : ℕ → ℕ → ℝ} (hb : build m [(op, h)] = some nodes) (hop : op = .mul ∨ op = .div)
    (hm : m.Computes F) (hO : 1 < m.ndout) (hx : Pts x N m.ndim X) (p : ℕ → ℝ) :
    chainPartial nodes x p = none := by
  obtain ⟨nd, hn, rfl⟩ := build_two hb
  obtain ⟨e1, e2, _⟩ := appendNode_some hn
  obtain ⟨v, hv1, hv2⟩ := hm.part x N X p hx
  obtain ⟨r, hr1, _⟩ := hm.result x N X p hx
  obtain ⟨l, rfl⟩ := hv2.list (by omega)
  have sc : ∀ f w, scaleP f (.list l) w = none := fun f w => by cases w <;> rfl
  have hj : ∀ np a b c, joinPartial nd (some (.list l)) np a b c = none := by
    intro np a b c
    rcases hop with rfl | rfl <;> simp only [joinPartial, e1, Option.bind_some, sc]
  have hp : ¬ nd.op = .pip := by rw [e1]; rcases hop with rfl | rfl <;> decide
  have h0 : ¬ Op.nop = Op.pip := by decide
  simp only [chainPartial, recPartial, if_neg h0, hv1, headP, hr1, operate, if_neg hp]
  cases nd.mdl.part x (shift m.np p) with
  | none => rfl
  | some np => simp only [hj]

/-- C106, where it fails: the derivative of the difference of two models with more inputs and more
outputs always raises; that of their sum does not. -/
theorem C106_counterexample_difference {m h : Mdl} {F : Fn} {nodes : List Node} {x : Arr} {N : ℕ}
    {X : ℕ → ℕ → ℝ} (hb : build m [(.sub, h)] = some nodes)
    (hm : m.Computes F) (hI : 1 < m.ndim) (hO : 1 < m.ndout) (hx : Pts x N m.ndim X) (p : ℕ → ℝ) :
    chainDerivative nodes x p = none := by
  obtain ⟨nd, hn, rfl⟩ := build_two hb
  obtain ⟨e1, e2, _⟩ := appendNode_some hn
  obtain ⟨v, hv1, hv2⟩ := hm.derivative x N X p hx
  obtain ⟨r, hr1, _⟩ := hm.result x N X p hx
  unfold DerIs at hv2
  rw [if_neg (by omega), if_neg (by omega)] at hv2
  obtain ⟨l, rfl, _⟩ := hv2
  have h0 : ¬ Op.nop = Op.pip := by decide
  have hp : ¬ nd.op = .pip := by rw [e1]; decide
  simp only [chainDerivative, recDeriv, if_neg h0, hv1, headD, hr1, operate, if_neg hp]
  cases nd.mdl.derivative x (shift m.np p) with
  | none => rfl
  | some np => simp only [joinDeriv, e1]

/-- C106, where it fails: the derivative of a product or quotient of two models with more inputs and one
output raises for any number of points that is not 1 and not the number of inputs. -/
theorem C106_counterexample_inputs {m h : Mdl} {F H : Fn} {op : Op} {nodes : List Node} {x : Arr} {N : ℕ}
    {X : ℕ → ℕ → ℝ} (hb : build m [(op, h)] = some nodes) (hop : op = .mul ∨ op = .div)
    (hm : m.Computes F) (hh : h.Computes H) (hI : 1 < m.ndim) (hO : m.ndout = 1) (hO' : h.ndout = 1)
    (hN : N ≠ 1) (hNI : N ≠ m.ndim) (hx : Pts x N m.ndim X) (p : ℕ → ℝ) :
    chainDerivative nodes x p = none := by
  obtain ⟨nd, hn, rfl⟩ := build_two hb
  obtain ⟨e1, e2, e3⟩ := appendNode_some hn
  have hdim : h.ndim = m.ndim := by
    rcases e3 with ⟨rfl, _⟩ | ⟨_, h⟩
    · rcases hop with h | h <;> cases h
    · exact h
  obtain ⟨v, hv1, hv2⟩ := hm.derivative x N X p hx
  obtain ⟨r, hr1, _⟩ := hm.result x N X p hx
  obtain ⟨s, hs1, hs2⟩ := hh.result x N X (shift m.np p) (by rw [hdim]; exact hx)
  unfold DerIs at hv2
  rw [if_neg (by omega), if_pos hO] at hv2
  obtain ⟨a, rfl, ha⟩ := hv2
  unfold Pts at hs2
  rw [if_pos hO'] at hs2
  have hbad : Arr.mul a s = none := by
    have : bshape [m.ndim, N] [N] = none := by
      simp only [bshape, if_neg (Ne.symm hNI), if_neg (show m.ndim ≠ 1 by omega), if_neg hN]
    simp only [Arr.mul, Arr.op, ha.1, hs2.1, this]
  have h0 : ¬ Op.nop = Op.pip := by decide
  have hp : ¬ nd.op = .pip := by rw [e1]; rcases hop with rfl | rfl <;> decide
  have hj : ∀ nx b, joinDeriv nd (.arr a) nx b (some s) = none := by
    intro nx b
    rcases hop with rfl | rfl <;>
      simp only [joinDeriv, e1, Option.bind_some, Val.mulArr, Val.toArr, hbad, lift2, Option.map_none]
  have hj' : ∀ nx b, joinDeriv nd (.arr a) nx b (h.result x (shift m.np p)) = none := by
    intro nx b; rw [hs1]; exact hj nx b
  simp only [chainDerivative, recDeriv, if_neg h0, hv1, headD, hr1, operate, if_neg hp]
  cases nd.mdl.derivative x (shift m.np p) with
  | none => rfl
  | some np =>
      rw [e2]
      simp only [hj']

/-- C106, where it fails: when the number of points happens to be the number of inputs, the derivative of
a product of two models with one output is calculated with the values of the models in the wrong
points: in row `n`, column `i` those of point `i`. -/
theorem C106_counterexample_points {m h : Mdl} {F H : Fn} {nodes : List Node} {x : Arr} {N : ℕ}
    {X : ℕ → ℕ → ℝ} (hb : build m [(.mul, h)] = some nodes)
    (hm : m.Computes F) (hh : h.Computes H) (hI : 1 < m.ndim) (hO : m.ndout = 1) (hO' : h.ndout = 1)
    (hN : N = m.ndim) (hx : Pts x N m.ndim X) (p : ℕ → ℝ) :
    ∃ v, chainDerivative nodes x p = some v ∧ DerIs v N m.ndim 1 (fun n _ i =>
      F.fx (X n) p 0 i * H.f (X i) (shift m.np p) 0 + H.fx (X n) (shift m.np p) 0 i * F.f (X i) p 0) := by
  obtain ⟨nd, hn, rfl⟩ := build_two hb
  obtain ⟨e1, e2, e3⟩ := appendNode_some hn
  have hdim : h.ndim = m.ndim := by
    rcases e3 with ⟨h, _⟩ | ⟨_, h⟩
    · cases h
    · exact h
  obtain ⟨v, hv1, hv2⟩ := hm.derivative x N X p hx
  obtain ⟨u, hu1, hu2⟩ := hh.derivative x N X (shift m.np p) (by rw [hdim]; exact hx)
  obtain ⟨r, hr1, hr2⟩ := hm.result x N X p hx
  obtain ⟨s, hs1, hs2⟩ := hh.result x N X (shift m.np p) (by rw [hdim]; exact hx)
  unfold DerIs at hv2 hu2
  rw [if_neg (by omega), if_pos hO] at hv2
  rw [if_neg (by omega), if_pos hO', hdim] at hu2
  obtain ⟨a, rfl, ha⟩ := hv2
  obtain ⟨b, rfl, hb'⟩ := hu2
  unfold Pts at hs2 hr2
  rw [if_pos hO'] at hs2
  rw [if_pos hO] at hr2
  have mulv : ∀ {a b : Arr} {A : ℕ → ℕ → ℝ} {B : ℕ → ℝ}, Tab a N m.ndim A → Vec b N B →
      ∃ c, Arr.mul a b = some c ∧ Tab c N m.ndim (fun n i => A n i * B i) := by
    intro a b A B ha hb
    have hs : bshape [m.ndim, N] [N] = some [m.ndim, N] := by simp [bshape, hN]
    refine ⟨⟨[m.ndim, N], fun i => a.get (proj a.rshape i) * b.get (proj b.rshape i)⟩, ?_, rfl, ?_⟩
    · simp only [Arr.mul, Arr.op, ha.1, hb.1, hs]
    · intro n hn i hi
      simp only [ha.1, hb.1, proj2 hi hn, proj12 (show i < N by omega), ha.2 n hn i hi,
        hb.2 i (by omega)]
  obtain ⟨c, hc1, hc2⟩ := mulv ha hs2
  obtain ⟨d, hd1, hd2⟩ := mulv hb' hr2
  obtain ⟨w, hw1, hw2⟩ := hc2.op (· + ·) hd2
  have h0 : ¬ Op.nop = Op.pip := by decide
  have hp : ¬ nd.op = .pip := by rw [e1]; decide
  refine ⟨.arr w, ?_, ?_⟩
  · simp only [chainDerivative, recDeriv, if_neg h0, hv1, headD, hr1, operate, if_neg hp]
    rw [e2]
    simp only [hu1, hs1, joinDeriv, e1, Option.bind_some, Val.mulArr, Val.toArr, hc1, hd1, lift2, Arr.add,
      hw1, Option.map_some]
  · unfold DerIs
    rw [if_neg (by omega), if_pos rfl]
    exact ⟨w, rfl, hw2⟩

/-- C106, where it fails: when a model with one output is added to one with more outputs, which is
accepted, the sum raises or, when the number of points happens to equal the number of outputs, contains
in row `n` and column `o` the first model in point `o` instead of point `n`. -/
theorem C106_counterexample_outputs {m h : Mdl} {F H : Fn} {x : Arr} {N : ℕ}
    {X : ℕ → ℕ → ℝ} (hm : m.Computes F) (hh : h.Computes H) (hdim : h.ndim = m.ndim)
    (hO : m.ndout = 1) (hO' : 1 < h.ndout) (hx : Pts x N m.ndim X) (p : ℕ → ℝ) :
    ∃ nodes, build m [(.add, h)] = some nodes ∧
      (N ≠ 1 → N ≠ h.ndout → chainResult nodes x p = none) ∧
      (N = h.ndout → ∃ r, chainResult nodes x p = some r ∧
        Tab r N h.ndout (fun n o => F.f (X o) p 0 + H.f (X n) (shift m.np p) o)) := by
  obtain ⟨r, hr1, hr2⟩ := hm.result x N X p hx
  obtain ⟨s, hs1, hs2⟩ := hh.result x N X (shift m.np p) (by rw [hdim]; exact hx)
  unfold Pts at hr2 hs2
  rw [if_pos hO] at hr2
  rw [if_neg (by omega)] at hs2
  refine ⟨[⟨.nop, m, none⟩, ⟨.add, h, none⟩], by simp [build, buildFrom, appendNode, hdim], ?_, ?_⟩
  · intro h1 h2
    have : bshape [N] [h.ndout, N] = none := by
      simp only [bshape, if_neg h2, if_neg h1, if_neg (show h.ndout ≠ 1 by omega)]
    have e : Arr.add r s = none := by
      simp only [Arr.add, Arr.op, hr2.1, hs2.1, this]
    simp only [chainResult, recResult, operate, if_neg (show ¬ Op.nop = Op.pip by decide),
      if_neg (show ¬ Op.add = Op.pip by decide), hr1, hs1, Option.bind_some, e]
  · intro hN
    have : bshape [N] [h.ndout, N] = some [h.ndout, N] := by
      simp [bshape, hN]
    refine ⟨⟨[h.ndout, N], fun i => r.get (proj r.rshape i) + s.get (proj s.rshape i)⟩, ?_, rfl, ?_⟩
    · simp only [chainResult, recResult, operate, if_neg (show ¬ Op.nop = Op.pip by decide),
        if_neg (show ¬ Op.add = Op.pip by decide), hr1, hs1, Option.bind_some, Arr.add, Arr.op, hr2.1,
        hs2.1, this]
    · intro n hn o ho
      simp only [hr2.1, hs2.1, proj12 (show o < N by omega), proj2 ho hn, hs2.2 n hn o ho,
        hr2.2 o (by omega)]

/-- C106, where it fails: in a chain `G | H`, followed by another model, `H` is also evaluated at the
inputs of the chain, although the outcome is not used. When that raises, as it does when the numbers of
inputs of `G` and `H` differ and `H` minds, the derivatives and the partial derivatives of the chain
raise. The result does not. -/
theorem C106_counterexample_three {m : Mdl} {F : Fn} {h k : Part} {nodes : List Node}
    {x : Arr} {N : ℕ} {X : ℕ → ℕ → ℝ} (hb : build m (pairs [h, k]) = some nodes) (hop : h.op = .pip)
    (hm : m.Computes F) (hl : Fits m.ndout [h, k]) (hx : Pts x N m.ndim X) (p : ℕ → ℝ)
    (hbad : h.mdl.result x (shift m.np p) = none) :
    chainDerivative nodes x p = none ∧ chainPartial nodes x p = none ∧
      ∃ r, chainResult nodes x p = some r := by
  obtain ⟨r', hr', _⟩ := C106_result hb hm hl hx p
  refine ⟨?_, ?_, ⟨r', hr'⟩⟩
  all_goals
    unfold build at hb
    cases hbf : buildFrom m.ndim m.ndout (pairs [h, k]) with
    | none => rw [hbf] at hb; cases hb
    | some rest =>
        rw [hbf] at hb
        cases hb
        obtain ⟨nd, rest', rfl, h1, h2⟩ := buildFrom_cons hbf
        obtain ⟨nd2, rest2, rfl, _, _⟩ := buildFrom_cons h2
        obtain ⟨e1, e2, _⟩ := appendNode_some h1
        obtain ⟨r, hr1, _⟩ := hm.result x N X p hx
        obtain ⟨v, hv1, _⟩ := hm.derivative x N X p hx
        obtain ⟨u, hu1, _⟩ := hm.part x N X p hx
        have h0 : ¬ Op.nop = Op.pip := by decide
        have hp : nd.op = .pip := by rw [e1, hop]
        have hbad' : nd.mdl.result x (shift m.np p) = none := by rw [e2, hbad]
        clear hr'
        first
          | (simp only [chainDerivative, recDeriv, if_neg h0, hv1, hr1, operate, headD, if_pos hp,
              hbad']
             repeat' split
             all_goals rfl)
          | (simp only [chainPartial, recPartial, if_neg h0, hu1, hr1, operate, headP,
              if_pos hp, hbad']
             repeat' split
             all_goals rfl)

/-- C106, where it fails: the numeric derivative of a model with more inputs and more outputs always
raises. -/
theorem C106_counterexample_numeric {m : Mdl} {F : Fn} {x : Arr} {N : ℕ} {X : ℕ → ℕ → ℝ}
    (hm : m.Computes F) (hI : 1 < m.ndim) (hO : 1 < m.ndout) (hx : Pts x N m.ndim X) (dx : ℝ)
    (p : ℕ → ℝ) : numDerivative m dx x p = none := by
  have hx' : Tab x N m.ndim X := by
    unfold Pts at hx
    rwa [if_neg (by omega)] at hx
  have hadd : ∀ d, Pts (x.addCol 0 d) N m.ndim (fun n i => if i = 0 then X n i + d else X n i) := by
    intro d
    unfold Pts
    rw [if_neg (by omega)]
    refine ⟨hx'.1, fun n hn i hi => ?_⟩
    simp only [Arr.addCol, List.head?_cons, Option.some.injEq, hx'.2 n hn i hi]
  obtain ⟨r1, a1, a2⟩ := hm.result _ N _ p (hadd dx)
  obtain ⟨r2, b1, b2⟩ := hm.result _ N _ p (hadd (-dx))
  obtain ⟨c, c1, c2⟩ := Pts.op (· - ·) a2 b2
  unfold Pts at c2
  rw [if_neg (by omega)] at c2
  have hnot : ¬ assignable [N] c.rshape := by
    rw [c2.1]
    rintro ⟨h1, h2⟩
    have hN : N = 1 := h1 N (by simp)
    rcases h2 0 (by simp) m.ndout rfl with h | h
    · omega
    · simp at h; omega
  have hcol : numCol m dx x p N 0 = none := by
    simp only [numCol, a1, b1, lift2, Arr.sub, c1, if_neg hnot]
  have hasm : assemble N m.ndim (numCol m dx x p N) = none := by
    unfold assemble
    rw [if_neg]
    intro h
    have := h 0 (by omega)
    rw [hcol] at this
    cases this
  simp only [numDerivative, hx'.1, if_neg (show m.ndout ≠ 1 by omega), hasm]
  obtain ⟨k, hk⟩ : ∃ k, m.ndout = k + 1 := ⟨m.ndout - 1, by omega⟩
  rw [hk, List.range_succ_eq_map]
  rfl

/-- C106, where it fails: brackets around a chain with more outputs say that there is one, so that the
brackets cannot be piped into a model that the chain itself can be piped into. -/
theorem C106_counterexample_brackets (ndim np : ℕ) (l : List Node) (h : Mdl) (hh : h.ndim ≠ 1) :
    build (brackets ndim np l) [(.pip, h)] = none := by
  simp [build, buildFrom, appendNode, brackets, Ne.symm hh]

/-! ## A case -/

/-- The number of points in an array for a model of `I` inputs. -/
def npts (I : ℕ) : List ℕ → Option ℕ
  | [n] => if I = 1 then some n else none
  | [i, n] => if I ≠ 1 ∧ i = I then some n else none
  | _ => none

/-- Row `n` of the points. -/
def row (I : ℕ) (a : Arr) (n : ℕ) : ℕ → ℝ := fun i => if I = 1 then a.get [n] else a.get [i, n]

/-- A model that calculates a given function and raises for inputs of another form. -/
def Mdl.of (I O P : ℕ) (F : Fn) : Mdl :=
  { ndim := I, ndout := O, np := P
    result := fun a p => (npts I a.rshape).map fun N =>
      if O = 1 then ⟨[N], fun i => F.f (row I a (i.headD 0)) p 0⟩
      else ⟨[O, N], fun i => F.f (row I a (i.getD 1 0)) p (i.headD 0)⟩
    derivative := fun a p => (npts I a.rshape).map fun N =>
      if I = 1 then
        if O = 1 then .arr ⟨[N], fun i => F.fx (row I a (i.headD 0)) p 0 0⟩
        else .arr ⟨[O, N], fun i => F.fx (row I a (i.getD 1 0)) p (i.headD 0) 0⟩
      else if O = 1 then .arr ⟨[I, N], fun i => F.fx (row I a (i.getD 1 0)) p 0 (i.headD 0)⟩
      else .list ((List.range O).map fun o =>
        ⟨[I, N], fun i => F.fx (row I a (i.getD 1 0)) p o (i.headD 0)⟩)
    part := fun a p => (npts I a.rshape).map fun N =>
      if O = 1 then .arr ⟨[P, N], fun i => F.fp (row I a (i.getD 1 0)) p 0 (i.headD 0)⟩
      else .list ((List.range O).map fun o =>
        ⟨[P, N], fun i => F.fp (row I a (i.getD 1 0)) p o (i.headD 0)⟩) }

/-- Such models do what models are to do. -/
theorem Mdl.of_computes (I O P : ℕ) (F : Fn) (hI : 0 < I) (hO : 0 < O)
    (h : ∀ x y p, (∀ i < I, x i = y i) → F.f x p = F.f y p ∧ F.fx x p = F.fx y p ∧ F.fp x p = F.fp y p)
    (hl : ∀ x p q, (∀ k < P, p k = q k) → F.f x p = F.f x q) : (Mdl.of I O P F).Computes F := by
  have hrow : ∀ a N X, Pts a N I X → npts I a.rshape = some N ∧
      ∀ n < N, ∀ p, F.f (row I a n) p = F.f (X n) p ∧ F.fx (row I a n) p = F.fx (X n) p ∧
        F.fp (row I a n) p = F.fp (X n) p := by
    intro a N X hp
    unfold Pts at hp
    by_cases hI1 : I = 1
    · rw [if_pos hI1] at hp
      refine ⟨by rw [hp.1]; simp [npts, hI1], fun n hn p => h _ _ p fun i hi => ?_⟩
      have : i = 0 := by omega
      subst this
      simp only [row, if_pos hI1, hp.2 n hn]
    · rw [if_neg hI1] at hp
      refine ⟨by rw [hp.1]; simp [npts, hI1], fun n hn p => h _ _ p fun i hi => ?_⟩
      simp only [row, if_neg hI1, hp.2 n hn i hi]
  refine ⟨?_, ?_, ?_, hl, hI, hO⟩
  · intro a N X p hp
    obtain ⟨h1, h2⟩ := hrow a N X hp
    refine ⟨_, by simp only [Mdl.of, h1, Option.map_some]; rfl, ?_⟩
    change Pts _ N O (fun n o => F.f (X n) p o)
    unfold Pts
    by_cases hO1 : O = 1
    · rw [if_pos hO1, if_pos hO1]
      exact ⟨rfl, fun n hn => by simp [(h2 n hn p).1]⟩
    · rw [if_neg hO1, if_neg hO1]
      exact ⟨rfl, fun n hn k _ => by simp [(h2 n hn p).1]⟩
  · intro a N X p hp
    obtain ⟨h1, h2⟩ := hrow a N X hp
    refine ⟨_, by simp only [Mdl.of, h1, Option.map_some]; rfl, ?_⟩
    change DerIs _ N I O (fun n o i => F.fx (X n) p o i)
    unfold DerIs
    by_cases hI1 : I = 1
    · by_cases hO1 : O = 1
      · simp only [if_pos hI1, if_pos hO1]
        exact ⟨_, rfl, rfl, fun n hn => by simp [(h2 n hn p).2.1]⟩
      · simp only [if_pos hI1, if_neg hO1]
        exact ⟨_, rfl, rfl, fun n hn k _ => by simp [(h2 n hn p).2.1]⟩
    · by_cases hO1 : O = 1
      · simp only [if_neg hI1, if_pos hO1]
        exact ⟨_, rfl, rfl, fun n hn k _ => by simp [(h2 n hn p).2.1]⟩
      · simp only [if_neg hI1, if_neg hO1]
        exact ⟨_, rfl, by simp, fun o ho => ⟨_, by rw [List.getElem?_map, List.getElem?_range ho]; rfl,
          rfl, fun n hn k _ => by simp [(h2 n hn p).2.1]⟩⟩
  · intro a N X p hp
    obtain ⟨h1, h2⟩ := hrow a N X hp
    refine ⟨_, by simp only [Mdl.of, h1, Option.map_some]; rfl, ?_⟩
    change ParIs _ N O P (fun n o i => F.fp (X n) p o i)
    unfold ParIs
    by_cases hO1 : O = 1
    · simp only [if_pos hO1]
      exact ⟨_, rfl, rfl, fun n hn k _ => by simp [(h2 n hn p).2.2]⟩
    · simp only [if_neg hO1]
      exact ⟨_, rfl, by simp, fun o ho => ⟨_, by rw [List.getElem?_map, List.getElem?_range ho]; rfl,
        rfl, fun n hn k _ => by simp [(h2 n hn p).2.2]⟩⟩

/-- One input, two outputs, one parameter: `(p0 x, x²)`. -/
def exG : Fn :=
  { f := fun x p o => if o = 0 then p 0 * x 0 else x 0 ^ 2
    fx := fun x p o _ => if o = 0 then p 0 else 2 * x 0
    fp := fun x _ o _ => if o = 0 then x 0 else 0 }

/-- Two inputs, one output, one parameter: `q0 u v + u`. -/
def exH : Fn :=
  { f := fun u q _ => q 0 * (u 0 * u 1) + u 0
    fx := fun u q _ i => if i = 0 then q 0 * u 1 + 1 else q 0 * u 0
    fp := fun u _ _ _ => u 0 * u 1 }

theorem exG_computes : (Mdl.of 1 2 1 exG).Computes exG :=
  Mdl.of_computes 1 2 1 exG (by omega) (by omega)
    (fun x y p h => ⟨by simp [exG, h 0 (by omega)], by simp [exG, h 0 (by omega)],
      by simp [exG, h 0 (by omega)]⟩)
    (fun x p q h => by simp [exG, h 0 (by omega)])

theorem exH_computes : (Mdl.of 2 1 1 exH).Computes exH :=
  Mdl.of_computes 2 1 1 exH (by omega) (by omega)
    (fun x y p h => ⟨by simp [exH, h 0 (by omega), h 1 (by omega)],
      by simp [exH, h 0 (by omega), h 1 (by omega)], by simp [exH, h 0 (by omega), h 1 (by omega)]⟩)
    (fun x p q h => by simp [exH, h 0 (by omega)])

theorem exG_x (x p : ℕ → ℝ) : XDiff (fun z => exG.f z p) (exG.fx x p) x 1 2 := by
  intro c c' t hc hc' o ho
  have h0 := hc' 0 (by omega)
  have e : c t 0 = x 0 := by rw [hc]
  by_cases h : o = 0
  · simp only [exG, h, if_true, Finset.sum_range_one]
    exact h0.const_mul (p 0)
  · simp only [exG, h, if_false, Finset.sum_range_one]
    refine (h0.pow 2).congr_deriv ?_
    rw [e]
    simp

theorem exG_p (x p : ℕ → ℝ) : PDiff (exG.f x) (exG.fp x p) p 1 2 := by
  intro k hk o ho
  have : k = 0 := by omega
  subst this
  by_cases h : o = 0
  · simp only [exG, h, if_true, Function.update_self]
    simpa using (hasDerivAt_id (p 0)).mul_const (x 0)
  · simp only [exG, h, if_false]
    exact hasDerivAt_const _ _

theorem exH_x (u p : ℕ → ℝ) : XDiff (fun z => exH.f z p) (exH.fx u p) u 2 1 := by
  intro c c' t hc hc' o ho
  have h0 := hc' 0 (by omega)
  have h1 := hc' 1 (by omega)
  have e0 : c t 0 = u 0 := by rw [hc]
  have e1 : c t 1 = u 1 := by rw [hc]
  refine (((h0.mul h1).const_mul (p 0)).add h0).congr_deriv ?_
  simp [exH, Finset.sum_range_succ, e0, e1]
  ring

theorem exH_p (u p : ℕ → ℝ) : PDiff (exH.f u) (exH.fp u p) p 1 1 := by
  intro k hk o ho
  have : k = 0 := by omega
  subst this
  simp only [exH, Function.update_self]
  simpa using ((hasDerivAt_id (p 0)).mul_const (u 0 * u 1)).add_const (u 0)

/-- The case: the model with two outputs piped into the one with two inputs. It is accepted, has one
output and two parameters, and meets the hypotheses for any points and parameters. -/
example (x : Arr) (N : ℕ) (X : ℕ → ℕ → ℝ) (hx : Pts x N 1 X) (p : ℕ → ℝ) :
    ∃ nodes, build (Mdl.of 1 2 1 exG) (pairs [⟨.pip, Mdl.of 2 1 1 exH, exH⟩]) = some nodes ∧
      (∃ v D, chainPartial nodes x p = some v ∧ ParIs v N 1 2 D ∧
        ∀ n < N, ∀ k < 2, HasDerivAt (fun s =>
          (Function.update p k s) 1 * ((Function.update p k s) 0 * X n 0 * (X n 0) ^ 2) +
            (Function.update p k s) 0 * X n 0) (D n 0 k) (p k)) ∧
      ∃ v D, chainDerivative nodes x p = some v ∧ DerIs v N 1 1 D ∧
        ∀ n < N, HasDerivAt (fun s => p 1 * (p 0 * s * s ^ 2) + p 0 * s) (D n 0 0) (X n 0) := by
  have hb : build (Mdl.of 1 2 1 exG) (pairs [⟨.pip, Mdl.of 2 1 1 exH, exH⟩]) =
      some [⟨.nop, Mdl.of 1 2 1 exG, none⟩, ⟨.pip, Mdl.of 2 1 1 exH, selectPipe 1 2 1⟩] := rfl
  have hl : Fits (Mdl.of 1 2 1 exG).ndout [⟨.pip, Mdl.of 2 1 1 exH, exH⟩] :=
    ⟨by decide, by decide, exH_computes, trivial⟩
  have hs : ∀ n < N, Smooth [⟨.pip, Mdl.of 2 1 1 exH, exH⟩] (X n)
      (shift (Mdl.of 1 2 1 exG).np p) (exG.f (X n) p) := by
    intro n _
    exact ⟨exH_x _ _, exH_p _ _, fun h => absurd h (by decide), trivial⟩
  refine ⟨_, hb, ?_, ?_⟩
  · obtain ⟨v, D, h1, h2, h3⟩ := C106_partials_partial hb exG_computes hl
      ⟨fun h => absurd h (by decide), trivial⟩ hx p trivial (fun n _ => exG_p _ _) hs
    refine ⟨v, D, h1, h2, fun n hn k hk => ?_⟩
    have := h3 n hn k hk 0 (by decide)
    simpa [chainVal, tailVal, step, exG, exH, shift, Mdl.of] using this
  · obtain ⟨v, D, h1, h2, h3⟩ := C106_derivative_partial hb exG_computes hl
      ⟨fun h => absurd h (by decide), fun h => absurd h (by decide), trivial⟩ hx p trivial
      (fun n _ => exG_x _ _) hs
    refine ⟨v, D, h1, h2, fun n hn => ?_⟩
    have := h3 n hn 0 (by decide) 0 (by decide)
    simpa [chainVal, tailVal, step, exG, exH, shift, Mdl.of] using this

/-- The case for the chain of three: the second model raises at the inputs of the chain. -/
example (N : ℕ) (X : ℕ → ℕ → ℝ) (x : Arr) (hx : Pts x N 1 X) (p : ℕ → ℝ) :
    (Mdl.of 2 1 1 exH).result x p = none := by
  have : x.rshape = [N] := by simpa [Pts] using hx.1
  simp [Mdl.of, this, npts]

end

end Pipes
end BF
