import Verif.Arrays
import Mathlib.Tactic.FinCases

/-!
# C129: what has been stored does not change afterwards

The arrays of walkers, phantoms and samples are shared between them, and are never written after they have been
given to a walker. A small analysis of the programs, proved right for every program, is applied to all engines.
-/

namespace BF.Arrays

/-! ## The analysis -/

/-- What is known about the variables: which of them hold an array that was never given to a walker, and which
two hold different arrays. -/
structure Abs where
  own : Reg → Bool
  diff : Reg → Reg → Bool

/-- Nothing is known. -/
def Abs.none : Abs := ⟨fun _ => false, fun _ _ => false⟩

def Abs.alloc (a : Abs) (r : Reg) : Abs where
  own := Function.update a.own r true
  diff := fun i j => if i = r then decide (j ≠ r) else if j = r then true else a.diff i j

def Abs.instr (a : Abs) : Instr → Option Abs
  | .copyWalker r => some (a.alloc r)
  | .refWalker r => some ⟨Function.update a.own r false, fun i j => decide (i ≠ r) && decide (j ≠ r) && a.diff i j⟩
  | .copy r _ => some (a.alloc r)
  | .make r => some (a.alloc r)
  | .move r t => some ⟨Function.update a.own r (a.own t),
      fun i j => a.diff (if i = r then t else i) (if j = r then t else j)⟩
  | .write r => if a.own r then some a else Option.none
  | .publish r => some ⟨fun x => a.own x && a.diff x r, a.diff⟩
  | .publishCopy _ => some a
  | .publishNew => some a

def Abs.meet (a b : Abs) : Abs := ⟨fun r => a.own r && b.own r, fun i j => a.diff i j && b.diff i j⟩

/-- What is known in `a` is known in `b`. -/
def Abs.le (a b : Abs) : Bool :=
  decide ((∀ r, a.own r = true → b.own r = true) ∧ ∀ i j, a.diff i j = true → b.diff i j = true)

def loopAbs (f : Abs → Option Abs) : ℕ → Abs → Option Abs
  | 0, _ => Option.none
  | n + 1, a =>
    match f a with
    | Option.none => Option.none
    | some b => if a.le b then some a else loopAbs f n (a.meet b)

def Prog.check : Prog → Abs → Option Abs
  | .skip, a => some a
  | .act i, a => a.instr i
  | .seq p q, a => (p.check a).bind q.check
  | .alt p q, a =>
    match p.check a, q.check a with
    | some b, some c => some (b.meet c)
    | _, _ => Option.none
  | .loop p, a => loopAbs p.check 13 a

/-! ## The analysis is right -/

/-- Every array that was given to a walker has the contents that it had then. -/
def Frozen (s : St) : Prop :=
  (∀ e ∈ s.log, e.1 < s.next ∧ s.mem e.1 = e.2) ∧ ∀ a ∈ s.walkers, a ∈ s.log.map Prod.fst

def Holds (a : Abs) (s : St) : Prop :=
  (∀ r, s.reg r < s.next) ∧ (∀ r, a.own r = true → s.reg r ∉ s.log.map Prod.fst) ∧
  ∀ i j, a.diff i j = true → s.reg i ≠ s.reg j

theorem Holds.mono {a b : Abs} {s : St} (h : Holds b s) (hle : a.le b = true) : Holds a s := by
  simp only [Abs.le, decide_eq_true_eq] at hle
  exact ⟨h.1, fun r hr => h.2.1 r (hle.1 r hr), fun i j hij => h.2.2 i j (hle.2 i j hij)⟩

theorem meet_left (a b : Abs) : (a.meet b).le a = true := by
  simp only [Abs.le, Abs.meet, decide_eq_true_eq, Bool.and_eq_true]
  exact ⟨fun r h => h.1, fun i j h => h.1⟩

theorem meet_right (a b : Abs) : (a.meet b).le b = true := by
  simp only [Abs.le, Abs.meet, decide_eq_true_eq, Bool.and_eq_true]
  exact ⟨fun r h => h.2, fun i j h => h.2⟩

theorem le_trans' {a b c : Abs} (h : a.le b = true) (h' : b.le c = true) : a.le c = true := by
  simp only [Abs.le, decide_eq_true_eq] at *
  exact ⟨fun r hr => h'.1 r (h.1 r hr), fun i j hij => h'.2 i j (h.2 i j hij)⟩

theorem le_refl' (a : Abs) : a.le a = true := by
  simp [Abs.le]

theorem loopAbs_spec (f : Abs → Option Abs) : ∀ (n : ℕ) (a b : Abs), loopAbs f n a = some b →
    b.le a = true ∧ ∃ c, f b = some c ∧ b.le c = true := by
  intro n
  induction n with
  | zero => intro a b h; simp [loopAbs] at h
  | succ n ih =>
    intro a b h
    unfold loopAbs at h
    rcases hf : f a with _ | c
    · rw [hf] at h; simp at h
    · rw [hf] at h
      simp only at h
      by_cases hle : a.le c = true
      · rw [if_pos hle] at h
        obtain rfl : a = b := by simpa using h
        exact ⟨le_refl' a, c, hf, hle⟩
      · rw [if_neg hle] at h
        obtain ⟨h1, h2⟩ := ih _ _ h
        exact ⟨le_trans' h1 (meet_left a c), h2⟩

theorem frozen_lt {s : St} (h : Frozen s) (x : ℕ) (hx : x ∈ s.log.map Prod.fst) : x < s.next := by
  obtain ⟨e, he, rfl⟩ := List.mem_map.1 hx
  exact (h.1 e he).1

theorem frozen_alloc {s : St} (h : Frozen s) (r : Reg) (v : List ℝ) : Frozen (s.alloc r v) := by
  refine ⟨?_, h.2⟩
  intro e he
  obtain ⟨h1, h2⟩ := h.1 e he
  refine ⟨by simp only [St.alloc]; omega, ?_⟩
  simp only [St.alloc]
  rw [Function.update_of_ne (by omega)]
  exact h2

theorem frozen_fresh {s : St} (h : Frozen s) (v : List ℝ) : Frozen (s.fresh v) := by
  refine ⟨?_, h.2⟩
  intro e he
  obtain ⟨h1, h2⟩ := h.1 e he
  refine ⟨by simp only [St.fresh]; omega, ?_⟩
  simp only [St.fresh]
  rw [Function.update_of_ne (by omega)]
  exact h2

theorem frozen_put {s : St} (h : Frozen s) (place : Option ℕ) (a : ℕ) (ha : a < s.next) :
    Frozen (s.put place a) := by
  refine ⟨?_, ?_⟩
  · intro e he
    simp only [St.put, List.mem_cons] at he
    rcases he with rfl | he
    · exact ⟨ha, rfl⟩
    · exact h.1 e he
  · intro x hx
    have : x ∈ s.walkers ∨ x = a := by
      cases place with
      | none => simpa [St.put] using hx
      | some k => exact List.mem_or_eq_of_mem_set hx
    simp only [St.put, List.map_cons, List.mem_cons]
    rcases this with h1 | h1
    · exact Or.inr (h.2 x h1)
    · exact Or.inl h1

theorem holds_alloc {a : Abs} {s : St} (h : Holds a s) (hf : Frozen s) (r : Reg) (v : List ℝ) :
    Holds (a.alloc r) (s.alloc r v) := by
  obtain ⟨h1, h2, h3⟩ := h
  refine ⟨?_, ?_, ?_⟩
  · intro i
    simp only [St.alloc]
    by_cases hi : i = r
    · subst hi; simp
    · rw [Function.update_of_ne hi]; have := h1 i; omega
  · intro i hi hm
    simp only [St.alloc] at hm
    by_cases hir : i = r
    · subst hir
      simp only [Function.update_self] at hm
      exact absurd (frozen_lt hf _ hm) (lt_irrefl _)
    · rw [Function.update_of_ne hir] at hm
      simp only [Abs.alloc, Function.update_of_ne hir] at hi
      exact h2 i hi hm
  · intro i j hij
    simp only [St.alloc]
    simp only [Abs.alloc] at hij
    by_cases hi : i = r
    · subst hi
      simp only [if_true, decide_eq_true_eq] at hij
      rw [Function.update_self, Function.update_of_ne hij]
      have := h1 j; omega
    · rw [if_neg hi] at hij
      by_cases hj : j = r
      · subst hj
        rw [Function.update_self, Function.update_of_ne hi]
        have := h1 i; omega
      · rw [if_neg hj] at hij
        rw [Function.update_of_ne hi, Function.update_of_ne hj]
        exact h3 i j hij

theorem holds_put_fresh {a : Abs} {s : St} (h : Holds a s) (place : Option ℕ) (v : List ℝ) :
    Holds a ((s.fresh v).put place s.next) := by
  obtain ⟨h1, h2, h3⟩ := h
  refine ⟨fun r => ?_, fun r hr hm => ?_, h3⟩
  · have := h1 r
    simp only [St.put, St.fresh]; omega
  · simp only [St.put, St.fresh, List.map_cons, List.mem_cons] at hm
    rcases hm with hm | hm
    · have := h1 r; omega
    · exact h2 r hr hm

/-- One action keeps everything that was stored, and the analysis is right about it. -/
theorem step_sound {kw : ℕ} {i : Instr} {s t : St} (hst : Step kw i s t) {a b : Abs}
    (hab : a.instr i = some b) (h : Holds a s) (hf : Frozen s) :
    Holds b t ∧ Frozen t ∧ ∃ l, t.log = l ++ s.log := by
  cases hst with
  | copyWalker r _ x hx =>
    obtain rfl : a.alloc r = b := by simpa [Abs.instr] using hab
    exact ⟨holds_alloc h hf _ _, frozen_alloc hf _ _, [], rfl⟩
  | copy r x =>
    obtain rfl : a.alloc r = b := by simpa [Abs.instr] using hab
    exact ⟨holds_alloc h hf _ _, frozen_alloc hf _ _, [], rfl⟩
  | make r _ v =>
    obtain rfl : a.alloc r = b := by simpa [Abs.instr] using hab
    exact ⟨holds_alloc h hf _ _, frozen_alloc hf _ _, [], rfl⟩
  | refWalker r _ x hx =>
    simp only [Abs.instr, Option.some.injEq] at hab
    subst hab
    obtain ⟨h1, h2, h3⟩ := h
    refine ⟨⟨fun i => ?_, fun i hi => ?_, fun i j hij => ?_⟩, hf, [], rfl⟩
    · by_cases hi : i = r
      · subst hi
        simp only [Function.update_self]
        exact frozen_lt hf _ (hf.2 x (List.mem_of_getElem? hx))
      · simp only [Function.update_of_ne hi]; exact h1 i
    · by_cases hir : i = r
      · subst hir; simp at hi
      · simp only [Function.update_of_ne hir] at hi ⊢
        exact h2 i hi
    · simp only [Bool.and_eq_true, decide_eq_true_eq] at hij
      simp only [Function.update_of_ne hij.1.1, Function.update_of_ne hij.1.2]
      exact h3 i j hij.2
  | move r x =>
    simp only [Abs.instr, Option.some.injEq] at hab
    subst hab
    obtain ⟨h1, h2, h3⟩ := h
    have hr : ∀ i, Function.update s.reg r (s.reg x) i = s.reg (if i = r then x else i) := by
      intro i
      by_cases hi : i = r
      · subst hi; simp
      · simp [hi]
    refine ⟨⟨fun i => ?_, fun i hi => ?_, fun i j hij => ?_⟩, hf, [], rfl⟩
    · simp only [hr]; exact h1 _
    · simp only [hr]
      refine h2 _ ?_
      by_cases hir : i = r
      · subst hir; simpa using hi
      · simpa [Function.update_of_ne hir, hir] using hi
    · simp only [hr]; exact h3 _ _ hij
  | write r _ v =>
    simp only [Abs.instr] at hab
    split at hab
    · rename_i ho
      obtain rfl : a = b := by simpa using hab
      refine ⟨⟨h.1, h.2.1, h.2.2⟩, ⟨?_, hf.2⟩, [], rfl⟩
      intro e he
      obtain ⟨h1, h2⟩ := hf.1 e he
      refine ⟨h1, ?_⟩
      have hne : e.1 ≠ s.reg r := by
        intro h0
        exact h.2.1 r ho (h0 ▸ List.mem_map_of_mem he)
      simp only [Function.update_of_ne hne]
      exact h2
    · simp at hab
  | publish r _ place =>
    simp only [Abs.instr, Option.some.injEq] at hab
    subst hab
    obtain ⟨h1, h2, h3⟩ := h
    refine ⟨⟨h1, fun i hi hm => ?_, h3⟩, frozen_put hf _ _ (h1 r), [(s.reg r, s.mem (s.reg r))], rfl⟩
    simp only [Bool.and_eq_true] at hi
    simp only [St.put, List.map_cons, List.mem_cons] at hm
    rcases hm with hm | hm
    · exact h3 i r hi.2 hm
    · exact h2 i hi.1 hm
  | publishCopy r _ place =>
    obtain rfl : a = b := by simpa [Abs.instr] using hab
    exact ⟨holds_put_fresh h _ _, frozen_put (frozen_fresh hf _) _ _ (Nat.lt_succ_self _), [_], rfl⟩
  | publishNew _ place v =>
    obtain rfl : a = b := by simpa [Abs.instr] using hab
    exact ⟨holds_put_fresh h _ _, frozen_put (frozen_fresh hf _) _ _ (Nat.lt_succ_self _), [_], rfl⟩

/-- For every program that passes, every execution. -/
theorem check_sound {kw : ℕ} {p : Prog} {s t : St} (hr : Run kw p s t) : ∀ {a b : Abs},
    p.check a = some b → Holds a s → Frozen s → Holds b t ∧ Frozen t ∧ ∃ l, t.log = l ++ s.log := by
  induction hr with
  | skip s =>
    intro a b hab h hf
    obtain rfl : a = b := by simpa [Prog.check] using hab
    exact ⟨h, hf, [], rfl⟩
  | act hst =>
    intro a b hab h hf
    exact step_sound hst hab h hf
  | seq _ _ ih1 ih2 =>
    intro a b hab h hf
    simp only [Prog.check, Option.bind_eq_some_iff] at hab
    obtain ⟨c, hc, hcb⟩ := hab
    obtain ⟨h1, h2, l1, h3⟩ := ih1 hc h hf
    obtain ⟨h4, h5, l2, h6⟩ := ih2 hcb h1 h2
    exact ⟨h4, h5, l2 ++ l1, by rw [h6, h3, List.append_assoc]⟩
  | @left p q s t _ ih =>
    intro a b hab h hf
    rcases hp : p.check a with _ | x
    · simp [Prog.check, hp] at hab
    · rcases hq : q.check a with _ | y
      · simp [Prog.check, hp, hq] at hab
      · obtain rfl : x.meet y = b := by simpa [Prog.check, hp, hq] using hab
        obtain ⟨h1, h2⟩ := ih hp h hf
        exact ⟨h1.mono (meet_left x y), h2⟩
  | @right p q s t _ ih =>
    intro a b hab h hf
    rcases hp : p.check a with _ | x
    · simp [Prog.check, hp] at hab
    · rcases hq : q.check a with _ | y
      · simp [Prog.check, hp, hq] at hab
      · obtain rfl : x.meet y = b := by simpa [Prog.check, hp, hq] using hab
        obtain ⟨h1, h2⟩ := ih hq h hf
        exact ⟨h1.mono (meet_right x y), h2⟩
  | done =>
    intro a b hab h hf
    obtain ⟨h1, _⟩ := loopAbs_spec _ _ _ _ hab
    exact ⟨h.mono h1, hf, [], rfl⟩
  | @turn p s t u _ _ ih1 ih2 =>
    intro a b hab h hf
    obtain ⟨h1, c, hc, hbc⟩ := loopAbs_spec _ _ _ _ hab
    obtain ⟨h2, h3, l1, h4⟩ := ih1 hc (h.mono h1) hf
    have hb : (Prog.loop p).check b = some b := by
      show loopAbs p.check (12 + 1) b = some b
      unfold loopAbs
      rw [hc]
      simp [hbc]
    obtain ⟨h5, h6, l2, h7⟩ := ih2 hb (h2.mono hbc) h3
    exact ⟨h5, h6, l2 ++ l1, by rw [h7, h4, List.append_assoc]⟩

/-- All engines pass. -/
theorem engines_pass : ∀ p ∈ engines, (p.check Abs.none).isSome = true := by
  decide +kernel

/-! ## The property -/

/-- Whatever an engine does, with any outcome of its conditions, any number of turns of its loops and anything
that it writes: each array that was given to a walker before, or is given to one during the call, has at the end
the contents that it had when it was given. -/
theorem C129_engine (p : Prog) (hp : p ∈ engines) (kw : ℕ) (s t : St) (hr : Run kw p s t) (hf : Frozen s)
    (hreg : ∀ r, s.reg r < s.next) : Frozen t ∧ ∃ l, t.log = l ++ s.log := by
  obtain ⟨b, hb⟩ := Option.isSome_iff_exists.1 (engines_pass p hp)
  have h0 : Holds Abs.none s := ⟨hreg, by simp [Abs.none], by simp [Abs.none]⟩
  exact (check_sound hr hb h0 hf).2

/-- A state that the sampler can be in: nothing stored has changed, and the samples are among what was
stored. -/
def Good (S : Sampler) : Prop :=
  Frozen S.st ∧ ∀ s ∈ S.samples, (s.addr, s.was) ∈ S.st.log

theorem event_good {S T : Sampler} (h : Event S T) (hg : Good S) : Good T ∧ ∃ l, T.st.log = l ++ S.st.log := by
  obtain ⟨hf, hs⟩ := hg
  cases h with
  | @engine st' p kw frame hp hfr hr =>
    obtain ⟨h1, l, h2⟩ := C129_engine p hp kw _ st' hr ⟨hf.1, hf.2⟩ hfr
    refine ⟨⟨h1, fun s hm => ?_⟩, l, h2⟩
    show _ ∈ st'.log
    rw [h2]
    exact List.mem_append_right _ (hs s hm)
  | copy a v des hm =>
    refine ⟨⟨frozen_put (frozen_fresh hf _) _ _ (Nat.lt_succ_self _), fun s hm' => ?_⟩, [_], rfl⟩
    exact List.mem_cons_of_mem _ (hs s hm')
  | sample k a nm np hk =>
    refine ⟨⟨hf, fun s hm => ?_⟩, [], rfl⟩
    simp only [List.mem_append, List.mem_singleton] at hm
    rcases hm with hm | rfl
    · exact hs s hm
    · obtain ⟨e, he, rfl⟩ := List.mem_map.1 (hf.2 a (List.mem_of_getElem? hk))
      have := (hf.1 e he).2
      simp only [this]
      exact he
  | rearrange l hl => exact ⟨⟨⟨hf.1, fun a ha => hf.2 a (hl a ha)⟩, hs⟩, [], rfl⟩
  | weed l hl => exact ⟨⟨hf, fun s hm => hs s (hl.subset hm)⟩, [], rfl⟩

/-- C129, samples: after any history, whatever engines have run, walkers were copied, sorted, replaced and
removed, each sample shows what the walker had when the sample was stored. -/
theorem C129_samples (S T : Sampler) (h : History S T) (hg : Good S) (s : Smp) (hs : s ∈ T.samples)
    (logL logW : ℝ) : s.now T.st logL logW = Summary.toSample s.np s.nm s.was logL logW := by
  have hT : Good T := by
    clear hs
    induction h with
    | nil => exact hg
    | snoc _ e ih => exact (event_good e ih).1
  unfold Smp.now
  rw [(hT.1.1 _ (hT.2 s hs)).2]

/-- C129, walkers and phantoms: each array that was ever given to a walker has the contents it had then; so the
likelihood that was stored with it stays the likelihood of its parameters. -/
theorem C129_walkers (S T : Sampler) (h : History S T) (hg : Good S) :
    (∃ l, T.st.log = l ++ S.st.log) ∧ ∀ e ∈ T.st.log, T.st.mem e.1 = e.2 := by
  have hT : Good T ∧ ∃ l, T.st.log = l ++ S.st.log := by
    induction h with
    | nil => exact ⟨hg, [], rfl⟩
    | snoc _ e ih =>
      obtain ⟨h1, l, h2⟩ := ih
      obtain ⟨h3, l', h4⟩ := event_good e h1
      exact ⟨h3, l' ++ l, by rw [h4, h2, List.append_assoc]⟩
  exact ⟨hT.2, fun e he => (hT.1.1.1 e he).2⟩

/-- C129, contents: all parameters of a sample are all parameters of the walker, whatever the numbers of
parameters of the model and of the problem. -/
theorem C129_allpars (nm np : ℕ) (l : List ℝ) (h1 : nm ≤ np) (h2 : np ≤ l.length) (logL logW : ℝ) :
    allpars (Summary.toSample np nm l logL logW) = l := by
  have e1 : (Summary.toSample np nm l logL logW).nuisance.getD [] = (l.take np).drop nm := by
    simp only [Summary.toSample]
    split
    · rfl
    · rw [List.drop_eq_nil_of_le (by simp; omega)]; rfl
  have e2 : (Summary.toSample np nm l logL logW).hyper.getD [] = l.drop np := by
    simp only [Summary.toSample]
    split
    · rfl
    · rw [List.drop_eq_nil_of_le (by omega)]; rfl
  have e3 : l.take nm = (l.take np).take nm := by rw [List.take_take, min_eq_left h1]
  unfold allpars
  rw [e1, e2]
  show l.take nm ++ (l.take np).drop nm ++ l.drop np = l
  rw [e3, List.take_append_drop, List.take_append_drop]

/-- Without nuisance parameters a walker and its sample have the same hyperparameters. -/
theorem C129_hypars (n : ℕ) (l : List ℝ) (logL logW : ℝ) :
    (Summary.toSample n n l logL logW).hyper = walkerHypars n l := rfl

/-- With nuisance parameters, as for errors in x and y, the hyperparameters of a walker are not those of its
sample: all targets come with them. -/
theorem C129_counterexample_hypars (nm np : ℕ) (l : List ℝ) (h : nm < np) (h2 : np < l.length) (logL logW : ℝ) :
    (Summary.toSample np nm l logL logW).hyper ≠ walkerHypars nm l := by
  intro h0
  simp only [Summary.toSample, walkerHypars, if_pos h2, if_pos (h.trans h2), Option.some.injEq] at h0
  have := congrArg List.length h0
  simp at this
  omega

/-! ## Examples -/

/-- Two walkers. -/
def two : St where
  mem := fun a => if a = 0 then [1, 2] else [3, 4]
  next := 2
  reg := fun _ => 0
  walkers := [0, 1]
  log := [(0, [1, 2]), (1, [3, 4])]

/-- The first state meets the hypotheses. -/
example : Good ⟨two, []⟩ := by
  refine ⟨⟨?_, ?_⟩, by simp⟩
  · intro e he
    simp only [two, List.mem_cons, List.not_mem_nil, or_false] at he
    rcases he with rfl | rfl <;> simp [two]
  · simp [two]

/-- The first walker is stored as a sample, and then explored by the Gibbs engine, which finds a place. -/
example : ∃ T : Sampler, History ⟨two, []⟩ T ∧ T.samples ≠ [] ∧ T.st.walkers = [4, 1] ∧ T.st.mem 4 = [7, 2] := by
  refine ⟨_, History.snoc (.snoc (.nil _) (.sample 0 0 1 1 rfl)) (.engine (p := gibbs) 0 (fun _ => 0) (by simp [engines])
    (by simp [two]) (.seq (.act (.copyWalker _ _ 0 rfl)) (.turn (.seq (.act (.copy _ _ _))
      (.seq (.act (.write _ _ [7, 2])) (.seq .done (.left (.seq (.act (.move _ _ _))
        (.left (.act (.publishCopy _ _ (some 0))))))))) .done))), by simp, ?_, ?_⟩
  · simp [two, St.put, St.alloc, St.fresh]
  · simp [two, St.put, St.alloc, St.fresh]

/-- An engine that forgets to copy would not pass: `GibbsEngine` on the walker itself. -/
def carelessGibbs : Prog :=
  Instr.refWalker 0 ;; .loop (
    Instr.copy 1 0 ;; Instr.write 1 ;; .loop (Instr.write 1) ;;
      .alt (Instr.move 0 1 ;; setWalker 0) (Instr.write 0))

/-- And it would indeed spoil samples. -/
example : carelessGibbs.check Abs.none = none ∧ ∃ t, Run 0 carelessGibbs two t ∧ ¬ Frozen t := by
  refine ⟨by decide +kernel, _, .seq (.act (.refWalker _ _ 0 rfl)) (.turn (.seq (.act (.copy _ _ _))
      (.seq (.act (.write _ _ [7, 2])) (.seq .done (.right (.act (.write _ _ [9, 9])))))) .done), ?_⟩
  rintro ⟨h, -⟩
  have := (h (0, [1, 2]) (by simp [two, St.alloc])).2
  simp [two, St.alloc] at this

/-- For errors in x and y: two parameters, two targets and a scale. -/
example : allpars (Summary.toSample 4 2 [1, 2, 30, 40, 5] 0 0) = [1, 2, 30, 40, 5] :=
  C129_allpars 2 4 _ (by omega) (by simp) 0 0

end BF.Arrays
