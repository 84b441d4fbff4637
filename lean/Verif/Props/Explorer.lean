import Verif.Explorer
import Mathlib.Algebra.Order.Floor.Semiring
import Mathlib.Data.Real.Archimedean
import Mathlib.Tactic.Linarith
import Mathlib.Tactic.NormNum
import Mathlib.Tactic.Ring
import Mathlib.Tactic.Positivity

/-!
# C140: how long a walker is explored, and by which engines
-/

noncomputable section

namespace BF.Explorer

open Classical

variable {ε σ : Type*}

/-! ## Specification -/

/-- The engines in the list do their work one after the other; together they make that many moves. -/
inductive Plays (exec : ε → σ → Option (σ × ℕ)) : List ε → σ → ℕ → σ → Prop
  | nil (s : σ) : Plays exec [] s 0 s
  | cons {g gs s mv s' m s''} : exec g s = some (s', mv) → Plays exec gs s' m s'' → Plays exec (g :: gs) s (mv + m) s''

/-- A number of rounds, in each of which all engines work once, in an order from the random generator. -/
inductive Rounds (exec : ε → σ → Option (σ × ℕ)) (perm : List ε → σ → List ε × σ) (engines : List ε) :
    ℕ → σ → ℕ → σ → Prop
  | zero (s : σ) : Rounds exec perm engines 0 s 0 s
  | succ {k s m s' mv s''} : Rounds exec perm engines k s m s' →
      Plays exec (perm engines s').1 (perm engines s').2 mv s'' → Rounds exec perm engines (k + 1) s (m + mv) s''

/-! ## The rounds of a walker -/

theorem playRound_plays (exec : ε → σ → Option (σ × ℕ)) (gs : List ε) : ∀ (m : ℕ) (s s' : σ) (m' : ℕ),
    playRound exec gs m s = some (s', m') → ∃ d, m' = m + d ∧ Plays exec gs s d s' := by
  induction gs with
  | nil =>
    intro m s s' m' h
    simp only [playRound, Option.some.injEq, Prod.mk.injEq] at h
    obtain ⟨rfl, rfl⟩ := h
    exact ⟨0, rfl, .nil s⟩
  | cons g gs ih =>
    intro m s s' m' h
    simp only [playRound] at h
    rcases he : exec g s with _ | ⟨s1, mv⟩
    · rw [he] at h; cases h
    · rw [he] at h
      obtain ⟨d, hd, hp⟩ := ih _ _ _ _ h
      exact ⟨mv + d, by omega, .cons he hp⟩

theorem plays_det {exec : ε → σ → Option (σ × ℕ)} {gs : List ε} {s s' t : σ} {m n : ℕ} (h : Plays exec gs s m s') :
    Plays exec gs s n t → m = n ∧ s' = t := by
  induction h generalizing n t with
  | nil s => intro h2; cases h2; exact ⟨rfl, rfl⟩
  | cons he _ ih =>
    intro h2
    cases h2 with
    | cons he2 hp2 =>
      rw [he] at he2
      cases he2
      obtain ⟨h1, h2⟩ := ih hp2
      exact ⟨by rw [h1], h2⟩

theorem rounds_det {exec : ε → σ → Option (σ × ℕ)} {perm : List ε → σ → List ε × σ} {engines : List ε} {k : ℕ}
    {s s' t : σ} {m n : ℕ} (h : Rounds exec perm engines k s m s') :
    Rounds exec perm engines k s n t → m = n ∧ s' = t := by
  induction h generalizing n t with
  | zero s => intro h2; cases h2; exact ⟨rfl, rfl⟩
  | succ _ hp ih =>
    intro h2
    cases h2 with
    | succ hr2 hp2 =>
      obtain ⟨rfl, rfl⟩ := ih hr2
      obtain ⟨rfl, rfl⟩ := plays_det hp hp2
      exact ⟨rfl, rfl⟩

theorem loop_rounds (exec : ε → σ → Option (σ × ℕ)) (perm : List ε → σ → List ε × σ) (engines : List ε)
    (mm mt : ℝ) (s0 : σ) (n : ℕ) : ∀ (l r : Loop σ), Rounds exec perm engines l.trials s0 l.moves l.s →
    (∀ j < l.trials, (j : ℝ) < mt ∧ ∃ m t, Rounds exec perm engines j s0 m t ∧ (m : ℝ) < mm) →
    exploreLoop exec perm engines mm mt n l = some (some r) →
    Rounds exec perm engines r.trials s0 r.moves r.s ∧
    (∀ j < r.trials, (j : ℝ) < mt ∧ ∃ m t, Rounds exec perm engines j s0 m t ∧ (m : ℝ) < mm) ∧
    (mm ≤ r.moves ∨ mt ≤ r.trials) := by
  induction n with
  | zero => intro l r _ _ h; cases h
  | succ n ih =>
    intro l r hl hj h
    simp only [exploreLoop] at h
    by_cases hc : (l.moves : ℝ) < mm ∧ (l.trials : ℝ) < mt
    · rw [if_pos hc] at h
      rcases hp : playRound exec (perm engines l.s).1 l.moves (perm engines l.s).2 with _ | ⟨s', m'⟩
      · rw [hp] at h; cases h
      · rw [hp] at h
        obtain ⟨d, rfl, hd⟩ := playRound_plays exec _ _ _ _ _ hp
        refine ih _ r (.succ hl hd) ?_ h
        intro j hjl
        rcases Nat.lt_succ_iff_lt_or_eq.1 hjl with h1 | rfl
        · exact hj j h1
        · exact ⟨hc.2, _, _, hl, hc.1⟩
    · rw [if_neg hc] at h
      cases h
      refine ⟨hl, hj, ?_⟩
      by_contra hx
      push Not at hx
      exact hc hx

/-! ## C140 -/

/-- C140: when the exploration of a walker succeeds, all engines have worked in the same number of rounds. It stopped
because there were `npars / rate` moves or more, or because there were `maxtrials / rate` rounds; and not before. The
result is not below the level. -/
theorem C140_effort (exec : ε → σ → Option (σ × ℕ)) (perm : List ε → σ → List ε × σ) (check : σ → Bool)
    (logL : σ → ℝ) (npars maxtrials : ℕ) (rate low : ℝ) (engines : List ε) (fuel : ℕ) (s s' : σ)
    (h : exploreWalker exec perm check logL npars maxtrials rate low engines fuel s = .done s') :
    low ≤ logL s' ∧ ∃ k m, Rounds exec perm engines k s m s' ∧ (npars / rate ≤ m ∨ maxtrials / rate ≤ k) ∧
      ∀ j < k, (j : ℝ) < maxtrials / rate ∧ ∃ mj t, Rounds exec perm engines j s mj t ∧ (mj : ℝ) < npars / rate := by
  simp only [exploreWalker] at h
  rcases hl : exploreLoop exec perm engines (npars / rate) (maxtrials / rate) fuel ⟨s, 0, 0, false⟩ with _ | _ | r
  · rw [hl] at h; cases h
  · rw [hl] at h; cases h
  · rw [hl] at h
    simp only at h
    by_cases h1 : r.moves = 0 ∧ check r.s = false
    · rw [if_pos h1] at h; cases h
    · rw [if_neg h1] at h
      by_cases h2 : r.bound = false
      · rw [if_pos h2] at h; cases h
      · rw [if_neg h2] at h
        by_cases h3 : logL r.s < low
        · rw [if_pos h3] at h; cases h
        · rw [if_neg h3] at h
          cases h
          obtain ⟨a, b, c⟩ := loop_rounds exec perm engines _ _ s fuel ⟨s, 0, 0, false⟩ r (.zero s)
            (fun j hj => absurd hj (Nat.not_lt_zero j)) hl
          exact ⟨not_lt.1 h3, r.trials, r.moves, a, c, b⟩

/-- C140: the exploration always ends, after `maxtrials / rate` rounds at most, also when no engine can move. -/
theorem C140_ends (exec : ε → σ → Option (σ × ℕ)) (perm : List ε → σ → List ε × σ) (check : σ → Bool)
    (logL : σ → ℝ) (npars maxtrials : ℕ) (rate low : ℝ) (hrate : 0 < rate) (engines : List ε) (fuel : ℕ)
    (hfuel : (maxtrials : ℝ) / rate + 1 ≤ fuel) (s : σ) :
    exploreWalker exec perm check logL npars maxtrials rate low engines fuel s ≠ .busy := by
  have key : ∀ (n : ℕ) (l : Loop σ), (maxtrials : ℝ) / rate + 1 ≤ l.trials + n → 0 < n →
      exploreLoop exec perm engines (npars / rate) (maxtrials / rate) n l ≠ none := by
    intro n
    induction n with
    | zero => intro l _ h0; omega
    | succ n ih =>
      intro l hn _
      simp only [exploreLoop]
      by_cases hc : (l.moves : ℝ) < npars / rate ∧ (l.trials : ℝ) < maxtrials / rate
      · rw [if_pos hc]
        rcases playRound exec (perm engines l.s).1 l.moves (perm engines l.s).2 with _ | ⟨s', m'⟩
        · simp
        · refine ih _ ?_ ?_
          · push_cast at hn ⊢; linarith
          · rcases n with _ | n
            · exfalso; push_cast at hn; linarith [hc.2]
            · omega
      · rw [if_neg hc]; simp
  have h0 : 0 < fuel := by
    have : (0 : ℝ) ≤ maxtrials / rate := by positivity
    have h1 : (0 : ℝ) < fuel := by linarith
    exact_mod_cast h1
  have := key fuel ⟨s, 0, 0, false⟩ (by simpa using hfuel) h0
  simp only [exploreWalker]
  rcases hl : exploreLoop exec perm engines (npars / rate) (maxtrials / rate) fuel ⟨s, 0, 0, false⟩ with _ | _ | r
  · exact absurd hl this
  · simp
  · simp only
    by_cases h1 : r.moves = 0 ∧ check r.s = false
    · rw [if_pos h1]; simp
    · rw [if_neg h1]
      by_cases h2 : r.bound = false
      · rw [if_pos h2]; simp
      · rw [if_neg h2]
        by_cases h3 : logL r.s < low
        · rw [if_pos h3]; simp
        · rw [if_neg h3]; simp

/-- C140: with a lower rate the exploration goes on at least as long: it passes through the place where the
exploration with the higher rate stops. -/
theorem C140_rate (exec : ε → σ → Option (σ × ℕ)) (perm : List ε → σ → List ε × σ) (check : σ → Bool)
    (logL : σ → ℝ) (npars maxtrials : ℕ) (rate rate' low : ℝ) (h0 : 0 < rate') (hr : rate' ≤ rate)
    (engines : List ε) (fuel fuel' : ℕ) (s t t' : σ)
    (h : exploreWalker exec perm check logL npars maxtrials rate low engines fuel s = .done t)
    (h' : exploreWalker exec perm check logL npars maxtrials rate' low engines fuel' s = .done t') :
    ∃ k k' m m', k ≤ k' ∧ Rounds exec perm engines k s m t ∧ Rounds exec perm engines k' s m' t' := by
  obtain ⟨_, k, m, hk, _, hb⟩ := C140_effort exec perm check logL npars maxtrials rate low engines fuel s t h
  obtain ⟨_, k', m', hk', hs, _⟩ := C140_effort exec perm check logL npars maxtrials rate' low engines fuel' s t' h'
  refine ⟨k, k', m, m', ?_, hk, hk'⟩
  by_contra hlt
  push Not at hlt
  obtain ⟨h1, mj, u, hu, hm⟩ := hb k' hlt
  obtain ⟨rfl, rfl⟩ := rounds_det hk' hu
  have e1 : (npars : ℝ) / rate ≤ npars / rate' := by gcongr
  have e2 : (maxtrials : ℝ) / rate ≤ maxtrials / rate' := by gcongr
  rcases hs with hs | hs <;> linarith

/-! ## Slow engines -/

theorem sel_filter (slow : ε → Option ℕ) (it : ℕ) (gs : List ε) (h : ∀ g ∈ gs, slow g ≠ some 0) :
    selEngines slow it gs = some (gs.filter fun g => (slow g).elim true fun k => decide (k ∣ it)) := by
  induction gs with
  | nil => rfl
  | cons g gs ih =>
    have hg := h g (by simp)
    have := ih fun x hx => h x (by simp [hx])
    simp only [selEngines, List.filter_cons, this]
    rcases hk : slow g with _ | k
    · simp
    · rw [hk] at hg
      have h0 : k ≠ 0 := fun e => hg (by rw [e])
      by_cases hd : k ∣ it
      · simp [h0, hd, Nat.mod_eq_zero_of_dvd hd]
      · have : ¬ it % k = 0 := fun e => hd (Nat.dvd_of_mod_eq_zero e)
        simp [h0, hd, this]

/-- C140: the engines of an iteration. All engines without `slow` take part, and those with `slow = k` when the
number of the iteration is a multiple of `k`; the order is kept. Nothing is raised when no `slow` is 0. -/
theorem C140_engines (slow : ε → Option ℕ) (engines : List ε) (it : ℕ) (h : ∀ g ∈ engines, slow g ≠ some 0) :
    ∃ r, selectEngines slow engines it = some r ∧ r.Sublist engines ∧
      ∀ g ∈ engines, g ∈ r ↔ slow g = none ∨ ∃ k, slow g = some k ∧ k ∣ it := by
  have e : selectEngines slow engines it
      = some (engines.filter fun g => (slow g).elim true fun k => decide (k ∣ it)) := by
    unfold selectEngines
    by_cases ha : (engines.any fun g => (slow g).isSome) = true
    · rw [if_pos ha, sel_filter slow it engines h]
    · rw [if_neg ha, List.filter_eq_self.2]
      intro g hg
      have : ¬ (slow g).isSome = true := fun hs => ha (List.any_eq_true.2 ⟨g, hg, hs⟩)
      rw [Option.not_isSome_iff_eq_none] at this
      simp [this]
  refine ⟨_, e, List.filter_sublist, ?_⟩
  intro g hg
  rw [List.mem_filter]
  rcases hk : slow g with _ | k <;> simp [hg]

/-- C140: an engine with `slow = k` takes part in exactly one of any `k` iterations in a row. -/
theorem C140_slow (slow : ε → Option ℕ) (engines : List ε) (h : ∀ g ∈ engines, slow g ≠ some 0) (g : ε)
    (hg : g ∈ engines) (k : ℕ) (hk : slow g = some k) (first : ℕ) :
    ∃! it, first ≤ it ∧ it < first + k ∧ ∃ r, selectEngines slow engines it = some r ∧ g ∈ r := by
  have hpos : 0 < k := Nat.pos_of_ne_zero fun e => h g hg (by rw [hk, e])
  have hin : ∀ it, (∃ r, selectEngines slow engines it = some r ∧ g ∈ r) ↔ k ∣ it := by
    intro it
    obtain ⟨r, hr, _, hm⟩ := C140_engines slow engines it h
    constructor
    · rintro ⟨r', hr', hg'⟩
      rw [hr] at hr'
      cases hr'
      rcases (hm g hg).1 hg' with h1 | ⟨k', h1, h2⟩
      · rw [hk] at h1; cases h1
      · rw [hk] at h1; cases h1; exact h2
    · intro hd
      exact ⟨r, hr, (hm g hg).2 (Or.inr ⟨k, hk, hd⟩)⟩
  simp only [hin]
  refine ⟨k * ((first + k - 1) / k), ⟨?_, ?_, Dvd.intro _ rfl⟩, ?_⟩
  · have := Nat.div_add_mod (first + k - 1) k
    have := Nat.mod_lt (first + k - 1) hpos
    omega
  · have := Nat.mul_div_le (first + k - 1) k
    omega
  · rintro it ⟨h1, h2, q, rfl⟩
    congr 1
    have hq : (first + k - 1) / k = q := by
      rw [Nat.div_eq_iff hpos]
      constructor
      · rw [Nat.mul_comm]; omega
      · rw [Nat.mul_comm]; omega
    exact hq.symm

/-- C140, where it fails: when all engines are slow there are iterations without engines. The exploration of a walker
then raises. -/
theorem C140_counterexample_all_slow (exec : ε → σ → Option (σ × ℕ)) (perm : List ε → σ → List ε × σ)
    (hperm : ∀ s, (perm [] s).1 = []) (check : σ → Bool) (logL : σ → ℝ) (npars maxtrials : ℕ) (rate low : ℝ)
    (slow : ε → Option ℕ) (engines : List ε) (hne : engines ≠ []) (h : ∀ g ∈ engines, ∃ k, slow g = some k ∧ 2 ≤ k)
    (fuel : ℕ) (s s' : σ) :
    selectEngines slow engines 1 = some [] ∧
      exploreWalker exec perm check logL npars maxtrials rate low [] fuel s ≠ .done s' := by
  have h0 : ∀ g ∈ engines, slow g ≠ some 0 := by
    intro g hg e
    obtain ⟨k, hk, h2⟩ := h g hg
    rw [e] at hk
    cases hk
    omega
  constructor
  · obtain ⟨r, hr, hsub, hm⟩ := C140_engines slow engines 1 h0
    rw [hr]
    congr 1
    rw [List.eq_nil_iff_forall_not_mem]
    intro g hg
    obtain ⟨k, hk, h2⟩ := h g (hsub.subset hg)
    rcases (hm g (hsub.subset hg)).1 hg with h1 | ⟨k', h1, hd⟩
    · rw [hk] at h1; cases h1
    · rw [hk] at h1
      cases h1
      have := Nat.le_of_dvd one_pos hd
      omega
  · have key : ∀ (n : ℕ) (l r : Loop σ), l.bound = false →
        exploreLoop exec perm [] (npars / rate) (maxtrials / rate) n l = some (some r) → r.bound = false := by
      intro n
      induction n with
      | zero => intro l r _ h; cases h
      | succ n ih =>
        intro l r hl h
        simp only [exploreLoop, hperm] at h
        by_cases hc : (l.moves : ℝ) < npars / rate ∧ (l.trials : ℝ) < maxtrials / rate
        · rw [if_pos hc] at h
          simp only [playRound] at h
          exact ih _ r (by simp [hl]) h
        · rw [if_neg hc] at h
          cases h
          exact hl
    intro hd
    simp only [exploreWalker] at hd
    rcases hl : exploreLoop exec perm [] (npars / rate) (maxtrials / rate) fuel ⟨s, 0, 0, false⟩ with _ | _ | r
    · rw [hl] at hd; cases hd
    · rw [hl] at hd; cases hd
    · rw [hl] at hd
      have hb := key fuel _ r rfl hl
      simp only [hb] at hd
      by_cases h1 : r.moves = 0 ∧ check r.s = false
      · rw [if_pos h1] at hd; cases hd
      · rw [if_neg h1] at hd; simp at hd

/-! Two engines of which one never moves. -/

/-- The state counts the moves; engine 1 makes a move, other engines make none. -/
def demoExec (g : ℕ) (s : ℕ) : Option (ℕ × ℕ) := if g = 1 then some (s + 1, 1) else some (s, 0)

/-- With 2 parameters and a rate of 1 there are 2 rounds. -/
example : exploreWalker demoExec (fun gs s => (gs, s)) (fun _ => true) (fun s => s) 2 5 1 2 [0, 1] 6 0 = .done 2 := by
  simp [exploreWalker, exploreLoop, playRound, demoExec]

/-- With a rate of 1/2 there are 4. -/
example : exploreWalker demoExec (fun gs s => (gs, s)) (fun _ => true) (fun s => s) 2 5 (1 / 2) 2 [0, 1] 11 0 = .done 4 := by
  norm_num [exploreWalker, exploreLoop, playRound, demoExec]

/-- One engine for every third iteration. -/
example : selectEngines (fun g : ℕ => if g = 7 then some 3 else none) [7, 8] 4 = some [8] ∧
    selectEngines (fun g : ℕ => if g = 7 then some 3 else none) [7, 8] 6 = some [7, 8] := by
  constructor <;> simp [selectEngines, selEngines]

end BF.Explorer
