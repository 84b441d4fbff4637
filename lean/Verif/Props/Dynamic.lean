import Verif.Dynamic
import Mathlib.Algebra.BigOperators.Group.List.Lemmas
import Mathlib.Algebra.BigOperators.Group.Finset.Basic
import Mathlib.Algebra.BigOperators.Intervals
import Mathlib.Tactic.Linarith
import Mathlib.Tactic.Ring

/-!
# Dynamic models (C23, C24)
-/

namespace BF.Dynamic

open BF.Arr

variable {α : Type*}

/-! ## C23 -/

/-- The number of parameters of the first `n` components together. -/
def total (first delta : ℕ) : ℕ → ℕ
  | 0 => 0
  | n + 1 => first + n * delta

theorem total_succ (first delta n : ℕ) :
    total first delta (n + 1) = total first delta n + compSize first delta n := by
  rcases n with _ | n
  · simp [total, compSize]
  · simp [total, compSize]; ring

/-- Growing a model whose own parameters stand between those of the models before (`pre`) and behind
(`post`) it adds one component behind its own; all others stay. When there are already as many
components as allowed nothing changes. -/
theorem C23_grow (s : Dyn α) (pre own post value : List α)
    (hp : s.params = pre ++ own ++ post) (hn : own.length = s.npbase) :
    ((∃ m, s.maxComp = some m ∧ m ≤ s.ncomp) → grow s pre.length value = some (s, false)) ∧
    ((∀ m, s.maxComp = some m → s.ncomp < m) →
      ∃ s', grow s pre.length value = some (s', true) ∧ s'.ncomp = s.ncomp + 1 ∧
        s'.params = pre ++ (own ++ value) ++ post ∧ s'.npbase = s.npbase + value.length ∧
        s'.npchain = s.npchain + value.length) := by
  constructor
  · rintro ⟨m, h1, h2⟩
    simp [grow, h1, h2]
  · intro h
    have hc : ¬ (s.maxComp.elim false (fun m => decide (m ≤ s.ncomp)) = true) := by
      cases hm : s.maxComp with
      | none => simp
      | some m => simpa using h m hm
    have hl : pre.length + s.npbase ≤ s.params.length := by simp [hp, hn]
    have hlen : pre.length + s.npbase = (pre ++ own).length := by simp [hn]
    have ht : s.params.take (pre.length + s.npbase) = pre ++ own := by
      rw [hp, hlen, List.take_left]
    have hd : s.params.drop (pre.length + s.npbase) = post := by
      rw [hp, hlen, List.drop_left]
    refine ⟨{ s with ncomp := s.ncomp + 1, npbase := s.npbase + value.length,
                       npchain := s.npchain + value.length,
                       params := s.params.take (pre.length + s.npbase) ++ value
                         ++ s.params.drop (pre.length + s.npbase) },
      by simp only [grow, if_neg hc, insertPars, if_pos hl], rfl, ?_, rfl, rfl⟩
    simp [ht, hd]

/-- Shrinking removes the last component of the model and leaves all others; with the minimum number
of components nothing changes. -/
theorem C23_shrink (s : Dyn α) (pre own post : List α) (n : ℕ)
    (hp : s.params = pre ++ own ++ post) (hn : own.length = s.npbase) (hnn : n ≤ s.npbase) :
    (s.ncomp ≤ s.minComp → shrink s pre.length n = some (s, false)) ∧
    (s.minComp < s.ncomp →
      ∃ s', shrink s pre.length n = some (s', true) ∧ s'.ncomp + 1 = s.ncomp ∧
        s'.params = pre ++ own.take (own.length - n) ++ post ∧ s'.npbase + n = s.npbase ∧
        s'.npchain = s.npchain - n) := by
  constructor
  · intro h; simp [shrink, h]
  · intro h
    have hl : pre.length + s.npbase ≤ s.params.length := by simp [hp, hn]
    refine ⟨{ s with ncomp := s.ncomp - 1, npbase := s.npbase - n, npchain := s.npchain - n,
                       params := s.params.take (pre.length + s.npbase - n)
                         ++ s.params.drop (pre.length + s.npbase) }, by simp only [shrink, if_neg (not_le.2 h), deletePars, if_neg (not_lt.2 hnn),
      if_pos hl], by dsimp only; omega, ?_, by dsimp only; omega, rfl⟩
    have h1 : pre.length + s.npbase - n = pre.length + (own.length - n) := by omega
    have h2 : pre.length + s.npbase = (pre ++ own).length := by simp [hn]
    simp only [h1]
    rw [h2, hp, List.append_assoc, List.take_length_add_append, ← List.append_assoc, List.drop_left,
      List.take_append_of_le_length (by omega)]

/-- Removing the component that was just added restores the model. -/
theorem C23_grow_shrink (s : Dyn α) (pre own post value : List α)
    (hp : s.params = pre ++ own ++ post) (hn : own.length = s.npbase)
    (hmin : s.minComp ≤ s.ncomp) (s' : Dyn α) (hg : grow s pre.length value = some (s', true)) :
    shrink s' pre.length value.length = some (s, true) := by
  have hmax : ∀ m, s.maxComp = some m → s.ncomp < m := by
    intro m hm
    by_contra hc
    have := (C23_grow s pre own post value hp hn).1 ⟨m, hm, not_lt.1 hc⟩
    rw [this] at hg
    simp at hg
  obtain ⟨s1, h1, h2, h3, h4, h5⟩ := (C23_grow s pre own post value hp hn).2 hmax
  obtain rfl : s1 = s' := by rw [h1] at hg; simpa using hg
  have hfields : s1.minComp = s.minComp ∧ s1.maxComp = s.maxComp := by
    have hc : ¬ (s.maxComp.elim false (fun m => decide (m ≤ s.ncomp)) = true) := by
      cases hm : s.maxComp with
      | none => simp
      | some m => simpa using hmax m hm
    simp only [grow, if_neg hc] at h1
    split at h1
    · exact absurd h1 (by simp)
    · have := (Prod.mk.inj (Option.some.inj h1)).1
      rw [← this]; exact ⟨rfl, rfl⟩
  obtain ⟨s2, k1, k2, k3, k4, k5⟩ := (C23_shrink s1 pre (own ++ value) post value.length h3
    (by simp [h4, hn]) (by omega)).2 (by rw [hfields.1, h2]; omega)
  have hfields2 : s2.minComp = s1.minComp ∧ s2.maxComp = s1.maxComp := by
    simp only [shrink, if_neg (show ¬ s1.ncomp ≤ s1.minComp by rw [hfields.1, h2]; omega)] at k1
    split at k1
    · exact absurd k1 (by simp)
    · have := (Prod.mk.inj (Option.some.inj k1)).1
      rw [← this]; exact ⟨rfl, rfl⟩
  rw [k1]
  congr 2
  have e1 : s2.params = s.params := by rw [k3, hp]; simp
  have e2 : s2.ncomp = s.ncomp := by omega
  have e3 : s2.npbase = s.npbase := by omega
  have e4 : s2.npchain = s.npchain := by omega
  cases s2; cases s
  simp_all

/-- All through any history of births and deaths, with any random values for the new parameters: no
exception occurs, the parameters of the models before and behind keep their values and places, the
number of own parameters is that of the present components together, the length of the chain follows,
and the number of components stays between its minimum and maximum. -/
theorem C23_history (first delta : ℕ) (pre post : List α) (acts : List (Act α)) :
    ∀ (s : Dyn α) (own : List α), s.params = pre ++ own ++ post → own.length = s.npbase →
    s.npbase = total first delta s.ncomp → s.npchain = s.params.length →
    s.minComp ≤ s.ncomp → (∀ m, s.maxComp = some m → s.ncomp ≤ m) →
    ∃ s' own', runAll first delta pre.length s acts = some s' ∧
      s'.params = pre ++ own' ++ post ∧ own'.length = s'.npbase ∧
      s'.npbase = total first delta s'.ncomp ∧ s'.npchain = s'.params.length ∧
      s'.minComp = s.minComp ∧ s'.maxComp = s.maxComp ∧
      s'.minComp ≤ s'.ncomp ∧ (∀ m, s'.maxComp = some m → s'.ncomp ≤ m) := by
  induction acts with
  | nil =>
    intro s own h1 h2 h3 h4 h5 h6
    exact ⟨s, own, rfl, h1, h2, h3, h4, rfl, rfl, h5, h6⟩
  | cons a as ih =>
    intro s own h1 h2 h3 h4 h5 h6
    cases a with
    | birth v =>
      set value := (List.range (compSize first delta s.ncomp)).map v with hv
      have hvl : value.length = compSize first delta s.ncomp := by simp [hv]
      by_cases hm : ∃ m, s.maxComp = some m ∧ m ≤ s.ncomp
      · have hg := (C23_grow s pre own post value h1 h2).1 hm
        simp only [runAll, Act.run, ← hv, hg, Option.map_some]
        exact ih s own h1 h2 h3 h4 h5 h6
      · have hm' : ∀ m, s.maxComp = some m → s.ncomp < m := by
          intro m hmm; by_contra hc; exact hm ⟨m, hmm, not_lt.1 hc⟩
        obtain ⟨s1, g1, g2, g3, g4, g5⟩ := (C23_grow s pre own post value h1 h2).2 hm'
        have hf : s1.minComp = s.minComp ∧ s1.maxComp = s.maxComp := by
          simp only [grow] at g1
          split at g1
          · exact absurd g1 (by simp)
          · split at g1
            · exact absurd g1 (by simp)
            · have := (Prod.mk.inj (Option.some.inj g1)).1
              rw [← this]; exact ⟨rfl, rfl⟩
        simp only [runAll, Act.run, ← hv, g1, Option.map_some]
        have hx : s1.npchain = s1.params.length := by
          rw [g5, h4, g3, h1]; simp; omega
        obtain ⟨s', own', r⟩ := ih s1 (own ++ value) g3 (by simp [g4, h2])
          (by rw [g4, h3, g2, total_succ, hvl]) hx (by rw [hf.1, g2]; omega)
          (by rw [hf.2, g2]; intro m hmm; exact hm' m hmm)
        rw [hf.1, hf.2] at r
        exact ⟨s', own', r⟩
    | death =>
      by_cases hm : s.ncomp ≤ s.minComp
      · have hg : shrink s pre.length (compSize first delta (s.ncomp - 1)) = some (s, false) := by
          simp [shrink, hm]
        simp only [runAll, Act.run, hg, Option.map_some]
        exact ih s own h1 h2 h3 h4 h5 h6
      · push Not at hm
        obtain ⟨k, hk⟩ : ∃ k, s.ncomp = k + 1 := ⟨s.ncomp - 1, by omega⟩
        have hsz : compSize first delta (s.ncomp - 1) ≤ s.npbase := by
          rw [h3, hk, total_succ]; simp
        obtain ⟨s1, g1, g2, g3, g4, g5⟩ := (C23_shrink s pre own post _ h1 h2 hsz).2 hm
        have hf : s1.minComp = s.minComp ∧ s1.maxComp = s.maxComp := by
          simp only [shrink] at g1
          split at g1
          · exact absurd g1 (by simp)
          · split at g1
            · exact absurd g1 (by simp)
            · have := (Prod.mk.inj (Option.some.inj g1)).1
              rw [← this]; exact ⟨rfl, rfl⟩
        simp only [runAll, Act.run, g1, Option.map_some]
        have h3' : s1.npbase = total first delta s1.ncomp := by
          have e1 : s1.ncomp = k := by omega
          have e2 : s.ncomp - 1 = k := by omega
          have := total_succ first delta k
          rw [hk] at h3
          rw [e2] at g4
          rw [e1]
          omega
        have hx : s1.npchain = s1.params.length := by
          rw [g5, h4, g3, h1]; simp; omega
        obtain ⟨s', own', r⟩ := ih s1 _ g3 (by simp; omega) h3' hx (by rw [hf.1]; omega)
          (by rw [hf.2]; intro m hmm; have := h6 m hmm; omega)
        rw [hf.1, hf.2] at r
        exact ⟨s', own', r⟩

/-! Non-vacuity: a model of 2 components of 2 parameters between models of 1 parameter. -/
example : (runAll 2 2 1 (⟨2, 1, some 3, 4, 6, [9, 1, 2, 3, 4, 8]⟩ : Dyn ℕ)
    [.birth (fun i => 50 + i), .birth (fun i => i), .death, .death, .death]).map (·.params)
    = some [9, 1, 2, 8] := by decide

/-! ## C24 -/

/-- Where a parameter goes when `n` parameters are inserted at `k`; hyperparameters, counted from
the end, stay. -/
def up (k n : ℤ) (i : ℤ) : ℤ := if i < k then i else i + n

/-- Where a parameter goes when the `n` parameters before `k` are removed. -/
def down (k n : ℤ) (i : ℤ) : ℤ := if i < k then i else i - n

/-- A list of fitted parameters: increasing, followed by hyperparameters counted from the end. -/
def FitForm (pos neg : List ℤ) : Prop :=
  pos.Pairwise (· < ·) ∧ (∀ i ∈ pos, 0 ≤ i) ∧ (∀ i ∈ neg, i < 0)

theorem takeWhile_pos (pos neg : List ℤ) (h : FitForm pos neg) (k : ℤ) :
    ((pos ++ neg).takeWhile fun i => decide (0 ≤ i) && decide (i < k))
      = pos.filter (fun i => decide (i < k)) ∧
    (pos ++ neg).drop (pos.filter (fun i => decide (i < k))).length
      = pos.filter (fun i => decide (k ≤ i)) ++ neg := by
  obtain ⟨h1, h2, h3⟩ := h
  induction pos with
  | nil =>
    cases neg with
    | nil => simp
    | cons a l =>
      have : ¬ (0 ≤ a) := not_le.2 (h3 a (by simp))
      simp [this]
  | cons a l ih =>
    obtain ⟨ha, hl⟩ := List.pairwise_cons.1 h1
    have ha0 := h2 a (by simp)
    obtain ⟨i1, i2⟩ := ih hl (fun i hi => h2 i (by simp [hi]))
    by_cases hak : a < k
    · simp [hak, ha0, not_le.2 hak, i1, i2]
    · have hf : ∀ i ∈ l, ¬ i < k := fun i hi => by have := ha i hi; omega
      have e1 : l.filter (fun i => decide (i < k)) = [] := by
        rw [List.filter_eq_nil_iff]; intro i hi; simpa using hf i hi
      have e2 : l.filter (fun i => decide (k ≤ i)) = l := by
        rw [List.filter_eq_self]; intro i hi; have := hf i hi; simp; omega
      simp [hak, e1, e2, not_lt.1 hak]

/-- After a birth the list of fitted parameters holds precisely the new places of the parameters that
were fitted, and the new parameters. It has again the proper form. The parameters themselves are found
at their new places. -/
theorem C24_birth (pos neg : List ℤ) (h : FitForm pos neg) (location n offset : ℕ)
    (param value : List α) (hv : value.length = n) (hle : offset + location ≤ param.length) :
    (∀ j : ℤ, j ∈ fitBirth (pos ++ neg) location n offset ↔
      (∃ i ∈ pos ++ neg, j = up ((offset : ℤ) + location) n i) ∨
      ((offset : ℤ) + location ≤ j ∧ j < offset + location + n)) ∧
    (∃ pos', fitBirth (pos ++ neg) location n offset = pos' ++ neg ∧ FitForm pos' neg) ∧
    (∃ newpar, insertPars param location offset value = some newpar ∧
      (∀ i : ℕ, newpar[(up ((offset : ℤ) + location) n i).toNat]? = param[i]?) ∧
      (∀ i : ℕ, i < n → newpar[offset + location + i]? = value[i]?)) := by
  obtain ⟨e1, e2⟩ := takeWhile_pos pos neg h ((offset : ℤ) + location)
  obtain ⟨h1, h2, h3⟩ := h
  set k : ℤ := (offset : ℤ) + location with hk
  have hneg : neg.map (fun i : ℤ => if 0 ≤ i then i + (n : ℤ) else i) = neg := by
    conv_rhs => rw [← List.map_id neg]
    apply List.map_congr_left
    intro i hi
    have := h3 i hi
    simp [not_le.2 this]
  have hk0 : 0 ≤ k := by omega
  have hform : fitBirth (pos ++ neg) location n offset =
      (pos.filter (fun i => decide (i < k)) ++ (List.range n).map (fun i : ℕ => k + i)
        ++ (pos.filter (fun i => decide (k ≤ i))).map (fun i : ℤ => i + (n : ℤ))) ++ neg := by
    simp only [fitBirth, ← hk, e1, e2, List.map_append, hneg, List.append_assoc]
    congr 3
    apply List.map_congr_left
    intro i hi
    have := h2 i (List.mem_of_mem_filter hi)
    simp [this]
  refine ⟨?_, ⟨_, hform, ?_, ?_, h3⟩, ?_⟩
  · intro j
    rw [hform]
    simp only [List.mem_append, List.mem_filter, List.mem_map, List.mem_range, decide_eq_true_eq, up]
    constructor
    · rintro ((((⟨a, b⟩) | ⟨a, b, rfl⟩) | ⟨a, ⟨b, c⟩, rfl⟩) | a)
      · left; exact ⟨j, Or.inl a, by rw [if_pos b]⟩
      · right; omega
      · left; exact ⟨a, Or.inl b, by rw [if_neg (by omega)]⟩
      · left; exact ⟨j, Or.inr a, by rw [if_pos (by have := h3 j a; omega)]⟩
    · rintro (⟨i, hi | hi, rfl⟩ | ⟨a, b⟩)
      · by_cases hik : i < k
        · rw [if_pos hik]; left; left; left; exact ⟨hi, hik⟩
        · rw [if_neg hik]; left; right; exact ⟨i, ⟨hi, by omega⟩, rfl⟩
      · rw [if_pos (by have := h3 i hi; omega)]; right; exact hi
      · left; left; right; exact ⟨(j - k).toNat, by omega, by omega⟩
  · rw [List.pairwise_append, List.pairwise_append]
    refine ⟨⟨h1.filter _, ?_, ?_⟩, ?_, ?_⟩
    · rw [List.pairwise_map]
      exact List.pairwise_lt_range.imp fun hab => by omega
    · intro a ha b hb
      simp only [List.mem_filter, decide_eq_true_eq, List.mem_map, List.mem_range] at ha hb
      obtain ⟨c, _, rfl⟩ := hb
      omega
    · rw [List.pairwise_map]
      exact (h1.filter _).imp fun hab => by omega
    · intro a ha b hb
      simp only [List.mem_append, List.mem_filter, decide_eq_true_eq, List.mem_map,
        List.mem_range] at ha hb
      obtain ⟨c, ⟨_, hc⟩, rfl⟩ := hb
      rcases ha with ⟨_, ha⟩ | ⟨d, hd, rfl⟩ <;> omega
  · intro j hj
    simp only [List.mem_append, List.mem_filter, decide_eq_true_eq, List.mem_map,
      List.mem_range] at hj
    rcases hj with ((⟨a, b⟩ | ⟨d, hd, rfl⟩) | ⟨c, ⟨hc, hc'⟩, rfl⟩)
    · exact h2 j a
    · omega
    · have := h2 c hc; omega
  · refine ⟨_, if_pos hle, ?_, ?_⟩
    · intro i
      simp only [up]
      by_cases hik : (i : ℤ) < k
      · have hi : i < offset + location := by omega
        rw [if_pos hik, Int.toNat_natCast, List.append_assoc,
          List.getElem?_append_left (by simp; omega), List.getElem?_take_of_lt hi]
      · rw [if_neg hik]
        have e : ((i : ℤ) + n).toNat = i + n := by omega
        rw [e, List.getElem?_append_right (by simp [hv]; omega), List.getElem?_drop]
        congr 1
        simp [hv]
        omega
    · intro i hi
      rw [List.append_assoc, List.getElem?_append_right (by simp),
        List.getElem?_append_left (by simp [hv]; omega)]
      congr 1
      simp
      omega

/-- After a death, when the parameters of the removed component were all being fitted, the list holds
precisely the new places of the other fitted parameters, and these are found there. -/
theorem C24_death_partial (pos neg : List ℤ) (h : FitForm pos neg) (location n offset : ℕ)
    (hn : n ≤ location) (param : List α) (hle : offset + location ≤ param.length)
    (hall : ∀ j : ℤ, (offset : ℤ) + location - n ≤ j → j < offset + location → j ∈ pos) :
    ∃ new, fitDeath (pos ++ neg) location n offset = some new ∧
    (∀ j : ℤ, j ∈ new ↔ ∃ i ∈ pos ++ neg,
      ¬ ((offset : ℤ) + location - n ≤ i ∧ i < offset + location) ∧
      j = down ((offset : ℤ) + location) n i) ∧
    (∃ pos', new = pos' ++ neg ∧ FitForm pos' neg) ∧
    (∃ newpar, deletePars param location n offset = some newpar ∧
      (∀ i : ℕ, ¬ (offset + location - n ≤ i ∧ i < offset + location) →
        newpar[(down ((offset : ℤ) + location) n i).toNat]? = param[i]?)) := by
  obtain ⟨e1, e2⟩ := takeWhile_pos pos neg h ((offset : ℤ) + location - n)
  obtain ⟨h1, h2, h3⟩ := h
  set kh : ℤ := (offset : ℤ) + location - n with hkh
  set k : ℤ := (offset : ℤ) + location with hk
  -- the middle part
  have hmid : pos.filter (fun i => decide (kh ≤ i)) =
      (List.range n).map (fun i : ℕ => kh + i) ++ pos.filter (fun i => decide (k ≤ i)) := by
    apply List.Perm.eq_of_pairwise' (r := (· < ·))
    · exact h1.filter _
    · rw [List.pairwise_append]
      refine ⟨?_, h1.filter _, ?_⟩
      · rw [List.pairwise_map]
        exact List.pairwise_lt_range.imp fun hab => by omega
      · intro a ha b hb
        simp only [List.mem_filter, decide_eq_true_eq, List.mem_map, List.mem_range] at ha hb
        obtain ⟨c, _, rfl⟩ := ha
        omega
    · rw [List.perm_ext_iff_of_nodup]
      · intro a
        simp only [List.mem_filter, decide_eq_true_eq, List.mem_map, List.mem_range,
          List.mem_append]
        constructor
        · rintro ⟨ha, hb⟩
          by_cases hak : a < k
          · left; exact ⟨(a - kh).toNat, by omega, by omega⟩
          · right; exact ⟨ha, by omega⟩
        · rintro (⟨c, hc, rfl⟩ | ⟨ha, hb⟩)
          · exact ⟨hall _ (by omega) (by omega), by omega⟩
          · exact ⟨ha, by omega⟩
      · exact (h1.filter _).imp fun h => ne_of_lt h
      · have : ((List.range n).map (fun i : ℕ => kh + (i : ℤ))
            ++ pos.filter (fun i => decide (k ≤ i))).Pairwise (· < ·) := by
          rw [List.pairwise_append]
          refine ⟨?_, h1.filter _, ?_⟩
          · rw [List.pairwise_map]
            exact List.pairwise_lt_range.imp fun hab => by omega
          · intro a ha b hb
            simp only [List.mem_filter, decide_eq_true_eq, List.mem_map, List.mem_range] at ha hb
            obtain ⟨c, _, rfl⟩ := ha
            omega
        exact this.imp fun h => ne_of_lt h
  have hdrop : (pos ++ neg).drop ((pos.filter (fun i => decide (i < kh))).length + n)
      = pos.filter (fun i => decide (k ≤ i)) ++ neg := by
    rw [← List.drop_drop, e2, hmid, List.append_assoc]
    exact List.drop_left' (by simp)
  have hlen : (pos.filter (fun i => decide (i < kh))).length + n ≤ (pos ++ neg).length := by
    have h5 := congrArg List.length e2
    rw [hmid] at h5
    simp at h5
    simp
    have h6 := List.length_filter_le (fun i => decide (i < kh)) pos
    omega
  have hneg : neg.map (fun i : ℤ => if 0 ≤ i then i - (n : ℤ) else i) = neg := by
    conv_rhs => rw [← List.map_id neg]
    apply List.map_congr_left
    intro i hi
    have := h3 i hi
    simp [not_le.2 this]
  have hform : fitDeath (pos ++ neg) location n offset = some
      ((pos.filter (fun i => decide (i < kh))
        ++ (pos.filter (fun i => decide (k ≤ i))).map (fun i : ℤ => i - (n : ℤ))) ++ neg) := by
    simp only [fitDeath, ← hk, ← hkh, e1, if_pos hlen, hdrop, List.map_append, hneg,
      List.append_assoc]
    congr 3
    apply List.map_congr_left
    intro i hi
    have := h2 i (List.mem_of_mem_filter hi)
    simp [this]
  refine ⟨_, hform, ?_, ⟨_, rfl, ?_, ?_, h3⟩, ?_⟩
  · intro j
    simp only [List.mem_append, List.mem_filter, List.mem_map, decide_eq_true_eq, down]
    constructor
    · rintro ((⟨a, b⟩ | ⟨a, ⟨b, c⟩, rfl⟩) | a)
      · exact ⟨j, Or.inl a, by omega, by rw [if_pos (by omega)]⟩
      · exact ⟨a, Or.inl b, by omega, by rw [if_neg (by omega)]⟩
      · have := h3 j a
        exact ⟨j, Or.inr a, by omega, by rw [if_pos (by omega)]⟩
    · rintro ⟨i, hi | hi, hni, rfl⟩
      · by_cases hik : i < k
        · rw [if_pos hik]; left; left; exact ⟨hi, by omega⟩
        · rw [if_neg hik]; left; right; exact ⟨i, ⟨hi, by omega⟩, rfl⟩
      · rw [if_pos (by have := h3 i hi; omega)]; right; exact hi
  · rw [List.pairwise_append]
    refine ⟨h1.filter _, ?_, ?_⟩
    · rw [List.pairwise_map]
      exact (h1.filter _).imp fun hab => by omega
    · intro a ha b hb
      simp only [List.mem_filter, decide_eq_true_eq, List.mem_map] at ha hb
      obtain ⟨c, ⟨_, hc⟩, rfl⟩ := hb
      omega
  · intro j hj
    simp only [List.mem_append, List.mem_filter, decide_eq_true_eq, List.mem_map] at hj
    rcases hj with (⟨a, b⟩ | ⟨c, ⟨hc, hc'⟩, rfl⟩)
    · exact h2 j a
    · omega
  · refine ⟨_, (if_neg (not_lt.2 hn)).trans (if_pos hle), ?_⟩
    intro i hi
    simp only [down]
    by_cases hik : (i : ℤ) < k
    · have hi : i < offset + location - n := by omega
      rw [if_pos hik, Int.toNat_natCast, List.getElem?_append_left (by simp; omega),
        List.getElem?_take_of_lt hi]
    · rw [if_neg hik]
      have e : ((i : ℤ) - n).toNat = i - n := by omega
      rw [e, List.getElem?_append_right (by simp; omega), List.getElem?_drop]
      congr 1
      simp
      omega

/-- When a parameter of the removed component was kept, a fitted parameter of a model behind it is
lost from the list: of 5 parameters 0, 1 and 4 are fitted, the component {2} is removed, the old
parameter 4 is now number 3 but it is not in the list. -/
theorem C24_counterexample :
    fitDeath [0, 1, 4] 3 1 0 = some [0, 1] ∧
    deletePars [10, 11, 12, 13, 14] 3 1 0 = some [10, 11, 13, 14] := by decide

/-- And when there is nothing behind it an IndexError is raised. -/
theorem C24_counterexample_raises : fitDeath [0, 1] 3 1 0 = none := by decide

/-! Non-vacuity. -/
example : FitForm [0, 2, 3, 4, 6] [-1] := by
  refine ⟨by decide, by decide, by decide⟩
example : fitBirth [0, 2, 3, 4, 6, -1] 2 2 2 = [0, 2, 3, 4, 5, 6, 8, -1] := by decide
example : fitDeath [0, 2, 3, 4, 6, -1] 3 2 2 = some [0, 2, 4, -1] := by decide

end BF.Dynamic
