import Verif.Threads
import Mathlib.Tactic.Common

/-!
# C108: exploring walkers in threads

The statements are about every schedule: every order in which the threads make their accesses.
-/

namespace Threads

variable {W R : Type}

/-! ## Specification -/

/-- Every walker an engine of the jobs can make is not below the level. -/
def AtLeast (logL : W → ℤ) (low : ℤ) (jobs : List (ℕ × List (List (Eng W R)))) : Prop :=
  ∀ j ∈ jobs, ∀ es ∈ j.2, ∀ e ∈ es, ∀ v r w, e v r = some w → low ≤ logL w

/-- A walker which is made by an engine of the jobs. -/
def Made (jobs : List (ℕ × List (List (Eng W R)))) (w : W) : Prop :=
  ∃ j ∈ jobs, ∃ es ∈ j.2, ∃ e ∈ es, ∃ v r, e v r = some w

/-! ## Programs that write one walker only -/

/-- All writes are to walker `kw`, and what is written is good. -/
def Writes (kw : ℕ) (good : W → Prop) : Prog W R → Prop
  | .done => True
  | .fail => True
  | .draw k => ∀ r, Writes kw good (k r)
  | .read _ k => ∀ w, Writes kw good (k w)
  | .len k => ∀ n, Writes kw good (k n)
  | .put i w k => i = kw ∧ good w ∧ Writes kw good k
  | .load k => ∀ l, Writes kw good (k l)
  | .save _ k => Writes kw good k

theorem writes_execute (logL : W → ℤ) (kw : ℕ) (good : W → Prop) (e : Eng W R) (k : ℕ → Prog W R)
    (he : ∀ v r w, e v r = some w → good w) (hk : ∀ m, Writes kw good (k m)) :
    Writes kw good (execute logL false kw e k) := by
  intro w?
  cases w? with
  | none => trivial
  | some w =>
      intro r
      dsimp only
      cases h : e w r with
      | none => exact hk 0
      | some w' => exact ⟨rfl, he w r w' h, fun l => hk 1⟩

theorem writes_round (logL : W → ℤ) (kw : ℕ) (good : W → Prop) (es : List (Eng W R)) :
    ∀ (moves : ℕ) (k : ℕ → Prog W R), (∀ e ∈ es, ∀ v r w, e v r = some w → good w) →
      (∀ m, Writes kw good (k m)) → Writes kw good (round logL false kw es moves k) := by
  induction es with
  | nil => intro moves k _ hk; exact hk moves
  | cons e es ih =>
      intro moves k he hk
      exact writes_execute logL kw good e _ (he e (by simp)) fun m =>
        ih _ _ (fun e' h' => he e' (by simp [h'])) hk

theorem writes_trials (logL : W → ℤ) (kw maxmoves : ℕ) (good : W → Prop) (ts : List (List (Eng W R))) :
    ∀ (moves : ℕ) (k : Prog W R), (∀ es ∈ ts, ∀ e ∈ es, ∀ v r w, e v r = some w → good w) →
      Writes kw good k → Writes kw good (trials logL false kw maxmoves ts moves k) := by
  induction ts with
  | nil => intro moves k _ hk; exact hk
  | cons es ts ih =>
      intro moves k he hk
      unfold trials
      split
      · exact writes_round logL kw good es _ _ (he es (by simp)) fun m =>
          ih m k (fun es' h' => he es' (by simp [h'])) hk
      · exact hk

theorem writes_explore (logL : W → ℤ) (kw maxmoves : ℕ) (low : ℤ) (good : W → Prop)
    (ts : List (List (Eng W R))) (he : ∀ es ∈ ts, ∀ e ∈ es, ∀ v r w, e v r = some w → good w) :
    Writes kw good (exploreWalker logL false kw maxmoves low ts) := by
  refine writes_trials logL kw maxmoves good ts 0 _ he ?_
  intro w?
  cases w? with
  | none => trivial
  | some w => dsimp only; split <;> trivial

theorem access_writes (rnd : ℕ → R) (kw : ℕ) (good : W → Prop) (p : Prog W R) (s : Shared W)
    (h : Writes kw good p) (hkw : kw < s.walkers.length) :
    Writes kw good (access rnd p s).1 ∧ (access rnd p s).2.walkers.length = s.walkers.length ∧
    (∀ j, j ≠ kw → (access rnd p s).2.walkers[j]? = s.walkers[j]?) ∧
    ∀ w, (access rnd p s).2.walkers[kw]? = some w → s.walkers[kw]? = some w ∨ good w := by
  cases p with
  | done => exact ⟨h, rfl, fun _ _ => rfl, fun _ h => Or.inl h⟩
  | fail => exact ⟨h, rfl, fun _ _ => rfl, fun _ h => Or.inl h⟩
  | draw k => exact ⟨h _, rfl, fun _ _ => rfl, fun _ h => Or.inl h⟩
  | read i k => exact ⟨h _, rfl, fun _ _ => rfl, fun _ h => Or.inl h⟩
  | len k => exact ⟨h _, rfl, fun _ _ => rfl, fun _ h => Or.inl h⟩
  | load k => exact ⟨h _, rfl, fun _ _ => rfl, fun _ h => Or.inl h⟩
  | save l k => exact ⟨h, rfl, fun _ _ => rfl, fun _ h => Or.inl h⟩
  | put i w k =>
      obtain ⟨rfl, hg, hk⟩ := h
      have e : setWalker s.walkers i w = s.walkers.set i w := by unfold setWalker; rw [if_pos hkw]
      refine ⟨hk, by simp [access, e], fun j hj => ?_, fun v hv => ?_⟩
      · simp only [access, e]
        exact List.getElem?_set_ne (Ne.symm hj)
      · simp only [access, e, List.getElem?_set_self hkw, Option.some.injEq] at hv
        exact Or.inr (hv ▸ hg)

/-- What holds of the threads at every moment. -/
structure Good (jobs : List (ℕ × List (List (Eng W R)))) (good : W → Prop) (sh : Shared W)
    (s : State W R) : Prop where
  count : s.threads.length = jobs.length
  writes : ∀ (i : ℕ) (p : Prog W R), s.threads[i]? = some p → ∀ j : ℕ × List (List (Eng W R)), jobs[i]? = some j → Writes j.1 good p
  length : s.shared.walkers.length = sh.walkers.length
  others : ∀ j : ℕ, (∀ b ∈ jobs, b.1 ≠ j) → s.shared.walkers[j]? = sh.walkers[j]?
  values : ∀ (j : ℕ) (w : W), s.shared.walkers[j]? = some w → sh.walkers[j]? = some w ∨ good w

theorem step_spec (rnd : ℕ → R) (s : State W R) (i : ℕ) :
    (s.threads[i]? = none ∧ step rnd s i = s) ∨ ∃ p, s.threads[i]? = some p ∧
      step rnd s i = ⟨s.threads.set i (access rnd p s.shared).1, (access rnd p s.shared).2⟩ := by
  unfold step
  cases h : s.threads[i]? with
  | none => exact Or.inl ⟨rfl, rfl⟩
  | some p => exact Or.inr ⟨p, rfl, rfl⟩

theorem good_step (rnd : ℕ → R) (jobs : List (ℕ × List (List (Eng W R)))) (good : W → Prop)
    (sh : Shared W) (hk : ∀ j ∈ jobs, j.1 < sh.walkers.length) (s : State W R) (h : Good jobs good sh s)
    (i : ℕ) : Good jobs good sh (step rnd s i) ∧
      ∀ b, jobs[i]? = some b → ∀ j, j ≠ b.1 →
        (step rnd s i).shared.walkers[j]? = s.shared.walkers[j]? := by
  rcases step_spec rnd s i with ⟨_, e⟩ | ⟨p, hp, e⟩
  · rw [e]; exact ⟨h, fun _ _ _ _ => rfl⟩
  · have hi : i < s.threads.length := (List.getElem?_eq_some_iff.1 hp).1
    have hij : i < jobs.length := by rw [← h.count]; exact hi
    have hb : jobs[i]? = some jobs[i] := List.getElem?_eq_getElem hij
    have hkw : jobs[i].1 < s.shared.walkers.length := by
      rw [h.length]; exact hk _ (List.getElem_mem hij)
    obtain ⟨a1, a2, a3, a4⟩ := access_writes rnd jobs[i].1 good p s.shared (h.writes i p hp _ hb) hkw
    rw [e]
    refine ⟨⟨by simp [h.count], ?_, by dsimp only; rw [a2, h.length], ?_, ?_⟩, ?_⟩
    · intro i' p' hp' j hj
      dsimp only at hp'
      by_cases hii : i' = i
      · subst hii
        rw [List.getElem?_set_self hi] at hp'
        cases hp'
        rw [hb] at hj
        cases hj
        exact a1
      · rw [List.getElem?_set_ne (Ne.symm hii)] at hp'
        exact h.writes i' p' hp' j hj
    · intro j hj
      rw [a3 j (Ne.symm (hj _ (List.getElem_mem hij)))]
      exact h.others j hj
    · intro j w hw
      by_cases hjk : j = jobs[i].1
      · subst hjk
        rcases a4 w hw with h' | h'
        · exact h.values _ w h'
        · exact Or.inr h'
      · dsimp only at hw
        rw [a3 j hjk] at hw
        exact h.values j w hw
    · intro b hb' j hj
      rw [hb] at hb'
      cases hb'
      exact a3 j hj

theorem good_run (rnd : ℕ → R) (jobs : List (ℕ × List (List (Eng W R)))) (good : W → Prop)
    (sh : Shared W) (hk : ∀ j ∈ jobs, j.1 < sh.walkers.length) (schedule : List ℕ) :
    ∀ s : State W R, Good jobs good sh s → Good jobs good sh (run rnd s schedule) := by
  induction schedule with
  | nil => intro s h; exact h
  | cons i l ih => intro s h; exact ih _ (good_step rnd jobs good sh hk s h i).1

theorem good_start (logL : W → ℤ) (maxmoves : ℕ) (low : ℤ) (jobs : List (ℕ × List (List (Eng W R))))
    (good : W → Prop) (he : ∀ j ∈ jobs, ∀ es ∈ j.2, ∀ e ∈ es, ∀ v r w, e v r = some w → good w)
    (sh : Shared W) : Good jobs good sh (start logL false maxmoves low jobs sh) := by
  refine ⟨by simp [start], ?_, rfl, fun _ _ => rfl, fun _ _ h => Or.inl h⟩
  intro i p hp j hj
  simp only [start, List.getElem?_map, hj, Option.map_some, Option.some.injEq] at hp
  rw [← hp]
  exact writes_explore logL j.1 maxmoves low good j.2 (he j (List.mem_of_getElem? hj))

/-- C108, walkers: whatever the schedule, and at every moment of it, the ensemble keeps its size, the walkers
that are not explored stay as they are, and every other one is as it was or not below the level. -/
theorem C108_walkers (logL : W → ℤ) (maxmoves : ℕ) (low : ℤ) (jobs : List (ℕ × List (List (Eng W R))))
    (rnd : ℕ → R) (sh : Shared W) (hk : ∀ j ∈ jobs, j.1 < sh.walkers.length) (he : AtLeast logL low jobs)
    (schedule : List ℕ) :
    let s := run rnd (start logL false maxmoves low jobs sh) schedule
    s.shared.walkers.length = sh.walkers.length ∧
    (∀ j, (∀ b ∈ jobs, b.1 ≠ j) → s.shared.walkers[j]? = sh.walkers[j]?) ∧
    ∀ (j : ℕ) w, s.shared.walkers[j]? = some w → sh.walkers[j]? = some w ∨ low ≤ logL w := by
  have h := good_run rnd jobs (fun w => low ≤ logL w) sh hk schedule _
    (good_start logL maxmoves low jobs _ he sh)
  exact ⟨h.length, h.others, h.values⟩

/-- C108, own walker: an access of one thread never changes the walker of another. -/
theorem C108_own (logL : W → ℤ) (maxmoves : ℕ) (low : ℤ) (jobs : List (ℕ × List (List (Eng W R))))
    (rnd : ℕ → R) (sh : Shared W) (hk : ∀ j ∈ jobs, j.1 < sh.walkers.length)
    (schedule : List ℕ) (i : ℕ) (b : ℕ × List (List (Eng W R))) (hb : jobs[i]? = some b) (j : ℕ)
    (hj : j ≠ b.1) :
    (run rnd (start logL false maxmoves low jobs sh) (schedule ++ [i])).shared.walkers[j]? =
      (run rnd (start logL false maxmoves low jobs sh) schedule).shared.walkers[j]? := by
  have h := good_run rnd jobs (fun _ => True) sh hk schedule _
    (good_start logL maxmoves low jobs _ (fun _ _ _ _ _ _ _ _ _ _ => trivial) sh)
  have e : run rnd (start logL false maxmoves low jobs sh) (schedule ++ [i])
      = step rnd (run rnd (start logL false maxmoves low jobs sh) schedule) i := by
    simp [run, List.foldl_append]
  rw [e]
  exact (good_step rnd jobs _ sh hk _ h i).2 b hb j hj

/-! ## Phantoms -/

/-- Saves good lists only, when it loads good lists. -/
def Saves (Q : List W → Prop) : Prog W R → Prop
  | .done => True
  | .fail => True
  | .draw k => ∀ r, Saves Q (k r)
  | .read _ k => ∀ w, Saves Q (k w)
  | .len k => ∀ n, Saves Q (k n)
  | .put _ _ k => Saves Q k
  | .load k => ∀ l, Q l → Saves Q (k l)
  | .save l k => Q l ∧ Saves Q k

theorem saves_execute (logL : W → ℤ) (append : Bool) (kw : ℕ) (Q : List W → Prop) (e : Eng W R)
    (k : ℕ → Prog W R) (he : ∀ v r w, e v r = some w → ∀ l, Q l → Q (insertWalker logL l w))
    (hk : ∀ m, Saves Q (k m)) : Saves Q (execute logL append kw e k) := by
  intro w?
  cases w? with
  | none => trivial
  | some w =>
      intro r
      dsimp only
      cases h : e w r with
      | none => exact hk 0
      | some w' =>
          cases append with
          | false => exact fun l hl => ⟨he w r w' h l hl, hk 1⟩
          | true => exact fun n l hl => ⟨he w r w' h l hl, hk 1⟩

theorem saves_round (logL : W → ℤ) (append : Bool) (kw : ℕ) (Q : List W → Prop) (es : List (Eng W R)) :
    ∀ (moves : ℕ) (k : ℕ → Prog W R),
      (∀ e ∈ es, ∀ v r w, e v r = some w → ∀ l, Q l → Q (insertWalker logL l w)) →
      (∀ m, Saves Q (k m)) → Saves Q (round logL append kw es moves k) := by
  induction es with
  | nil => intro moves k _ hk; exact hk moves
  | cons e es ih =>
      intro moves k he hk
      exact saves_execute logL append kw Q e _ (he e (by simp)) fun m =>
        ih _ _ (fun e' h' => he e' (by simp [h'])) hk

theorem saves_trials (logL : W → ℤ) (append : Bool) (kw maxmoves : ℕ) (Q : List W → Prop)
    (ts : List (List (Eng W R))) : ∀ (moves : ℕ) (k : Prog W R),
      (∀ es ∈ ts, ∀ e ∈ es, ∀ v r w, e v r = some w → ∀ l, Q l → Q (insertWalker logL l w)) →
      Saves Q k → Saves Q (trials logL append kw maxmoves ts moves k) := by
  induction ts with
  | nil => intro moves k _ hk; exact hk
  | cons es ts ih =>
      intro moves k he hk
      unfold trials
      split
      · exact saves_round logL append kw Q es _ _ (he es (by simp)) fun m =>
          ih m k (fun es' h' => he es' (by simp [h'])) hk
      · exact hk

theorem saves_explore (logL : W → ℤ) (append : Bool) (kw maxmoves : ℕ) (low : ℤ) (Q : List W → Prop)
    (ts : List (List (Eng W R)))
    (he : ∀ es ∈ ts, ∀ e ∈ es, ∀ v r w, e v r = some w → ∀ l, Q l → Q (insertWalker logL l w)) :
    Saves Q (exploreWalker logL append kw maxmoves low ts) := by
  refine saves_trials logL append kw maxmoves Q ts 0 _ he ?_
  have last : ∀ w? : Option W, Saves Q (R := R) (match w? with
      | none => .fail
      | some w => if logL w < low then .fail else .done) := by
    intro w?
    cases w? with
    | none => trivial
    | some w => dsimp only; split <;> trivial
  cases append with
  | false => exact last
  | true => exact fun n => last

theorem insertWalker_perm (logL : W → ℤ) (l : List W) (w : W) : (insertWalker logL l w).Perm (w :: l) := by
  unfold insertWalker
  refine List.perm_middle.trans ?_
  rw [List.take_append_drop]

theorem insertWalker_sorted (logL : W → ℤ) (l : List W) (w : W)
    (h : l.Pairwise fun a b => logL a ≤ logL b) :
    (insertWalker logL l w).Pairwise fun a b => logL a ≤ logL b := by
  unfold insertWalker
  set n := l.findIdx fun v => decide (logL v > logL w) with hn
  have hlow : ∀ x ∈ l.take n, logL x ≤ logL w := by
    intro x hx
    obtain ⟨i, hi, rfl⟩ := List.mem_iff_getElem.1 hx
    rw [List.length_take] at hi
    rw [List.getElem_take]
    have hin : i < n := by omega
    have := List.not_of_lt_findIdx (p := fun v => decide (logL v > logL w)) (xs := l) hin
    simpa using this
  have hhigh : ∀ x ∈ l.drop n, logL w ≤ logL x := by
    intro x hx
    have hlen : n < l.length := by
      by_contra hc
      rw [List.drop_of_length_le (not_lt.1 hc)] at hx
      simp at hx
    have hfirst : logL w < logL l[n] := by
      have := List.findIdx_getElem (p := fun v => decide (logL v > logL w)) (xs := l) (w := hlen)
      simpa using this
    rw [List.drop_eq_getElem_cons hlen] at hx
    rcases List.mem_cons.1 hx with rfl | hx'
    · exact le_of_lt hfirst
    · have hp : (l.drop n).Pairwise fun a b => logL a ≤ logL b := h.sublist (List.drop_sublist n l)
      rw [List.drop_eq_getElem_cons hlen] at hp
      exact (le_of_lt hfirst).trans (List.rel_of_pairwise_cons hp hx')
  rw [List.pairwise_append]
  refine ⟨h.sublist (List.take_sublist n l), ?_, ?_⟩
  · rw [List.pairwise_cons]
    exact ⟨hhigh, h.sublist (List.drop_sublist n l)⟩
  · intro a ha b hb
    rcases List.mem_cons.1 hb with rfl | hb
    · exact hlow a ha
    · exact (hlow a ha).trans (hhigh b hb)

theorem saves_run (rnd : ℕ → R) (Q : List W → Prop) (schedule : List ℕ) : ∀ s : State W R,
    Q s.shared.phantoms → (∀ p ∈ s.threads, Saves Q p) → Q (run rnd s schedule).shared.phantoms := by
  induction schedule with
  | nil => intro s h _; exact h
  | cons i l ih =>
      intro s h hp
      show Q (run rnd (step rnd s i) l).shared.phantoms
      rcases step_spec rnd s i with ⟨_, e⟩ | ⟨p, hpi, e⟩
      · rw [e]; exact ih s h hp
      · have hs := hp p (List.mem_of_getElem? hpi)
        rw [e]
        have key : Q (access rnd p s.shared).2.phantoms ∧ Saves Q (access rnd p s.shared).1 := by
          cases p with
          | done => exact ⟨h, hs⟩
          | fail => exact ⟨h, hs⟩
          | draw k => exact ⟨h, hs _⟩
          | read i k => exact ⟨h, hs _⟩
          | len k => exact ⟨h, hs _⟩
          | put i w k => exact ⟨h, hs⟩
          | load k => exact ⟨h, hs _ h⟩
          | save l k => exact ⟨hs.1, hs.2⟩
        refine ih _ key.1 ?_
        intro q hq
        rcases List.mem_or_eq_of_mem_set hq with hq | rfl
        · exact hp q hq
        · exact key.2

/-- C108, phantoms: whatever the schedule, and also when walkers are appended, the collection of phantoms stays
in order and contains only what it contained before and what the engines have made. -/
theorem C108_phantoms (logL : W → ℤ) (append : Bool) (maxmoves : ℕ) (low : ℤ)
    (jobs : List (ℕ × List (List (Eng W R)))) (rnd : ℕ → R) (sh : Shared W)
    (h : sh.phantoms.Pairwise fun a b => logL a ≤ logL b) (schedule : List ℕ) :
    let s := run rnd (start logL append maxmoves low jobs sh) schedule
    (s.shared.phantoms.Pairwise fun a b => logL a ≤ logL b) ∧
    ∀ w ∈ s.shared.phantoms, w ∈ sh.phantoms ∨ Made jobs w := by
  have := saves_run rnd (fun l => (l.Pairwise fun a b => logL a ≤ logL b) ∧
    ∀ w ∈ l, w ∈ sh.phantoms ∨ Made jobs w) schedule (start logL append maxmoves low jobs sh)
    ⟨h, fun w hw => Or.inl hw⟩ (by
      intro p hp
      obtain ⟨j, hj, rfl⟩ := List.mem_map.1 hp
      refine saves_explore logL append j.1 maxmoves low _ j.2 ?_
      intro es hes e he v r w hw l hl
      refine ⟨insertWalker_sorted logL l w hl.1, fun x hx => ?_⟩
      rcases List.mem_cons.1 ((insertWalker_perm logL l w).mem_iff.1 hx) with rfl | hx
      · exact Or.inr ⟨j, hj, es, hes, e, he, v, r, hw⟩
      · exact hl.2 x hx)
  exact this

/-! ## Without threads -/

/-- Nothing is lost: phantoms stay and walkers that came into the ensemble are phantoms. -/
def Keeps (rnd : ℕ → R) (p : Prog W R) : Prop := ∀ s : Shared W,
  (∀ w ∈ s.phantoms, w ∈ (alone rnd p s).phantoms) ∧
  ∀ (j : ℕ) w, (alone rnd p s).walkers[j]? = some w → s.walkers[j]? = some w ∨ w ∈ (alone rnd p s).phantoms

theorem setWalker_get (l : List W) (i : ℕ) (w : W) (j : ℕ) (v : W) (h : (setWalker l i w)[j]? = some v) :
    l[j]? = some v ∨ v = w := by
  unfold setWalker at h
  split at h
  · rename_i hi
    by_cases hj : j = i
    · subst hj
      rw [List.getElem?_set_self hi] at h
      exact Or.inr (by simpa using h.symm)
    · rw [List.getElem?_set_ne (Ne.symm hj)] at h
      exact Or.inl h
  · rcases Nat.lt_or_ge j l.length with hj | hj
    · rw [List.getElem?_append_left hj] at h; exact Or.inl h
    · rw [List.getElem?_append_right hj] at h
      right
      cases hn : j - l.length with
      | zero => rw [hn] at h; simpa using h.symm
      | succ n => rw [hn] at h; simp at h

theorem keeps_execute (rnd : ℕ → R) (logL : W → ℤ) (append : Bool) (kw : ℕ) (e : Eng W R)
    (k : ℕ → Prog W R) (hk : ∀ m, Keeps rnd (k m)) : Keeps rnd (execute logL append kw e k) := by
  have put : ∀ (i : ℕ) (w' : W), Keeps rnd (.put i w' (storeItems logL w' (k 1))) := by
    intro i w' s
    simp only [alone, storeItems]
    obtain ⟨h1, h2⟩ := hk 1 ⟨setWalker s.walkers i w', insertWalker logL s.phantoms w', s.next⟩
    have hin : ∀ w, w = w' ∨ w ∈ s.phantoms → w ∈ insertWalker logL s.phantoms w' := by
      intro w hw
      rw [(insertWalker_perm logL s.phantoms w').mem_iff]
      exact List.mem_cons.2 hw
    refine ⟨fun w hw => h1 w (hin w (Or.inr hw)), fun j w hw => ?_⟩
    rcases h2 j w hw with h | h
    · rcases setWalker_get _ _ _ _ _ h with h | h
      · exact Or.inl h
      · exact Or.inr (h1 w (hin w (Or.inl h)))
    · exact Or.inr h
  intro s
  simp only [execute, alone]
  cases hw : s.walkers[kw]? with
  | none => exact ⟨fun _ h => h, fun _ _ h => Or.inl h⟩
  | some w =>
      simp only [alone]
      cases he : e w (rnd s.next) with
      | none => exact hk 0 ⟨s.walkers, s.phantoms, s.next + 1⟩
      | some w' =>
          cases append with
          | false => exact put kw w' ⟨s.walkers, s.phantoms, s.next + 1⟩
          | true => exact put s.walkers.length w' ⟨s.walkers, s.phantoms, s.next + 1⟩

theorem keeps_round (rnd : ℕ → R) (logL : W → ℤ) (append : Bool) (kw : ℕ) (es : List (Eng W R)) :
    ∀ (moves : ℕ) (k : ℕ → Prog W R), (∀ m, Keeps rnd (k m)) →
      Keeps rnd (round logL append kw es moves k) := by
  induction es with
  | nil => intro moves k hk; exact hk moves
  | cons e es ih =>
      intro moves k hk
      exact keeps_execute rnd logL append kw e _ fun m => ih _ _ hk

theorem keeps_trials (rnd : ℕ → R) (logL : W → ℤ) (append : Bool) (kw maxmoves : ℕ)
    (ts : List (List (Eng W R))) : ∀ (moves : ℕ) (k : Prog W R), Keeps rnd k →
      Keeps rnd (trials logL append kw maxmoves ts moves k) := by
  induction ts with
  | nil => intro moves k hk; exact hk
  | cons es ts ih =>
      intro moves k hk
      unfold trials
      split
      · exact keeps_round rnd logL append kw es _ _ fun m => ih m k hk
      · exact hk

theorem keeps_ended (rnd : ℕ → R) (p : Prog W R) (h : p.ended = true) : Keeps rnd p := by
  intro s
  cases p with
  | done => exact ⟨fun _ h => h, fun _ _ h => Or.inl h⟩
  | fail => exact ⟨fun _ h => h, fun _ _ h => Or.inl h⟩
  | _ => simp [Prog.ended] at h

theorem keeps_explore (rnd : ℕ → R) (logL : W → ℤ) (append : Bool) (kw maxmoves : ℕ) (low : ℤ)
    (ts : List (List (Eng W R))) : Keeps rnd (exploreWalker logL append kw maxmoves low ts) := by
  refine keeps_trials rnd logL append kw maxmoves ts 0 _ ?_
  have last : ∀ w? : Option W, Prog.ended (W := W) (R := R) (match w? with
      | none => .fail
      | some w => if logL w < low then .fail else .done) = true := by
    intro w?
    cases w? with
    | none => rfl
    | some w => dsimp only; split <;> rfl
  intro s
  cases append with
  | false =>
      simp only [alone, Bool.false_eq_true, if_false]
      exact keeps_ended rnd _ (last _) s
  | true =>
      simp only [alone, if_true]
      exact keeps_ended rnd _ (last _) s

/-- C108, without threads: no phantom is lost, and every walker that has come into the ensemble is among the
phantoms. -/
theorem C108_in_turn (logL : W → ℤ) (append : Bool) (maxmoves : ℕ) (low : ℤ)
    (jobs : List (ℕ × List (List (Eng W R)))) (rnd : ℕ → R) (sh : Shared W) :
    let s := inTurn rnd (start logL append maxmoves low jobs sh).threads sh
    (∀ w ∈ sh.phantoms, w ∈ s.phantoms) ∧
    ∀ (j : ℕ) w, s.walkers[j]? = some w → sh.walkers[j]? = some w ∨ w ∈ s.phantoms := by
  have key : ∀ (ps : List (Prog W R)), (∀ p ∈ ps, Keeps rnd p) → ∀ s : Shared W,
      (∀ w ∈ s.phantoms, w ∈ (inTurn rnd ps s).phantoms) ∧
      ∀ (j : ℕ) w, (inTurn rnd ps s).walkers[j]? = some w →
        s.walkers[j]? = some w ∨ w ∈ (inTurn rnd ps s).phantoms := by
    intro ps
    induction ps with
    | nil => intro _ s; exact ⟨fun _ h => h, fun _ _ h => Or.inl h⟩
    | cons p ps ih =>
        intro hp s
        obtain ⟨a1, a2⟩ := hp p (by simp) s
        obtain ⟨b1, b2⟩ := ih (fun q hq => hp q (by simp [hq])) (alone rnd p s)
        refine ⟨fun w hw => b1 w (a1 w hw), fun j w hw => ?_⟩
        rcases b2 j w hw with h | h
        · rcases a2 j w h with h | h
          · exact Or.inl h
          · exact Or.inr (b1 w h)
        · exact Or.inr h
  refine key _ ?_ sh
  intro p hp
  obtain ⟨j, _, rfl⟩ := List.mem_map.1 hp
  exact keeps_explore rnd logL append j.1 maxmoves low j.2

theorem set_same {α : Type} (l : List α) (i : ℕ) (a : α) (h : l[i]? = some a) : l.set i a = l := by
  obtain ⟨hi, rfl⟩ := List.getElem?_eq_some_iff.1 h
  exact List.set_getElem_self hi

/-- One thread alone is a schedule. -/
theorem alone_schedule (rnd : ℕ → R) (p : Prog W R) : ∀ (ts : List (Prog W R)) (i : ℕ) (sh : Shared W),
    ts[i]? = some p → ∃ n q, q.ended = true ∧
      run rnd ⟨ts, sh⟩ (List.replicate n i) = ⟨ts.set i q, alone rnd p sh⟩ := by
  have one : ∀ (p : Prog W R) (ts : List (Prog W R)) (i : ℕ) (sh : Shared W), ts[i]? = some p →
      step rnd ⟨ts, sh⟩ i = ⟨ts.set i (access rnd p sh).1, (access rnd p sh).2⟩ := by
    intro p ts i sh h
    unfold step
    simp only [h]
  have go : ∀ (p : Prog W R), (∀ (ts : List (Prog W R)) (i : ℕ) (sh : Shared W),
      ts[i]? = some (access rnd p sh).1 → ∃ n q, q.ended = true ∧
        run rnd ⟨ts, (access rnd p sh).2⟩ (List.replicate n i)
          = ⟨ts.set i q, alone rnd (access rnd p sh).1 (access rnd p sh).2⟩) →
      (∀ sh, alone rnd p sh = alone rnd (access rnd p sh).1 (access rnd p sh).2) →
      ∀ (ts : List (Prog W R)) (i : ℕ) (sh : Shared W), ts[i]? = some p → ∃ n q, q.ended = true ∧
        run rnd ⟨ts, sh⟩ (List.replicate n i) = ⟨ts.set i q, alone rnd p sh⟩ := by
    intro p hp ha ts i sh h
    have hi : i < ts.length := (List.getElem?_eq_some_iff.1 h).1
    obtain ⟨n, q, hq, hr⟩ := hp (ts.set i (access rnd p sh).1) i sh (List.getElem?_set_self hi)
    refine ⟨n + 1, q, hq, ?_⟩
    rw [List.replicate_succ]
    show run rnd (step rnd ⟨ts, sh⟩ i) (List.replicate n i) = _
    rw [one p ts i sh h, hr, List.set_set, ← ha]
  induction p with
  | done => intro ts i sh h; exact ⟨0, .done, rfl, by simp [run, alone, set_same ts i _ h]⟩
  | fail => intro ts i sh h; exact ⟨0, .fail, rfl, by simp [run, alone, set_same ts i _ h]⟩
  | draw k ih => exact go _ (fun ts i sh h => ih _ ts i _ h) (fun _ => rfl)
  | read i k ih => exact go _ (fun ts i sh h => ih _ ts i _ h) (fun _ => rfl)
  | len k ih => exact go _ (fun ts i sh h => ih _ ts i _ h) (fun _ => rfl)
  | put i w k ih => exact go _ (fun ts i sh h => ih ts i _ h) (fun _ => rfl)
  | load k ih => exact go _ (fun ts i sh h => ih _ ts i _ h) (fun _ => rfl)
  | save l k ih => exact go _ (fun ts i sh h => ih ts i _ h) (fun _ => rfl)

/-- C108, one after the other: exploring the walkers without threads is one of the schedules, after which all
have ended. So what is proved for every schedule holds without threads too. -/
theorem C108_turn_schedule (rnd : ℕ → R) (ps : List (Prog W R)) (sh : Shared W) :
    ∃ schedule, (run rnd ⟨ps, sh⟩ schedule).ended = true ∧
      (run rnd ⟨ps, sh⟩ schedule).shared = inTurn rnd ps sh := by
  have key : ∀ (qs : List (Prog W R)) (pre : List (Prog W R)) (sh : Shared W),
      (∀ p ∈ pre, p.ended = true) → ∃ schedule, (run rnd ⟨pre ++ qs, sh⟩ schedule).ended = true ∧
        (run rnd ⟨pre ++ qs, sh⟩ schedule).shared = inTurn rnd qs sh := by
    intro qs
    induction qs with
    | nil =>
        intro pre sh h
        exact ⟨[], by simpa [run, State.ended] using h, rfl⟩
    | cons p qs ih =>
        intro pre sh h
        obtain ⟨n, q, hq, hr⟩ := alone_schedule rnd p (pre ++ p :: qs) pre.length sh (by simp)
        have e : (pre ++ p :: qs).set pre.length q = (pre ++ [q]) ++ qs := by simp
        rw [e] at hr
        obtain ⟨sc, h1, h2⟩ := ih (pre ++ [q]) (alone rnd p sh) (by
          intro x hx
          rcases List.mem_append.1 hx with hx | hx
          · exact h x hx
          · rw [List.mem_singleton.1 hx]; exact hq)
        have ea : run rnd ⟨pre ++ p :: qs, sh⟩ (List.replicate n pre.length ++ sc)
            = run rnd ⟨(pre ++ [q]) ++ qs, alone rnd p sh⟩ sc := by
          rw [← hr]
          simp only [run, List.foldl_append]
        refine ⟨List.replicate n pre.length ++ sc, ?_, ?_⟩
        · rw [ea]; exact h1
        · rw [ea, h2]; rfl
  exact key ps [] sh (by simp)

/-- C108, one walker: with one thread, as the PhantomSampler uses it, the result is that of exploring without
threads, whatever the schedule; so nothing is lost. -/
theorem C108_single (rnd : ℕ → R) (p : Prog W R) (sh : Shared W) (schedule : List ℕ)
    (h : (run rnd ⟨[p], sh⟩ schedule).ended = true) :
    (run rnd ⟨[p], sh⟩ schedule).shared = inTurn rnd [p] sh := by
  show _ = alone rnd p sh
  have acc : ∀ (p : Prog W R) (sh : Shared W),
      alone rnd (access rnd p sh).1 (access rnd p sh).2 = alone rnd p sh := by
    intro p sh; cases p <;> rfl
  induction schedule generalizing p sh with
  | nil =>
      cases p with
      | done => rfl
      | fail => rfl
      | _ => simp [run, State.ended, Prog.ended] at h
  | cons i l ih =>
      cases i with
      | zero => exact (ih (access rnd p sh).1 (access rnd p sh).2 h).trans (acc p sh)
      | succ i => exact ih p sh h

/-! ## The same result for every schedule -/

/-- What the thread makes of its own walker is `f`, whatever it draws and whatever the phantoms are. -/
def Own (kw : ℕ) : Prog W R → (W → W) → Prop
  | .done, f => ∀ v, f v = v
  | .fail, f => ∀ v, f v = v
  | .draw k, f => ∀ r, Own kw (k r) f
  | .read i k, f => i = kw ∧ ∀ v, ∃ g, Own kw (k (some v)) g ∧ f v = g v
  | .len _, _ => False
  | .put i w k, f => i = kw ∧ ∃ g, Own kw k g ∧ ∀ v, f v = g w
  | .load k, f => ∀ l, Own kw (k l) f
  | .save _ k, f => Own kw k f

/-- An engine which does not use the common generator. -/
def Fixed (e : Eng W R) : Prop := ∃ d : W → Option W, ∀ v r, e v r = d v

theorem own_execute (logL : W → ℤ) (kw : ℕ) (e : Eng W R) (k : ℕ → Prog W R)
    (he : Fixed e) (hk : ∀ m, ∃ g, Own kw (k m) g) :
    ∃ f, Own kw (execute logL false kw e k) f := by
  choose g hg using hk
  obtain ⟨d, hd⟩ := he
  refine ⟨fun v => match d v with
    | none => g 0 v
    | some w => g 1 w, rfl, fun v => ?_⟩
  cases h : d v with
  | none =>
      refine ⟨g 0, fun r => ?_, by simp only [h]⟩
      dsimp only
      rw [hd v r, h]
      exact hg 0
  | some w =>
      refine ⟨fun _ => g 1 w, fun r => ?_, by simp only [h]⟩
      dsimp only
      rw [hd v r, h]
      exact ⟨rfl, g 1, fun l => hg 1, fun _ => rfl⟩

theorem own_round (logL : W → ℤ) (kw : ℕ) (es : List (Eng W R)) : ∀ (moves : ℕ) (k : ℕ → Prog W R),
    (∀ e ∈ es, Fixed e) → (∀ m, ∃ g, Own kw (k m) g) → ∃ f, Own kw (round logL false kw es moves k) f := by
  induction es with
  | nil => intro moves k _ hk; exact hk moves
  | cons e es ih =>
      intro moves k he hk
      exact own_execute logL kw e _ (he e (by simp)) fun m =>
        ih _ _ (fun e' h' => he e' (by simp [h'])) hk

theorem own_trials (logL : W → ℤ) (kw maxmoves : ℕ) (ts : List (List (Eng W R))) :
    ∀ (moves : ℕ) (k : Prog W R), (∀ es ∈ ts, ∀ e ∈ es, Fixed e) → (∃ g, Own kw k g) →
      ∃ f, Own kw (trials logL false kw maxmoves ts moves k) f := by
  induction ts with
  | nil => intro moves k _ hk; exact hk
  | cons es ts ih =>
      intro moves k he hk
      unfold trials
      split
      · exact own_round logL kw es _ _ (he es (by simp)) fun m =>
          ih m k (fun es' h' => he es' (by simp [h'])) hk
      · exact hk

theorem own_explore (logL : W → ℤ) (kw maxmoves : ℕ) (low : ℤ) (ts : List (List (Eng W R)))
    (he : ∀ es ∈ ts, ∀ e ∈ es, Fixed e) : ∃ f, Own kw (exploreWalker logL false kw maxmoves low ts) f := by
  refine own_trials logL kw maxmoves ts 0 _ he ⟨fun v => v, rfl, fun v => ⟨fun v => v, ?_, rfl⟩⟩
  dsimp only
  split <;> exact fun _ => rfl

theorem access_own (rnd : ℕ → R) (kw : ℕ) (p : Prog W R) (s : Shared W) (f : W → W) (v : W)
    (h : Own kw p f) (hv : s.walkers[kw]? = some v) :
    ∃ g v', Own kw (access rnd p s).1 g ∧ (access rnd p s).2.walkers[kw]? = some v' ∧ g v' = f v ∧
      ∀ j, j ≠ kw → (access rnd p s).2.walkers[j]? = s.walkers[j]? := by
  have hkw : kw < s.walkers.length := (List.getElem?_eq_some_iff.1 hv).1
  cases p with
  | done => exact ⟨f, v, h, hv, rfl, fun _ _ => rfl⟩
  | fail => exact ⟨f, v, h, hv, rfl, fun _ _ => rfl⟩
  | draw k => exact ⟨f, v, h _, hv, rfl, fun _ _ => rfl⟩
  | read i k =>
      obtain ⟨rfl, h⟩ := h
      obtain ⟨g, h1, h2⟩ := h v
      refine ⟨g, v, ?_, hv, h2.symm, fun _ _ => rfl⟩
      simp only [access, hv]
      exact h1
  | len k => exact h.elim
  | load k => exact ⟨f, v, h _, hv, rfl, fun _ _ => rfl⟩
  | save l k => exact ⟨f, v, h, hv, rfl, fun _ _ => rfl⟩
  | put i w k =>
      obtain ⟨rfl, g, h1, h2⟩ := h
      have e : setWalker s.walkers i w = s.walkers.set i w := by unfold setWalker; rw [if_pos hkw]
      refine ⟨g, w, h1, ?_, (h2 v).symm, fun j hj => ?_⟩
      · simp only [access, e]
        exact List.getElem?_set_self hkw
      · simp only [access, e]
        exact List.getElem?_set_ne (Ne.symm hj)

/-- The result of every thread is settled from the start. -/
def Settled (kws : List ℕ) (res : ℕ → W) (s : State W R) : Prop :=
  s.threads.length = kws.length ∧ ∀ (i kw : ℕ) (p : Prog W R), kws[i]? = some kw → s.threads[i]? = some p →
    ∃ f v, Own kw p f ∧ s.shared.walkers[kw]? = some v ∧ f v = res i

theorem settled_step (rnd : ℕ → R) (kws : List ℕ) (hd : kws.Nodup) (res : ℕ → W) (s : State W R)
    (h : Settled kws res s) (i : ℕ) : Settled kws res (step rnd s i) ∧
      ∀ j, j ∉ kws → (step rnd s i).shared.walkers[j]? = s.shared.walkers[j]? := by
  rcases step_spec rnd s i with ⟨_, e⟩ | ⟨p, hp, e⟩
  · rw [e]; exact ⟨h, fun _ _ => rfl⟩
  · have hi : i < s.threads.length := (List.getElem?_eq_some_iff.1 hp).1
    have hik : i < kws.length := by rw [← h.1]; exact hi
    have hb : kws[i]? = some kws[i] := List.getElem?_eq_getElem hik
    obtain ⟨f, v, ho, hv, hf⟩ := h.2 i kws[i] p hb hp
    obtain ⟨g, v', a1, a2, a3, a4⟩ := access_own rnd kws[i] p s.shared f v ho hv
    rw [e]
    refine ⟨⟨by simp [h.1], ?_⟩, fun j hj => a4 j (by rintro rfl; exact hj (List.getElem_mem hik))⟩
    intro i' kw p' hk' hp'
    dsimp only at hp' ⊢
    by_cases hii : i' = i
    · subst hii
      rw [List.getElem?_set_self hi] at hp'
      cases hp'
      rw [hb] at hk'
      cases hk'
      exact ⟨g, v', a1, a2, a3.trans hf⟩
    · rw [List.getElem?_set_ne (Ne.symm hii)] at hp'
      obtain ⟨f', u, b1, b2, b3⟩ := h.2 i' kw p' hk' hp'
      refine ⟨f', u, b1, ?_, b3⟩
      have hne : kw ≠ kws[i] := by
        rintro rfl
        exact hii ((List.getElem?_inj (List.getElem?_eq_some_iff.1 hk').1 hd).1 (hk'.trans hb.symm))
      rw [a4 kw hne]
      exact b2

theorem settled_run (rnd : ℕ → R) (kws : List ℕ) (hd : kws.Nodup) (res : ℕ → W) (schedule : List ℕ) :
    ∀ s : State W R, Settled kws res s → Settled kws res (run rnd s schedule) ∧
      ∀ j, j ∉ kws → (run rnd s schedule).shared.walkers[j]? = s.shared.walkers[j]? := by
  induction schedule with
  | nil => intro s h; exact ⟨h, fun _ _ => rfl⟩
  | cons i l ih =>
      intro s h
      obtain ⟨a, b⟩ := settled_step rnd kws hd res s h i
      obtain ⟨c, d⟩ := ih _ a
      exact ⟨c, fun j hj => (d j hj).trans (b j hj)⟩

/-- C108, the same for every schedule (partial): as long as the engines do not use the generator that all
threads have in common, the walkers are the same after every schedule in which all threads end, whatever the
numbers are. What is missing: the engines do use that generator, see the counterexample. -/
theorem C108_same_partial (logL : W → ℤ) (maxmoves : ℕ) (low : ℤ) (jobs : List (ℕ × List (List (Eng W R))))
    (rnd rnd' : ℕ → R) (sh : Shared W) (hk : ∀ j ∈ jobs, j.1 < sh.walkers.length)
    (hd : (jobs.map Prod.fst).Nodup) (he : ∀ j ∈ jobs, ∀ es ∈ j.2, ∀ e ∈ es, Fixed e) (sc sc' : List ℕ)
    (h : (run rnd (start logL false maxmoves low jobs sh) sc).ended = true)
    (h' : (run rnd' (start logL false maxmoves low jobs sh) sc').ended = true) :
    (run rnd (start logL false maxmoves low jobs sh) sc).shared.walkers =
      (run rnd' (start logL false maxmoves low jobs sh) sc').shared.walkers := by
  have hf : ∀ i : ℕ, ∀ hi : i < jobs.length,
      ∃ f, Own jobs[i].1 (exploreWalker logL false jobs[i].1 maxmoves low jobs[i].2) f :=
    fun i hi => own_explore logL _ maxmoves low _ (he _ (List.getElem_mem hi))
  choose f hf using hf
  classical
  rcases Nat.eq_zero_or_pos jobs.length with hz | hpos
  · have hj : jobs = [] := List.length_eq_zero_iff.1 hz
    subst hj
    have st : ∀ (rnd : ℕ → R) (sc : List ℕ),
        run rnd (start logL false maxmoves low ([] : List (ℕ × List (List (Eng W R)))) sh) sc
          = start logL false maxmoves low [] sh := by
      intro rnd sc
      induction sc with
      | nil => rfl
      | cons i l ih => exact ih
    rw [st, st]
  · have w0 : W := sh.walkers[jobs[0].1]'(hk _ (List.getElem_mem hpos))
    let res : ℕ → W := fun i =>
      if hi : i < jobs.length then f i hi (sh.walkers[jobs[i].1]'(hk _ (List.getElem_mem hi))) else w0
    have hs : Settled (jobs.map Prod.fst) res (start logL false maxmoves low jobs sh) := by
      refine ⟨by simp [start], fun i kw p hkw hp => ?_⟩
      have hi : i < jobs.length := by
        have := (List.getElem?_eq_some_iff.1 hkw).1
        simpa using this
      have e1 : kw = jobs[i].1 := by
        simpa [List.getElem?_map, List.getElem?_eq_getElem hi] using hkw.symm
      have e2 : p = exploreWalker logL false jobs[i].1 maxmoves low jobs[i].2 := by
        simpa [start, List.getElem?_map, List.getElem?_eq_getElem hi] using hp.symm
      subst e1 e2
      refine ⟨f i hi, _, hf i hi, List.getElem?_eq_getElem (hk _ (List.getElem_mem hi)), ?_⟩
      simp only [res, dif_pos hi]
    have fin : ∀ (rnd : ℕ → R) (sc : List ℕ),
        (run rnd (start logL false maxmoves low jobs sh) sc).ended = true → ∀ j : ℕ,
        (run rnd (start logL false maxmoves low jobs sh) sc).shared.walkers[j]? =
          if j ∈ jobs.map Prod.fst then some (res ((jobs.map Prod.fst).idxOf j)) else sh.walkers[j]? := by
      intro rnd sc hend j
      obtain ⟨a, b⟩ := settled_run rnd _ hd res sc _ hs
      by_cases hj : j ∈ jobs.map Prod.fst
      · rw [if_pos hj]
        have hi := List.idxOf_lt_length_of_mem hj
        have hg : (jobs.map Prod.fst)[(jobs.map Prod.fst).idxOf j]? = some j := by
          rw [List.getElem?_eq_getElem hi, List.getElem_idxOf]
        have hit : (jobs.map Prod.fst).idxOf j
            < (run rnd (start logL false maxmoves low jobs sh) sc).threads.length := by rw [a.1]; exact hi
        obtain ⟨g, v, c1, c2, c3⟩ := a.2 _ j _ hg (List.getElem?_eq_getElem hit)
        have hen := List.all_eq_true.1 hend _ (List.getElem_mem hit)
        rw [c2, ← c3]
        revert hen c1
        generalize (run rnd (start logL false maxmoves low jobs sh) sc).threads[(jobs.map Prod.fst).idxOf j] = p
        intro c1 hen
        cases p with
        | done => rw [c1 v]
        | fail => rw [c1 v]
        | _ => simp [Prog.ended] at hen
      · rw [if_neg hj]
        exact b j hj
    apply List.ext_getElem?
    intro j
    rw [fin rnd sc h j, fin rnd' sc' h' j]

/-! ## The check at the end -/

/-- With `v` as its own walker, the thread ends well only when its walker is not below the level. -/
def Checked (logL : W → ℤ) (low : ℤ) (kw : ℕ) : Prog W R → W → Prop
  | .done, v => low ≤ logL v
  | .fail, _ => True
  | .draw k, v => ∀ r, Checked logL low kw (k r) v
  | .read i k, v => i = kw ∧ Checked logL low kw (k (some v)) v
  | .len _, _ => False
  | .put i w k, _ => i = kw ∧ Checked logL low kw k w
  | .load k, v => ∀ l, Checked logL low kw (k l) v
  | .save _ k, v => Checked logL low kw k v

theorem checked_execute (logL : W → ℤ) (low : ℤ) (kw : ℕ) (e : Eng W R) (k : ℕ → Prog W R)
    (hk : ∀ m v, Checked logL low kw (k m) v) (v : W) :
    Checked logL low kw (execute logL false kw e k) v := by
  refine ⟨rfl, fun r => ?_⟩
  dsimp only
  cases h : e v r with
  | none => exact hk 0 v
  | some w => exact ⟨rfl, fun l => hk 1 w⟩

theorem checked_round (logL : W → ℤ) (low : ℤ) (kw : ℕ) (es : List (Eng W R)) :
    ∀ (moves : ℕ) (k : ℕ → Prog W R), (∀ m v, Checked logL low kw (k m) v) → ∀ v,
      Checked logL low kw (round logL false kw es moves k) v := by
  induction es with
  | nil => intro moves k hk v; exact hk moves v
  | cons e es ih =>
      intro moves k hk v
      exact checked_execute logL low kw e _ (fun m v => ih _ _ hk v) v

theorem checked_trials (logL : W → ℤ) (low : ℤ) (kw maxmoves : ℕ) (ts : List (List (Eng W R))) :
    ∀ (moves : ℕ) (k : Prog W R), (∀ v, Checked logL low kw k v) → ∀ v,
      Checked logL low kw (trials logL false kw maxmoves ts moves k) v := by
  induction ts with
  | nil => intro moves k hk v; exact hk v
  | cons es ts ih =>
      intro moves k hk v
      unfold trials
      split
      · exact checked_round logL low kw es _ _ (fun m v => ih m k hk v) v
      · exact hk v

theorem checked_explore (logL : W → ℤ) (low : ℤ) (kw maxmoves : ℕ) (ts : List (List (Eng W R))) (v : W) :
    Checked logL low kw (exploreWalker logL false kw maxmoves low ts) v := by
  refine checked_trials logL low kw maxmoves ts 0 _ ?_ v
  intro v
  refine ⟨rfl, ?_⟩
  dsimp only
  split
  · trivial
  · rename_i h; exact not_lt.1 h

theorem access_checked (rnd : ℕ → R) (logL : W → ℤ) (low : ℤ) (kw : ℕ) (p : Prog W R) (s : Shared W) (v : W)
    (h : Checked logL low kw p v) (hv : s.walkers[kw]? = some v) :
    ∃ v', Checked logL low kw (access rnd p s).1 v' ∧ (access rnd p s).2.walkers[kw]? = some v' ∧
      ∀ j, j ≠ kw → (access rnd p s).2.walkers[j]? = s.walkers[j]? := by
  have hkw : kw < s.walkers.length := (List.getElem?_eq_some_iff.1 hv).1
  cases p with
  | done => exact ⟨v, h, hv, fun _ _ => rfl⟩
  | fail => exact ⟨v, h, hv, fun _ _ => rfl⟩
  | draw k => exact ⟨v, h _, hv, fun _ _ => rfl⟩
  | read i k =>
      obtain ⟨rfl, h⟩ := h
      refine ⟨v, ?_, hv, fun _ _ => rfl⟩
      simp only [access, hv]
      exact h
  | len k => exact h.elim
  | load k => exact ⟨v, h _, hv, fun _ _ => rfl⟩
  | save l k => exact ⟨v, h, hv, fun _ _ => rfl⟩
  | put i w k =>
      obtain ⟨rfl, h⟩ := h
      have e : setWalker s.walkers i w = s.walkers.set i w := by unfold setWalker; rw [if_pos hkw]
      refine ⟨w, h, ?_, fun j hj => ?_⟩
      · simp only [access, e]
        exact List.getElem?_set_self hkw
      · simp only [access, e]
        exact List.getElem?_set_ne (Ne.symm hj)

/-- C108, the check: whatever the engines make, whatever the schedule, at every moment the walker of a thread
that has ended without an error is not below the level. -/
theorem C108_checked (logL : W → ℤ) (maxmoves : ℕ) (low : ℤ) (jobs : List (ℕ × List (List (Eng W R))))
    (rnd : ℕ → R) (sh : Shared W) (hk : ∀ j ∈ jobs, j.1 < sh.walkers.length)
    (hd : (jobs.map Prod.fst).Nodup) (sc : List ℕ) (i : ℕ) (b : ℕ × List (List (Eng W R)))
    (hb : jobs[i]? = some b) :
    let s := run rnd (start logL false maxmoves low jobs sh) sc
    s.threads[i]? = some .done → ∃ v, s.shared.walkers[b.1]? = some v ∧ low ≤ logL v := by
  have key : ∀ (sc : List ℕ) (s : State W R),
      (∀ (i : ℕ) (b : ℕ × List (List (Eng W R))) (p : Prog W R), jobs[i]? = some b → s.threads[i]? = some p →
        ∃ v, Checked logL low b.1 p v ∧ s.shared.walkers[b.1]? = some v) → s.threads.length = jobs.length →
      (∀ (i : ℕ) (b : ℕ × List (List (Eng W R))) (p : Prog W R), jobs[i]? = some b →
        (run rnd s sc).threads[i]? = some p →
        ∃ v, Checked logL low b.1 p v ∧ (run rnd s sc).shared.walkers[b.1]? = some v) := by
    intro sc
    induction sc with
    | nil => intro s h _; exact h
    | cons i l ih =>
        intro s h hl
        show ∀ (i' : ℕ) (b : ℕ × List (List (Eng W R))) (p : Prog W R), jobs[i']? = some b →
          (run rnd (step rnd s i) l).threads[i']? = some p →
          ∃ v, Checked logL low b.1 p v ∧ (run rnd (step rnd s i) l).shared.walkers[b.1]? = some v
        rcases step_spec rnd s i with ⟨_, e⟩ | ⟨p, hp, e⟩
        · rw [e]; exact ih s h hl
        · have hi : i < s.threads.length := (List.getElem?_eq_some_iff.1 hp).1
          have hij : i < jobs.length := by rw [← hl]; exact hi
          have hbi : jobs[i]? = some jobs[i] := List.getElem?_eq_getElem hij
          obtain ⟨v, c1, c2⟩ := h i _ p hbi hp
          obtain ⟨v', a1, a2, a3⟩ := access_checked rnd logL low _ p s.shared v c1 c2
          rw [e]
          refine ih _ ?_ (by simp [hl])
          intro i' b' p' hb' hp'
          dsimp only at hp' ⊢
          by_cases hii : i' = i
          · subst hii
            rw [List.getElem?_set_self hi] at hp'
            cases hp'
            rw [hbi] at hb'
            cases hb'
            exact ⟨v', a1, a2⟩
          · rw [List.getElem?_set_ne (Ne.symm hii)] at hp'
            obtain ⟨u, d1, d2⟩ := h i' b' p' hb' hp'
            refine ⟨u, d1, ?_⟩
            have hne : b'.1 ≠ jobs[i].1 := by
              intro he
              have h1 : (jobs.map Prod.fst)[i']? = (jobs.map Prod.fst)[i]? := by
                simp [List.getElem?_map, hb', he, List.getElem?_eq_getElem hij]
              have hi' : i' < (jobs.map Prod.fst).length := by
                simpa using (List.getElem?_eq_some_iff.1 hb').1
              exact hii ((List.getElem?_inj hi' hd).1 h1)
            rw [a3 _ hne]
            exact d2
  intro s hs
  obtain ⟨v, h1, h2⟩ := key sc (start logL false maxmoves low jobs sh) (by
    intro i b p hb hp
    have hlt := hk b (List.mem_of_getElem? hb)
    refine ⟨sh.walkers[b.1], ?_, List.getElem?_eq_getElem hlt⟩
    simp only [start, List.getElem?_map, hb, Option.map_some, Option.some.injEq] at hp
    rw [← hp]
    exact checked_explore logL low b.1 maxmoves b.2 _) (by simp [start]) i b .done hb hs
  exact ⟨v, h2, h1⟩

/-! ## Cases -/

/-- An engine that moves up by the number drawn. -/
def up : Eng ℤ ℤ := fun v r => some (v + r)

/-- An engine that moves up by one. -/
def one : Eng ℤ ℤ := fun v _ => some (v + 1)

def two : Shared ℤ := ⟨[10, 20, 30], [1], 0⟩

/-- Two walkers of three, each explored with one engine. -/
def jobsUp : List (ℕ × List (List (Eng ℤ ℤ))) := [(0, [[up]]), (2, [[up]])]

def jobsOne : List (ℕ × List (List (Eng ℤ ℤ))) := [(0, [[one]]), (2, [[one]])]

def numbers : ℕ → ℤ := fun n => n + 5

/-- The hypotheses of C108_walkers and C108_own hold for jobs that move walkers that are not below the level. -/
example : (∀ j ∈ [((1 : ℕ), [[(fun v _ => if 15 ≤ v then some (v + 1) else none : Eng ℤ ℤ)]])],
      j.1 < two.walkers.length) ∧
    AtLeast id 15 [((1 : ℕ), [[(fun v _ => if 15 ≤ v then some (v + 1) else none : Eng ℤ ℤ)]])] := by
  refine ⟨by simp [two], ?_⟩
  intro j hj es hes e he v r w hw
  simp only [List.mem_singleton] at hj
  subst hj
  simp only [List.mem_singleton] at hes
  subst hes
  simp only [List.mem_singleton] at he
  subst he
  dsimp only at hw
  split at hw
  · cases hw; simp only [id]; omega
  · cases hw

/-- The hypotheses of C108_same_partial. -/
example : (∀ j ∈ jobsOne, j.1 < two.walkers.length) ∧ (jobsOne.map Prod.fst).Nodup ∧
    (∀ j ∈ jobsOne, ∀ es ∈ j.2, ∀ e ∈ es, Fixed e) ∧
    (run numbers (start id false 5 0 jobsOne two) [0, 1, 0, 1, 0, 1, 0, 1, 0, 1, 0, 1]).ended = true := by
  refine ⟨by simp [jobsOne, two], by simp [jobsOne], ?_, by decide⟩
  intro j hj es hes e he
  have h1 : e = one := by
    simp only [jobsOne, List.mem_cons, List.not_mem_nil, or_false] at hj
    rcases hj with rfl | rfl <;> simpa [List.mem_singleton.1 hes] using he
  subst h1
  exact ⟨fun v => some (v + 1), fun _ _ => rfl⟩

/-- A thread that ends well, and one that fails, for C108_checked. -/
example : (run numbers (start id false 5 20 jobsUp two) [0, 0, 0, 0, 0, 0, 1, 1, 1, 1, 1, 1]).threads.map
    (fun p => match p with
      | .done => 0
      | .fail => 1
      | _ => 2) = [1, 0] := by decide

/-- The order of the phantoms: the hypothesis of C108_phantoms. -/
example : two.phantoms.Pairwise fun a b => id a ≤ id b := by simp [two]

/-- C108, counterexample: a phantom is lost. Both threads take the list of phantoms before either of them has
put its new list in place; the phantom of the first is overwritten. Without threads it is kept
(C108_in_turn). -/
theorem C108_counterexample_lost :
    ∃ sc : List ℕ,
      let s := run numbers (start id false 5 0 jobsUp two) sc
      s.ended = true ∧ s.shared.walkers = [15, 20, 36] ∧ s.shared.phantoms = [1, 15] ∧
      (inTurn numbers (start id false 5 0 jobsUp two).threads two).phantoms = [1, 15, 36] :=
  ⟨[0, 0, 0, 0, 1, 1, 1, 1, 1, 0, 0, 1], by decide⟩

/-- C108, counterexample: the result of a run is not settled by the seed. All threads draw from the one
generator of the engines (their own generator only sets the order of the engines), so the schedule decides
which thread gets which number. -/
theorem C108_counterexample_seed :
    ∃ sc sc' : List ℕ,
      let s := run numbers (start id false 5 0 jobsUp two) sc
      let s' := run numbers (start id false 5 0 jobsUp two) sc'
      s.ended = true ∧ s'.ended = true ∧ s.shared.walkers = [15, 20, 36] ∧ s'.shared.walkers = [16, 20, 35] :=
  ⟨[0, 0, 0, 0, 0, 0, 1, 1, 1, 1, 1, 1], [1, 1, 1, 1, 1, 1, 0, 0, 0, 0, 0, 0], by decide⟩

/-- C108, counterexample: a new walker is lost when the explorer appends walkers and gets more than one to
explore. Both threads take the same length of the list, so the second overwrites the walker of the first.
Without threads both are there. The PhantomSampler, which appends, gives one walker at a time; it is safe
(C108_single) as long as it does so. -/
theorem C108_counterexample_append :
    ∃ sc : List ℕ,
      let s := run numbers (start id true 5 0 jobsUp two) sc
      s.ended = true ∧ s.shared.walkers = [10, 20, 30, 36] ∧
      (inTurn numbers (start id true 5 0 jobsUp two).threads two).walkers = [10, 20, 30, 15, 36] :=
  ⟨[0, 0, 0, 1, 1, 1, 0, 0, 0, 1, 1, 1, 0, 0, 1, 1], by decide⟩

/-- The hypothesis of C108_single. -/
example : (run numbers ⟨[exploreWalker id true 1 5 0 [[up]]], two⟩ [0, 0, 0, 0, 0, 0, 0, 0]).ended = true := by
  decide

/-! ## Errors -/

/-- Successive calls: the list of errors stays, one result per call. -/
def calls : List String → List (List Bool) → List Bool
  | _, [] => []
  | errors, f :: fs => (joinAll errors f).2 :: calls (joinAll errors f).1 fs

/-- C108, errors: a call raises exactly when a thread of this call or of an earlier one has failed. -/
theorem C108_errors (cs : List (List Bool)) (i : ℕ) (hi : i < cs.length) :
    ∃ b, (calls [] cs)[i]? = some b ∧ (b = true ↔ ∃ f ∈ cs.take (i + 1), true ∈ f) := by
  have pos : ∀ (errors : List String) (f : List Bool),
      (joinAll errors f).2 = decide (errors ≠ [] ∨ true ∈ f) ∧
      ((joinAll errors f).1 ≠ [] ↔ errors ≠ [] ∨ true ∈ f) := by
    intro errors f
    have e : (joinAll errors f).1 ≠ [] ↔ errors ≠ [] ∨ true ∈ f := by
      simp only [joinAll, ne_eq, List.append_eq_nil_iff, List.map_eq_nil_iff, List.filter_eq_nil_iff]
      constructor
      · intro h
        by_contra hc
        push Not at hc
        exact h ⟨hc.1, fun a ha h' => hc.2 (by have h'' : a = true := h'; exact h'' ▸ ha)⟩
      · rintro (h | h) ⟨h1, h2⟩
        · exact h h1
        · exact h2 true h rfl
    refine ⟨?_, e⟩
    rw [Bool.eq_iff_iff, decide_eq_true_iff, ← e]
    simp only [joinAll, decide_eq_true_eq, gt_iff_lt, List.length_pos_iff]
  have key : ∀ (cs : List (List Bool)) (errors : List String) (i : ℕ), i < cs.length →
      ∃ b, (calls errors cs)[i]? = some b ∧
        (b = true ↔ errors ≠ [] ∨ ∃ f ∈ cs.take (i + 1), true ∈ f) := by
    intro cs
    induction cs with
    | nil => intro errors i hi; simp at hi
    | cons f fs ih =>
        intro errors i hi
        cases i with
        | zero => exact ⟨_, rfl, by rw [(pos errors f).1, decide_eq_true_iff]; simp⟩
        | succ i =>
            obtain ⟨b, h1, h2⟩ := ih (joinAll errors f).1 i (by simpa using hi)
            refine ⟨b, h1, ?_⟩
            rw [h2, (pos errors f).2]
            simp [or_assoc]
  simpa using key cs [] i hi

/-- C108, counterexample: after one failure all later calls raise, also when none of their threads fails: the
list of errors is never emptied (it belongs to the module, so that this holds for other samplers too). -/
theorem C108_counterexample_errors :
    calls [] [[false, false], [false, true], [false, false], [false]] = [false, true, true, true] := by
  decide

/-! ## Engines of the threads -/

/-- C108, counters: after all threads have been joined, the counts of success, reject, failure and best are
those of before and of all threads together. -/
theorem C108_reports (e : Engine) (cs : List Engine) (he : e.report.length = 5)
    (hc : ∀ c ∈ cs, c.report.length = 5) (i : ℕ) (hi : i < 4) :
    (cs.foldl Engine.joined e).report[i]? =
      some (e.report.getD i 0 + (cs.map fun c => c.report.getD i 0).sum) ∧
    (cs.foldl Engine.joined e).report.length = 5 := by
  induction cs generalizing e with
  | nil =>
      have : i < e.report.length := by omega
      simp [List.getD, List.getElem?_eq_getElem this, he]
  | cons c cs ih =>
      have hcl := hc c (by simp)
      have hj : (e.joined c).report.length = 5 := by simp [Engine.joined, he, hcl]
      have hg : (e.joined c).report.getD i 0 = e.report.getD i 0 + c.report.getD i 0 := by
        have h1 : i < e.report.length := by omega
        have h2 : i < c.report.length := by omega
        have h3 : i < (List.zipWith (· + ·) (e.report.take 4) (c.report.take 4)).length := by
          simp [he, hcl]; omega
        simp only [Engine.joined, List.getD]
        rw [List.getElem?_append_left h3]
        simp [List.getElem?_zipWith, List.getElem?_take, hi, List.getElem?_eq_getElem h1,
          List.getElem?_eq_getElem h2]
      obtain ⟨a, b⟩ := ih (e.joined c) hj fun x hx => hc x (by simp [hx])
      refine ⟨?_, b⟩
      rw [List.foldl_cons, a, hg, List.map_cons, List.sum_cons, Nat.add_assoc]

example : (Engine.mk [1, 2, 3, 4, 10] false).report.length = 5 := rfl

/-- C108, counterexample: with threads the number of calls of an engine is not counted; in its place come the
successes, rejects and failures together. Here one call which was rejected twice before it succeeded counts
for three. -/
theorem C108_counterexample_calls :
    (Engine.joined ⟨[0, 0, 0, 0, 0], false⟩ ⟨[1, 2, 0, 0, 1], false⟩).report = [1, 2, 0, 0, 3] := by
  decide

/-- C108, counterexample: the boost of the best walker that the user has asked for does not reach the
threads: the engines of a thread are copies, and a copy starts without. -/
theorem C108_counterexample_boost (e : Engine) : (e.copy).boost = false := rfl

end Threads
