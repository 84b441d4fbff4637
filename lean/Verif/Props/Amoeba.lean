import Verif.Amoeba

/-!
# C63, C64, C65: the simplex minimiser
-/

namespace Verif.Amoeba

variable {α : Type} [Field α] [LinearOrder α]

/-! ## Finding the lowest and the highest corner -/

/-- The lowest, the highest and the next highest of the values `y 0 … y m`. -/
def IsRank (y : ℕ → α) (m : ℕ) (r : Rank α) : Prop :=
  r.ilo ≤ m ∧ r.ihi ≤ m ∧ r.ylo = y r.ilo ∧ r.yhi = y r.ihi ∧
  (∀ i ≤ m, r.ylo ≤ y i ∧ y i ≤ r.yhi) ∧
  (∀ i ≤ m, i ≠ r.ihi → y i ≤ r.ynhi) ∧
  ∃ i ≤ m, i ≠ r.ihi ∧ r.ynhi = y i

theorem isRank_two (y : ℕ → α) : IsRank y 1 (rank0 (y 0) (y 1)) := by
  unfold rank0
  by_cases h : y 0 > y 1
  · rw [if_pos h]
    refine ⟨le_refl _, by simp, rfl, rfl, ?_, ?_, 1, le_refl _, by simp, rfl⟩
    · intro i hi
      have : i = 0 ∨ i = 1 := by omega
      rcases this with rfl | rfl
      · exact ⟨h.le, le_refl _⟩
      · exact ⟨le_refl _, h.le⟩
    · intro i hi h0
      have : i = 1 := by simp only at h0; omega
      subst this; exact le_refl _
  · rw [if_neg h]
    have h := not_lt.1 h
    refine ⟨by simp, le_refl _, rfl, rfl, ?_, ?_, 0, by simp, by simp, rfl⟩
    · intro i hi
      have : i = 0 ∨ i = 1 := by omega
      rcases this with rfl | rfl
      · exact ⟨le_refl _, h⟩
      · exact ⟨h, le_refl _⟩
    · intro i hi h0
      have : i = 0 := by simp only at h0; omega
      subst this; exact le_refl _

theorem isRank_step (y : ℕ → α) (m : ℕ) (r : Rank α) (h : IsRank y m r) :
    IsRank y (m + 1) (rankStep y r (m + 1)) := by
  obtain ⟨h1, h2, h3, h4, h5, h6, j, hj, hj', hj2⟩ := h
  have hny : r.ynhi ≤ r.yhi := by rw [hj2]; exact (h5 j hj).2
  have hlh : r.ylo ≤ r.yhi := le_trans (h5 0 (by omega)).1 (h5 0 (by omega)).2
  have key : ∀ r' : Rank α, r'.ilo ≤ m + 1 → r'.ylo = y r'.ilo →
      (∀ i ≤ m + 1, r'.ylo ≤ y i) → r'.yhi = r.yhi → r'.ihi = r.ihi → r'.ynhi = r.ynhi →
      IsRank y (m + 1) (if y (m + 1) > r'.yhi then { r' with
        ynhi := r'.yhi
        ihi := m + 1
        yhi := y (m + 1) }
        else if y (m + 1) > r'.ynhi then { r' with ynhi := y (m + 1) } else r') := by
    rintro ⟨ilo, ihi, ylo, ynhi, yhi⟩ a1 a2 a3 a4 a5 a6
    dsimp only at a1 a2 a3 a4 a5 a6 ⊢
    subst a4 a5 a6
    by_cases g : y (m + 1) > r.yhi
    · rw [if_pos g]
      refine ⟨a1, le_refl _, a2, rfl, ?_, ?_, r.ihi, by omega, by dsimp only; omega, h4⟩
      · intro i hi
        refine ⟨a3 i hi, ?_⟩
        rcases Nat.lt_or_ge m i with h | h
        · have : i = m + 1 := by omega
          subst this; exact le_refl _
        · exact le_trans (h5 i h).2 g.le
      · intro i hi hne
        exact (h5 i (by dsimp only at hne; omega)).2
    · rw [if_neg g]
      have g := not_lt.1 g
      by_cases g2 : y (m + 1) > r.ynhi
      · rw [if_pos g2]
        refine ⟨a1, by dsimp only; omega, a2, h4, ?_, ?_, m + 1, le_refl _, by dsimp only; omega, rfl⟩
        · intro i hi
          refine ⟨a3 i hi, ?_⟩
          rcases Nat.lt_or_ge m i with h | h
          · have : i = m + 1 := by omega
            subst this; exact g
          · exact (h5 i h).2
        · intro i hi hne
          rcases Nat.lt_or_ge m i with h | h
          · have : i = m + 1 := by omega
            subst this; exact le_refl _
          · exact le_trans (h6 i h hne) g2.le
      · rw [if_neg g2]
        have g2 := not_lt.1 g2
        refine ⟨a1, by dsimp only; omega, a2, h4, ?_, ?_, j, by omega, hj', hj2⟩
        · intro i hi
          refine ⟨a3 i hi, ?_⟩
          rcases Nat.lt_or_ge m i with h | h
          · have : i = m + 1 := by omega
            subst this; exact g
          · exact (h5 i h).2
        · intro i hi hne
          rcases Nat.lt_or_ge m i with h | h
          · have : i = m + 1 := by omega
            subst this; exact g2
          · exact h6 i h hne
  unfold rankStep
  dsimp only
  by_cases g : y (m + 1) ≤ r.ylo
  · rw [if_pos g]
    refine key _ (le_refl _) rfl ?_ rfl rfl rfl
    intro i hi
    rcases Nat.lt_or_ge m i with h | h
    · have : i = m + 1 := by omega
      subst this; exact le_refl _
    · exact le_trans g (h5 i h).1
  · rw [if_neg g]
    refine key _ (by omega) h3 ?_ rfl rfl rfl
    intro i hi
    rcases Nat.lt_or_ge m i with h | h
    · have : i = m + 1 := by omega
      subst this; exact (not_le.1 g).le
    · exact (h5 i h).1

theorem isRank_rank (c : Conf α) (s : St α) (hn : 1 ≤ c.n) :
    IsRank (noisy c s) c.n (rank c s) := by
  obtain ⟨m, hm⟩ : ∃ m, c.n = m + 1 := ⟨c.n - 1, by omega⟩
  unfold rank
  rw [hm, Nat.add_sub_cancel]
  clear hm
  induction m with
  | zero => simpa using isRank_two (noisy c s)
  | succ m ih =>
    rw [List.range'_concat, List.foldl_append]
    simp only [List.foldl_cons, List.foldl_nil, one_mul]
    have := isRank_step (noisy c s) (m + 1) _ ih
    rw [show 2 + m = m + 1 + 1 by omega]
    exact this

/-! ## Something that every step keeps is kept by a whole minimisation -/

/-- What the minimiser does to its state between two looks at the clock. -/
structure Kept (c : Conf α) (P : St α → Prop) : Prop where
  sum : ∀ s, P s → P { s with sum := total c.n s.simplex }
  temp : ∀ s : St α, P s →
    P { s with temp := if 0 < s.temp then s.temp * c.cooling else s.temp }
  step : ∀ s, P s → P (step c s).1

theorem tempLoop_kept {c : Conf α} {P : St α → Prop} (hP : Kept c P) (maxit fuel : ℕ) :
    ∀ (s : St α) (t : ℕ) (q : St α × ℕ), P s → tempLoop c maxit fuel s t = some q → P q.1 := by
  induction fuel with
  | zero => intro s t q _ h; simp [tempLoop] at h
  | succ fuel ih =>
    intro s t q hs h
    unfold tempLoop at h
    by_cases h1 : s.iter < maxit
    · rw [if_pos h1] at h
      dsimp only at h
      by_cases h2 : (step c s).2.2 = true
      · rw [if_pos h2] at h
        obtain rfl := Option.some.inj h
        exact hP.step s hs
      · rw [if_neg h2] at h
        exact ih _ _ _ (hP.step s hs) h
    · rw [if_neg h1] at h
      obtain rfl := Option.some.inj h
      exact hs

theorem minLoop_kept {c : Conf α} {P : St α → Prop} (hP : Kept c P) (maxit fuel : ℕ) :
    ∀ (s : St α) (o : Out α), P s → minLoop c maxit fuel s = some o → P o.st := by
  induction fuel with
  | zero => intro s o _ h; simp [minLoop] at h
  | succ fuel ih =>
    intro s o hs h
    unfold minLoop at h
    by_cases h1 : s.iter < maxit
    · rw [if_pos h1] at h
      obtain ⟨q, hq, h⟩ := Option.bind_eq_some_iff.1 h
      have hq := hP.temp _ (tempLoop_kept hP _ _ _ _ _ (hP.sum s hs) hq)
      dsimp only at h
      by_cases h2 : q.2 = 0
      · rw [if_pos h2] at h
        obtain rfl := Option.some.inj h
        exact hq
      · rw [if_neg h2] at h
        exact ih _ _ hq h
    · rw [if_neg h1] at h
      obtain rfl := Option.some.inj h
      exact hs

theorem minLoop_done {c : Conf α} (maxit fuel : ℕ) :
    ∀ (s : St α) (x : ℕ → α) (s' : St α), minLoop c maxit fuel s = some (.done x s') →
      x = s'.best := by
  induction fuel with
  | zero => intro s x s' h; simp [minLoop] at h
  | succ fuel ih =>
    intro s x s' h
    unfold minLoop at h
    by_cases h1 : s.iter < maxit
    · rw [if_pos h1] at h
      obtain ⟨q, hq, h⟩ := Option.bind_eq_some_iff.1 h
      dsimp only at h
      by_cases h2 : q.2 = 0
      · rw [if_pos h2] at h
        have h := Option.some.inj h
        injection h with h3 h4
        rw [← h3, ← h4]
      · rw [if_neg h2] at h
        exact ih _ _ _ h
    · rw [if_neg h1] at h
      simp at h

/-! ## C63: the best value is the best of all the values that were computed -/

/-- `fopt` is the lowest of all values computed, and all values in the simplex were computed. -/
def Lowest (c : Conf α) (s : St α) : Prop :=
  (∀ p ∈ s.seen, s.fopt ≤ c.f p) ∧ (∃ p ∈ s.seen, s.fopt = c.f p) ∧
  ∀ i ≤ c.n, ∃ p ∈ s.seen, s.values i = c.f p

theorem lowest_values {c : Conf α} {s : St α} (h : Lowest c s) {i : ℕ} (hi : i ≤ c.n) :
    s.fopt ≤ s.values i := by
  obtain ⟨p, hp, hv⟩ := h.2.2 i hi
  rw [hv]; exact h.1 p hp

theorem lowest_trialStep {c : Conf α} {s : St α} (h : Lowest c s) (ihi : ℕ) (yhi factor : α) :
    Lowest c (trialStep c s ihi yhi factor).1 := by
  have h2 : ∀ s2 : St α, s2.values = s.values → s2.seen = trial c s ihi factor :: s.seen →
      (∀ p ∈ s2.seen, s2.fopt ≤ c.f p) → (∃ p ∈ s2.seen, s2.fopt = c.f p) →
      ∀ a b d, Lowest c (if c.f (trial c s ihi factor) - a < b then
        ({ s2 with
          k := s2.k + 2
          values := Function.update s2.values ihi (c.f (trial c s ihi factor))
          sum := d
          simplex := Function.update s2.simplex ihi (trial c s ihi factor) },
          c.f (trial c s ihi factor) - a)
        else ({ s2 with k := s2.k + 2 }, c.f (trial c s ihi factor) - a)).1 := by
    intro s2 e1 e2 e3 e4 a b d
    by_cases g : c.f (trial c s ihi factor) - a < b
    · rw [if_pos g]
      refine ⟨e3, e4, ?_⟩
      intro i hi
      dsimp only
      rw [Function.update_apply]
      by_cases hh : i = ihi
      · rw [if_pos hh]; exact ⟨_, by rw [e2]; exact List.mem_cons_self, rfl⟩
      · rw [if_neg hh, e1, e2]
        obtain ⟨p, hp, hv⟩ := h.2.2 i hi
        exact ⟨p, List.mem_cons_of_mem _ hp, hv⟩
    · rw [if_neg g]
      refine ⟨e3, e4, ?_⟩
      intro i hi
      dsimp only
      rw [e1, e2]
      obtain ⟨p, hp, hv⟩ := h.2.2 i hi
      exact ⟨p, List.mem_cons_of_mem _ hp, hv⟩
  unfold trialStep
  dsimp only
  by_cases g : c.f (trial c s ihi factor) < s.fopt
  · rw [if_pos g]
    refine h2 { s with
      seen := trial c s ihi factor :: s.seen
      fopt := c.f (trial c s ihi factor)
      xopt := .own (trial c s ihi factor) } rfl rfl ?_ ?_ _ _ _
    · intro p hp
      rcases List.mem_cons.1 hp with rfl | hp
      · exact le_refl _
      · exact le_trans g.le (h.1 p hp)
    · exact ⟨_, List.mem_cons_self, rfl⟩
  · rw [if_neg g]
    refine h2 { s with seen := trial c s ihi factor :: s.seen } rfl rfl ?_ ?_ _ _ _
    · intro p hp
      rcases List.mem_cons.1 hp with rfl | hp
      · exact not_lt.1 g
      · exact h.1 p hp
    · obtain ⟨p, hp, hv⟩ := h.2.1
      exact ⟨p, List.mem_cons_of_mem _ hp, hv⟩

theorem lowest_inflateValue {c : Conf α} {q : St α × α} (h : Lowest c q.1) (hq : q.1.fopt ≤ q.2)
    (i : ℕ) : Lowest c (inflateValue c q i).1 ∧
      (inflateValue c q i).1.fopt ≤ (inflateValue c q i).2 := by
  have hv : ∀ j ≤ c.n, ∃ p ∈ q.1.simplex i :: q.1.seen,
      Function.update q.1.values i (c.f (q.1.simplex i)) j = c.f p := by
    intro j hj
    rw [Function.update_apply]
    by_cases hh : j = i
    · rw [if_pos hh]; exact ⟨_, List.mem_cons_self, rfl⟩
    · rw [if_neg hh]
      obtain ⟨p, hp, hv⟩ := h.2.2 j hj
      exact ⟨p, List.mem_cons_of_mem _ hp, hv⟩
  have hs : ∀ a : α, a ≤ q.1.fopt → a ≤ c.f (q.1.simplex i) →
      ∀ p ∈ q.1.simplex i :: q.1.seen, a ≤ c.f p := by
    intro a h1 h2 p hp
    rcases List.mem_cons.1 hp with rfl | hp
    · exact h2
    · exact le_trans h1 (h.1 p hp)
  have he : ∃ p ∈ q.1.simplex i :: q.1.seen, q.1.fopt = c.f p := by
    obtain ⟨p, hp, hv⟩ := h.2.1
    exact ⟨p, List.mem_cons_of_mem _ hp, hv⟩
  unfold inflateValue
  dsimp only
  by_cases g : c.f (q.1.simplex i) < q.2
  · rw [if_pos g]
    by_cases g2 : c.f (q.1.simplex i) < q.1.fopt
    · rw [if_pos g2]
      exact ⟨⟨hs _ g2.le (le_refl _), ⟨_, List.mem_cons_self, rfl⟩, hv⟩, le_refl _⟩
    · rw [if_neg g2]
      exact ⟨⟨hs _ (le_refl _) (not_lt.1 g2), he, hv⟩, not_lt.1 g2⟩
  · rw [if_neg g]
    exact ⟨⟨hs _ (le_refl _) (le_trans hq (not_lt.1 g)), he, hv⟩, hq⟩

theorem lowest_fold {c : Conf α} (l : List ℕ) : ∀ {q : St α × α}, Lowest c q.1 → q.1.fopt ≤ q.2 →
    Lowest c (l.foldl (inflateValue c) q).1 := by
  induction l with
  | nil => intro q h _; exact h
  | cons i l ih =>
    intro q h hq
    have := lowest_inflateValue h hq i
    exact ih this.1 this.2

theorem lowest_inflate {c : Conf α} {s : St α} (h : Lowest c s) {ilo : ℕ} (hi : ilo ≤ c.n)
    (factor : α) : Lowest c (inflate c s ilo factor).1 := by
  unfold inflate
  have := @lowest_fold α _ _ c ((List.range (c.n + 1)).filter (· ≠ ilo))
    ({ s with simplex := inflated c s.simplex ilo factor }, s.values ilo) h (lowest_values h hi)
  exact this

theorem lowest_move {c : Conf α} {s : St α} (h : Lowest c s) (r : Rank α) (hi : r.ilo ≤ c.n) :
    Lowest c (move c s r).1 := by
  have ha := lowest_trialStep h r.ihi r.yhi (-1)
  unfold move
  dsimp only
  by_cases g1 : (trialStep c s r.ihi r.yhi (-1)).2 < r.ylo
  · rw [if_pos g1]; exact lowest_trialStep ha _ _ _
  · rw [if_neg g1]
    by_cases g2 : r.ynhi ≤ (trialStep c s r.ihi r.yhi (-1)).2
    · rw [if_pos g2]
      have hb := lowest_trialStep ha r.ihi r.yhi (1 / 2)
      by_cases g3 : r.yhi ≤
          (trialStep c (trialStep c s r.ihi r.yhi (-1)).1 r.ihi r.yhi (1 / 2)).2
      · rw [if_pos g3]; exact lowest_inflate hb hi _
      · rw [if_neg g3]; exact hb
    · rw [if_neg g2]; exact ha

theorem lowest_after {c : Conf α} {s : St α} (h : Lowest c s) (i : ℕ) :
    Lowest c (after c s i) := by
  unfold after
  cases c.callback <;> exact h

theorem lowest_swap {c : Conf α} {s : St α} (h : Lowest c s) {i : ℕ} (hi : i ≤ c.n) :
    Lowest c (swapBest s i) := by
  unfold swapBest
  by_cases g : 0 < i
  · rw [if_pos g]
    refine ⟨h.1, h.2.1, ?_⟩
    intro j hj
    dsimp only
    rw [Function.update_apply]
    by_cases h1 : j = i
    · rw [if_pos h1]; exact h.2.2 0 (by omega)
    · rw [if_neg h1, Function.update_apply]
      by_cases h2 : j = 0
      · rw [if_pos h2]; exact h.2.2 i hi
      · rw [if_neg h2]; exact h.2.2 j hj
  · rw [if_neg g]; exact h

theorem lowest_replace {c : Conf α} {s : St α} (h : Lowest c s) (i : ℕ) :
    Lowest c (replace s i) := by
  refine ⟨h.1, h.2.1, ?_⟩
  intro j hj
  unfold replace
  dsimp only
  rw [Function.update_apply]
  by_cases h1 : j = i
  · rw [if_pos h1]; exact h.2.1
  · rw [if_neg h1]; exact h.2.2 j hj

theorem lowest_step {c : Conf α} (hn : 1 ≤ c.n) {s : St α} (h : Lowest c s) :
    Lowest c (step c s).1 := by
  obtain ⟨h1, h2, -⟩ := isRank_rank c s hn
  have h' : Lowest c { s with k := s.k + (c.n + 1) } := h
  unfold step
  dsimp only
  by_cases g : stops c (rank c s) = true
  · rw [if_pos g]
    have hs := lowest_swap h' h1
    by_cases g1 : |(swapBest { s with k := s.k + (c.n + 1) } (rank c s).ilo).fopt -
        (rank c s).ylo| > tol c
    · rw [if_pos g1]; exact lowest_replace hs _
    · rw [if_neg g1]
      by_cases g2 : (swapBest { s with k := s.k + (c.n + 1) } (rank c s).ilo).iter = 0
      · rw [if_pos g2]; exact lowest_inflate hs h1 _
      · rw [if_neg g2]; exact hs
  · rw [if_neg g]
    exact lowest_after (lowest_move h' _ h1) _

theorem lowest_kept {c : Conf α} (hn : 1 ≤ c.n) : Kept c (Lowest c) :=
  ⟨fun _ h => h, fun _ h => h, fun _ h => lowest_step hn h⟩

/-- After `setValues` has done the corners `0 … m`. -/
theorem setValue_fold (c : Conf α) (s : St α) (hs : s.seen = []) (m : ℕ) :
    let q := (List.range (m + 1)).foldl (setValue c) s
    q.simplex = s.simplex ∧ q.iter = s.iter ∧ q.temp = s.temp ∧ q.k = s.k ∧
    (∀ i ≤ m, q.values i = c.f (s.simplex i)) ∧
    (∀ p, p ∈ q.seen ↔ ∃ i ≤ m, p = s.simplex i) ∧
    ∃ i ≤ m, q.xopt = .own (s.simplex i) ∧ q.fopt = c.f (s.simplex i) ∧
      ∀ j ≤ m, q.fopt ≤ c.f (s.simplex j) := by
  induction m with
  | zero =>
    intro q
    have hq : q = setValue c s 0 := rfl
    rw [hq]
    unfold setValue
    dsimp only
    rw [if_pos (Or.inl rfl)]
    refine ⟨rfl, rfl, rfl, rfl, ?_, ?_, 0, le_refl _, rfl, rfl, ?_⟩
    · intro i hi
      have : i = 0 := by omega
      subst this; simp
    · intro p; rw [hs]
      simp
    · intro j hj
      have : j = 0 := by omega
      subst this; exact le_refl _
  | succ m ih =>
    obtain ⟨e1, e2, e3, e4, e5, e6, i0, hi0, e7, e8, e9⟩ := ih
    intro q
    have hq : q = setValue c ((List.range (m + 1)).foldl (setValue c) s) (m + 1) := by
      simp only [q, List.range_succ (n := m + 1), List.foldl_append, List.foldl_cons,
        List.foldl_nil]
    rw [hq]
    generalize (List.range (m + 1)).foldl (setValue c) s = a at e1 e2 e3 e4 e5 e6 e7 e8 e9
    have hv : ∀ i ≤ m + 1, Function.update a.values (m + 1) (c.f (s.simplex (m + 1))) i =
        c.f (s.simplex i) := by
      intro i hi
      rw [Function.update_apply]
      by_cases h : i = m + 1
      · rw [if_pos h, h]
      · rw [if_neg h]; exact e5 i (by omega)
    have hm : ∀ p, p ∈ s.simplex (m + 1) :: a.seen ↔ ∃ i ≤ m + 1, p = s.simplex i := by
      intro p
      rw [List.mem_cons, e6]
      constructor
      · rintro (h | ⟨i, hi, h⟩)
        · exact ⟨m + 1, le_refl _, h⟩
        · exact ⟨i, by omega, h⟩
      · rintro ⟨i, hi, h⟩
        by_cases h' : i = m + 1
        · exact Or.inl (h' ▸ h)
        · exact Or.inr ⟨i, by omega, h⟩
    unfold setValue
    dsimp only
    rw [e1]
    by_cases g : m + 1 = 0 ∨ c.f (s.simplex (m + 1)) < a.fopt
    · rw [if_pos g]
      refine ⟨rfl, e2, e3, e4, hv, hm, m + 1, le_refl _, rfl, rfl, ?_⟩
      intro j hj
      have g : c.f (s.simplex (m + 1)) < a.fopt := g.resolve_left (by omega)
      by_cases h : j = m + 1
      · subst h; exact le_refl _
      · exact le_trans g.le (e9 j (by omega))
    · rw [if_neg g]
      refine ⟨rfl, e2, e3, e4, hv, hm, i0, by omega, e7, e8, ?_⟩
      intro j hj
      by_cases h : j = m + 1
      · subst h; exact not_lt.1 fun h => g (Or.inr h)
      · exact e9 j (by omega)

/-- What the constructor makes. -/
theorem init_spec {c : Conf α} {xini size : ℕ → α} {temp : α} {s : St α}
    (h : init c xini size temp = some s) :
    s.simplex = corners c xini size ∧ s.iter = 0 ∧ s.temp = temp ∧
    (c.abstol.isSome ∨ c.reltol.isSome) ∧
    (∀ i ≤ c.n, s.values i = c.f (s.simplex i)) ∧
    (∀ p, p ∈ s.seen ↔ ∃ i ≤ c.n, p = s.simplex i) ∧
    ∃ i ≤ c.n, s.xopt = .own (s.simplex i) ∧ s.fopt = c.f (s.simplex i) ∧
      ∀ j ≤ c.n, s.fopt ≤ c.f (s.simplex j) := by
  unfold init at h
  by_cases g : c.abstol.isNone = true ∧ c.reltol.isNone = true
  · rw [if_pos g] at h; simp at h
  · rw [if_neg g] at h
    dsimp only at h
    by_cases g2 : degenerate c.n (corners c xini size) = true
    · rw [if_pos g2] at h; simp at h
    · rw [if_neg g2] at h
      have h := Option.some.inj h
      have key := setValue_fold c ⟨corners c xini size, fun _ => 0, fun _ => 0,
        .own fun _ => 0, 0, 0, temp, 0, [], false⟩ rfl c.n
      dsimp only at key
      obtain ⟨e1, e2, e3, e4, e5, e6, e7⟩ := key
      have g3 : c.abstol.isSome ∨ c.reltol.isSome := by
        cases ha : c.abstol <;> cases hb : c.reltol <;> simp_all
      subst h
      dsimp only
      rw [e1]
      exact ⟨rfl, e2, e3, g3, e5, e6, e7⟩

theorem lowest_init {c : Conf α} {xini size : ℕ → α} {temp : α} {s : St α}
    (h : init c xini size temp = some s) : Lowest c s := by
  obtain ⟨-, -, -, -, h5, h6, i, hi, -, h8, h9⟩ := init_spec h
  refine ⟨?_, ⟨_, (h6 _).2 ⟨i, hi, rfl⟩, h8⟩, fun j hj => ⟨_, (h6 _).2 ⟨j, hj, rfl⟩, h5 j hj⟩⟩
  intro p hp
  obtain ⟨j, hj, rfl⟩ := (h6 p).1 hp
  exact h9 j hj

/-- **C63.**  Whatever the function, the start, the limits, the temperature, the random numbers and
the callback: when `minimize` ends, by returning or by an error, the best value `fopt` is the value
of the function at one of the points where the function has been computed, and none of the
points where it has been computed has a lower value. -/
theorem C63_best_value (c : Conf α) (hn : 1 ≤ c.n) (xini size : ℕ → α) (temp : α) (s : St α)
    (hs : init c xini size temp = some s) (fuel : ℕ) (o : Out α)
    (ho : minimize c fuel s = some o) :
    (∃ p ∈ o.st.seen, c.f p = o.st.fopt) ∧ ∀ p ∈ o.st.seen, o.st.fopt ≤ c.f p := by
  have := minLoop_kept (lowest_kept hn) _ _ _ _ (lowest_init hs) ho
  obtain ⟨p, hp, h⟩ := this.2.1
  exact ⟨⟨p, hp, h.symm⟩, this.1⟩

/-! ## C64: limits -/

section Field
variable [IsStrictOrderedRing α]

/-- A point that is within the limits. -/
def Inside (c : Conf α) (p : ℕ → α) : Prop :=
  ∀ k, (∀ l, c.lo k = some l → l ≤ p k) ∧ ∀ h, c.hi k = some h → p k ≤ h

/-- Low limits are below high limits. -/
def LimitsOk (c : Conf α) : Prop := ∀ k l h, c.lo k = some l → c.hi k = some h → l < h

theorem stay_inside {c : Conf α} {old : ℕ → α} (h : Inside c old) (p : ℕ → α) :
    Inside c (stay c old p) := by
  intro k
  obtain ⟨h1, h2⟩ := h k
  unfold stay
  cases hl : c.lo k <;> cases hh : c.hi k
  · simp
  · rename_i b
    have := h2 b hh
    refine ⟨by simp, ?_⟩
    intro h he
    obtain rfl := Option.some.inj he
    dsimp only
    by_cases g : p k > b
    · rw [if_pos g]; linarith
    · rw [if_neg g]; exact not_lt.1 g
  · rename_i a
    have := h1 a hl
    refine ⟨?_, by simp⟩
    intro h he
    obtain rfl := Option.some.inj he
    dsimp only
    by_cases g : a > p k
    · rw [if_pos g]; linarith
    · rw [if_neg g]; exact not_lt.1 g
  · rename_i a b
    have ha := h1 a hl
    have hb := h2 b hh
    dsimp only
    by_cases g : a > p k
    · rw [if_pos g]
      refine ⟨?_, ?_⟩ <;> intro h he <;> obtain rfl := Option.some.inj he <;> linarith
    · rw [if_neg g]
      have g := not_lt.1 g
      by_cases g2 : p k > b
      · rw [if_pos g2]
        refine ⟨?_, ?_⟩ <;> intro h he <;> obtain rfl := Option.some.inj he <;> linarith
      · rw [if_neg g2]
        have g2 := not_lt.1 g2
        refine ⟨?_, ?_⟩ <;> intro h he <;> obtain rfl := Option.some.inj he <;> assumption

theorem stay_self {c : Conf α} {p : ℕ → α} (h : Inside c p) (old : ℕ → α) : stay c old p = p := by
  funext k
  obtain ⟨h1, h2⟩ := h k
  unfold stay
  cases hl : c.lo k <;> cases hh : c.hi k
  · rfl
  · dsimp only; rw [if_neg (not_lt.2 (h2 _ hh))]
  · dsimp only; rw [if_neg (not_lt.2 (h1 _ hl))]
  · dsimp only; rw [if_neg (not_lt.2 (h1 _ hl)), if_neg (not_lt.2 (h2 _ hh))]

theorem startAt_inside {lo hi : Option α} (hlim : ∀ l h, lo = some l → hi = some h → l < h)
    (ir st : α) : (∀ l, lo = some l → l ≤ (startAt lo hi ir st).1) ∧
      ∀ h, hi = some h → (startAt lo hi ir st).1 ≤ h := by
  unfold startAt
  cases lo with
  | none =>
    cases hi with
    | none => simp
    | some b =>
      refine ⟨by simp, ?_⟩
      intro h he
      obtain rfl := Option.some.inj he
      dsimp only
      by_cases g : b ≤ ir
      · rw [if_pos g]; dsimp only; linarith
      · rw [if_neg g]; exact (not_le.1 g).le
  | some a =>
    cases hi with
    | none =>
      refine ⟨?_, by simp⟩
      intro h he
      obtain rfl := Option.some.inj he
      dsimp only
      by_cases g : ir ≤ a
      · rw [if_pos g]; dsimp only; linarith
      · rw [if_neg g]; exact (not_le.1 g).le
    | some b =>
      have hab := hlim a b rfl rfl
      have key : a ≤ (1 / 2 : α) * (b + a) ∧ (1 / 2 : α) * (b + a) ≤ b :=
        ⟨by linarith, by linarith⟩
      dsimp only
      by_cases g : b ≤ ir
      · rw [if_pos g]
        refine ⟨?_, ?_⟩ <;> intro h he <;> obtain rfl := Option.some.inj he
        · exact key.1
        · exact key.2
      · rw [if_neg g]
        by_cases g2 : ir ≤ a
        · rw [if_pos g2]
          refine ⟨?_, ?_⟩ <;> intro h he <;> obtain rfl := Option.some.inj he
          · exact key.1
          · exact key.2
        · rw [if_neg g2]
          refine ⟨?_, ?_⟩ <;> intro h he <;> obtain rfl := Option.some.inj he
          · exact (not_le.1 g2).le
          · exact (not_le.1 g).le

theorem corners_inside {c : Conf α} (hlim : LimitsOk c) (xini size : ℕ → α) (i : ℕ) :
    Inside c (corners c xini size i) := by
  unfold corners
  dsimp only
  apply stay_inside
  intro k
  exact startAt_inside (hlim k) _ _

/-- Corners, evaluated points and best point are within the limits. -/
def Box (c : Conf α) (s : St α) : Prop :=
  (∀ i ≤ c.n, Inside c (s.simplex i)) ∧ (∀ p ∈ s.seen, Inside c p) ∧
  match s.xopt with
  | .own p => Inside c p
  | .view i => i ≤ c.n

theorem box_best {c : Conf α} {s : St α} (h : Box c s) : Inside c s.best := by
  obtain ⟨h1, -, h3⟩ := h
  unfold St.best
  cases hx : s.xopt with
  | own p => rw [hx] at h3; exact h3
  | view i => rw [hx] at h3; exact h1 i h3

theorem inside_update {c : Conf α} {simplex : ℕ → ℕ → α}
    (h : ∀ i ≤ c.n, Inside c (simplex i)) (j : ℕ) {p : ℕ → α} (hp : Inside c p) :
    ∀ i ≤ c.n, Inside c (Function.update simplex j p i) := by
  intro i hi
  rw [Function.update_apply]
  by_cases g : i = j
  · rw [if_pos g]; exact hp
  · rw [if_neg g]; exact h i hi

theorem box_trialStep {c : Conf α} {s : St α} (h : Box c s) {ihi : ℕ} (hi : ihi ≤ c.n)
    (yhi factor : α) : Box c (trialStep c s ihi yhi factor).1 := by
  obtain ⟨h1, h2, h3⟩ := h
  have hp : Inside c (trial c s ihi factor) := stay_inside (h1 ihi hi) _
  have hs : ∀ p ∈ trial c s ihi factor :: s.seen, Inside c p := by
    intro p hm
    rcases List.mem_cons.1 hm with rfl | hm
    · exact hp
    · exact h2 p hm
  unfold trialStep
  dsimp only
  by_cases g1 : c.f (trial c s ihi factor) < s.fopt
  · simp only [if_pos g1]
    by_cases g2 : c.f (trial c s ihi factor) - s.temp * c.e s.k < yhi
    · simp only [if_pos g2]; exact ⟨inside_update h1 _ hp, hs, hp⟩
    · simp only [if_neg g2]; exact ⟨h1, hs, hp⟩
  · simp only [if_neg g1]
    by_cases g2 : c.f (trial c s ihi factor) - s.temp * c.e s.k < yhi
    · simp only [if_pos g2]; exact ⟨inside_update h1 _ hp, hs, h3⟩
    · simp only [if_neg g2]; exact ⟨h1, hs, h3⟩

theorem box_inflateValue {c : Conf α} {q : St α × α} (h : Box c q.1) {i : ℕ} (hi : i ≤ c.n) :
    Box c (inflateValue c q i).1 := by
  obtain ⟨h1, h2, h3⟩ := h
  have hs : ∀ p ∈ q.1.simplex i :: q.1.seen, Inside c p := by
    intro p hm
    rcases List.mem_cons.1 hm with rfl | hm
    · exact h1 i hi
    · exact h2 p hm
  unfold inflateValue
  dsimp only
  by_cases g : c.f (q.1.simplex i) < q.2
  · rw [if_pos g]
    by_cases g2 : c.f (q.1.simplex i) < q.1.fopt
    · rw [if_pos g2]; exact ⟨h1, hs, hi⟩
    · rw [if_neg g2]; exact ⟨h1, hs, h3⟩
  · rw [if_neg g]; exact ⟨h1, hs, h3⟩

theorem box_fold {c : Conf α} (l : List ℕ) (hl : ∀ i ∈ l, i ≤ c.n) : ∀ {q : St α × α},
    Box c q.1 → Box c (l.foldl (inflateValue c) q).1 := by
  induction l with
  | nil => intro q h; exact h
  | cons i l ih =>
    intro q h
    exact ih (fun j hj => hl j (List.mem_cons_of_mem _ hj))
      (box_inflateValue h (hl i List.mem_cons_self))

/-- Half way between two points that are within the limits. -/
theorem inside_half {c : Conf α} {p q : ℕ → α} (hp : Inside c p) (hq : Inside c q) :
    Inside c fun k => (1 / 2) * p k + (1 - 1 / 2) * q k := by
  intro k
  refine ⟨?_, ?_⟩
  · intro l hl
    have := (hp k).1 l hl
    have := (hq k).1 l hl
    linarith
  · intro l hl
    have := (hp k).2 l hl
    have := (hq k).2 l hl
    linarith

theorem mem_milo {n ilo i : ℕ} :
    i ∈ (List.range (n + 1)).filter (· ≠ ilo) ↔ i ≤ n ∧ i ≠ ilo := by
  simp [List.mem_filter, Nat.lt_succ_iff]

theorem inflated_half {c : Conf α} {simplex : ℕ → ℕ → α}
    (h : ∀ i ≤ c.n, Inside c (simplex i)) {ilo : ℕ} (hi : ilo ≤ c.n) {i : ℕ} (hin : i ≤ c.n) :
    inflated c simplex ilo (1 / 2) i = if i = ilo then simplex i
      else fun k => (1 / 2) * simplex i k + (1 - 1 / 2) * simplex ilo k := by
  unfold inflated
  dsimp only
  by_cases g : i = ilo
  · rw [if_pos g, if_pos g]
  · rw [if_neg g, if_neg g]
    exact stay_self (inside_half (h i hin) (h ilo hi)) _

theorem box_shrink {c : Conf α} {s : St α} (h : Box c s) {ilo : ℕ} (hi : ilo ≤ c.n) :
    Box c (inflate c s ilo (1 / 2)).1 := by
  have h1 : Box c { s with simplex := inflated c s.simplex ilo (1 / 2) } := by
    refine ⟨?_, h.2.1, h.2.2⟩
    intro i hin
    dsimp only
    rw [inflated_half h.1 hi hin]
    by_cases g : i = ilo
    · rw [if_pos g]; exact h.1 i hin
    · rw [if_neg g]; exact inside_half (h.1 i hin) (h.1 ilo hi)
  have := @box_fold α _ _ _ c ((List.range (c.n + 1)).filter (· ≠ ilo))
    (fun i hi => (mem_milo.1 hi).1)
    ({ s with simplex := inflated c s.simplex ilo (1 / 2) }, s.values ilo) h1
  exact this

theorem box_move {c : Conf α} {s : St α} (h : Box c s) (r : Rank α) (hi : r.ilo ≤ c.n)
    (hj : r.ihi ≤ c.n) : Box c (move c s r).1 := by
  have ha := box_trialStep h hj r.yhi (-1)
  unfold move
  dsimp only
  by_cases g1 : (trialStep c s r.ihi r.yhi (-1)).2 < r.ylo
  · rw [if_pos g1]; exact box_trialStep ha hj _ _
  · rw [if_neg g1]
    by_cases g2 : r.ynhi ≤ (trialStep c s r.ihi r.yhi (-1)).2
    · rw [if_pos g2]
      have hb := box_trialStep ha hj r.yhi (1 / 2)
      by_cases g3 : r.yhi ≤
          (trialStep c (trialStep c s r.ihi r.yhi (-1)).1 r.ihi r.yhi (1 / 2)).2
      · rw [if_pos g3]; exact box_shrink hb hi
      · rw [if_neg g3]; exact hb
    · rw [if_neg g2]; exact ha

theorem box_after {c : Conf α} (hcb : ∀ g, c.callback = some g → ∀ p, Inside c p → Inside c (g p))
    {s : St α} (h : Box c s) {i : ℕ} (hi : i ≤ c.n) : Box c (after c s i) := by
  unfold after
  cases hc : c.callback with
  | none => exact h
  | some g => exact ⟨inside_update h.1 _ (hcb g hc _ (h.1 i hi)), h.2⟩

theorem box_swap {c : Conf α} {s : St α} (h : Box c s) {i : ℕ} (hi : i ≤ c.n) :
    Box c (swapBest s i) := by
  unfold swapBest
  by_cases g : 0 < i
  · rw [if_pos g]; exact ⟨inside_update h.1 _ (h.1 i hi), h.2⟩
  · rw [if_neg g]; exact h

theorem box_replace {c : Conf α} {s : St α} (h : Box c s) (i : ℕ) : Box c (replace s i) :=
  ⟨inside_update h.1 _ (box_best h), h.2⟩

theorem inflateValue_expanded {c : Conf α} (l : List ℕ) : ∀ q : St α × α,
    (l.foldl (inflateValue c) q).1.expanded = q.1.expanded := by
  induction l with
  | nil => intro q; rfl
  | cons i l ih =>
    intro q
    rw [List.foldl_cons, ih]
    unfold inflateValue
    dsimp only
    by_cases g : c.f (q.1.simplex i) < q.2
    · rw [if_pos g]
      by_cases g2 : c.f (q.1.simplex i) < q.1.fopt
      · rw [if_pos g2]
      · rw [if_neg g2]
    · rw [if_neg g]

theorem trialStep_expanded (c : Conf α) (s : St α) (ihi : ℕ) (yhi factor : α) :
    (trialStep c s ihi yhi factor).1.expanded = s.expanded := by
  unfold trialStep
  dsimp only
  by_cases g1 : c.f (trial c s ihi factor) < s.fopt
  · simp only [if_pos g1]
    by_cases g2 : c.f (trial c s ihi factor) - s.temp * c.e s.k < yhi
    · simp only [if_pos g2]
    · simp only [if_neg g2]
  · simp only [if_neg g1]
    by_cases g2 : c.f (trial c s ihi factor) - s.temp * c.e s.k < yhi
    · simp only [if_pos g2]
    · simp only [if_neg g2]

theorem move_expanded (c : Conf α) (s : St α) (r : Rank α) :
    (move c s r).1.expanded = s.expanded := by
  unfold move
  dsimp only
  by_cases g1 : (trialStep c s r.ihi r.yhi (-1)).2 < r.ylo
  · rw [if_pos g1]; dsimp only; rw [trialStep_expanded, trialStep_expanded]
  · rw [if_neg g1]
    by_cases g2 : r.ynhi ≤ (trialStep c s r.ihi r.yhi (-1)).2
    · rw [if_pos g2]
      by_cases g3 : r.yhi ≤
          (trialStep c (trialStep c s r.ihi r.yhi (-1)).1 r.ihi r.yhi (1 / 2)).2
      · rw [if_pos g3]
        unfold inflate
        dsimp only
        rw [inflateValue_expanded]
        dsimp only
        rw [trialStep_expanded, trialStep_expanded]
      · rw [if_neg g3]; dsimp only; rw [trialStep_expanded, trialStep_expanded]
    · rw [if_neg g2]; dsimp only; rw [trialStep_expanded]

theorem box_step {c : Conf α} (hn : 1 ≤ c.n)
    (hcb : ∀ g, c.callback = some g → ∀ p, Inside c p → Inside c (g p))
    {s : St α} (h : s.expanded = false → Box c s) :
    (step c s).1.expanded = false → Box c (step c s).1 := by
  obtain ⟨h1, h2, -⟩ := isRank_rank c s hn
  intro he
  have sw : (swapBest { s with k := s.k + (c.n + 1) } (rank c s).ilo).expanded = s.expanded := by
    unfold swapBest
    by_cases g : 0 < (rank c s).ilo
    · rw [if_pos g]
    · rw [if_neg g]
  have hb : ∀ b, s.expanded = false → Box c { s with k := b } := fun _ he => h he
  unfold step at he ⊢
  dsimp only at he ⊢
  by_cases g : stops c (rank c s) = true
  · rw [if_pos g] at he ⊢
    by_cases g1 : |(swapBest { s with k := s.k + (c.n + 1) } (rank c s).ilo).fopt -
        (rank c s).ylo| > tol c
    · rw [if_pos g1] at he ⊢
      exact box_replace (box_swap (hb _ (sw ▸ he)) h1) _
    · rw [if_neg g1] at he ⊢
      by_cases g2 : (swapBest { s with k := s.k + (c.n + 1) } (rank c s).ilo).iter = 0
      · rw [if_pos g2] at he; simp at he
      · rw [if_neg g2] at he ⊢
        exact box_swap (hb _ (sw ▸ he)) h1
  · rw [if_neg g] at he ⊢
    have he' : s.expanded = false := by
      rw [← he]
      unfold after
      cases c.callback <;> dsimp only <;> rw [move_expanded]
    exact box_after hcb (box_move (hb _ he') _ h1 h2) h2

theorem box_kept {c : Conf α} (hn : 1 ≤ c.n)
    (hcb : ∀ g, c.callback = some g → ∀ p, Inside c p → Inside c (g p)) :
    Kept c fun s => s.expanded = false → Box c s :=
  ⟨fun _ h => h, fun _ h => h, fun _ h => box_step hn hcb h⟩

theorem box_init {c : Conf α} (hlim : LimitsOk c) {xini size : ℕ → α} {temp : α} {s : St α}
    (h : init c xini size temp = some s) : Box c s := by
  obtain ⟨h1, -, -, -, -, h6, i, hi, h7, -⟩ := init_spec h
  have hin : ∀ i, Inside c (s.simplex i) := by
    intro i; rw [h1]; exact corners_inside hlim _ _ _
  refine ⟨fun i _ => hin i, ?_, ?_⟩
  · intro p hp
    obtain ⟨j, -, rfl⟩ := (h6 p).1 hp
    exact hin j
  · rw [h7]; exact hin i

/-- **C64 (part).**  With limits (low below high), for every function, start, temperature,
tolerance and sequence of random numbers, and every callback that respects the limits: as long as
the first simplex has not been blown up, the function is only computed at points within the limits,
all the corners are within the limits and so is the point that is returned.

Missing: the same when the first simplex had to be expanded;  `C64_counterexample` shows that it
is not true then. -/
theorem C64_limits_partial (c : Conf α) (hn : 1 ≤ c.n) (hlim : LimitsOk c)
    (hcb : ∀ g, c.callback = some g → ∀ p, Inside c p → Inside c (g p))
    (xini size : ℕ → α) (temp : α) (s : St α)
    (hs : init c xini size temp = some s) (fuel : ℕ) (o : Out α)
    (ho : minimize c fuel s = some o) (hx : o.st.expanded = false) :
    (∀ p ∈ o.st.seen, Inside c p) ∧ (∀ i ≤ c.n, Inside c (o.st.simplex i)) ∧
    ∀ x s', o = .done x s' → Inside c x := by
  have hb := minLoop_kept (box_kept hn hcb) _ _ _ _ (fun _ => box_init hlim hs) ho hx
  refine ⟨hb.2.1, hb.1, ?_⟩
  rintro x s' rfl
  rw [minLoop_done _ _ _ _ _ ho]
  exact box_best hb

/-- **C64.**  The constructor only computes the function at points within the limits, also when
the initial values are not. -/
theorem C64_start (c : Conf α) (hlim : LimitsOk c) (xini size : ℕ → α) (temp : α) (s : St α)
    (hs : init c xini size temp = some s) : ∀ p ∈ s.seen, Inside c p :=
  (box_init hlim hs).2.1

/-! ## No annealing: temperature zero -/

theorem noisy_zero {c : Conf α} {s : St α} (h : s.temp = 0) : noisy c s = s.values := by
  funext i
  simp [noisy, h]

theorem isRank_zero {c : Conf α} (hn : 1 ≤ c.n) {s : St α} (h : s.temp = 0) :
    IsRank s.values c.n (rank c s) := by
  have := isRank_rank c s hn
  rwa [noisy_zero h] at this

theorem rank_k (c : Conf α) (s : St α) (h : s.temp = 0) (k : ℕ) :
    rank c { s with k := k } = rank c s := by
  unfold rank
  rw [noisy_zero (s := { s with k := k }) h, noisy_zero h]

/-- All tolerances that are given, are positive. -/
def TolOk (c : Conf α) : Prop := ∀ t, c.abstol = some t ∨ c.reltol = some t → 0 < t

theorem stops_of_eq {c : Conf α} (ht : TolOk c) {r : Rank α} (h : r.yhi = r.ylo) :
    stops c r = true := by
  unfold stops
  rw [h]
  cases ha : c.abstol <;> cases hb : c.reltol <;>
    simp [TolOk, ha, hb] at ht ⊢
  · exact ht
  · exact ht
  · exact ⟨ht _ (Or.inl rfl), ht _ (Or.inr rfl)⟩

theorem tol_pos {c : Conf α} (ht : TolOk c) : 0 ≤ tol c := by
  unfold tol
  cases ha : c.abstol with
  | some a => exact (ht a (Or.inl ha)).le
  | none =>
    cases hb : c.reltol with
    | some b => exact (ht b (Or.inr hb)).le
    | none => simp

/-- Swapping two values does not change which are the lowest and the highest. -/
theorem rank_swap {c : Conf α} (hn : 1 ≤ c.n) {s : St α} (h : s.temp = 0) {i : ℕ}
    (hi : i ≤ c.n) : (rank c (swapBest s i)).ylo = (rank c s).ylo ∧
      (rank c (swapBest s i)).yhi = (rank c s).yhi := by
  by_cases g : 0 < i
  · obtain ⟨a1, a2, a3, a4, a5, -⟩ := isRank_zero hn h
    have h' : (swapBest s i).temp = 0 := by unfold swapBest; rw [if_pos g]; exact h
    obtain ⟨b1, b2, b3, b4, b5, -⟩ := isRank_zero hn h'
    have hv : ∀ j, (swapBest s i).values j =
        if j = i then s.values 0 else if j = 0 then s.values i else s.values j := by
      intro j
      unfold swapBest
      rw [if_pos g]
      dsimp only
      rw [Function.update_apply, Function.update_apply]
    have hv1 : ∀ j ≤ c.n, ∃ m ≤ c.n, (swapBest s i).values j = s.values m := by
      intro j hj
      rw [hv]
      by_cases g1 : j = i
      · rw [if_pos g1]; exact ⟨0, by omega, rfl⟩
      · rw [if_neg g1]
        by_cases g2 : j = 0
        · rw [if_pos g2]; exact ⟨i, hi, rfl⟩
        · rw [if_neg g2]; exact ⟨j, hj, rfl⟩
    have hv2 : ∀ j ≤ c.n, ∃ m ≤ c.n, s.values j = (swapBest s i).values m := by
      intro j hj
      by_cases g1 : j = i
      · exact ⟨0, by omega, by rw [hv, if_neg (by omega), if_pos rfl, g1]⟩
      · by_cases g2 : j = 0
        · exact ⟨i, hi, by rw [hv, if_pos rfl, g2]⟩
        · exact ⟨j, hj, by rw [hv, if_neg g1, if_neg g2]⟩
    constructor
    · apply le_antisymm
      · obtain ⟨m, hm, e⟩ := hv2 _ a1
        rw [a3, e]; exact (b5 m hm).1
      · obtain ⟨m, hm, e⟩ := hv1 _ b1
        rw [b3, e]; exact (a5 m hm).1
    · apply le_antisymm
      · obtain ⟨m, hm, e⟩ := hv1 _ b2
        rw [b4, e]; exact (a5 m hm).2
      · obtain ⟨m, hm, e⟩ := hv2 _ a2
        rw [a4, e]; exact (b5 m hm).2
  · unfold swapBest
    rw [if_neg g]
    exact ⟨rfl, rfl⟩

theorem stops_congr {c : Conf α} {r r' : Rank α} (h1 : r'.ylo = r.ylo) (h2 : r'.yhi = r.yhi) :
    stops c r' = stops c r := by
  unfold stops
  rw [h1, h2]

/-- What a trial step does, without annealing. -/
theorem trialStep_zero (c : Conf α) (s : St α) (h : s.temp = 0) (ihi : ℕ) (yhi factor : α) :
    let q := trialStep c s ihi yhi factor
    q.2 = c.f (trial c s ihi factor) ∧ q.1.temp = 0 ∧ q.1.iter = s.iter ∧
    q.1.seen = trial c s ihi factor :: s.seen ∧
    ((q.1.xopt = s.xopt ∧ q.1.fopt = s.fopt) ∨
      (q.1.xopt = .own (trial c s ihi factor) ∧ q.1.fopt = c.f (trial c s ihi factor))) ∧
    ((q.1.simplex = s.simplex ∧ q.1.values = s.values) ∨
      (q.1.simplex = Function.update s.simplex ihi (trial c s ihi factor) ∧
        q.1.values = Function.update s.values ihi (c.f (trial c s ihi factor)))) := by
  unfold trialStep
  dsimp only
  by_cases g1 : c.f (trial c s ihi factor) < s.fopt
  · simp only [if_pos g1, h, zero_mul, sub_zero]
    by_cases g2 : c.f (trial c s ihi factor) < yhi
    · simp only [if_pos g2]
      simp
    · simp only [if_neg g2]
      simp
  · simp only [if_neg g1, h, zero_mul, sub_zero]
    by_cases g2 : c.f (trial c s ihi factor) < yhi
    · simp only [if_pos g2]
      simp
    · simp only [if_neg g2]
      simp

/-- What the evaluation of the corners in `inflateSimplex` leaves as it was. -/
theorem inflate_same (c : Conf α) (l : List ℕ) : ∀ q : St α × α,
    let q' := (l.foldl (inflateValue c) q).1
    q'.simplex = q.1.simplex ∧ q'.temp = q.1.temp ∧ q'.iter = q.1.iter ∧ q'.k = q.1.k ∧
      ∀ p ∈ q.1.seen, p ∈ q'.seen := by
  induction l with
  | nil => intro q; exact ⟨rfl, rfl, rfl, rfl, fun p h => h⟩
  | cons i l ih =>
    intro q
    have h := ih (inflateValue c q i)
    have h2 : (inflateValue c q i).1.simplex = q.1.simplex ∧
        (inflateValue c q i).1.temp = q.1.temp ∧ (inflateValue c q i).1.iter = q.1.iter ∧
        (inflateValue c q i).1.k = q.1.k ∧
        (inflateValue c q i).1.seen = q.1.simplex i :: q.1.seen := by
      unfold inflateValue
      dsimp only
      by_cases g : c.f (q.1.simplex i) < q.2
      · rw [if_pos g]
        by_cases g2 : c.f (q.1.simplex i) < q.1.fopt
        · rw [if_pos g2]; exact ⟨rfl, rfl, rfl, rfl, rfl⟩
        · rw [if_neg g2]; exact ⟨rfl, rfl, rfl, rfl, rfl⟩
      · rw [if_neg g]; exact ⟨rfl, rfl, rfl, rfl, rfl⟩
    dsimp only at h ⊢
    rw [List.foldl_cons]
    obtain ⟨e1, e2, e3, e4, e5⟩ := h
    obtain ⟨d1, d2, d3, d4, d5⟩ := h2
    refine ⟨e1.trans d1, e2.trans d2, e3.trans d3, e4.trans d4, ?_⟩
    intro p hp
    apply e5
    rw [d5]
    exact List.mem_cons_of_mem _ hp

/-! ## C65: the minimisation ends -/

/-- No annealing, and the first simplex was not flat. -/
structure Cold (c : Conf α) (s : St α) : Prop where
  low : Lowest c s
  temp : s.temp = 0
  go : 0 < s.iter ∨ stops c (rank c s) = false

/-- All corners are within the tolerance of each other, and of the best value. -/
def Flat (c : Conf α) (s : St α) : Prop :=
  stops c (rank c s) = true ∧ |s.fopt - (rank c s).ylo| ≤ tol c

theorem move_facts (c : Conf α) (s : St α) (h : s.temp = 0) (r : Rank α) :
    (move c s r).1.temp = 0 ∧ (move c s r).1.iter = s.iter ∧ 1 ≤ (move c s r).2 ∧
      ∀ p ∈ s.seen, p ∈ (move c s r).1.seen := by
  obtain ⟨-, a1, a2, a3, -⟩ := trialStep_zero c s h r.ihi r.yhi (-1)
  have a4 : ∀ p ∈ s.seen, p ∈ (trialStep c s r.ihi r.yhi (-1)).1.seen := by
    intro p hp; rw [a3]; exact List.mem_cons_of_mem _ hp
  unfold move
  dsimp only
  by_cases g1 : (trialStep c s r.ihi r.yhi (-1)).2 < r.ylo
  · rw [if_pos g1]
    obtain ⟨-, b1, b2, b3, -⟩ := trialStep_zero c _ a1 r.ihi r.yhi 2
    refine ⟨b1, b2.trans a2, by norm_num, ?_⟩
    intro p hp
    dsimp only
    rw [b3]
    exact List.mem_cons_of_mem _ (a4 p hp)
  · rw [if_neg g1]
    by_cases g2 : r.ynhi ≤ (trialStep c s r.ihi r.yhi (-1)).2
    · rw [if_pos g2]
      obtain ⟨-, b1, b2, b3, -⟩ := trialStep_zero c _ a1 r.ihi r.yhi (1 / 2)
      have b4 : ∀ p ∈ s.seen, p ∈
          (trialStep c (trialStep c s r.ihi r.yhi (-1)).1 r.ihi r.yhi (1 / 2)).1.seen := by
        intro p hp
        rw [b3]
        exact List.mem_cons_of_mem _ (a4 p hp)
      by_cases g3 : r.yhi ≤
          (trialStep c (trialStep c s r.ihi r.yhi (-1)).1 r.ihi r.yhi (1 / 2)).2
      · rw [if_pos g3]
        obtain ⟨-, d1, d2, -, d3⟩ := inflate_same c ((List.range (c.n + 1)).filter (· ≠ r.ilo))
          ({ (trialStep c (trialStep c s r.ihi r.yhi (-1)).1 r.ihi r.yhi (1 / 2)).1 with
            simplex := inflated c (trialStep c (trialStep c s r.ihi r.yhi (-1)).1
              r.ihi r.yhi (1 / 2)).1.simplex r.ilo (1 / 2) },
            (trialStep c (trialStep c s r.ihi r.yhi (-1)).1 r.ihi r.yhi (1 / 2)).1.values r.ilo)
        exact ⟨d1.trans b1, d2.trans (b2.trans a2), by omega, fun p hp => d3 p (b4 p hp)⟩
      · rw [if_neg g3]
        exact ⟨b1, b2.trans a2, by norm_num, b4⟩
    · rw [if_neg g2]
      exact ⟨a1, a2, le_refl _, a4⟩

theorem after_facts (c : Conf α) (s : St α) (i : ℕ) :
    (after c s i).temp = s.temp ∧ (after c s i).iter = s.iter + 1 ∧ (after c s i).seen = s.seen ∧
    (after c s i).fopt = s.fopt := by
  unfold after
  cases c.callback <;> exact ⟨rfl, rfl, rfl, rfl⟩

theorem swap_facts (s : St α) (i : ℕ) :
    (swapBest s i).temp = s.temp ∧ (swapBest s i).iter = s.iter ∧
    (swapBest s i).fopt = s.fopt ∧ (swapBest s i).seen = s.seen ∧
    (swapBest s i).xopt = s.xopt := by
  unfold swapBest
  by_cases g : 0 < i
  · rw [if_pos g]; exact ⟨rfl, rfl, rfl, rfl, rfl⟩
  · rw [if_neg g]; exact ⟨rfl, rfl, rfl, rfl, rfl⟩

/-- The three things that one turn can do when there is no annealing. -/
theorem cold_step {c : Conf α} (hn : 1 ≤ c.n) (ht : TolOk c) {s : St α} (h : Cold c s) :
    Cold c (step c s).1 ∧
    ((stops c (rank c s) = false ∧ (step c s).2.2 = false ∧ 1 ≤ (step c s).2.1 ∧
        (step c s).1.iter = s.iter + 1) ∨
     ((step c s).2.2 = false ∧ (step c s).2.1 = 0 ∧ (step c s).1.iter = s.iter ∧
        ¬ |s.fopt - (rank c s).ylo| ≤ tol c ∧
        |(step c s).1.fopt - (rank c (step c s).1).ylo| ≤ tol c) ∨
     ((step c s).2.2 = true ∧ (step c s).2.1 = 0 ∧ (step c s).1.iter = s.iter ∧
        Flat c (step c s).1 ∧ Flat c s)) := by
  have hlow := lowest_step hn h.low
  obtain ⟨r1, r2, r3, r4, r5, -⟩ := isRank_zero hn h.temp
  obtain ⟨w1, w2, w3, w4, w5⟩ := swap_facts { s with k := s.k + (c.n + 1) } (rank c s).ilo
  have hk : rank c { s with k := s.k + (c.n + 1) } = rank c s := rank_k c s h.temp _
  by_cases g : stops c (rank c s) = true
  · have hit : 0 < s.iter := h.go.resolve_right (by rw [g]; simp)
    have hsw := lowest_swap (c := c) (s := { s with k := s.k + (c.n + 1) }) h.low r1
    by_cases g1 : |s.fopt - (rank c s).ylo| > tol c
    · have hst : step c s =
          (replace (swapBest { s with k := s.k + (c.n + 1) } (rank c s).ilo) (rank c s).ilo,
            0, false) := by
        unfold step
        dsimp only
        rw [if_pos g, if_pos]
        rw [w3]; exact g1
      rw [hst] at hlow ⊢
      have ht0 : (replace (swapBest { s with k := s.k + (c.n + 1) } (rank c s).ilo)
          (rank c s).ilo).temp = 0 := w1.trans h.temp
      refine ⟨⟨hlow, ht0, Or.inl ?_⟩, Or.inr (Or.inl ⟨rfl, rfl, w2, not_le.2 g1, ?_⟩)⟩
      · exact lt_of_lt_of_eq hit w2.symm
      · obtain ⟨q1, -, q3, -, q5, -⟩ := isRank_zero hn ht0
        have e : (rank c (replace (swapBest { s with k := s.k + (c.n + 1) } (rank c s).ilo)
            (rank c s).ilo)).ylo = (replace (swapBest { s with k := s.k + (c.n + 1) }
              (rank c s).ilo) (rank c s).ilo).fopt := by
          apply le_antisymm
          · refine le_of_le_of_eq (q5 _ r1).1 ?_
            simp [replace]
          · rw [q3]; exact lowest_values hlow q1
        dsimp only
        rw [e, sub_self, abs_zero]
        exact tol_pos ht
    · have hst : step c s = (swapBest { s with k := s.k + (c.n + 1) } (rank c s).ilo, 0, true) := by
        unfold step
        dsimp only
        rw [if_pos g, if_neg, if_neg]
        · rw [w2]; dsimp only; omega
        · rw [w3]; exact g1
      rw [hst] at hlow ⊢
      refine ⟨⟨hlow, w1.trans h.temp, Or.inl (lt_of_lt_of_eq hit w2.symm)⟩,
        Or.inr (Or.inr ⟨rfl, rfl, w2, ?_, g, not_lt.1 g1⟩)⟩
      obtain ⟨e1, e2⟩ := rank_swap hn (s := { s with k := s.k + (c.n + 1) }) h.temp r1
      rw [hk] at e1 e2
      refine ⟨?_, ?_⟩
      · dsimp only; rw [stops_congr e1 e2]; exact g
      · dsimp only; rw [e1, w3]; exact not_lt.1 g1
  · have hst : step c s = (after c (move c { s with k := s.k + (c.n + 1) } (rank c s)).1
        (rank c s).ihi, (move c { s with k := s.k + (c.n + 1) } (rank c s)).2, false) := by
      unfold step
      dsimp only
      rw [if_neg g]
    rw [hst] at hlow ⊢
    obtain ⟨m1, m2, m3, -⟩ := move_facts c { s with k := s.k + (c.n + 1) } h.temp (rank c s)
    obtain ⟨f1, f2, -⟩ := after_facts c (move c { s with k := s.k + (c.n + 1) } (rank c s)).1
      (rank c s).ihi
    have e : (after c (move c { s with k := s.k + (c.n + 1) } (rank c s)).1
        (rank c s).ihi).iter = s.iter + 1 := by rw [f2, m2]
    refine ⟨⟨hlow, f1.trans m1, Or.inl ?_⟩, Or.inl ⟨by simpa using g, rfl, m3, e⟩⟩
    dsimp only
    omega

theorem tempLoop_ends {c : Conf α} (hn : 1 ≤ c.n) (ht : TolOk c) (maxit : ℕ) (m : ℕ) :
    ∀ (s : St α) (t fuel : ℕ), Cold c s →
      (2 * (maxit - s.iter) + 1 ≤ m ∨
        (|s.fopt - (rank c s).ylo| ≤ tol c ∧ 2 * (maxit - s.iter) ≤ m)) → m < fuel →
      ∃ q, tempLoop c maxit fuel s t = some q ∧ Cold c q.1 ∧ t ≤ q.2 ∧
        (Flat c q.1 ∨ (maxit ≤ q.1.iter ∧ (q.2 = t → maxit ≤ s.iter))) := by
  induction m with
  | zero =>
    intro s t fuel hs hm hf
    obtain ⟨fuel, rfl⟩ : ∃ f, fuel = f + 1 := ⟨fuel - 1, by omega⟩
    have : ¬ s.iter < maxit := by
      rcases hm with hm | hm
      · omega
      · omega
    refine ⟨(s, t), ?_, hs, le_refl _, Or.inr ⟨by dsimp only; omega, fun _ => by omega⟩⟩
    unfold tempLoop
    rw [if_neg this]
  | succ m ih =>
    intro s t fuel hs hm hf
    obtain ⟨fuel, rfl⟩ : ∃ f, fuel = f + 1 := ⟨fuel - 1, by omega⟩
    unfold tempLoop
    by_cases g : s.iter < maxit
    · rw [if_pos g]
      dsimp only
      obtain ⟨hc, h1 | h2 | h3⟩ := cold_step hn ht hs
      · obtain ⟨-, e2, e3, e4⟩ := h1
        rw [e2]
        have := ih (step c s).1 (t + (step c s).2.1) fuel hc (by left; rw [e4]; omega) (by omega)
        obtain ⟨q, hq, hq1, hq2, hq3⟩ := this
        refine ⟨q, by simpa using hq, hq1, by omega, ?_⟩
        rcases hq3 with hq3 | hq3
        · exact Or.inl hq3
        · exact Or.inr ⟨hq3.1, fun h => by omega⟩
      · obtain ⟨e1, e2, e3, e4, e5⟩ := h2
        rw [e1, e2]
        have hm' : 2 * (maxit - s.iter) + 1 ≤ m + 1 := hm.resolve_right fun h => e4 h.1
        have := ih (step c s).1 (t + 0) fuel hc (Or.inr ⟨e5, by rw [e3]; omega⟩) (by omega)
        obtain ⟨q, hq, hq1, hq2, hq3⟩ := this
        refine ⟨q, by simpa using hq, hq1, by omega, ?_⟩
        rcases hq3 with hq3 | hq3
        · exact Or.inl hq3
        · refine Or.inr ⟨hq3.1, fun h => ?_⟩
          rw [← e3]; exact hq3.2 h
      · obtain ⟨e1, e2, e3, e4, -⟩ := h3
        rw [e1, e2, if_pos rfl]
        exact ⟨_, rfl, hc, le_refl _, Or.inl e4⟩
    · rw [if_neg g]
      exact ⟨_, rfl, hs, le_refl _, Or.inr ⟨by dsimp only; omega, fun _ => by omega⟩⟩

/-- A flat simplex makes `temperatureStep` leave at once. -/
theorem tempLoop_flat {c : Conf α} (hn : 1 ≤ c.n) (ht : TolOk c) {s : St α} (hs : Cold c s)
    (hf : Flat c s) (maxit fuel t : ℕ) (hi : s.iter < maxit) :
    ∃ q, tempLoop c maxit (fuel + 1) s t = some (q, t) ∧ Cold c q ∧ Flat c q := by
  unfold tempLoop
  rw [if_pos hi]
  dsimp only
  obtain ⟨hc, h1 | h2 | h3⟩ := cold_step hn ht hs
  · rw [hf.1] at h1; simp at h1
  · exact absurd hf.2 h2.2.2.2.1
  · obtain ⟨e1, e2, e3, e4, -⟩ := h3
    rw [e1, e2, if_pos rfl]
    exact ⟨_, rfl, hc, e4⟩

theorem temp_same (c : Conf α) {s : St α} (h : s.temp = 0) :
    { s with temp := if 0 < s.temp then s.temp * c.cooling else s.temp } = s := by
  obtain ⟨_, _, _, _, _, _, temp, _, _, _⟩ := s
  simp only at h
  subst h
  simp

theorem cold_sum {c : Conf α} {s : St α} (h : Cold c s) (f : ℕ → α) :
    Cold c { s with sum := f } := ⟨h.low, h.temp, h.go⟩

/-- How a minimisation ends: all corners within the tolerance, or too many iterations. -/
def Ends (c : Conf α) : Out α → Prop
  | .done _ s => Flat c s ∧ Cold c s
  | .failed s => c.maxiter ≤ s.iter

theorem minLoop_ends {c : Conf α} (hn : 1 ≤ c.n) (ht : TolOk c) {s : St α} (hs : Cold c s)
    (fuel : ℕ) (hf : 2 * c.maxiter + 4 ≤ fuel) :
    ∃ o, minLoop c c.maxiter fuel s = some o ∧ Ends c o := by
  obtain ⟨fuel, rfl⟩ : ∃ f, fuel = f + 2 := ⟨fuel - 2, by omega⟩
  unfold minLoop
  by_cases g : s.iter < c.maxiter
  · rw [if_pos g]
    unfold temperatureStep
    rw [if_pos hs.temp]
    obtain ⟨q, hq, hq1, hq2, hq3⟩ := tempLoop_ends hn ht (s.iter + c.maxiter)
      (2 * c.maxiter + 1) { s with sum := total c.n s.simplex } 0 (fuel + 1) (cold_sum hs _)
      (Or.inl (by dsimp only; omega)) (by omega)
    rw [hq]
    simp only [Option.bind_some]
    rw [temp_same c hq1.temp]
    by_cases g2 : q.2 = 0
    · rw [if_pos g2]
      refine ⟨_, rfl, ?_, hq1⟩
      rcases hq3 with h | h
      · exact h
      · have := h.2 g2
        dsimp only at this
        omega
    · rw [if_neg g2]
      unfold minLoop
      by_cases g3 : q.1.iter < c.maxiter
      · rw [if_pos g3]
        have hfl : Flat c q.1 := by
          rcases hq3 with h | h
          · exact h
          · omega
        unfold temperatureStep
        rw [if_pos hq1.temp]
        obtain ⟨f, rfl⟩ : ∃ f, fuel = f + 1 := ⟨fuel - 1, by omega⟩
        obtain ⟨q', hq', hq1', hq2'⟩ := tempLoop_flat hn ht
          (s := { q.1 with sum := total c.n q.1.simplex }) (cold_sum hq1 _) hfl
          (q.1.iter + c.maxiter) f 0 (by dsimp only; omega)
        rw [hq']
        simp only [Option.bind_some]
        rw [temp_same c hq1'.temp, if_pos trivial]
        exact ⟨_, rfl, hq2', hq1'⟩
      · rw [if_neg g3]
        exact ⟨_, rfl, by unfold Ends; dsimp only; omega⟩
  · rw [if_neg g]
    exact ⟨_, rfl, by unfold Ends; dsimp only; omega⟩

theorem cold_init {c : Conf α} (hn : 1 ≤ c.n) {xini size : ℕ → α} {s : St α}
    (h : init c xini size 0 = some s) {t : α} (hc : c.abstol = some t)
    (hsp : ∃ i ≤ c.n, ∃ j ≤ c.n, t ≤ c.f (corners c xini size i) - c.f (corners c xini size j)) :
    Cold c s := by
  have hl := lowest_init h
  obtain ⟨h1, -, h3, -, h5, -⟩ := init_spec h
  refine ⟨hl, h3, Or.inr ?_⟩
  obtain ⟨i, hi, j, hj, hsp⟩ := hsp
  obtain ⟨-, -, -, -, r5, -⟩ := isRank_zero hn h3
  have : t ≤ (rank c s).yhi - (rank c s).ylo := by
    have a := (r5 i hi).2
    have b := (r5 j hj).1
    rw [h5 i hi, h1] at a
    rw [h5 j hj, h1] at b
    linarith
  unfold stops
  rw [hc]
  simp only [Option.elim_some, Bool.and_eq_false_imp, decide_eq_true_eq]
  intro h
  exact absurd (lt_of_le_of_lt (le_abs_self _) h) (not_lt.2 this)

/-- **C65 (part).**  Without annealing, with positive tolerances, and when the values of the
function at the corners of the first simplex differ by the absolute tolerance or more,
`minimize` always ends, for every function, start and limits: either it returns, and
then the values at all corners are less than the absolute tolerance apart and the lowest of them is
within the absolute tolerance of the best value found, or it raises ConvergenceError, and then it
has done at least `maxiter` iterations.

Missing: the same for a first simplex on which the function is flat (`C65_counterexample_flat`: it
need not end) and for annealing. -/
theorem C65_ends_partial (c : Conf α) (hn : 1 ≤ c.n) (ht : TolOk c) (xini size : ℕ → α) (s : St α)
    (hs : init c xini size 0 = some s) (t : α) (hc : c.abstol = some t)
    (hsp : ∃ i ≤ c.n, ∃ j ≤ c.n, t ≤ c.f (corners c xini size i) - c.f (corners c xini size j)) :
    ∃ N, ∀ fuel ≥ N, ∃ o, minimize c fuel s = some o ∧
      match o with
      | .done _ s' => (∀ i ≤ c.n, ∀ j ≤ c.n, s'.values i - s'.values j < t) ∧
          ∃ i ≤ c.n, s'.values i ≤ s'.fopt + t
      | .failed s' => c.maxiter ≤ s'.iter := by
  refine ⟨2 * c.maxiter + 4, fun fuel hf => ?_⟩
  have hcold := cold_init hn hs hc hsp
  obtain ⟨o, ho, he⟩ := minLoop_ends hn ht hcold fuel hf
  refine ⟨o, ?_, ?_⟩
  · unfold minimize
    rw [if_pos hcold.temp, mul_one]; exact ho
  · cases o with
    | failed s' => exact he
    | done x s' =>
      obtain ⟨⟨f1, f2⟩, hc'⟩ := he
      obtain ⟨r1, r2, r3, r4, r5, -⟩ := isRank_zero hn hc'.temp
      unfold stops at f1
      unfold tol at f2
      rw [hc] at f1 f2
      simp only [Option.elim_some, Bool.and_eq_true, decide_eq_true_eq] at f1
      refine ⟨?_, (rank c s').ilo, r1, ?_⟩
      · intro i hi j hj
        have a := (r5 i hi).2
        have b := (r5 j hj).1
        have := lt_of_le_of_lt (le_abs_self _) f1.1
        linarith
      · rw [← r3]
        have := neg_abs_le (s'.fopt - (rank c s').ylo)
        have f2 : |s'.fopt - (rank c s').ylo| ≤ t := f2
        linarith

/-! ## C63: the point that is returned -/

/-- No two different points where the function was computed have the same value. -/
def Distinct (c : Conf α) (s : St α) : Prop :=
  ∀ p ∈ s.seen, ∀ q ∈ s.seen, c.f p = c.f q → p = q

theorem distinct_mono {c : Conf α} {s s' : St α} (h : ∀ p ∈ s.seen, p ∈ s'.seen)
    (hd : Distinct c s') : Distinct c s :=
  fun p hp q hq e => hd p (h p hp) q (h q hq) e

/-- The best point has the best value. -/
def View (c : Conf α) (s : St α) : Prop :=
  match s.xopt with
  | .own p => p ∈ s.seen ∧ c.f p = s.fopt
  | .view i => i ≤ c.n ∧ c.f (s.simplex i) = s.fopt

theorem view_best {c : Conf α} {s : St α} (h : View c s) : c.f s.best = s.fopt := by
  unfold View at h
  unfold St.best
  cases hx : s.xopt with
  | own p => rw [hx] at h; exact h.2
  | view i => rw [hx] at h; exact h.2

/-- The values are those of the corners. -/
structure Exact (c : Conf α) (s : St α) : Prop where
  low : Lowest c s
  box : Box c s
  temp : s.temp = 0
  rows : ∀ i ≤ c.n, s.simplex i ∈ s.seen
  eq : ∀ i ≤ c.n, s.values i = c.f (s.simplex i)
  view : View c s

theorem exact_best {c : Conf α} {s : St α} (h : Exact c s) : s.best ∈ s.seen := by
  have hv := h.view
  unfold View at hv
  unfold St.best
  cases hx : s.xopt with
  | own p => rw [hx] at hv; exact hv.1
  | view i => rw [hx] at hv; exact h.rows i hv.1

theorem exact_trial {c : Conf α} {s : St α} (h : Exact c s) {ihi : ℕ} (hi : ihi ≤ c.n)
    (hx : s.xopt ≠ .view ihi) (yhi factor : α) :
    Exact c (trialStep c s ihi yhi factor).1 ∧
    (trialStep c s ihi yhi factor).1.xopt ≠ .view ihi ∧
    (∀ i, i ≠ ihi → (trialStep c s ihi yhi factor).1.simplex i = s.simplex i) ∧
    (∀ p ∈ s.seen, p ∈ (trialStep c s ihi yhi factor).1.seen) ∧
    ∀ i, (trialStep c s ihi yhi factor).1.xopt = .view i →
      s.xopt = .view i ∧ (trialStep c s ihi yhi factor).1.fopt = s.fopt := by
  have hl := lowest_trialStep h.low ihi yhi factor
  have hb := box_trialStep h.box hi yhi factor
  obtain ⟨-, e2, -, e4, e5, e6⟩ := trialStep_zero c s h.temp ihi yhi factor
  have hseen : ∀ p ∈ s.seen, p ∈ (trialStep c s ihi yhi factor).1.seen := by
    intro p hp; rw [e4]; exact List.mem_cons_of_mem _ hp
  have hrow : ∀ i, i ≠ ihi → (trialStep c s ihi yhi factor).1.simplex i = s.simplex i := by
    intro i hne
    rcases e6 with ⟨a, -⟩ | ⟨a, -⟩
    · rw [a]
    · rw [a, Function.update_of_ne hne]
  have hv := h.view
  refine ⟨⟨hl, hb, e2, ?_, ?_, ?_⟩, ?_, hrow, hseen, ?_⟩
  · intro i hin
    by_cases g : i = ihi
    · rcases e6 with ⟨a, -⟩ | ⟨a, -⟩
      · rw [a]; exact hseen _ (h.rows i hin)
      · rw [a, g, Function.update_self, e4]; exact List.mem_cons_self
    · rw [hrow i g]; exact hseen _ (h.rows i hin)
  · intro i hin
    by_cases g : i = ihi
    · rcases e6 with ⟨a, b⟩ | ⟨a, b⟩
      · rw [a, b]; exact h.eq i hin
      · rw [a, b, g, Function.update_self, Function.update_self]
    · rcases e6 with ⟨a, b⟩ | ⟨a, b⟩
      · rw [a, b]; exact h.eq i hin
      · rw [a, b, Function.update_of_ne g, Function.update_of_ne g]; exact h.eq i hin
  · unfold View at hv ⊢
    rcases e5 with ⟨a, b⟩ | ⟨a, b⟩
    · rw [a, b]
      cases hxo : s.xopt with
      | own p => rw [hxo] at hv; exact ⟨hseen _ hv.1, hv.2⟩
      | view i =>
        rw [hxo] at hv
        dsimp only
        have : i ≠ ihi := fun e => hx (by rw [hxo, e])
        rw [hrow i this]
        exact hv
    · rw [a, b]
      exact ⟨by rw [e4]; exact List.mem_cons_self, rfl⟩
  · rcases e5 with ⟨a, -⟩ | ⟨a, -⟩
    · rw [a]; exact hx
    · rw [a]; simp
  · intro i hxi
    rcases e5 with ⟨a, b⟩ | ⟨a, -⟩
    · exact ⟨a ▸ hxi, b⟩
    · rw [a] at hxi; simp at hxi

theorem exact_fold {c : Conf α} (l : List ℕ) (hl : ∀ i ∈ l, i ≤ c.n) : ∀ q : St α × α,
    View c q.1 →
    (∀ j ≤ c.n, j ∉ l → q.1.values j = c.f (q.1.simplex j) ∧ q.1.simplex j ∈ q.1.seen) →
    View c (l.foldl (inflateValue c) q).1 ∧
    ∀ j ≤ c.n, (l.foldl (inflateValue c) q).1.values j =
        c.f ((l.foldl (inflateValue c) q).1.simplex j) ∧
      (l.foldl (inflateValue c) q).1.simplex j ∈ (l.foldl (inflateValue c) q).1.seen := by
  induction l with
  | nil => intro q hv h; exact ⟨hv, fun j hj => h j hj (by simp)⟩
  | cons i l ih =>
    intro q hv h
    rw [List.foldl_cons]
    have hi := hl i List.mem_cons_self
    have hview : View c (inflateValue c q i).1 := by
      unfold View at hv ⊢
      have old : match q.1.xopt with
          | .own p => p ∈ q.1.simplex i :: q.1.seen ∧ c.f p = q.1.fopt
          | .view i => i ≤ c.n ∧ c.f (q.1.simplex i) = q.1.fopt := by
        cases hx : q.1.xopt with
        | own p => rw [hx] at hv; exact ⟨List.mem_cons_of_mem _ hv.1, hv.2⟩
        | view i => rw [hx] at hv; exact hv
      unfold inflateValue
      dsimp only
      by_cases g : c.f (q.1.simplex i) < q.2
      · rw [if_pos g]
        by_cases g2 : c.f (q.1.simplex i) < q.1.fopt
        · rw [if_pos g2]; exact ⟨hi, rfl⟩
        · rw [if_neg g2]; exact old
      · rw [if_neg g]; exact old
    have hval : (inflateValue c q i).1.values =
        Function.update q.1.values i (c.f (q.1.simplex i)) ∧
        (inflateValue c q i).1.simplex = q.1.simplex ∧
        (inflateValue c q i).1.seen = q.1.simplex i :: q.1.seen := by
      unfold inflateValue
      dsimp only
      by_cases g : c.f (q.1.simplex i) < q.2
      · rw [if_pos g]
        by_cases g2 : c.f (q.1.simplex i) < q.1.fopt
        · rw [if_pos g2]; exact ⟨rfl, rfl, rfl⟩
        · rw [if_neg g2]; exact ⟨rfl, rfl, rfl⟩
      · rw [if_neg g]; exact ⟨rfl, rfl, rfl⟩
    refine ih (fun j hj => hl j (List.mem_cons_of_mem _ hj)) _ hview ?_
    intro j hj hnl
    obtain ⟨v1, v2, v3⟩ := hval
    rw [v1, v2, v3]
    by_cases g : j = i
    · subst g
      rw [Function.update_self]
      exact ⟨rfl, List.mem_cons_self⟩
    · rw [Function.update_of_ne g]
      have := h j hj (by simp [g, hnl])
      exact ⟨this.1, List.mem_cons_of_mem _ this.2⟩

theorem exact_shrink {c : Conf α} {s : St α} (h : Exact c s) {ilo : ℕ} (hi : ilo ≤ c.n)
    (hx : ∀ i, s.xopt = .view i → s.simplex i = s.simplex ilo) :
    Exact c (inflate c s ilo (1 / 2)).1 := by
  have hl := lowest_inflate h.low hi (1 / 2)
  have hb := box_shrink h.box hi
  have hv := h.view
  obtain ⟨-, f2, -, -, -⟩ := inflate_same c ((List.range (c.n + 1)).filter (· ≠ ilo))
    ({ s with simplex := inflated c s.simplex ilo (1 / 2) }, s.values ilo)
  have key := @exact_fold α _ _ _ c ((List.range (c.n + 1)).filter (· ≠ ilo))
    (fun i hi => (mem_milo.1 hi).1)
    ({ s with simplex := inflated c s.simplex ilo (1 / 2) }, s.values ilo) (by
      unfold View at hv ⊢
      dsimp only
      cases hxo : s.xopt with
      | own p => rw [hxo] at hv; exact hv
      | view i =>
        rw [hxo] at hv
        refine ⟨hv.1, ?_⟩
        rw [inflated_half h.box.1 hi hv.1]
        by_cases g : i = ilo
        · rw [if_pos g]; exact hv.2
        · rw [if_neg g]
          rw [show (fun k => (1 / 2) * s.simplex i k + (1 - 1 / 2) * s.simplex ilo k) =
            s.simplex i by
              funext k
              rw [hx i hxo]
              ring]
          exact hv.2) (by
      intro j hj hnl
      have g : j = ilo := by
        by_contra g
        exact hnl (mem_milo.2 ⟨hj, g⟩)
      subst g
      dsimp only
      rw [inflated_half h.box.1 hi hi, if_pos rfl]
      exact ⟨h.eq j hi, h.rows j hi⟩)
  exact ⟨hl, hb, f2.trans h.temp, fun i hi => (key.2 i hi).2, fun i hi => (key.2 i hi).1, key.1⟩

theorem exact_move {c : Conf α} {s : St α} (h : Exact c s) {r : Rank α}
    (hr : IsRank s.values c.n r) (hns : r.ylo ≠ r.yhi) (hd : Distinct c (move c s r).1) :
    Exact c (move c s r).1 := by
  obtain ⟨r1, r2, r3, r4, r5, -⟩ := hr
  have hx : s.xopt ≠ .view r.ihi := by
    intro e
    have hv := h.view
    unfold View at hv
    rw [e] at hv
    apply hns
    apply le_antisymm
    · rw [r4]; exact (r5 _ r2).1
    · rw [r4, h.eq _ r2, hv.2, r3]; exact lowest_values h.low r1
  have hne : r.ilo ≠ r.ihi := by
    intro e
    apply hns
    rw [r3, r4, e]
  have hd0 : Distinct c s := distinct_mono (move_facts c s h.temp r).2.2.2 hd
  obtain ⟨a1, a2, a3, a4, a5⟩ := exact_trial h r2 hx r.yhi (-1)
  unfold move
  dsimp only
  by_cases g1 : (trialStep c s r.ihi r.yhi (-1)).2 < r.ylo
  · rw [if_pos g1]; exact (exact_trial a1 r2 a2 _ _).1
  · rw [if_neg g1]
    by_cases g2 : r.ynhi ≤ (trialStep c s r.ihi r.yhi (-1)).2
    · rw [if_pos g2]
      obtain ⟨b1, b2, b3, b4, b5⟩ := exact_trial a1 r2 a2 r.yhi (1 / 2)
      by_cases g3 : r.yhi ≤
          (trialStep c (trialStep c s r.ihi r.yhi (-1)).1 r.ihi r.yhi (1 / 2)).2
      · rw [if_pos g3]
        have := exact_shrink b1 r1 (by
          intro i hxi
          have hii : i ≠ r.ihi := fun e => b2 (by rw [hxi, e])
          obtain ⟨x1, y1⟩ := b5 i hxi
          obtain ⟨x2, y2⟩ := a5 i x1
          have hv := h.view
          unfold View at hv
          rw [x2] at hv
          rw [b3 i hii, a3 i hii, b3 _ hne, a3 _ hne]
          apply hd0 _ (h.rows i hv.1) _ (h.rows _ r1)
          have hlo : s.values r.ilo = s.fopt := by
            apply le_antisymm
            · rw [← r3, ← hv.2, ← h.eq i hv.1]; exact (r5 i hv.1).1
            · exact lowest_values h.low r1
          rw [hv.2, ← h.eq _ r1, hlo])
        exact ⟨this.low, this.box, this.temp, this.rows, this.eq, this.view⟩
      · rw [if_neg g3]; exact b1
    · rw [if_neg g2]; exact a1

/-- The state of a minimisation without annealing, callback or blow up: the values are those of the
corners, until the simplex is flat. -/
structure Sound (c : Conf α) (s : St α) : Prop where
  cold : Cold c s
  box : Box c s
  rows : ∀ i ≤ c.n, s.simplex i ∈ s.seen
  le : ∀ i ≤ c.n, c.f (s.simplex i) ≤ s.values i
  view : View c s
  atBest : ∀ i, s.xopt = .view i → ∃ j ≤ c.n, s.values j = s.fopt
  phase : (∀ i ≤ c.n, s.values i = c.f (s.simplex i)) ∨ (0 < s.iter ∧ Flat c s)

theorem sound_of_exact {c : Conf α} {s : St α} (h : Exact c s) (hc : Cold c s) : Sound c s := by
  refine ⟨hc, h.box, h.rows, fun i hi => (h.eq i hi).ge, h.view, ?_, Or.inl h.eq⟩
  intro i hx
  have hv := h.view
  unfold View at hv
  rw [hx] at hv
  exact ⟨i, hv.1, (h.eq i hv.1).trans hv.2⟩

theorem sound_swap {c : Conf α} {s : St α} (hn : 1 ≤ c.n) (h : Sound c s) {i : ℕ} (hi : i ≤ c.n)
    (hmin : ∀ j ≤ c.n, s.values i ≤ s.values j) :
    (∀ j ≤ c.n, (swapBest s i).simplex j ∈ s.seen) ∧
    (∀ j ≤ c.n, c.f ((swapBest s i).simplex j) ≤ (swapBest s i).values j) ∧
    View c (swapBest s i) ∧
    ∀ j, s.xopt = .view j → ∃ j ≤ c.n, (swapBest s i).values j = s.fopt := by
  by_cases g : 0 < i
  · have hv : ∀ j, (swapBest s i).values j =
        if j = i then s.values 0 else if j = 0 then s.values i else s.values j := by
      intro j
      unfold swapBest
      rw [if_pos g]
      dsimp only
      rw [Function.update_apply, Function.update_apply]
    have hr : ∀ j, (swapBest s i).simplex j = if j = 0 then s.simplex i else s.simplex j := by
      intro j
      unfold swapBest
      rw [if_pos g]
      dsimp only
      rw [Function.update_apply]
    obtain ⟨-, -, w3, w4, w5⟩ := swap_facts s i
    refine ⟨?_, ?_, ?_, ?_⟩
    · intro j hj
      rw [hr]
      by_cases g0 : j = 0
      · rw [if_pos g0]; exact h.rows i hi
      · rw [if_neg g0]; exact h.rows j hj
    · intro j hj
      rw [hr, hv]
      by_cases g0 : j = 0
      · subst g0
        rw [if_pos rfl, if_neg (by omega), if_pos rfl]; exact h.le i hi
      · rw [if_neg g0]
        by_cases g1 : j = i
        · subst g1
          rw [if_pos rfl]
          exact le_trans (h.le j hi) (hmin 0 (by omega))
        · rw [if_neg g1, if_neg g0]; exact h.le j hj
    · have hvw := h.view
      unfold View at hvw ⊢
      rw [w5, w3, w4]
      cases hx : s.xopt with
      | own p => rw [hx] at hvw; exact hvw
      | view m =>
        rw [hx] at hvw
        refine ⟨hvw.1, ?_⟩
        rw [hr]
        by_cases g0 : m = 0
        · rw [if_pos g0]
          obtain ⟨j, hj, e⟩ := h.atBest m hx
          apply le_antisymm
          · rw [← e]; exact le_trans (h.le i hi) (hmin j hj)
          · exact h.cold.low.1 _ (h.rows i hi)
        · rw [if_neg g0]; exact hvw.2
    · intro m hx
      obtain ⟨j, hj, e⟩ := h.atBest m hx
      by_cases g1 : j = i
      · exact ⟨0, by omega, by rw [hv, if_neg (by omega), if_pos rfl, ← g1]; exact e⟩
      · by_cases g2 : j = 0
        · exact ⟨i, hi, by rw [hv, if_pos rfl, ← g2]; exact e⟩
        · exact ⟨j, hj, by rw [hv, if_neg g1, if_neg g2]; exact e⟩
  · have e : swapBest s i = s := by unfold swapBest; rw [if_neg g]
    rw [e]
    exact ⟨h.rows, h.le, h.view, h.atBest⟩

theorem sound_k {c : Conf α} {s : St α} (h : Sound c s) (k : ℕ) : Sound c { s with k := k } := by
  have e := rank_k c s h.cold.temp k
  refine ⟨⟨h.cold.low, h.cold.temp, ?_⟩, h.box, h.rows, h.le, h.view, h.atBest, ?_⟩
  · rw [e]; exact h.cold.go
  · rcases h.phase with h | h
    · exact Or.inl h
    · exact Or.inr ⟨h.1, by unfold Flat; rw [e]; exact h.2⟩

theorem step_seen {c : Conf α} (hn : 1 ≤ c.n) (ht : TolOk c) {s : St α} (h : Cold c s) :
    ∀ p ∈ s.seen, p ∈ (step c s).1.seen := by
  obtain ⟨w1, w2, w3, w4, w5⟩ := swap_facts { s with k := s.k + (c.n + 1) } (rank c s).ilo
  unfold step
  dsimp only
  by_cases g : stops c (rank c s) = true
  · rw [if_pos g]
    have hit : 0 < s.iter := h.go.resolve_right (by rw [g]; simp)
    by_cases g1 : |(swapBest { s with k := s.k + (c.n + 1) } (rank c s).ilo).fopt -
        (rank c s).ylo| > tol c
    · rw [if_pos g1]
      intro p hp
      unfold replace
      dsimp only
      rw [w4]; exact hp
    · rw [if_neg g1, if_neg (by rw [w2]; dsimp only; omega)]
      intro p hp
      dsimp only
      rw [w4]; exact hp
  · rw [if_neg g]
    intro p hp
    dsimp only
    rw [(after_facts c _ _).2.2.1]
    exact (move_facts c { s with k := s.k + (c.n + 1) } h.temp (rank c s)).2.2.2 p hp

theorem sound_step {c : Conf α} (hn : 1 ≤ c.n) (ht : TolOk c) (hcb : c.callback = none)
    {s : St α} (h : Sound c s) (hd : Distinct c (step c s).1) : Sound c (step c s).1 := by
  obtain ⟨hcold, hcase⟩ := cold_step hn ht h.cold
  obtain ⟨r1, r2, r3, r4, r5, r6⟩ := isRank_zero hn h.cold.temp
  have hk := sound_k h (s.k + (c.n + 1))
  obtain ⟨w1, w2, w3, w4, w5⟩ := swap_facts { s with k := s.k + (c.n + 1) } (rank c s).ilo
  by_cases g : stops c (rank c s) = true
  · have hit : 0 < s.iter := h.cold.go.resolve_right (by rw [g]; simp)
    obtain ⟨q1, q2, q3, q4⟩ := sound_swap hn hk r1 (fun j hj => r3 ▸ (r5 j hj).1)
    have hbx := box_swap hk.box r1
    by_cases g1 : |s.fopt - (rank c s).ylo| > tol c
    · have hst : step c s =
          (replace (swapBest { s with k := s.k + (c.n + 1) } (rank c s).ilo) (rank c s).ilo,
            0, false) := by
        unfold step
        dsimp only
        rw [if_pos g, if_pos]
        rw [w3]; exact g1
      rw [hst] at hcold ⊢
      have hex : ∀ i ≤ c.n, s.values i = c.f (s.simplex i) := by
        rcases h.phase with h | h
        · exact h
        · exact absurd h.2.2 (not_le.2 g1)
      have hown : ∃ p, s.xopt = .own p := by
        cases hx : s.xopt with
        | own p => exact ⟨p, rfl⟩
        | view i =>
          exfalso
          obtain ⟨j, hj, e⟩ := h.atBest i hx
          have : (rank c s).ylo = s.fopt := by
            apply le_antisymm
            · rw [← e]; exact (r5 j hj).1
            · rw [r3]; exact lowest_values h.cold.low r1
          rw [this, sub_self, abs_zero] at g1
          exact absurd (tol_pos ht) (not_le.2 g1)
      obtain ⟨p, hp⟩ := hown
      have hvp := h.view
      unfold View at hvp
      rw [hp] at hvp
      have hbest : (swapBest { s with k := s.k + (c.n + 1) } (rank c s).ilo).best = p := by
        unfold St.best
        rw [w5]
        dsimp only
        rw [hp]
      have hE : Exact c (replace (swapBest { s with k := s.k + (c.n + 1) } (rank c s).ilo)
          (rank c s).ilo) := by
        refine ⟨hcold.low, box_replace hbx _, hcold.temp, ?_, ?_, ?_⟩
        · intro i hi
          unfold replace
          dsimp only
          rw [Function.update_apply, hbest, w4]
          by_cases e : i = (rank c s).ilo
          · rw [if_pos e]; exact hvp.1
          · rw [if_neg e]; exact q1 i hi
        · intro i hi
          unfold replace
          dsimp only
          rw [Function.update_apply, Function.update_apply, hbest, w3]
          by_cases e : i = (rank c s).ilo
          · rw [if_pos e, if_pos e]; exact hvp.2.symm
          · rw [if_neg e, if_neg e]
            unfold swapBest
            by_cases g0 : 0 < (rank c s).ilo
            · rw [if_pos g0]
              dsimp only
              rw [Function.update_of_ne e, Function.update_apply, Function.update_apply]
              by_cases e0 : i = 0
              · rw [if_pos e0, if_pos e0]; exact hex _ r1
              · rw [if_neg e0, if_neg e0]; exact hex i hi
            · rw [if_neg g0]; exact hex i hi
        · unfold View replace
          dsimp only
          rw [w5, w3, w4]
          dsimp only
          rw [hp]
          exact hvp
      exact sound_of_exact hE hcold
    · have hst : step c s = (swapBest { s with k := s.k + (c.n + 1) } (rank c s).ilo, 0, true) := by
        unfold step
        dsimp only
        rw [if_pos g, if_neg, if_neg]
        · rw [w2]; dsimp only; omega
        · rw [w3]; exact g1
      have hfl : Flat c (step c s).1 := by
        rcases hcase with h | h | h
        · rw [g] at h; simp at h
        · exact absurd (not_lt.1 g1) h.2.2.2.1
        · exact h.2.2.2.1
      rw [hst] at hcold hfl ⊢
      refine ⟨hcold, hbx, fun i hi => by dsimp only; rw [w4]; exact q1 i hi, q2, q3, ?_,
        Or.inr ⟨lt_of_lt_of_eq hit w2.symm, hfl⟩⟩
      intro i hx
      dsimp only at hx
      rw [w5] at hx
      dsimp only
      rw [w3]
      exact q4 i hx
  · have hst : step c s = (after c (move c { s with k := s.k + (c.n + 1) } (rank c s)).1
        (rank c s).ihi, (move c { s with k := s.k + (c.n + 1) } (rank c s)).2, false) := by
      unfold step
      dsimp only
      rw [if_neg g]
    rw [hst] at hcold hd ⊢
    have haf : ∀ t : St α, ∀ i, after c t i = { t with iter := t.iter + 1 } := by
      intro t i
      unfold after
      rw [hcb]
    rw [haf] at hcold hd ⊢
    have hE : Exact c { s with k := s.k + (c.n + 1) } := by
      refine ⟨h.cold.low, h.box, h.cold.temp, h.rows, ?_, h.view⟩
      rcases h.phase with h | h
      · exact h
      · exact absurd h.2.1 g
    have hm := exact_move (r := rank c s) hE ⟨r1, r2, r3, r4, r5, r6⟩
      (fun e => g (stops_of_eq ht e.symm)) hd
    exact sound_of_exact ⟨hm.low, hm.box, hm.temp, hm.rows, hm.eq, hm.view⟩ hcold

theorem sound_kept {c : Conf α} (hn : 1 ≤ c.n) (ht : TolOk c) (hcb : c.callback = none) :
    Kept c fun s => Cold c s ∧ (Distinct c s → Sound c s) := by
  refine ⟨?_, ?_, ?_⟩
  · intro s h
    refine ⟨cold_sum h.1 _, fun hd => ?_⟩
    have := h.2 hd
    exact ⟨cold_sum this.cold _, this.box, this.rows, this.le, this.view, this.atBest, this.phase⟩
  · intro s h
    rw [temp_same c h.1.temp]
    exact h
  · intro s h
    exact ⟨(cold_step hn ht h.1).1, fun hd =>
      sound_step hn ht hcb (h.2 (distinct_mono (step_seen hn ht h.1) hd)) hd⟩

/-- **C63 (part).**  Without annealing and callback, with positive tolerances, when the values at
the corners of the first simplex differ by the absolute tolerance or more, and when no two
different points at which the function was computed happen to have the same value: the point that
`minimize` returns is one with value `fopt`, the lowest of all values that were computed.

Missing: annealing, flat starts and equal values.  `C63_counterexample_tie` and
`C63_counterexample_flat` show that the returned point need not have the best value then. -/
theorem C63_optimum_partial (c : Conf α) (hn : 1 ≤ c.n) (ht : TolOk c) (hlim : LimitsOk c)
    (hcb : c.callback = none) (xini size : ℕ → α) (s : St α)
    (hs : init c xini size 0 = some s) (t : α) (hc : c.abstol = some t)
    (hsp : ∃ i ≤ c.n, ∃ j ≤ c.n, t ≤ c.f (corners c xini size i) - c.f (corners c xini size j))
    (fuel : ℕ) (x : ℕ → α) (s' : St α) (ho : minimize c fuel s = some (.done x s'))
    (hd : ∀ p ∈ s'.seen, ∀ q ∈ s'.seen, c.f p = c.f q → p = q) :
    c.f x = s'.fopt ∧ ∀ p ∈ s'.seen, c.f x ≤ c.f p := by
  have hcold := cold_init hn hs hc hsp
  obtain ⟨h1, h2, h3, h4, h5, h6, i, hi, h7, h8, h9⟩ := init_spec hs
  have hE : Exact c s := by
    refine ⟨hcold.low, box_init hlim hs, h3, fun i hi => (h6 _).2 ⟨i, hi, rfl⟩, h5, ?_⟩
    unfold View
    rw [h7]
    exact ⟨(h6 _).2 ⟨i, hi, rfl⟩, h8.symm⟩
  have := minLoop_kept (sound_kept hn ht hcb) _ _ _ _
    ⟨hcold, fun _ => sound_of_exact hE hcold⟩ ho
  have hS := this.2 hd
  have hx := minLoop_done _ _ _ _ _ ho
  have hb := view_best hS.view
  have e : c.f x = s'.fopt := by rw [hx]; exact hb
  refine ⟨e, fun p hp => ?_⟩
  rw [e]
  exact hS.cold.low.1 p hp

/-! ## The geometry of the moves -/

/-- The mean of the other corners. -/
def centroid (n : ℕ) (simplex : ℕ → ℕ → α) (ihi : ℕ) : ℕ → α := fun k =>
  (∑ i ∈ (Finset.range (n + 1)).erase ihi, simplex i k) / n

theorem total_eq (n : ℕ) (simplex : ℕ → ℕ → α) (k : ℕ) :
    total n simplex k = ∑ i ∈ Finset.range (n + 1), simplex i k := by
  unfold total
  induction n with
  | zero => simp
  | succ n ih =>
    rw [List.range_succ, List.map_append, List.sum_append, ih, Finset.sum_range_succ _ (n + 1)]
    simp

/-- **C63.**  Without limits a trial step with factor `g` looks at the point on the line through the
worst corner and the mean of the other corners, `g` times as far from that mean as the worst corner
is: it reflects for `-1`, goes twice as far for `2` and halfway for `1/2`. -/
theorem C63_trial (c : Conf α) (hn : 1 ≤ c.n) (s : St α) (hs : s.sum = total c.n s.simplex)
    (hl : ∀ k, c.lo k = none ∧ c.hi k = none) (ihi : ℕ) (hi : ihi ≤ c.n) (g : α) (k : ℕ) :
    trial c s ihi g k = centroid c.n s.simplex ihi k +
      g * (s.simplex ihi k - centroid c.n s.simplex ihi k) := by
  have hn0 : (c.n : α) ≠ 0 := by
    have : (0 : α) < c.n := by exact_mod_cast hn
    exact this.ne'
  have e : s.sum k = (∑ i ∈ (Finset.range (c.n + 1)).erase ihi, s.simplex i k) +
      s.simplex ihi k := by
    rw [hs, total_eq]
    exact (Finset.sum_erase_add _ _ (Finset.mem_range.2 (by omega))).symm
  unfold trial stay
  dsimp only
  rw [(hl k).1, (hl k).2]
  dsimp only
  rw [e]
  unfold centroid
  field_simp
  ring

/-- **C63.**  A trial step and a shrink keep `sum` equal to the sum of the corners. -/
theorem C63_sum (c : Conf α) (s : St α) (hs : s.sum = total c.n s.simplex) (ihi : ℕ)
    (hi : ihi ≤ c.n) (y g : α) :
    (trialStep c s ihi y g).1.sum = total c.n (trialStep c s ihi y g).1.simplex ∧
    (inflate c s ihi g).1.sum = total c.n (inflate c s ihi g).1.simplex := by
  refine ⟨?_, rfl⟩
  have key : ∀ p : ℕ → α, (fun k => s.sum k + (p k - s.simplex ihi k)) =
      total c.n (Function.update s.simplex ihi p) := by
    intro p
    funext k
    have hm : ihi ∈ Finset.range (c.n + 1) := Finset.mem_range.2 (by omega)
    rw [hs, total_eq, total_eq, ← Finset.sum_erase_add _ _ hm,
      ← Finset.sum_erase_add _ (fun i => Function.update s.simplex ihi p i k) hm,
      Function.update_self]
    have : ∑ i ∈ (Finset.range (c.n + 1)).erase ihi, Function.update s.simplex ihi p i k =
        ∑ i ∈ (Finset.range (c.n + 1)).erase ihi, s.simplex i k := by
      apply Finset.sum_congr rfl
      intro i hi
      rw [Function.update_of_ne (Finset.ne_of_mem_erase hi)]
    rw [this]
    ring
  unfold trialStep
  dsimp only
  by_cases g1 : c.f (trial c s ihi g) < s.fopt
  · simp only [if_pos g1]
    by_cases g2 : c.f (trial c s ihi g) - s.temp * c.e s.k < y
    · simp only [if_pos g2]; exact key _
    · simp only [if_neg g2]; exact hs
  · simp only [if_neg g1]
    by_cases g2 : c.f (trial c s ihi g) - s.temp * c.e s.k < y
    · simp only [if_pos g2]; exact key _
    · simp only [if_neg g2]; exact hs

/-- **C63.**  Annealing: whichever corner is taken for the worst one and whatever the random numbers
(which `-log( rand )` makes positive), a trial point that is better than that corner always takes its
place.  A worse one takes its place when it is worse by less than the temperature times the sum of
the two random numbers that were drawn for the corner and for the trial, and only then;  without
temperature never. -/
theorem C63_annealing (c : Conf α) (hn : 1 ≤ c.n) (s : St α) (he : ∀ k, 0 ≤ c.e k)
    (ht : 0 ≤ s.temp) (k : ℕ) (g : α) :
    let ihi := (rank c s).ihi
    let p := trial c s ihi g
    let s' := (trialStep c { s with k := k } ihi (rank c s).yhi g).1
    let replaced := s'.simplex = Function.update s.simplex ihi p ∧
      s'.values = Function.update s.values ihi (c.f p)
    let kept := s'.simplex = s.simplex ∧ s'.values = s.values
    (c.f p < s.values ihi → replaced) ∧
    (c.f p - s.values ihi < s.temp * (c.e (s.k + ihi) + c.e k) → replaced) ∧
    (s.temp * (c.e (s.k + ihi) + c.e k) ≤ c.f p - s.values ihi → kept) ∧
    (s.temp = 0 → s.values ihi ≤ c.f p → kept) := by
  intro ihi p s' replaced kept
  have hr := (isRank_rank c s hn).2.2.2.1
  have hy : (rank c s).yhi = s.values ihi + s.temp * c.e (s.k + ihi) := hr
  have hp : trial c { s with k := k } ihi g = p := rfl
  have up : c.f p - s.temp * c.e k < (rank c s).yhi → replaced := by
    intro h
    constructor
    · show (trialStep c { s with k := k } ihi (rank c s).yhi g).1.simplex = _
      unfold trialStep
      dsimp only
      rw [hp]
      split <;> dsimp only <;> rw [if_pos h]
    · show (trialStep c { s with k := k } ihi (rank c s).yhi g).1.values = _
      unfold trialStep
      dsimp only
      rw [hp]
      split <;> dsimp only <;> rw [if_pos h]
  have down : ¬ c.f p - s.temp * c.e k < (rank c s).yhi → kept := by
    intro h
    constructor
    · show (trialStep c { s with k := k } ihi (rank c s).yhi g).1.simplex = _
      unfold trialStep
      dsimp only
      rw [hp]
      split <;> dsimp only <;> rw [if_neg h]
    · show (trialStep c { s with k := k } ihi (rank c s).yhi g).1.values = _
      unfold trialStep
      dsimp only
      rw [hp]
      split <;> dsimp only <;> rw [if_neg h]
  have a1 := mul_nonneg ht (he k)
  have a2 := mul_nonneg ht (he (s.k + ihi))
  refine ⟨fun h => up ?_, fun h => up ?_, fun h => down ?_, fun h1 h2 => down ?_⟩
  · rw [hy]; linarith
  · rw [hy]; rw [mul_add] at h; linarith
  · rw [hy]; rw [mul_add] at h; push Not; linarith
  · rw [hy, h1]; push Not; simpa using h2

/-- A valley with a hill, a temperature and random numbers: the third corner has value 4, the
reflected point 5, and it is taken because the temperature is 2 and both random numbers are 1. -/
example : ∃ (c : Conf ℚ) (s : St ℚ), 1 ≤ c.n ∧ (∀ k, 0 ≤ c.e k) ∧ 0 < s.temp ∧
    s.values (rank c s).ihi < c.f (trial c s (rank c s).ihi (-1)) ∧
    c.f (trial c s (rank c s).ihi (-1)) - s.values (rank c s).ihi <
      s.temp * (c.e (s.k + (rank c s).ihi) + c.e (s.k + 3)) := by
  refine ⟨{ f := fun p => if p 0 = 3 then 5 else 4, n := 2, abstol := some 1, reltol := none, cooling := 1, e := fun _ => 1 },
    { simplex := fun i k => if i = 2 then (if k = 0 then 1 else 0) else (if k = 0 then 2 else i)
      values := fun i => if i = 2 then 4 else i
      sum := fun k => if k = 0 then 5 else 1
      xopt := .view 0
      fopt := 0
      iter := 0
      temp := 2
      k := 0
      seen := []
      expanded := false }, by decide, fun _ => by norm_num, by norm_num, ?_, ?_⟩ <;> decide +kernel

/-- With a function that is the same everywhere and no annealing: nothing improves. -/
structure Stuck (c : Conf α) (v : α) (s : St α) : Prop where
  val : ∀ i ≤ c.n, s.values i = v
  best : s.fopt = v
  iter : s.iter = 0
  temp : s.temp = 0

theorem stuck_fold {c : Conf α} {v : α} (hf : ∀ p, c.f p = v) (l : List ℕ) : ∀ q : St α × α,
    Stuck c v q.1 → Stuck c v (l.foldl (inflateValue c) q).1 := by
  induction l with
  | nil => intro q h; exact h
  | cons i l ih =>
    intro q h
    refine ih _ ?_
    have hv : ∀ j ≤ c.n, Function.update q.1.values i v j = v := by
      intro j hj
      rw [Function.update_apply]
      by_cases g : j = i
      · rw [if_pos g]
      · rw [if_neg g]; exact h.val j hj
    unfold inflateValue
    dsimp only
    rw [hf]
    by_cases g : v < q.2
    · rw [if_pos g, if_neg (by rw [h.best]; exact lt_irrefl _)]
      exact ⟨hv, h.best, h.iter, h.temp⟩
    · rw [if_neg g]
      exact ⟨hv, h.best, h.iter, h.temp⟩

theorem stuck_step {c : Conf α} (hn : 1 ≤ c.n) (ht : TolOk c) {v : α} (hf : ∀ p, c.f p = v)
    {s : St α} (h : Stuck c v s) : Stuck c v (step c s).1 ∧ (step c s).2.2 = false := by
  obtain ⟨r1, r2, r3, r4, -⟩ := isRank_zero hn h.temp
  have hlo : (rank c s).ylo = v := by rw [r3]; exact h.val _ r1
  have hhi : (rank c s).yhi = v := by rw [r4]; exact h.val _ r2
  obtain ⟨w1, w2, w3, -, -⟩ := swap_facts { s with k := s.k + (c.n + 1) } (rank c s).ilo
  have hst : step c s = ({ (inflate c (swapBest { s with k := s.k + (c.n + 1) } (rank c s).ilo)
      (rank c s).ilo 10).1 with expanded := true }, c.n, false) := by
    unfold step
    dsimp only
    rw [if_pos (stops_of_eq ht (hhi.trans hlo.symm)), if_neg, if_pos]
    · rw [w2]; exact h.iter
    · rw [w3, hlo]
      dsimp only
      rw [h.best, sub_self, abs_zero]
      exact not_lt.2 (tol_pos ht)
  rw [hst]
  refine ⟨?_, rfl⟩
  have hsw : Stuck c v (swapBest { s with k := s.k + (c.n + 1) } (rank c s).ilo) := by
    refine ⟨?_, w3.trans h.best, w2.trans h.iter, w1.trans h.temp⟩
    intro j hj
    unfold swapBest
    by_cases g : 0 < (rank c s).ilo
    · rw [if_pos g]
      dsimp only
      rw [Function.update_apply, Function.update_apply]
      by_cases g1 : j = (rank c s).ilo
      · rw [if_pos g1]; exact h.val 0 (by omega)
      · rw [if_neg g1]
        by_cases g2 : j = 0
        · rw [if_pos g2]; exact h.val _ r1
        · rw [if_neg g2]; exact h.val j hj
    · rw [if_neg g]; exact h.val j hj
  have := @stuck_fold α _ _ _ c v hf ((List.range (c.n + 1)).filter (· ≠ (rank c s).ilo))
    ({ swapBest { s with k := s.k + (c.n + 1) } (rank c s).ilo with
      simplex := inflated c (swapBest { s with k := s.k + (c.n + 1) }
        (rank c s).ilo).simplex (rank c s).ilo 10 },
      (swapBest { s with k := s.k + (c.n + 1) } (rank c s).ilo).values (rank c s).ilo)
    ⟨hsw.val, hsw.best, hsw.iter, hsw.temp⟩
  exact ⟨this.val, this.best, this.iter, this.temp⟩

theorem stuck_loop {c : Conf α} (hn : 1 ≤ c.n) (ht : TolOk c) {v : α} (hf : ∀ p, c.f p = v)
    (maxit : ℕ) (hm : 0 < maxit) (fuel : ℕ) : ∀ (s : St α) (t : ℕ), Stuck c v s →
      tempLoop c maxit fuel s t = none := by
  induction fuel with
  | zero => intro s t _; rfl
  | succ fuel ih =>
    intro s t h
    unfold tempLoop
    obtain ⟨h1, h2⟩ := stuck_step hn ht hf h
    rw [if_pos (by rw [h.iter]; exact hm)]
    dsimp only
    rw [h2]
    simpa using ih _ _ h1

/-- **C65 does not hold for a flat start**: a function that is the same everywhere makes
`minimize` blow up the simplex for ever, whatever the number of iterations that is allowed. -/
theorem C65_counterexample_flat (c : Conf α) (hn : 1 ≤ c.n) (ht : TolOk c) (v : α)
    (hf : ∀ p, c.f p = v) (hm : 0 < c.maxiter) (xini size : ℕ → α) (s : St α)
    (hs : init c xini size 0 = some s) (fuel : ℕ) : minimize c fuel s = none := by
  obtain ⟨-, h2, h3, -, h5, -, i, -, -, h8, -⟩ := init_spec hs
  have h : Stuck c v s :=
    ⟨fun i hi => (h5 i hi).trans (hf _), h8.trans (hf _), h2, h3⟩
  unfold minimize
  rw [if_pos h3, mul_one]
  cases fuel with
  | zero => rfl
  | succ fuel =>
    unfold minLoop
    rw [if_pos (by rw [h2]; exact hm)]
    unfold temperatureStep
    have h' : Stuck c v { s with sum := total c.n s.simplex } := ⟨h.val, h.best, h.iter, h.temp⟩
    rw [if_pos h3, stuck_loop hn ht hf _ (by omega) _ _ _ h']
    rfl

end Field

/-! ## Examples and counterexamples -/

/-- The start `[1,3]`. -/
def x13 : ℕ → ℚ := fun k => if k = 0 then 1 else 3

/-- A paraboloid with its minimum at `[-2,2]`, absolute tolerance 2. -/
def bowl : Conf ℚ :=
  { f := fun p => (p 0 + 2) * (p 0 + 2) + 2 * ((p 1 - 2) * (p 1 - 2))
    n := 2
    abstol := some 2
    reltol := none
    cooling := 1 }

theorem distinct_of_nodup {c : Conf ℚ} {l : List (ℕ → ℚ)} (h : (l.map c.f).Nodup) :
    ∀ p ∈ l, ∀ q ∈ l, c.f p = c.f q → p = q := by
  intro p hp q hq e
  exact List.inj_on_of_nodup_map h hp hq e

/-- The hypotheses of `C63_optimum_partial`, `C63_best_value`, `C65_ends_partial` can all be met:
the minimisation of the paraboloid ends, after five moves and ten computations of the function, all
with different values, at its minimum. -/
example : ∃ s x s', init bowl x13 (fun _ => 1) 0 = some s ∧ 1 ≤ bowl.n ∧ TolOk bowl ∧
    LimitsOk bowl ∧ bowl.callback = none ∧ bowl.abstol = some 2 ∧
    (∃ i ≤ bowl.n, ∃ j ≤ bowl.n, 2 ≤ bowl.f (corners bowl x13 (fun _ => 1) i) -
      bowl.f (corners bowl x13 (fun _ => 1) j)) ∧
    minimize bowl 8 s = some (.done x s') ∧
    (∀ p ∈ s'.seen, ∀ q ∈ s'.seen, bowl.f p = bowl.f q → p = q) ∧
    s'.seen.length = 10 ∧ x 0 = -2 ∧ x 1 = 2 ∧ s'.iter = 5 := by
  have key : (match init bowl x13 (fun _ => 1) 0 with
      | none => false
      | some s =>
        match minimize bowl 8 s with
        | some (.done x s') => decide ((s'.seen.map bowl.f).Nodup ∧ s'.seen.length = 10 ∧
            x 0 = -2 ∧ x 1 = 2 ∧ s'.iter = 5)
        | _ => false) = true := by decide +kernel
  cases h1 : init bowl x13 (fun _ => 1) 0 with
  | none => rw [h1] at key; simp at key
  | some s =>
    rw [h1] at key
    dsimp only at key
    cases h2 : minimize bowl 8 s with
    | none => rw [h2] at key; simp at key
    | some o =>
      rw [h2] at key
      cases o with
      | failed s' => simp at key
      | done x s' =>
        simp only [decide_eq_true_eq] at key
        obtain ⟨k1, k2, k3, k4, k5⟩ := key
        refine ⟨s, x, s', rfl, by decide, ?_, ?_, rfl, rfl, ⟨0, by decide, 2, by decide, ?_⟩, h2,
          distinct_of_nodup k1, k2, k3, k4, k5⟩
        · intro t ht
          simp [bowl] at ht
          subst ht
          norm_num
        · intro k l h hl
          simp [bowl] at hl
        · decide +kernel

/-- A function with equal values at some points. -/
def tieF (p : ℕ → ℚ) : ℚ :=
  if p 0 = 2 ∧ p 1 = 3 then 1
  else if p 0 = 1 ∧ p 1 = 4 then 1
  else if p 0 = 3 / 2 ∧ p 1 = 7 / 2 then 0
  else if p 0 = 3 / 2 ∧ p 1 = 3 then 0
  else if p 0 = 1 ∧ p 1 = 7 / 2 then 1
  else if p 0 = 7 / 4 ∧ p 1 = 3 then 0
  else if p 0 = 3 / 2 ∧ p 1 = 13 / 4 then 1 / 2
  else 2

def tieC : Conf ℚ := { f := tieF, n := 2, abstol := some 1, reltol := none, cooling := 1 }

/-- What comes out of a complete run: returned point (two coordinates), its value, the best
value, and whether the first simplex was expanded. -/
def report (c : Conf ℚ) (fuel : ℕ) : Option (ℚ × ℚ × ℚ × ℚ × Bool) :=
  match (init c x13 (fun _ => 1) 0).bind (minimize c fuel) with
  | some (.done x s) => some (x 0, x 1, c.f x, s.fopt, s.expanded)
  | _ => none

/-- **The full C63 fails when values are equal**: the first simplex is not flat and there is no
annealing, but the point that is returned has value 1/2 although the best value found is 0.  In the
first shrink the best point was remembered as a view of a corner of the simplex (line 568);  in the
second shrink, around another corner with the same value, that corner moved. -/
theorem C63_counterexample_tie :
    report tieC 8 = some (3 / 2, 13 / 4, 1 / 2, 0, false) := by decide +kernel

/-- A function that is flat at the start. -/
def flatF (p : ℕ → ℚ) : ℚ :=
  if p 0 = 2 ∧ p 1 = 3 then 1 / 2
  else if p 0 = 1 ∧ p 1 = 4 then 1 / 2
  else if p 0 = 1 ∧ p 1 = 3 then 1
  else if p 0 = -8 ∧ p 1 = 13 then 0
  else if p 0 = -8 ∧ p 1 = 3 then 0
  else if p 0 = -8 ∧ p 1 = 103 then 1
  else if p 0 = -8 ∧ p 1 = -97 then 3
  else if p 0 = -8 ∧ p 1 = 53 then 1 / 2
  else 2

/-- **The full C63 fails for a flat start** too: value 1/2 is returned, 0 was the best. -/
theorem C63_counterexample_flat :
    report { f := flatF, n := 2, abstol := some 1, reltol := none, cooling := 1 } 8 =
      some (-8, 53, 1 / 2, 0, true) := by decide +kernel

/-- A wide paraboloid with its minimum at `[10,15]`, while both parameters have limits 0 and 5. -/
def wide : Conf ℚ :=
  { f := fun p => (2 * ((p 0 - 10) * (p 0 - 10)) + (p 1 - 15) * (p 1 - 15)) / 100
    n := 2
    lo := fun _ => some 0
    hi := fun _ => some 5
    abstol := some 3
    reltol := none
    cooling := 1 }

/-- **The full C64 fails**: the minimum is sought between the limits 0 and 5, from `[1,3]`.  The
function varies less than the tolerance over the first simplex, so that is expanded (line 469-472),
and `inflateSimplex` compares a corner with itself (line 555-558).  The function gets computed outside
the limits and the point that is returned, `[7/2,11]`, is outside too. -/
theorem C64_counterexample :
    report wide 10 = some (7 / 2, 11, 201 / 200, 201 / 200, true) ∧ LimitsOk wide ∧
    (∀ k, wide.lo k = some 0 ∧ wide.hi k = some 5) := by
  refine ⟨by decide +kernel, ?_, fun k => ⟨rfl, rfl⟩⟩
  intro k l h hl hh
  simp [wide] at hl hh
  subst hl hh
  norm_num

/-- With limits, and a simplex that is not flat, the hypotheses of `C64_limits_partial` are met:
the minimisation ends and the simplex has not been expanded. -/
example : (report { wide with abstol := some (1 / 10) } 40).map (fun q => q.2.2.2.2) =
    some false := by decide +kernel

/-- **C65: a proper start that is refused.**  `checkSimplex` compares a corner with element `i` of
corner 0, instead of comparing the corners.  For the start `[1,2]` with steps of 1, which makes the
corners `[2,2]`, `[1,3]`, `[1,2]`, the constructor raises ValueError. -/
theorem C65_counterexample_start (f : (ℕ → ℚ) → ℚ) :
    let c : Conf ℚ := { f := f, n := 2, abstol := some 1, reltol := none, cooling := 1 }
    (corners c (fun k => if k = 0 then 1 else 2) (fun _ => 1) 0 0 = 2 ∧
     corners c (fun k => if k = 0 then 1 else 2) (fun _ => 1) 0 1 = 2 ∧
     corners c (fun k => if k = 0 then 1 else 2) (fun _ => 1) 1 0 = 1 ∧
     corners c (fun k => if k = 0 then 1 else 2) (fun _ => 1) 1 1 = 3 ∧
     corners c (fun k => if k = 0 then 1 else 2) (fun _ => 1) 2 0 = 1 ∧
     corners c (fun k => if k = 0 then 1 else 2) (fun _ => 1) 2 1 = 2) ∧
    init c (fun k => if k = 0 then 1 else 2) (fun _ => 1) 0 = none := by
  refine ⟨⟨?_, ?_, ?_, ?_, ?_, ?_⟩, ?_⟩
  · simp [corners, stay, startAt]; norm_num
  · simp [corners, stay, startAt]
  · simp [corners, stay, startAt]
  · simp [corners, stay, startAt]; norm_num
  · simp [corners, stay, startAt]
  · simp [corners, stay, startAt]
  · simp [init, degenerate, corners, stay, startAt, List.range_succ]
    norm_num

/-- **C65: a degenerate start that is accepted**: steps `[0,1]` make two equal corners. -/
theorem C65_counterexample_degenerate :
    (init bowl x13 (fun k => if k = 0 then 0 else 1) 0).map (fun s =>
      (s.simplex 0 0, s.simplex 0 1, s.simplex 2 0, s.simplex 2 1)) = some (1, 3, 1, 3) := by
  decide +kernel

end Verif.Amoeba
