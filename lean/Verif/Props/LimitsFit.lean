import Verif.LimitsFit
import Verif.Props.Fitters

/-!
# C111: a fit within limits
-/

noncomputable section

namespace BF.LimitsFit

open BF.Fitters Finset

/-- The value `v` is inside the limits. -/
def Within (lim : Option ℝ × Option ℝ) (v : ℝ) : Prop :=
  (∀ lo, lim.1 = some lo → lo ≤ v) ∧ ∀ hi, lim.2 = some hi → v ≤ hi

/-- The value `v` is beyond the limit `b`. -/
def Beyond (lim : Option ℝ × Option ℝ) (v b : ℝ) : Prop :=
  (lim.1 = some b ∧ v < b) ∨ (lim.2 = some b ∧ b < v)

/-- The low limit is not above the high limit. -/
def Ordered (lim : Option ℝ × Option ℝ) : Prop :=
  ∀ lo hi, lim.1 = some lo → lim.2 = some hi → lo ≤ hi

/-- What is asked of the method `fit`, for an objective `chi`: it finds the minimum, among the parameters that have the
values that are kept. It leaves alone what was set by the constructor. -/
structure Minimizes (np : ℕ) (chi : (ℕ → ℝ) → ℝ) (fit : Fitter → Option (List (ℤ × ℝ)) → Option Fitter) :
    Prop where
  fitted : ∀ s s', s.nnorm = 0 → s.fitIndex = none → fit s none = some s' → ∀ q, chi s'.params ≤ chi q
  kept : ∀ s s' keep, s.nnorm = 0 → ProperKeep np keep → fit s (some keep) = some s' →
    Agrees keep s'.params ∧ ∀ q, Agrees keep q → chi s'.params ≤ chi q
  constructor : ∀ p0 s' keep, ProperKeep np keep → fit (initFitter np p0 (some keep)) none = some s' →
    Agrees keep s'.params ∧ ∀ q, Agrees keep q → chi s'.params ≤ chi q
  same : ∀ s s' keep, fit s keep = some s' → s'.fitIndex = s.fitIndex ∧ s'.nnorm = s.nnorm

/-! ## The loop -/

theorem transgressed_iff (lim : Option ℝ × Option ℝ) (h : Ordered lim) (v b : ℝ) :
    transgressed lim v = some b ↔ Beyond lim v b := by
  obtain ⟨lo, hi⟩ := lim
  rcases lo with _ | lo <;> rcases hi with _ | hi <;> simp only [transgressed, Beyond]
  · simp
  · by_cases hv : v > hi
    · rw [if_pos hv]
      simp only [Option.some.injEq, reduceCtorEq, false_and, false_or]
      constructor
      · rintro rfl
        exact ⟨rfl, hv⟩
      · exact fun h => h.1
    · rw [if_neg hv]
      simp only [Option.some.injEq, reduceCtorEq, false_and, false_or, false_iff]
      rintro ⟨rfl, h⟩
      exact hv h
  · by_cases hv : v < lo
    · rw [if_pos hv]
      simp only [Option.some.injEq, reduceCtorEq, false_and, or_false]
      constructor
      · rintro rfl
        exact ⟨rfl, hv⟩
      · exact fun h => h.1
    · rw [if_neg hv]
      simp only [Option.some.injEq, reduceCtorEq, false_and, or_false, false_iff]
      rintro ⟨rfl, h⟩
      exact hv h
  · have ho := h lo hi rfl rfl
    by_cases hv : v < lo
    · rw [if_pos hv]
      simp only [Option.some.injEq]
      constructor
      · rintro rfl
        exact Or.inl ⟨rfl, hv⟩
      · rintro (h | ⟨rfl, h⟩)
        · exact h.1
        · linarith
    · rw [if_neg hv]
      by_cases hv2 : v > hi
      · rw [if_pos hv2]
        simp only [Option.some.injEq]
        constructor
        · rintro rfl
          exact Or.inr ⟨rfl, hv2⟩
        · rintro (⟨rfl, h⟩ | h)
          · exact absurd h hv
          · exact h.1
      · rw [if_neg hv2]
        simp only [Option.some.injEq, reduceCtorEq, false_iff]
        rintro (⟨rfl, h⟩ | ⟨rfl, h⟩)
        · exact hv h
        · exact hv2 h

theorem transgressed_none (lim : Option ℝ × Option ℝ) (v : ℝ) (h : Within lim v) :
    transgressed lim v = none := by
  obtain ⟨lo, hi⟩ := lim
  obtain ⟨h1, h2⟩ := h
  rcases lo with _ | lo <;> rcases hi with _ | hi <;> simp only [transgressed]
  · rw [if_neg (not_lt.2 (h2 hi rfl))]
  · rw [if_neg (not_lt.2 (h1 lo rfl))]
  · rw [if_neg (not_lt.2 (h1 lo rfl)), if_neg (not_lt.2 (h2 hi rfl))]

theorem within_of_none (lim : Option ℝ × Option ℝ) (h : Ordered lim) (v : ℝ) (hn : transgressed lim v = none) :
    Within lim v := by
  constructor
  · intro lo hlo
    by_contra hc
    have := (transgressed_iff lim h v lo).2 (Or.inl ⟨hlo, not_le.1 hc⟩)
    rw [hn] at this
    simp at this
  · intro hi hhi
    by_contra hc
    have := (transgressed_iff lim h v hi).2 (Or.inr ⟨hhi, not_le.1 hc⟩)
    rw [hn] at this
    simp at this

theorem mem_setKey (l : List (ℤ × ℝ)) (hnd : (l.map Prod.fst).Nodup) (k : ℤ) (v : ℝ) (kv : ℤ × ℝ) :
    kv ∈ setKey l k v ↔ kv = (k, v) ∨ (kv ∈ l ∧ kv.1 ≠ k) := by
  induction l with
  | nil => simp [setKey]
  | cons a l ih =>
    obtain ⟨j, u⟩ := a
    rw [List.map_cons, List.nodup_cons] at hnd
    simp only [setKey]
    by_cases hj : j = k
    · rw [if_pos hj]
      subst hj
      simp only [List.mem_cons]
      constructor
      · rintro (h | h)
        · exact Or.inl h
        · exact Or.inr ⟨Or.inr h, fun e => hnd.1 (List.mem_map.2 ⟨kv, h, e⟩)⟩
      · rintro (h | ⟨h | h, hne⟩)
        · exact Or.inl h
        · subst h
          exact absurd rfl hne
        · exact Or.inr h
    · rw [if_neg hj]
      simp only [List.mem_cons, ih hnd.2]
      constructor
      · rintro (h | h | ⟨h, hne⟩)
        · subst h
          exact Or.inr ⟨Or.inl rfl, hj⟩
        · exact Or.inl h
        · exact Or.inr ⟨Or.inr h, hne⟩
      · rintro (h | ⟨h | h, hne⟩)
        · exact Or.inr (Or.inl h)
        · exact Or.inl h
        · exact Or.inr (Or.inr ⟨h, hne⟩)

theorem setKey_keys (l : List (ℤ × ℝ)) (hnd : (l.map Prod.fst).Nodup) (k : ℤ) (v : ℝ) :
    ((setKey l k v).map Prod.fst).Nodup := by
  induction l with
  | nil => simp [setKey]
  | cons a l ih =>
    obtain ⟨j, u⟩ := a
    have hnd' := hnd
    rw [List.map_cons, List.nodup_cons] at hnd
    simp only [setKey]
    by_cases hj : j = k
    · rw [if_pos hj]
      exact hnd'
    · rw [if_neg hj, List.map_cons, List.nodup_cons]
      refine ⟨?_, ih hnd.2⟩
      intro hm
      obtain ⟨kv, hkv, e⟩ := List.mem_map.1 hm
      rcases (mem_setKey l hnd.2 k v kv).1 hkv with h | ⟨h, _⟩
      · subst h
        exact hj e.symm
      · exact hnd.1 (List.mem_map.2 ⟨kv, h, e⟩)

theorem setKey_proper (np : ℕ) (l : List (ℤ × ℝ)) (h : ProperKeep np l) (k : ℤ) (hk : 0 ≤ k ∧ k < np) (v : ℝ) :
    ProperKeep np (setKey l k v) := by
  refine ⟨setKey_keys l h.1 k v, ?_⟩
  intro kv hkv
  rcases (mem_setKey l h.1 k v kv).1 hkv with e | ⟨hm, _⟩
  · subst e
    exact hk
  · exact h.2 kv hm

/-- What the loop does, for the parameters with the numbers `idx`. -/
theorem loop_spec (np : ℕ) (lims : ℕ → Option ℝ × Option ℝ) (idx : List ℤ) (hnd : idx.Nodup)
    (hr : ∀ k ∈ idx, 0 ≤ k ∧ k < np) (l : Loop) (hf : ProperKeep np l.fix) :
    let e := idx.foldl (turn np lims) l
    ProperKeep np e.fix ∧
    (∀ kv, kv ∈ e.fix ↔ (kv.1 ∈ idx ∧ transgressed (lims kv.1.toNat) (l.params kv.1.toNat) = some kv.2) ∨
      (kv ∈ l.fix ∧ ¬ (kv.1 ∈ idx ∧ (transgressed (lims kv.1.toNat) (l.params kv.1.toNat)).isSome))) ∧
    (e.ool = l.ool ↔ ∀ k ∈ idx, transgressed (lims k.toNat) (l.params k.toNat) = none) ∧
    l.ool ≤ e.ool ∧ (e.ool = l.ool → e = l) := by
  induction idx generalizing l with
  | nil => simp [hf]
  | cons k idx ih =>
    have hk := hr k (by simp)
    have hpy : pyIdx np k = k.toNat := pyIdx_nonneg np k hk.1
    rw [List.nodup_cons] at hnd
    simp only [List.foldl_cons]
    rcases ht : transgressed (lims k.toNat) (l.params k.toNat) with _ | v
    · have he : turn np lims l k = l := by
        unfold turn
        rw [hpy, ht]
      rw [he]
      obtain ⟨h1, h2, h3, h4, h5⟩ := ih hnd.2 (fun j hj => hr j (by simp [hj])) l hf
      refine ⟨h1, ?_, ?_, h4, h5⟩
      · intro kv
        rw [h2 kv]
        by_cases hkv : kv.1 = k
        · rw [hkv, ht]
          simp
        · simp [hkv]
      · rw [h3]
        simp [ht]
    · have he : turn np lims l k = ⟨fun j => if j = k.toNat then v else l.params j, setKey l.fix k v, l.ool + 1⟩ := by
        unfold turn
        rw [hpy, ht]
      rw [he]
      obtain ⟨h1, h2, h3, h4, h5⟩ := ih hnd.2 (fun j hj => hr j (by simp [hj]))
        ⟨fun j => if j = k.toNat then v else l.params j, setKey l.fix k v, l.ool + 1⟩
        (setKey_proper np l.fix hf k hk v)
      dsimp only at h1 h2 h3 h4 h5
      refine ⟨h1, ?_, ?_, by omega, fun h => by omega⟩
      · intro kv
        rw [h2 kv, mem_setKey l.fix hf.1]
        by_cases hkv : kv.1 = k
        · have hni : kv.1 ∉ idx := hkv ▸ hnd.1
          rw [hkv] at hni
          simp only [hkv, hni, ht, false_and, List.mem_cons, or_false, true_and, Option.some.injEq,
            Option.isSome_some, not_true_eq_false, and_false, false_or, not_false_eq_true, and_true, ne_eq]
          constructor
          · intro e
            rw [e]
          · intro e
            rw [← hkv, e]
        · by_cases hm : kv.1 ∈ idx
          · have hkv0 := hr kv.1 (by simp [hm])
            have hne : kv.1.toNat ≠ k.toNat := by omega
            have : kv ≠ (k, v) := fun e => hkv (by rw [e])
            simp [hkv, hm, hne, this]
          · have : kv ≠ (k, v) := fun e => hkv (by rw [e])
            simp [hkv, hm, this]
      · constructor
        · intro h
          omega
        · intro h
          have := h k (by simp)
          rw [ht] at this
          simp at this

theorem foldl_setKey (np : ℕ) (kv : List (ℤ × ℝ)) (f : List (ℤ × ℝ)) (h : ProperKeep np (f ++ kv)) :
    kv.foldl (fun f x => setKey f x.1 x.2) f = f ++ kv := by
  induction kv generalizing f with
  | nil => simp
  | cons x kv ih =>
    obtain ⟨k, v⟩ := x
    rw [List.foldl_cons]
    have e : setKey f k v = f ++ [(k, v)] := by
      have hk : k ∉ f.map Prod.fst := by
        have := h.1
        rw [List.map_append, List.nodup_append] at this
        intro hm
        exact this.2.2 k hm k (by simp) rfl
      clear h ih
      induction f with
      | nil => rfl
      | cons a f ih =>
        obtain ⟨j, u⟩ := a
        simp only [List.map_cons, List.mem_cons, not_or] at hk
        simp only [setKey, List.cons_append]
        rw [if_neg (fun e => hk.1 e.symm), ih hk.2]
    rw [e, ih]
    · simp
    · simpa using h

theorem store_same (np : ℕ) (keep : List (ℤ × ℝ)) (h : ProperKeep np keep) (p : ℕ → ℝ) (ha : Agrees keep p) :
    storeKept np p keep = p := by
  induction keep with
  | nil => rfl
  | cons kv l ih =>
    obtain ⟨k, v⟩ := kv
    have e : (fun j => if j = pyIdx np k then v else p j) = p := by
      funext j
      split_ifs with hj
      · have := ha (k, v) (by simp)
        rw [hj, pyIdx_nonneg np k (h.2 (k, v) (by simp)).1]
        exact this.symm
      · rfl
    rw [storeKept, e]
    apply ih
    · refine ⟨?_, fun kv hkv => h.2 kv (by simp [hkv])⟩
      have := h.1
      rw [List.map_cons, List.nodup_cons] at this
      exact this.2
    · exact fun kv hkv => ha kv (by simp [hkv])

theorem range_idx (np : ℕ) : ((List.range np).map fun k : ℕ => (k : ℤ)).Nodup ∧
    ∀ k : ℤ, k ∈ ((List.range np).map fun k : ℕ => (k : ℤ)) ↔ 0 ≤ k ∧ k < np := by
  constructor
  · exact List.nodup_range.map fun a b h => by exact_mod_cast h
  · intro k
    simp only [List.mem_map, List.mem_range]
    constructor
    · rintro ⟨a, ha, rfl⟩
      omega
    · rintro ⟨h0, h1⟩
      exact ⟨k.toNat, by omega, by omega⟩

/-! ## C111 -/

/-- C111: when the parameters that are found by `fit` are all inside their limits, or when there are no limits, `limitsFit`
is the same as `fit`: for any fitter, with or without kept parameters. -/
theorem C111_inside (np : ℕ) (fit : Fitter → Option (List (ℤ × ℝ)) → Option Fitter)
    (priors : Option (ℕ → Option ℝ × Option ℝ)) (sfix : Option (List (ℤ × ℝ))) (s s1 : Fitter)
    (keep : Option (List (ℤ × ℝ))) (h : fit s keep = some s1)
    (hidx : ∀ fi, s1.fitIndex = some fi → ∀ k ∈ fi, 0 ≤ k ∧ k < np)
    (hin : ∀ lims, priors = some lims → ∀ k < np, Within (lims k) (s1.params k)) :
    limitsFit np fit priors sfix s keep = some ((List.range np).map s1.params, s1) := by
  unfold limitsFit
  rw [h]
  dsimp only
  rcases priors with _ | lims
  · rfl
  · have hturn : ∀ (idx : List ℤ), (∀ k ∈ idx, 0 ≤ k ∧ k < np) → ∀ fix,
        idx.foldl (turn np lims) ⟨s1.params, fix, 0⟩ = ⟨s1.params, fix, 0⟩ := by
      intro idx
      induction idx with
      | nil => intro _ _; rfl
      | cons k idx ih =>
        intro hr fix
        have hk := hr k (by simp)
        rw [List.foldl_cons]
        have : turn np lims ⟨s1.params, fix, 0⟩ k = ⟨s1.params, fix, 0⟩ := by
          unfold turn
          rw [pyIdx_nonneg np k hk.1]
          dsimp only
          rw [transgressed_none _ _ (hin lims rfl k.toNat (by omega))]
        rw [this]
        exact ih (fun j hj => hr j (by simp [hj])) fix
    dsimp only
    rw [hturn]
    · rfl
    · intro k hk
      rcases hfi : s1.fitIndex with _ | fi
      · rw [hfi] at hk
        exact ((range_idx np).2 k).1 hk
      · rw [hfi] at hk
        exact hidx fi hfi k hk

/-- C111: without parameters that are kept by the constructor. Every parameter that `fit` puts beyond a limit gets the
value of that limit. Parameters that were to be kept in this call have the value asked for, if that value is inside the limits.
All others are fitted again: there is nothing better with these values. All parameters are returned, which are those in
the model, and the fitter is as before the call. -/
theorem C111_limits (np : ℕ) (chi : (ℕ → ℝ) → ℝ) (fit : Fitter → Option (List (ℤ × ℝ)) → Option Fitter)
    (hfit : Minimizes np chi fit) (lims : ℕ → Option ℝ × Option ℝ) (hl : ∀ k < np, Ordered (lims k))
    (s : Fitter) (hn : s.nnorm = 0) (hs : s.fitIndex = none)
    (keep : Option (List (ℤ × ℝ))) (hk : ProperKeep np (keep.getD [])) (r : List ℝ × Fitter)
    (h : limitsFit np fit (some lims) none s keep = some r) :
    ∃ s1, fit s keep = some s1 ∧
      let fixed := fun q : ℕ → ℝ => (∀ k < np, ∀ b, Beyond (lims k) (s1.params k) b → q k = b) ∧
        ∀ kv ∈ keep.getD [], Within (lims kv.1.toNat) kv.2 → q kv.1.toNat = kv.2
      fixed r.2.params ∧ (∀ q, fixed q → chi r.2.params ≤ chi q) ∧
      r.1 = (List.range np).map r.2.params ∧ r.2.fitIndex = none ∧ r.2.nnorm = 0 ∧
      ((∃ k < np, ∃ b, Beyond (lims k) (s1.params k) b) → r.2.npfit = np) := by
  unfold limitsFit at h
  rcases h1 : fit s keep with _ | s1
  · rw [h1] at h
    simp at h
  rw [h1] at h
  obtain ⟨hsi, hsn⟩ := hfit.same s s1 keep h1
  rw [hs] at hsi
  rw [hn] at hsn
  have hkept : Agrees (keep.getD []) s1.params ∧ ∀ q, Agrees (keep.getD []) q → chi s1.params ≤ chi q := by
    rcases keep with _ | kv
    · exact ⟨fun kv hkv => by simp at hkv, fun q _ => hfit.fitted s s1 hn hs h1 q⟩
    · exact hfit.kept s s1 kv hn hk h1
  have hfix : withKeep [] keep = keep.getD [] := by
    rcases keep with _ | kv
    · rfl
    · exact foldl_setKey np kv [] hk
  dsimp only at h
  rw [hsi] at h
  dsimp only at h
  rw [hfix] at h
  refine ⟨s1, rfl, ?_⟩
  dsimp only
  set l := ((List.range np).map fun k : ℕ => (k : ℤ)).foldl (turn np lims) ⟨s1.params, keep.getD [], 0⟩ with hldef
  obtain ⟨hnd, hmemi⟩ := range_idx np
  obtain ⟨e1, e2, e3, _, e5⟩ := loop_spec np lims _ hnd (fun k hk => (hmemi k).1 hk)
    ⟨s1.params, keep.getD [], 0⟩ hk
  rw [← hldef] at e1 e2 e3 e5
  dsimp only at e2 e3 e5
  have hag : ∀ q : ℕ → ℝ, Agrees l.fix q ↔ ((∀ k < np, ∀ b, Beyond (lims k) (s1.params k) b → q k = b) ∧
      ∀ kv ∈ keep.getD [], Within (lims kv.1.toNat) kv.2 → q kv.1.toNat = kv.2) := by
    intro q
    constructor
    · intro ha
      constructor
      · intro k hkn b hb
        have := ha ((k : ℤ), b) ((e2 _).2 (Or.inl ⟨(hmemi _).2 (by simp; omega), by
          simpa using (transgressed_iff _ (hl k hkn) _ _).2 hb⟩))
        simpa using this
      · intro kv hkv hw
        apply ha kv
        rw [e2]
        refine Or.inr ⟨hkv, ?_⟩
        rintro ⟨_, hc⟩
        rw [hkept.1 kv hkv, transgressed_none _ _ hw] at hc
        simp at hc
    · rintro ⟨hb, hw⟩ kv hkv
      rcases (e2 kv).1 hkv with ⟨hi, ht⟩ | ⟨hm, ht⟩
      · have hr := (hmemi _).1 hi
        exact hb kv.1.toNat (by omega) kv.2 ((transgressed_iff _ (hl _ (by omega)) _ _).1 ht)
      · have hr := hk.2 kv hm
        apply hw kv hm
        apply within_of_none _ (hl _ (by omega))
        rw [← hkept.1 kv hm]
        by_contra hc
        exact ht ⟨(hmemi _).2 hr, Option.isSome_iff_ne_none.2 hc⟩
  by_cases hool : l.ool > 0
  · rw [if_pos hool] at h
    rcases h4 : fit (keepFixed np { s1 with params := l.params, fitIndex := none } (some l.fix)).2 (some l.fix) with _ | s4
    · rw [h4] at h
      simp at h
    rw [h4] at h
    simp only [Option.some.injEq] at h
    subst h
    obtain ⟨h4i, h4n⟩ := hfit.same _ _ _ h4
    have h4i : s4.fitIndex = none := h4i
    have h4n' : s4.nnorm = 0 := by rw [h4n]; exact hsn
    obtain ⟨ha, hm⟩ := hfit.kept _ s4 l.fix (by exact hsn) e1 h4
    exact ⟨(hag _).1 ha, fun q hq => hm q ((hag q).2 hq), rfl, h4i, h4n', fun _ => rfl⟩
  · rw [if_neg hool] at h
    simp only [Option.some.injEq] at h
    subst h
    have h0 : l.ool = 0 := by omega
    have hle := e5 h0
    have hfx : l.fix = keep.getD [] := by rw [hle]
    have hpx : l.params = s1.params := by rw [hle]
    dsimp only
    rw [hpx]
    refine ⟨(hag _).1 (hfx ▸ hkept.1), fun q hq => hkept.2 q (hfx ▸ (hag q).2 hq), rfl, rfl, hsn, ?_⟩
    rintro ⟨k, hkn, b, hb⟩
    have := e3.1 h0 (k : ℤ) ((hmemi _).2 (by omega))
    rw [Int.toNat_natCast, (transgressed_iff _ (hl k hkn) _ _).2 hb] at this
    simp at this

/-- C111: with parameters kept by the constructor. They stay at their values, whether or not these are inside the limits; of the
other parameters each one that `fit` puts beyond a limit gets the value of that limit, and the rest is fitted again. -/
theorem C111_constructor (np : ℕ) (chi : (ℕ → ℝ) → ℝ) (fit : Fitter → Option (List (ℤ × ℝ)) → Option Fitter)
    (hfit : Minimizes np chi fit) (lims : ℕ → Option ℝ × Option ℝ) (hl : ∀ k < np, Ordered (lims k))
    (p0 : ℕ → ℝ) (kept : List (ℤ × ℝ)) (hk : ProperKeep np kept) (r : List ℝ × Fitter)
    (h : limitsFit np fit (some lims) (some kept) (initFitter np p0 (some kept)) none = some r) :
    ∃ s1, fit (initFitter np p0 (some kept)) none = some s1 ∧
      let fixed := fun q : ℕ → ℝ => Agrees kept q ∧
        ∀ k < np, (∀ v, ((k : ℤ), v) ∉ kept) → ∀ b, Beyond (lims k) (s1.params k) b → q k = b
      fixed r.2.params ∧ (∀ q, fixed q → chi r.2.params ≤ chi q) ∧
      r.2.fitIndex = (initFitter np p0 (some kept)).fitIndex := by
  unfold limitsFit at h
  rcases h1 : fit (initFitter np p0 (some kept)) none with _ | s1
  · rw [h1] at h
    simp at h
  rw [h1] at h
  obtain ⟨hsi, hsn⟩ := hfit.same _ s1 none h1
  have hsn : s1.nnorm = 0 := hsn
  obtain ⟨hka, hkm⟩ := hfit.constructor p0 s1 kept hk h1
  have hrk : ∀ k ∈ kept.map Prod.fst, 0 ≤ k ∧ k < np := by
    intro k hm
    obtain ⟨kv, hkv, rfl⟩ := List.mem_map.1 hm
    exact hk.2 kv hkv
  have hsi' : s1.fitIndex = some (indexOf np fun k => decide ((k : ℤ) ∉ kept.map Prod.fst)) := by
    rw [hsi]
    show some (setxor1d _ _) = _
    rw [setxor_index np _ hrk]
  set idx := indexOf np fun k => decide ((k : ℤ) ∉ kept.map Prod.fst) with hidx
  have hnd : idx.Nodup := by
    rw [hidx, indexOf]
    exact (List.nodup_range.filter _).map fun a b h => by exact_mod_cast h
  have hmemi : ∀ k : ℤ, k ∈ idx ↔ (0 ≤ k ∧ k < np) ∧ k ∉ kept.map Prod.fst := by
    intro k
    simp only [hidx, indexOf, List.mem_map, List.mem_filter, List.mem_range, decide_eq_true_eq]
    constructor
    · rintro ⟨a, ⟨ha, hn⟩, rfl⟩
      exact ⟨by omega, by simpa using hn⟩
    · rintro ⟨h0, hn⟩
      refine ⟨k.toNat, ⟨by omega, ?_⟩, by omega⟩
      rw [Int.toNat_of_nonneg h0.1]
      simpa using hn
  dsimp only at h
  rw [hsi'] at h
  dsimp only [Option.getD_some, withKeep] at h
  refine ⟨s1, rfl, ?_⟩
  dsimp only
  set l := idx.foldl (turn np lims) ⟨s1.params, kept, 0⟩ with hldef
  obtain ⟨e1, e2, e3, _, e5⟩ := loop_spec np lims idx hnd (fun k hk => ((hmemi k).1 hk).1)
    ⟨s1.params, kept, 0⟩ hk
  rw [← hldef] at e1 e2 e3 e5
  simp only [← hldef] at h
  dsimp only at e2 e3 e5
  have hag : ∀ q : ℕ → ℝ, Agrees l.fix q ↔ (Agrees kept q ∧
      ∀ k < np, (∀ v, ((k : ℤ), v) ∉ kept) → ∀ b, Beyond (lims k) (s1.params k) b → q k = b) := by
    intro q
    constructor
    · intro ha
      constructor
      · intro kv hkv
        apply ha kv
        rw [e2]
        refine Or.inr ⟨hkv, ?_⟩
        rintro ⟨hc, _⟩
        exact ((hmemi _).1 hc).2 (List.mem_map_of_mem hkv)
      · intro k hkn hnk b hb
        have := ha ((k : ℤ), b) ((e2 _).2 (Or.inl ⟨(hmemi _).2 ⟨by simp; omega, ?_⟩, by
          simpa using (transgressed_iff _ (hl k hkn) _ _).2 hb⟩))
        · simpa using this
        · intro hm
          obtain ⟨kv, hkv, e⟩ := List.mem_map.1 hm
          apply hnk kv.2
          have e : kv.1 = (k : ℤ) := e
          have : kv = ((k : ℤ), kv.2) := by rw [← e]
          rw [← this]
          exact hkv
    · rintro ⟨hb, hw⟩ kv hkv
      rcases (e2 kv).1 hkv with ⟨hi, ht⟩ | ⟨hm, ht⟩
      · have hr := (hmemi _).1 hi
        refine hw kv.1.toNat (by omega) ?_ kv.2 ((transgressed_iff _ (hl _ (by omega)) _ _).1 ht)
        intro v hv
        rw [Int.toNat_of_nonneg hr.1.1] at hv
        exact hr.2 (List.mem_map.2 ⟨_, hv, rfl⟩)
      · exact hb kv hm
  by_cases hool : l.ool > 0
  · rw [if_pos hool] at h
    rcases h4 : fit (keepFixed np { s1 with params := l.params, fitIndex := some idx } (some l.fix)).2 (some l.fix) with _ | s4
    · rw [h4] at h
      simp at h
    rw [h4] at h
    simp only [Option.some.injEq] at h
    subst h
    obtain ⟨h4i, h4n⟩ := hfit.same _ _ _ h4
    obtain ⟨ha, hm⟩ := hfit.kept _ s4 l.fix (by exact hsn) e1 h4
    have hst : storeKept np s4.params kept = s4.params := store_same np kept hk _ ((hag _).1 ha).1
    have hpp : (keepFixed np s4 (some kept)).2.params = s4.params := hst
    dsimp only
    rw [hpp]
    refine ⟨(hag _).1 ha, fun q hq => hm q ((hag q).2 hq), ?_⟩
    show s4.fitIndex = _
    rw [h4i, ← hsi, hsi']
    rfl
  · rw [if_neg hool] at h
    simp only [Option.some.injEq] at h
    subst h
    have h0 : l.ool = 0 := by omega
    have hle := e5 h0
    have hfx : l.fix = kept := by rw [hle]
    have hpx : l.params = s1.params := by rw [hle]
    dsimp only
    rw [hpx]
    exact ⟨(hag _).1 (hfx ▸ hka), fun q hq => hkm q (hfx ▸ (hag q).2 hq), by rw [← hsi, hsi']⟩

/-- C111: for an objective that is convex, as chi squared of a linear model is: if `fit` puts only one parameter beyond a limit,
then no parameters inside the limits are better than those of `limitsFit`. So if those are inside the limits themselves, they
are the best ones there are. What is missing is the case in which more parameters are beyond a limit, or in which the second fit
puts others there; see the counterexamples. -/
theorem C111_box_partial (np : ℕ) (chi : (ℕ → ℝ) → ℝ) (fit : Fitter → Option (List (ℤ × ℝ)) → Option Fitter)
    (hfit : Minimizes np chi fit)
    (hconvex : ∀ (p q : ℕ → ℝ) (t : ℝ), 0 ≤ t → t ≤ 1 →
      chi (fun k => (1 - t) * p k + t * q k) ≤ (1 - t) * chi p + t * chi q)
    (lims : ℕ → Option ℝ × Option ℝ) (hl : ∀ k < np, Ordered (lims k))
    (s s1 : Fitter) (hn : s.nnorm = 0) (hs : s.fitIndex = none) (r : List ℝ × Fitter)
    (h : limitsFit np fit (some lims) none s none = some r) (h1 : fit s none = some s1)
    (hone : ∀ j < np, ∀ k < np, ¬ Within (lims j) (s1.params j) → ¬ Within (lims k) (s1.params k) → j = k)
    (q : ℕ → ℝ) (hq : ∀ k < np, Within (lims k) (q k)) : chi r.2.params ≤ chi q := by
  obtain ⟨s1', h1', hfix⟩ := C111_limits np chi fit hfit lims hl s hn hs none ⟨by simp, by simp⟩ r h
  rw [h1] at h1'
  obtain rfl := Option.some.inj h1'
  obtain ⟨_, hmin, _⟩ := hfix
  have hu : chi s1.params ≤ chi q := hfit.fitted s s1 hn hs h1 q
  have hnw : ∀ k b, Beyond (lims k) (s1.params k) b → ¬ Within (lims k) (s1.params k) := by
    rintro k b (⟨e, hb⟩ | ⟨e, hb⟩) ⟨w1, w2⟩
    · exact absurd (w1 b e) (not_le.2 hb)
    · exact absurd (w2 b e) (not_le.2 hb)
  by_cases hex : ∃ k < np, ∃ b, Beyond (lims k) (s1.params k) b
  · obtain ⟨k, hk, b, hb⟩ := hex
    -- the point between the two minima where parameter k is at its limit
    have ht : ∃ t, 0 ≤ t ∧ t ≤ 1 ∧ (1 - t) * s1.params k + t * q k = b := by
      rcases hb with ⟨e, hb⟩ | ⟨e, hb⟩
      · have hqk := (hq k hk).1 b e
        have hd : 0 < q k - s1.params k := by linarith
        refine ⟨(b - s1.params k) / (q k - s1.params k), div_nonneg (by linarith) hd.le, ?_, ?_⟩
        · rw [div_le_one hd]
          linarith
        · field_simp
          ring
      · have hqk := (hq k hk).2 b e
        have hd : 0 < s1.params k - q k := by linarith
        refine ⟨(s1.params k - b) / (s1.params k - q k), div_nonneg (by linarith) hd.le, ?_, ?_⟩
        · rw [div_le_one hd]
          linarith
        · field_simp
          ring
    obtain ⟨t, ht0, ht1, hte⟩ := ht
    have h3 := hmin (fun k => (1 - t) * s1.params k + t * q k) ⟨?_, by simp⟩
    · have h4 := hconvex s1.params q t ht0 ht1
      nlinarith
    · intro j hj c hc
      obtain rfl := hone j hj k hk (hnw j c hc) (hnw k b hb)
      have : c = b := by
        have o := hl j hj
        have e1 := (transgressed_iff _ o _ _).2 hc
        have e2 := (transgressed_iff _ o _ _).2 hb
        rw [e1] at e2
        exact Option.some.inj e2
      rw [this]
      exact hte
  · push Not at hex
    exact hmin q ⟨fun k hk b hb => absurd hb (hex k hk b), by simp⟩

/-! ## The linear fitter -/

/-- The linear fitter finds the minimum of chi squared. -/
theorem linear_minimizes {X : Type*} (solve : ℕ → (ℕ → ℕ → ℝ) → (ℕ → ℝ) → Option (ℕ → ℝ))
    (hsolve : SolveSpec solve) (m : Lin X) (d : Data X) (hd : d.Good) :
    Minimizes m.np (chiSquared m d) (fit solve m d) where
  fitted s s' hn hi h q := by
    have := C30_all solve hsolve m d hd s s' hi (by simp [hn]) h q
    rwa [chiTotal_zero m d s hn, chiTotal_zero m d s hn] at this
  kept s s' keep hn hk h := C30_kept solve hsolve m d hd s s' hn keep hk h
  constructor p0 s' keep hk h := C30_constructor solve hsolve m d hd p0 s' keep hk h
  same s s' keep h := by
    unfold fit at h
    simp only [Option.map_eq_some_iff] at h
    obtain ⟨x, _, rfl⟩ := h
    unfold fitprolog
    rcases keep with _ | kv
    · rcases hf : s.fitIndex with _ | fi <;> simp [hf]
    · exact ⟨rfl, rfl⟩

/-- Chi squared of a linear model is convex. -/
theorem chi_convex {X : Type*} (m : Lin X) (d : Data X) (hd : d.Good) (p q : ℕ → ℝ) (t : ℝ) (h0 : 0 ≤ t)
    (h1 : t ≤ 1) : chiSquared m d (fun k => (1 - t) * p k + t * q k)
      ≤ (1 - t) * chiSquared m d p + t * chiSquared m d q := by
  unfold chiSquared
  rw [mul_sum, mul_sum, ← sum_add_distrib]
  apply sum_le_sum
  intro i hi
  have hw := wgts_nonneg d hd i (mem_range.1 hi)
  have e : m.result (d.x i) (fun k => (1 - t) * p k + t * q k)
      = (1 - t) * m.result (d.x i) p + t * m.result (d.x i) q := by
    unfold Lin.result
    have : ∑ k ∈ range m.np, ((1 - t) * p k + t * q k) * m.part (d.x i) k
        = (1 - t) * ∑ k ∈ range m.np, p k * m.part (d.x i) k + t * ∑ k ∈ range m.np, q k * m.part (d.x i) k := by
      rw [mul_sum, mul_sum, ← sum_add_distrib]
      exact sum_congr rfl fun k _ => by ring
    rw [this]
    ring
  rw [e]
  set a := m.result (d.x i) p
  set b := m.result (d.x i) q
  have : 0 ≤ (1 - t) * t * (a - b) ^ 2 * d.fitWgts i :=
    mul_nonneg (mul_nonneg (mul_nonneg (by linarith) h0) (sq_nonneg _)) hw
  nlinarith [this]

/-! ### A line through three points -/

/-- Solves up to two linear equations. -/
def solveTwo (K : ℕ) (A : ℕ → ℕ → ℝ) (v : ℕ → ℝ) : Option (ℕ → ℝ) :=
  if K = 0 then some fun _ => 0
  else if K = 1 ∧ A 0 0 ≠ 0 then some fun _ => v 0 / A 0 0
  else if K = 2 ∧ A 0 0 * A 1 1 - A 0 1 * A 1 0 ≠ 0 then some fun a =>
    if a = 0 then (v 0 * A 1 1 - A 0 1 * v 1) / (A 0 0 * A 1 1 - A 0 1 * A 1 0)
    else (A 0 0 * v 1 - A 1 0 * v 0) / (A 0 0 * A 1 1 - A 0 1 * A 1 0)
  else none

theorem solveTwo_spec : SolveSpec solveTwo := by
  intro K A v x h a ha
  unfold solveTwo at h
  split_ifs at h with h0 h1 h2
  · omega
  · obtain rfl := Option.some.inj h
    obtain ⟨rfl, h1⟩ := h1
    have : a = 0 := by omega
    subst this
    simp only [sum_range_one]
    field_simp
  · obtain rfl := Option.some.inj h
    obtain ⟨rfl, h2⟩ := h2
    simp only [sum_range_succ, sum_range_zero, if_true, one_ne_zero, if_false]
    have : a = 0 ∨ a = 1 := by omega
    rcases this with rfl | rfl
    · rw [zero_add, mul_div_assoc', mul_div_assoc', ← add_div, div_eq_iff h2]
      ring
    · rw [zero_add, mul_div_assoc', mul_div_assoc', ← add_div, div_eq_iff h2]
      ring

/-- The points (0,0), (1,1) and (2,4). -/
def points : Data ℝ := ⟨3, fun i => i, fun i => i ^ 2, none, none⟩

theorem points_good : points.Good := by
  intro w h
  simp [points] at h

theorem fit_two (s s' : Fitter) (keep : Option (List (ℤ × ℝ))) (h : fitprolog 2 s keep = ([0, 1], s'))
    (hn : s'.nnorm = 0) : fit solveTwo line points s keep
      = some { s' with params := fun j => if j = 0 then -1 / 3 else 2 } := by
  unfold fit
  rw [show line.np = 2 from rfl, h]
  simp only [solveTwo, List.length_cons, List.length_nil]
  norm_num [getHessian, getVector, hn, getDesign, allWgts, Data.fitWgts, line, points, sum_range_succ, pyIdx,
    insertParameters, zeroed, Lin.result]

theorem fit_slope (s s' : Fitter) (keep : Option (List (ℤ × ℝ))) (h : fitprolog 2 s keep = ([1], s'))
    (hn : s'.nnorm = 0) : fit solveTwo line points s keep
      = some { s' with params := fun j => if j = 1 then (9 - 3 * s'.params 0) / 5 else s'.params j } := by
  unfold fit
  rw [show line.np = 2 from rfl, h]
  simp only [solveTwo, List.length_cons, List.length_nil]
  have hi : ∀ (p x : ℕ → ℝ), insertParameters 2 p x [1] = fun j => if j = 1 then x 0 else p j := by
    intro p x
    funext j
    unfold insertParameters
    rw [if_neg (show ¬ [(1 : ℤ)].length = 2 by decide)]
    by_cases h : j = 1
    · subst h
      simp [pyIdx]
    · have h' : ¬ 1 = j := fun e => h e.symm
      simp [pyIdx, h, h', List.range_succ]
  simp only [hi]
  norm_num [getHessian, getVector, hn, getDesign, allWgts, Data.fitWgts, line, points, sum_range_succ, pyIdx,
    zeroed, Lin.result]
  funext j
  split_ifs
  · ring
  · rfl

theorem fit_offset (s s' : Fitter) (keep : Option (List (ℤ × ℝ))) (h : fitprolog 2 s keep = ([0], s'))
    (hn : s'.nnorm = 0) : fit solveTwo line points s keep
      = some { s' with params := fun j => if j = 0 then (5 - 3 * s'.params 1) / 3 else s'.params j } := by
  unfold fit
  rw [show line.np = 2 from rfl, h]
  simp only [solveTwo, List.length_cons, List.length_nil]
  have hi : ∀ (p x : ℕ → ℝ), insertParameters 2 p x [0] = fun j => if j = 0 then x 0 else p j := by
    intro p x
    funext j
    unfold insertParameters
    rw [if_neg (show ¬ [(0 : ℤ)].length = 2 by decide)]
    by_cases h : j = 0
    · subst h
      simp [pyIdx]
    · have h' : ¬ 0 = j := fun e => h e.symm
      simp [pyIdx, h, h', List.range_succ]
  simp only [hi]
  norm_num [getHessian, getVector, hn, getDesign, allWgts, Data.fitWgts, line, points, sum_range_succ, pyIdx,
    zeroed, Lin.result]
  funext j
  split_ifs
  · ring
  · rfl

theorem fit_nothing (s s' : Fitter) (keep : Option (List (ℤ × ℝ))) (h : fitprolog 2 s keep = ([], s')) :
    fit solveTwo line points s keep = some s' := by
  unfold fit
  rw [show line.np = 2 from rfl, h]
  simp [solveTwo, insertParameters]

theorem prolog_none (s : Fitter) (h : s.fitIndex = none) :
    fitprolog 2 s none = ([0, 1], { s with npfit := 2 }) := by
  simp [fitprolog, h, List.range_succ]

theorem prolog_zero (s : Fitter) (v : ℝ) : fitprolog 2 s (some [(0, v)])
    = ([1], { s with
      npfit := 1
      params := fun j => if j = 0 then v else s.params j }) := by
  rw [prolog_keep 2 s [(0, v)] ⟨by simp, by simp⟩]
  have : (indexOf 2 fun k => decide ((k : ℤ) ∉ [((0 : ℤ), v)].map Prod.fst)) = [1] := by
    simp only [indexOf, List.map_cons, List.map_nil]
    decide
  rw [this]
  rfl

theorem prolog_one (s : Fitter) (v : ℝ) : fitprolog 2 s (some [(1, v)])
    = ([0], { s with
      npfit := 1
      params := fun j => if j = 1 then v else s.params j }) := by
  rw [prolog_keep 2 s [(1, v)] ⟨by simp, by simp⟩]
  have : (indexOf 2 fun k => decide ((k : ℤ) ∉ [((1 : ℤ), v)].map Prod.fst)) = [0] := by
    simp only [indexOf, List.map_cons, List.map_nil]
    decide
  rw [this]
  rfl

theorem prolog_both (s : Fitter) (v w : ℝ) : fitprolog 2 s (some [(0, v), (1, w)])
    = ([], { s with
      npfit := 2
      params := fun j => if j = 1 then w else if j = 0 then v else s.params j }) := by
  rw [prolog_keep 2 s [(0, v), (1, w)] ⟨by simp, by simp⟩]
  have : (indexOf 2 fun k => decide ((k : ℤ) ∉ [((0 : ℤ), v), (1, w)].map Prod.fst)) = [] := by
    simp only [indexOf, List.map_cons, List.map_nil]
    decide
  rw [this]
  rfl

/-- A fitter of which no parameters are kept by the constructor. -/
def free : Fitter := initFitter 2 (fun _ => 0) none

/-- And one where the offset is kept at `v`. -/
def held (v : ℝ) : Fitter := initFitter 2 (fun _ => 0) (some [(0, v)])

theorem held_eq (v : ℝ) : held v = ⟨fun j => if j = 0 then v else 0, some [1], 1, 0, fun _ _ => 0, fun _ => 0, fun _ => 0⟩ := by
  unfold held initFitter keepFixed
  have : setxor1d ((List.range 2).map fun k : ℕ => (k : ℤ)) ([((0 : ℤ), v)].map Prod.fst) = [1] := by
    rw [setxor_index 2 _ (by simp)]
    simp only [indexOf, List.map_cons, List.map_nil]
    decide
  simp only [this]
  rfl

/-- The limits of the two parameters of the line. -/
def two (a b : Option ℝ × Option ℝ) : ℕ → Option ℝ × Option ℝ := fun k => if k = 0 then a else b

theorem ordered_low (lo : ℝ) : Ordered (some lo, none) := by
  intro a b _ h
  simp at h

theorem ordered_high (hi : ℝ) : Ordered (none, some hi) := by
  intro a b h
  simp at h

theorem ordered_two (a b : Option ℝ × Option ℝ) (ha : Ordered a) (hb : Ordered b) : ∀ k < 2, Ordered (two a b k) := by
  intro k _
  unfold two
  split_ifs <;> assumption

theorem within_two (a b : Option ℝ × Option ℝ) (q : ℕ → ℝ) (ha : Within a (q 0)) (hb : Within b (q 1)) :
    ∀ k < 2, Within (two a b k) (q k) := by
  intro k hk
  have : k = 0 ∨ k = 1 := by omega
  rcases this with rfl | rfl
  · exact ha
  · exact hb

theorem within_low (lo v : ℝ) (h : lo ≤ v) : Within (some lo, none) v := by
  constructor
  · intro a e
    obtain rfl := Option.some.inj e
    exact h
  · intro b e
    simp at e

theorem within_high (hi v : ℝ) (h : v ≤ hi) : Within (none, some hi) v := by
  constructor
  · intro b e
    simp at e
  · intro a e
    obtain rfl := Option.some.inj e
    exact h

/-- C111 fails: the parameters that are returned can be outside the limits. After the second fit the limits are not looked at
again. -/
theorem C111_counterexample_outside : ∃ (lims : ℕ → Option ℝ × Option ℝ) (r : List ℝ × Fitter),
    (∀ k < 2, Ordered (lims k)) ∧ (∃ q : ℕ → ℝ, ∀ k < 2, Within (lims k) (q k)) ∧
    limitsFit 2 (fit solveTwo line points) (some lims) none free none = some r ∧
    ¬ Within (lims 1) (r.2.params 1) := by
  have h : ∃ r, limitsFit 2 (fit solveTwo line points) (some (two (some 0, none) (some (19 / 10), none))) none free none
      = some r ∧ r.2.params 1 = 9 / 5 := by
    unfold limitsFit
    rw [fit_two _ _ _ (prolog_none free rfl) rfl]
    norm_num [free, initFitter, keepFixed, withKeep, turn, transgressed, two, setKey, pyIdx, List.range_succ]
    rw [fit_slope _ _ _ (prolog_zero _ _) rfl]
    refine ⟨_, _, rfl, ?_⟩
    norm_num
  obtain ⟨r, h1, h2⟩ := h
  refine ⟨_, r, ordered_two _ _ (ordered_low _) (ordered_low _),
    ⟨fun _ => 2, within_two _ _ _ (within_low _ _ (by norm_num)) (within_low _ _ (by norm_num))⟩, h1, ?_⟩
  intro hw
  have := hw.1 (19 / 10) rfl
  rw [h2] at this
  norm_num at this

/-- C111 fails: there can be better parameters inside the limits. When two parameters are beyond their limits, both are
fixed, although the second one comes inside its limits when the first one is fixed. -/
theorem C111_counterexample_minimum : ∃ (lims : ℕ → Option ℝ × Option ℝ) (r : List ℝ × Fitter) (q : ℕ → ℝ),
    (∀ k < 2, Ordered (lims k)) ∧ (∀ k < 2, Within (lims k) (q k)) ∧
    limitsFit 2 (fit solveTwo line points) (some lims) none free none = some r ∧
    (∀ k < 2, Within (lims k) (r.2.params k)) ∧
    chiSquared line points q < chiSquared line points r.2.params := by
  have h : ∃ r, limitsFit 2 (fit solveTwo line points) (some (two (some 0, none) (none, some (19 / 10)))) none free none
      = some r ∧ r.2.params 0 = 0 ∧ r.2.params 1 = 19 / 10 := by
    unfold limitsFit
    rw [fit_two _ _ _ (prolog_none free rfl) rfl]
    norm_num [free, initFitter, keepFixed, withKeep, turn, transgressed, two, setKey, pyIdx, List.range_succ]
    rw [fit_nothing _ _ _ (prolog_both _ _ _)]
    refine ⟨_, _, rfl, ?_⟩
    norm_num
  obtain ⟨r, h1, h2, h3⟩ := h
  refine ⟨_, r, fun k => if k = 0 then 0 else 9 / 5, ordered_two _ _ (ordered_low _) (ordered_high _),
    within_two _ _ _ (within_low _ _ (by norm_num)) (within_high _ _ (by norm_num)), h1,
    within_two _ _ _ (within_low _ _ (by rw [h2])) (within_high _ _ (by rw [h3])), ?_⟩
  norm_num [chiSquared, Lin.result, line, points, Data.fitWgts, sum_range_succ, h2, h3]

/-- C111 fails: a parameter that is to be kept in this call does not get the value that was asked for, when that is outside the
limits. A parameter that is kept by the constructor does, see `C111_constructor`. -/
theorem C111_counterexample_kept : ∃ (lims : ℕ → Option ℝ × Option ℝ) (keep : List (ℤ × ℝ)) (r : List ℝ × Fitter),
    (∀ k < 2, Ordered (lims k)) ∧ ProperKeep 2 keep ∧
    limitsFit 2 (fit solveTwo line points) (some lims) none free (some keep) = some r ∧
    ¬ Agrees keep r.2.params := by
  have h : ∃ r, limitsFit 2 (fit solveTwo line points) (some (two (some 0, none) (some 0, none))) none free
      (some [(0, -1)]) = some r ∧ r.2.params 0 = 0 := by
    unfold limitsFit
    rw [fit_slope _ _ _ (prolog_zero _ _) rfl]
    norm_num [free, initFitter, keepFixed, withKeep, turn, transgressed, two, setKey, pyIdx, List.range_succ]
    rw [fit_slope _ _ _ (prolog_zero _ _) rfl]
    refine ⟨_, _, rfl, ?_⟩
    norm_num
  obtain ⟨r, h1, h2⟩ := h
  refine ⟨_, [(0, -1)], r, ordered_two _ _ (ordered_low _) (ordered_low _), ⟨by simp, by simp⟩, h1, ?_⟩
  intro ha
  have := ha (0, -1) (by simp)
  norm_num [h2] at this

/-- C111 fails: when parameters are kept by the constructor, all parameters are returned if the fit is inside the limits, but
only the fitted ones if it is not. -/
theorem C111_counterexample_returned : ∃ (lims lims' : ℕ → Option ℝ × Option ℝ) (r r' : List ℝ × Fitter),
    (∀ k < 2, Ordered (lims k)) ∧ (∀ k < 2, Ordered (lims' k)) ∧
    limitsFit 2 (fit solveTwo line points) (some lims) (some [(0, 0)]) (held 0) none = some r ∧ r.1 = [0, 9 / 5] ∧
    limitsFit 2 (fit solveTwo line points) (some lims') (some [(0, 0)]) (held 0) none = some r' ∧ r'.1 = [1] ∧
    r'.2.params 0 = 0 ∧ r'.2.params 1 = 1 := by
  have hp : fitprolog 2 (held 0) none = ([1], held 0) := by
    rw [held_eq]
    rfl
  have h : ∃ r, limitsFit 2 (fit solveTwo line points) (some (two (some 0, none) (none, some 2))) (some [(0, 0)])
      (held 0) none = some r ∧ r.1 = [0, 9 / 5] := by
    unfold limitsFit
    rw [fit_slope _ _ _ hp (by rw [held_eq]), held_eq]
    norm_num [withKeep, turn, transgressed, two, setKey, pyIdx, List.range_succ]
  have h' : ∃ r, limitsFit 2 (fit solveTwo line points) (some (two (some 0, none) (none, some 1))) (some [(0, 0)])
      (held 0) none = some r ∧ r.1 = [1] ∧ r.2.params 0 = 0 ∧ r.2.params 1 = 1 := by
    unfold limitsFit
    rw [fit_slope _ _ _ hp (by rw [held_eq]), held_eq]
    norm_num [keepFixed, withKeep, turn, transgressed, two, setKey, pyIdx, List.range_succ]
    rw [fit_nothing _ _ _ (prolog_both _ _ _)]
    refine ⟨_, _, rfl, ?_⟩
    norm_num [keepFixed, storeKept, pyIdx]
  obtain ⟨r, h1, h2⟩ := h
  obtain ⟨r', h3, h4⟩ := h'
  exact ⟨_, _, r, r', ordered_two _ _ (ordered_low _) (ordered_high _), ordered_two _ _ (ordered_low _) (ordered_high _),
    h1, h2, h3, h4⟩

/-- C111 fails: with parameters kept both by the constructor and in the call, those of the constructor are fitted, but their limits
are not looked at. -/
theorem C111_counterexample_constructor : ∃ (lims : ℕ → Option ℝ × Option ℝ) (r : List ℝ × Fitter),
    (∀ k < 2, Ordered (lims k)) ∧
    limitsFit 2 (fit solveTwo line points) (some lims) (some [(0, 1)]) (held 1) (some [(1, 0)]) = some r ∧
    ¬ Within (lims 0) (r.2.params 0) := by
  have h : ∃ r, limitsFit 2 (fit solveTwo line points) (some (two (none, some 1) (some 0, none))) (some [(0, 1)])
      (held 1) (some [(1, 0)]) = some r ∧ r.2.params 0 = 5 / 3 := by
    unfold limitsFit
    rw [fit_offset _ _ _ (prolog_one _ _) (by rw [held_eq]), held_eq]
    norm_num [withKeep, turn, transgressed, two, setKey, pyIdx, List.range_succ]
  obtain ⟨r, h1, h2⟩ := h
  refine ⟨_, r, ordered_two _ _ (ordered_high _) (ordered_low _), h1, ?_⟩
  intro hw
  have := hw.2 1 rfl
  rw [h2] at this
  norm_num at this

/-- C111 fails: a value to be kept in the call overrides the one of the constructor in the fits, but the model ends with the value of
the constructor, and with the others as fitted to the value of the call. -/
theorem C111_counterexample_overridden : ∃ (lims : ℕ → Option ℝ × Option ℝ) (r : List ℝ × Fitter),
    (∀ k < 2, Ordered (lims k)) ∧
    limitsFit 2 (fit solveTwo line points) (some lims) (some [(0, 1)]) (held 1) (some [(0, 2)]) = some r ∧
    Within (lims 0) 2 ∧ r.2.params 0 = 1 := by
  have h : ∃ r, limitsFit 2 (fit solveTwo line points) (some (two (some 0, none) (some 1, none))) (some [(0, 1)])
      (held 1) (some [(0, 2)]) = some r ∧ r.2.params 0 = 1 := by
    unfold limitsFit
    rw [fit_slope _ _ _ (prolog_zero _ _) (by rw [held_eq]), held_eq]
    norm_num [keepFixed, withKeep, turn, transgressed, two, setKey, pyIdx, List.range_succ]
    rw [fit_nothing _ _ _ (prolog_both _ _ _)]
    refine ⟨_, _, rfl, ?_⟩
    norm_num [keepFixed, storeKept, pyIdx]
  obtain ⟨r, h1, h2⟩ := h
  exact ⟨_, r, ordered_two _ _ (ordered_low _) (ordered_low _), h1, within_low _ _ (by norm_num), h2⟩

/-- The theorems are about fits that can be done: here one parameter comes beyond its limit, and the second fit is inside the
limits. -/
example : ∃ (r : List ℝ × Fitter) (s1 : Fitter), let lims := two (some 0, none) (some 1, none)
    Minimizes 2 (chiSquared line points) (fit solveTwo line points) ∧ (∀ k < 2, Ordered (lims k)) ∧
    limitsFit 2 (fit solveTwo line points) (some lims) none free none = some r ∧
    fit solveTwo line points free none = some s1 ∧
    (∀ j < 2, ∀ k < 2, ¬ Within (lims j) (s1.params j) → ¬ Within (lims k) (s1.params k) → j = k) ∧
    Beyond (lims 0) (s1.params 0) 0 ∧ r.1 = [0, 9 / 5] := by
  have h : ∃ r, limitsFit 2 (fit solveTwo line points) (some (two (some 0, none) (some 1, none))) none free none
      = some r ∧ r.1 = [0, 9 / 5] := by
    unfold limitsFit
    rw [fit_two _ _ _ (prolog_none free rfl) rfl]
    norm_num [free, initFitter, keepFixed, withKeep, turn, transgressed, two, setKey, pyIdx, List.range_succ]
    rw [fit_slope _ _ _ (prolog_zero _ _) rfl]
    norm_num
  obtain ⟨r, h1, h2⟩ := h
  refine ⟨r, _, linear_minimizes solveTwo solveTwo_spec line points points_good,
    ordered_two _ _ (ordered_low _) (ordered_low _), h1, fit_two _ _ _ (prolog_none free rfl) rfl, ?_, ?_, h2⟩
  · have hw : Within (two (some 0, none) (some 1, none) 1) ((fun j : ℕ => if j = 0 then (-1 / 3 : ℝ) else 2) 1) :=
      within_low _ _ (by norm_num)
    intro j hj k hk hj' hk'
    have a : j = 0 ∨ j = 1 := by omega
    have b : k = 0 ∨ k = 1 := by omega
    rcases a with rfl | rfl
    · rcases b with rfl | rfl
      · rfl
      · exact absurd hw hk'
    · exact absurd hw hj'
  · left
    exact ⟨rfl, by norm_num⟩

end BF.LimitsFit
