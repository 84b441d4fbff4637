import Verif.Lineage
import Verif.Props.NestedRuns

/-!
# C118: where samples come from
-/

namespace BF.Lineage

open BF BF.Nested

variable {α σ : Type*}

/-! ## Specification -/

/-- All that engines do is storing walkers in the place of the one they explore. -/
def Stores (e : Env α σ) : Prop :=
  ∀ g r wl kw low wl' mv r', e.execute g r wl kw low = some (wl', mv, r') → ∃ l, wl' = engineStores wl kw l

/-- They all do so with a copy of the walker, like the Galilean engine. -/
def Copies (e : Env α σ) : Prop :=
  ∀ g r wl kw low wl' mv r', e.execute g r wl kw low = some (wl', mv, r') →
    ∃ l : List (Store α), (∀ s ∈ l, s.keep = true) ∧ wl' = engineStores wl kw l

/-- They all do so with a new walker, like the other engines, at least once in each call. -/
def Renews (e : Env α σ) : Prop :=
  ∀ g r wl kw low wl' mv r', e.execute g r wl kw low = some (wl', mv, r') →
    ∃ l : List (Store α), l ≠ [] ∧ (∀ s ∈ l, s.keep = false) ∧ wl' = engineStores wl kw l

/-- The first ensemble: walkers 0, 1, 2, ... made at the start. -/
def Adam (s : St α σ) : Prop :=
  s.walkers.items.map Walker.id = List.range s.walkers.items.length ∧
    ∀ w ∈ s.walkers.items, w.start = 0 ∧ w.parent = -1

/-! ## One store -/

theorem set_map {γ : Type*} (f : Walker α ℝ → γ) (l : List (Walker α ℝ)) (k : ℕ) (w v : Walker α ℝ)
    (hv : l[k]? = some v) (hw : f w = f v) : (l.set k w).map f = l.map f := by
  rw [List.map_set, hw]
  apply List.ext_getElem?
  intro i
  rw [List.getElem?_set]
  split_ifs with h1 h2
  · subst h1
    simp [hv]
  · subst h1
    simp only [List.length_map] at h2
    rw [List.getElem?_eq_none (by simpa using h2)]
  · rfl

theorem stores_spec (kw : ℕ) : ∀ (l : List (Store α)) (wl : WalkerList α ℝ) (v : Walker α ℝ),
    wl.items[kw]? = some v → ∃ w, (engineStores wl kw l).items = wl.items.set kw w ∧ w.id = v.id ∧
      ((∀ s ∈ l, s.keep = true) → w.start = v.start) ∧
      (l ≠ [] → (∀ s ∈ l, s.keep = false) → w.start = 0) := by
  intro l
  induction l with
  | nil =>
    intro wl v hv
    refine ⟨v, ?_, rfl, fun _ => rfl, fun h => absurd rfl h⟩
    obtain ⟨hk, he⟩ := List.getElem?_eq_some_iff.1 hv
    simp [engineStores, ← he]
  | cons s l ih =>
    intro wl v hv
    have hk : kw < wl.items.length := (List.getElem?_eq_some_iff.1 hv).1
    have h1 : ∃ u : Walker α ℝ, (engineSet wl kw s).items = wl.items.set kw u ∧ u.id = v.id ∧
        (s.keep = true → u.start = v.start) ∧ (s.keep = false → u.start = 0) := by
      unfold engineSet
      rw [hv]
      by_cases hs : s.keep = true
      · refine ⟨⟨v.id, v.parent, v.start, 0, s.allpars, s.logL⟩, ?_, rfl, fun _ => rfl, fun h => ?_⟩
        · simp only [hs, if_true, WalkerList.setWalker, if_pos hk]
        · rw [hs] at h
          cases h
      · refine ⟨⟨v.id, -1, 0, 0, s.allpars, s.logL⟩, ?_, rfl, fun h => absurd h hs, fun _ => rfl⟩
        simp only [hs, WalkerList.setWalker, if_pos hk]
        rfl
    obtain ⟨u, hu, hid, hst, hz⟩ := h1
    obtain ⟨w, hw, wid, wst, wz⟩ := ih (engineSet wl kw s) u (by rw [hu, List.getElem?_set]; simp [hk])
    refine ⟨w, ?_, wid.trans hid, fun h => ?_, fun _ h => ?_⟩
    · show (engineStores (engineSet wl kw s) kw l).items = _
      rw [hw, hu, List.set_set]
    · rw [wst fun t ht => h t (List.mem_cons_of_mem _ ht), hst (h s (List.mem_cons_self ..))]
    · by_cases hl : l = []
      · subst hl
        have he : wl.items.set kw w = wl.items.set kw u := by
          have : (engineStores (engineSet wl kw s) kw ([] : List (Store α))).items = (engineSet wl kw s).items := rfl
          rw [this, hu] at hw
          rw [hw, List.set_set]
        have : w = u := by
          have h2 := congrArg (fun l : List (Walker α ℝ) => l[kw]?) he
          simpa [hk] using h2
        rw [this]
        exact hz (h s (List.mem_cons_self ..))
      · exact wz hl fun t ht => h t (List.mem_cons_of_mem _ ht)

/-! ## Attributes which the engines leave as they are -/

/-- The engines do not change the attribute `f` of any walker. -/
def Leaves {γ : Type*} (e : Env α σ) (f : Walker α ℝ → γ) : Prop :=
  ∀ g r wl kw low wl' mv r', kw < wl.items.length → e.execute g r wl kw low = some (wl', mv, r') →
    wl'.items.map f = wl.items.map f

theorem stores_leaves (e : Env α σ) (h : Stores e) : Leaves e Walker.id := by
  intro g r wl kw low wl' mv r' hk hx
  obtain ⟨l, rfl⟩ := h _ _ _ _ _ _ _ _ hx
  obtain ⟨w, hw, hid, _⟩ := stores_spec kw l wl _ (List.getElem?_eq_getElem hk)
  rw [hw]
  exact set_map _ _ _ _ _ (List.getElem?_eq_getElem hk) hid

theorem copies_leaves (e : Env α σ) (h : Copies e) : Leaves e fun w => (w.id, w.start) := by
  intro g r wl kw low wl' mv r' hk hx
  obtain ⟨l, hl, rfl⟩ := h _ _ _ _ _ _ _ _ hx
  obtain ⟨w, hw, hid, hst, _⟩ := stores_spec kw l wl _ (List.getElem?_eq_getElem hk)
  rw [hw]
  exact set_map _ _ _ _ _ (List.getElem?_eq_getElem hk) (by rw [hid, hst hl])

section
variable {γ : Type*} (e : Env α σ) (f : Walker α ℝ → γ) (hf : Leaves e f)
include hf

theorem map_length {l l' : List (Walker α ℝ)} (f : Walker α ℝ → γ) (h : l'.map f = l.map f) : l'.length = l.length := by
  simpa using congrArg List.length h

theorem round_leaves (kw : ℕ) (low : ℝ) : ∀ (gs : List ℕ) (wl : WalkerList α ℝ) (mv : ℕ) (r : σ) (wl' : WalkerList α ℝ)
    (mv' : ℕ) (r' : σ), kw < wl.items.length → engineRound e kw low gs wl mv r = some (wl', mv', r') →
    wl'.items.map f = wl.items.map f := by
  intro gs
  induction gs with
  | nil =>
    intro wl mv r wl' mv' r' hk h
    simp only [engineRound, Option.some.injEq, Prod.mk.injEq] at h
    rw [h.1]
  | cons g gs ih =>
    intro wl mv r wl' mv' r' hk h
    simp only [engineRound] at h
    split at h
    · cases h
    · rename_i wl1 m1 r1 h1
      have a := hf _ _ _ _ _ _ _ _ hk h1
      rw [ih _ _ _ _ _ _ (by rw [map_length e f hf f a]; exact hk) h, a]

theorem trial_leaves (o : Opts) (kw : ℕ) (low : ℝ) : ∀ (n : ℕ) (wl : WalkerList α ℝ) (mv : ℕ) (r : σ) (b : Bool)
    (wl' : WalkerList α ℝ) (mv' : ℕ) (r' : σ) (b' : Bool), kw < wl.items.length →
    trialLoop e o kw low n wl mv r b = some (wl', mv', r', b') → wl'.items.map f = wl.items.map f := by
  intro n
  induction n with
  | zero =>
    intro wl mv r b wl' mv' r' b' hk h
    simp only [trialLoop, Option.some.injEq, Prod.mk.injEq] at h
    rw [h.1]
  | succ n ih =>
    intro wl mv r b wl' mv' r' b' hk h
    simp only [trialLoop] at h
    split at h
    · split at h
      · cases h
      · rename_i wl1 m1 r1 h1
        have a := round_leaves e f hf _ _ _ _ _ _ _ _ _ hk h1
        rw [ih _ _ _ _ _ _ _ _ (by rw [map_length e f hf f a]; exact hk) h, a]
    · simp only [Option.some.injEq, Prod.mk.injEq] at h
      rw [h.1]

theorem explore_leaves (o : Opts) (low : ℝ) : ∀ (ks : List ℕ) (wl : WalkerList α ℝ) (r : σ) (wl' : WalkerList α ℝ) (r' : σ),
    (∀ k ∈ ks, k < wl.items.length) → explore e o low ks wl r = some (wl', r') →
    wl'.items.map f = wl.items.map f := by
  intro ks
  induction ks with
  | nil =>
    intro wl r wl' r' hk h
    simp only [explore, Option.some.injEq, Prod.mk.injEq] at h
    rw [h.1]
  | cons k ks ih =>
    intro wl r wl' r' hk h
    simp only [explore] at h
    split at h
    · cases h
    · rename_i wl1 r1 h1
      have a : wl1.items.map f = wl.items.map f := by
        simp only [exploreWalker] at h1
        split at h1
        · cases h1
        · rename_i wl2 m2 r2 b2 h2
          split at h1
          · cases h1
          · split_ifs at h1
            simp only [Option.some.injEq, Prod.mk.injEq] at h1
            rw [← h1.1]
            exact trial_leaves e f hf o _ _ _ _ _ _ _ _ _ _ _ (hk k (List.mem_cons_self ..)) h2
      rw [ih _ _ _ _ (fun j hj => by rw [map_length e f hf f a]; exact hk j (List.mem_cons_of_mem _ hj)) h, a]

end

theorem copyLoop_ids (e : Env α σ) (o : Opts) (it worst : ℕ) : ∀ (ks : List ℕ) (wl wl' : WalkerList α ℝ) (r r' : σ),
    copyLoop e o it worst ks wl r = some (wl', r') → wl'.items.map Walker.id = wl.items.map Walker.id ∧
      (∀ k ∈ ks, ∀ w, wl'.items[k]? = some w → w.start = it) ∧ ∀ k, k ∉ ks → wl'.items[k]? = wl.items[k]? := by
  intro ks
  induction ks with
  | nil =>
    intro wl wl' r r' h
    simp only [copyLoop, Option.some.injEq, Prod.mk.injEq] at h
    rw [h.1]
    exact ⟨rfl, by simp, fun _ _ => rfl⟩
  | cons k ks ih =>
    intro wl wl' r r' h
    simp only [copyLoop] at h
    split at h
    · split at h
      · cases h
      · rename_i wl1 h1
        obtain ⟨a, b, c⟩ := ih _ _ _ _ h
        simp only [WalkerList.copy] at h1
        split at h1
        · rename_i d s hd hs
          obtain rfl := Option.some.inj h1
          refine ⟨a.trans (set_map _ _ _ _ _ hd rfl), ?_, ?_⟩
          · intro j hj w hw
            by_cases hjk : j ∈ ks
            · exact b j hjk w hw
            · have : j = k := (List.mem_cons.1 hj).resolve_right hjk
              subst this
              rw [c j hjk, List.getElem?_set, if_pos rfl, if_pos (List.getElem?_eq_some_iff.1 hd).1] at hw
              rw [← Option.some.inj hw]
          · intro j hj
            rw [c j fun h => hj (List.mem_cons_of_mem _ h), List.getElem?_set,
              if_neg fun h => hj (by rw [h]; exact List.mem_cons_self ..)]
        · cases h1
    · cases h

theorem sort_perm (wl : WalkerList α ℝ) : (sortWalkers wl).items.Perm wl.items := List.perm_insertionSort _ _

/-- C118: during a run the walkers keep their ids: they remain those of the first ensemble. -/
theorem C118_ids (e : Env α σ) (he : Stores e) (o : Opts) (s0 s : St α σ) (h : Reach e o s0 s) :
    (s.walkers.items.map Walker.id).Perm (s0.walkers.items.map Walker.id) := by
  induction h with
  | refl => exact List.Perm.refl _
  | @step s s' _ _ hb ih =>
    obtain ⟨h0, hl, hlt, w, wl1, r1, hw, hlow, hit, hc, hx, -⟩ := body_spec e o s s' hb
    have h1 := (copyLoop_ids e o _ _ _ _ _ _ _ hc).1
    have hlen : wl1.items.length = s.walkers.items.length := by
      have := congrArg List.length h1
      simpa [sortWalkers] using this
    rw [explore_leaves e _ (stores_leaves e he) o _ _ _ _ _ _ (fun k hk => by
      have := List.mem_range.1 hk; omega) hx, h1]
    exact ((sort_perm _).map _).trans ih

/-- C118: no two walkers have the same id. -/
theorem C118_ids_differ (e : Env α σ) (he : Stores e) (o : Opts) (s0 s : St α σ) (h0 : Adam s0) (h : Reach e o s0 s) :
    (s.walkers.items.map Walker.id).Nodup ∧ ∀ i, i < s.walkers.items.length → ∃ w ∈ s.walkers.items, w.id = i := by
  have hp := C118_ids e he o s0 s h
  have hl : s.walkers.items.length = s0.walkers.items.length := by simpa using hp.length_eq
  rw [h0.1] at hp
  refine ⟨hp.nodup_iff.2 List.nodup_range, fun i hi => ?_⟩
  have := hp.mem_iff.2 (List.mem_range.2 (hl ▸ hi))
  simpa using this

/-! ## Samples -/

/-- The samples made of a list of walkers, numbered from `n`. -/
def numbered (n : ℕ) (x : Sample α) (w : Walker α ℝ) : Prop :=
  x.id = n ∧ x.parent = w.id ∧ x.start = w.start ∧ x.allpars = w.allpars ∧ x.logL = w.logL

theorem evLoop_samples (o : Opts) : ∀ (ws : List (Walker α ℝ)) (kw : ℕ) (s : St α σ),
    (evLoop o kw ws s).samples.count = s.samples.count + ws.length ∧
    ∃ new : List (Sample α), (evLoop o kw ws s).samples.items = s.samples.items ++ new ∧ new.length = ws.length ∧
      ∀ (i : ℕ) (x : Sample α) (w : Walker α ℝ), new[i]? = some x → ws[i]? = some w →
        numbered (s.samples.count + i) x w := by
  intro ws
  induction ws with
  | nil =>
    intro kw s
    exact ⟨rfl, [], by simp [evLoop], rfl, by simp⟩
  | cons w ws ih =>
    intro kw s
    obtain ⟨h1, new, h2, h3, h4⟩ := ih (kw + 1) (evStep o kw w s)
    have hc : (evStep o kw w s).samples.count = s.samples.count + 1 := rfl
    refine ⟨by rw [evLoop, h1, hc]; simp; omega, ?_⟩
    let x0 : Sample α := ⟨s.samples.count, w.id, w.start, w.allpars, w.logL, s.logWidth + w.logL⟩
    refine ⟨x0 :: new, ?_, by simp [h3], ?_⟩
    · rw [evLoop, h2]
      have : (evStep o kw w s).samples.items = s.samples.items ++ [x0] := rfl
      rw [this, List.append_assoc]
      rfl
    · intro i x v hx hv
      cases i with
      | zero =>
        simp only [List.getElem?_cons_zero, Option.some.injEq] at hx hv
        subst hx hv
        exact ⟨by simp [x0], rfl, rfl, rfl, rfl⟩
      | succ i =>
        simp only [List.getElem?_cons_succ] at hx hv
        have := h4 i x v hx hv
        rw [hc] at this
        rw [show s.samples.count + (i + 1) = s.samples.count + 1 + i by omega]
        exact this

/-- C118: each turn stores the lowest walkers, with serial numbers, their values, the walker as parent and the
iteration in which the walker was made. -/
theorem C118_stored (e : Env α σ) (o : Opts) (s s' : St α σ) (hb : body e o s = some s') :
    ∃ new : List (Sample α), new.length = o.discard ∧
      s'.samples = SampleList.weed ⟨s.samples.items ++ new, s.samples.count + o.discard⟩ o.maxsize ∧
      ∀ (i : ℕ) (x : Sample α), new[i]? = some x → ∃ w, (sortWalkers s.walkers).items[i]? = some w ∧
        x.id = (s.samples.count : ℤ) + i ∧
        x.parent = w.id ∧ x.start = w.start ∧ x.allpars = w.allpars ∧ x.logL = w.logL := by
  obtain ⟨h0, hl, hlt, w, wl1, r1, hw, hlow, hit, hc, hx, s1, hs1, hs, -⟩ := body_spec e o s s' hb
  obtain ⟨h1, new, h2, h3, h4⟩ := evLoop_samples o ((sortWalkers s.walkers).items.take o.discard) 0
    { s with walkers := sortWalkers s.walkers, lowLhood := w.logL }
  rw [← hs1] at h1 h2
  have hlen : ((sortWalkers s.walkers).items.take o.discard).length = o.discard := by
    simp [sortWalkers]
    omega
  rw [hlen] at h1 h3
  refine ⟨new, h3, ?_, ?_⟩
  · rw [hs]
    congr 1
    rw [show s1.samples = ⟨s1.samples.items, s1.samples.count⟩ from rfl, h1, h2]
  · intro i x hx
    have hi : i < o.discard := by
      rw [← h3]
      exact (List.getElem?_eq_some_iff.1 hx).1
    have hv : ((sortWalkers s.walkers).items.take o.discard)[i]? = (sortWalkers s.walkers).items[i]? := by
      rw [List.getElem?_take, if_pos hi]
    have hi2 : i < (sortWalkers s.walkers).items.length := by
      simp [sortWalkers]
      omega
    rw [List.getElem?_eq_getElem hi2] at hv
    obtain ⟨a, b, c, d, f⟩ := h4 i x _ hx hv
    refine ⟨_, List.getElem?_eq_getElem hi2, ?_, b, c, d, f⟩
    rw [a]
    simp

theorem weedLoop_sublist (m : ℕ) : ∀ (n : ℕ) (l : List (Sample α)), (weedLoop m n l).Sublist l := by
  intro n
  induction n with
  | zero => intro l; exact List.Sublist.refl _
  | succ n ih =>
    intro l
    rw [weedLoop]
    split_ifs
    · split
      · split_ifs
        · exact (ih _).trans (List.tail_sublist _)
        · exact (ih _).trans (List.dropLast_sublist _)
      · exact List.Sublist.refl _
    · exact List.Sublist.refl _

theorem weed_sublist (sl : SampleList α) (m : Option ℕ) :
    (sl.weed m).items.Sublist sl.items ∧ (sl.weed m).count = sl.count := by
  cases m with
  | none => exact ⟨List.Sublist.refl _, rfl⟩
  | some m => exact ⟨weedLoop_sublist m _ _, rfl⟩

/-- Serial numbers: ascending, below the counter. -/
def Serial (sl : SampleList α) : Prop :=
  (generation sl).Pairwise (· < ·) ∧ ∀ k ∈ generation sl, 0 ≤ k ∧ k < sl.count

theorem serial_append (sl : SampleList α) (new : List (Sample α)) (h : Serial sl)
    (hn : ∀ (i : ℕ) (x : Sample α), new[i]? = some x → x.id = (sl.count : ℤ) + i) : Serial ⟨sl.items ++ new, sl.count + new.length⟩ := by
  have hget : ∀ x ∈ new, ∃ i : ℕ, i < new.length ∧ x.id = (sl.count : ℤ) + i := by
    intro x hx
    obtain ⟨i, hi, rfl⟩ := List.getElem_of_mem hx
    exact ⟨i, hi, hn i _ (List.getElem?_eq_getElem hi)⟩
  refine ⟨?_, ?_⟩
  · rw [generation, List.map_append, List.pairwise_append]
    refine ⟨h.1, ?_, ?_⟩
    · rw [List.pairwise_iff_getElem]
      intro i j hi hj hij
      simp only [List.length_map] at hi hj
      rw [List.getElem_map, List.getElem_map, hn i _ (List.getElem?_eq_getElem hi), hn j _ (List.getElem?_eq_getElem hj)]
      omega
    · intro a ha b hb
      obtain ⟨x, hx, rfl⟩ := List.mem_map.1 hb
      obtain ⟨i, _, hi⟩ := hget x hx
      have := (h.2 a ha).2
      omega
  · intro k hk
    rw [generation, List.map_append, List.mem_append] at hk
    rcases hk with hk | hk
    · have := h.2 k hk
      simp only [Nat.cast_add]
      omega
    · obtain ⟨x, hx, rfl⟩ := List.mem_map.1 hk
      obtain ⟨i, hil, hi⟩ := hget x hx
      simp only [Nat.cast_add]
      omega

theorem serial_sublist (sl sl' : SampleList α) (h : Serial sl) (hs : sl'.items.Sublist sl.items)
    (hc : sl'.count = sl.count) : Serial sl' := by
  have h1 := hs.map Sample.id
  exact ⟨h.1.sublist h1, fun k hk => hc ▸ h.2 k (h1.subset hk)⟩

/-- C118: the samples have serial numbers in the order in which they were stored, also when samples are weeded. -/
theorem C118_serial (e : Env α σ) (o : Opts) (s0 s : St α σ) (h0 : Fresh o s0) (h : Reach e o s0 s) :
    (generation s.samples).Pairwise (· < ·) ∧ (generation s.samples).Nodup := by
  suffices hh : Serial s.samples from ⟨hh.1, hh.1.imp fun hab => ne_of_lt hab⟩
  induction h with
  | refl =>
    obtain ⟨wl, low, r, hl, rfl⟩ := h0
    exact ⟨by simp [initState, generation], by simp [initState, generation]⟩
  | @step s s' _ _ hb ih =>
    obtain ⟨new, hl, hs, hn⟩ := C118_stored e o s s' hb
    rw [hs, ← hl]
    obtain ⟨a, b⟩ := weed_sublist ⟨s.samples.items ++ new, s.samples.count + new.length⟩ o.maxsize
    refine serial_sublist _ _ (serial_append s.samples new ih fun i x hx => ?_) a b
    obtain ⟨w, _, hid, _⟩ := hn i x hx
    exact hid

/-- C118: the parent of a sample is the id of a walker of the ensemble. -/
theorem C118_parent (e : Env α σ) (he : Stores e) (o : Opts) (s0 s : St α σ) (h0 : Fresh o s0) (ha : Adam s0)
    (h : Reach e o s0 s) : ∀ k ∈ parentEvolution s.samples, ∃ w ∈ s.walkers.items, (w.id : ℤ) = k := by
  induction h with
  | refl =>
    obtain ⟨wl, low, r, hl, rfl⟩ := h0
    simp [parentEvolution, initState]
  | @step s s' hr hnx hb ih =>
    have hp : (s'.walkers.items.map Walker.id).Perm (s.walkers.items.map Walker.id) :=
      (C118_ids e he o s0 s' (.step hr hnx hb)).trans (C118_ids e he o s0 s hr).symm
    obtain ⟨new, hl, hs, hn⟩ := C118_stored e o s s' hb
    have key : ∀ k ∈ parentEvolution s'.samples, ∃ w ∈ s.walkers.items, (w.id : ℤ) = k := by
      intro k hk
      have hsub := (weed_sublist ⟨s.samples.items ++ new, s.samples.count + o.discard⟩ o.maxsize).1
      rw [← hs] at hsub
      obtain ⟨x, hx, rfl⟩ := List.mem_map.1 hk
      rcases List.mem_append.1 (hsub.subset hx) with h | h
      · exact ih _ (List.mem_map_of_mem h)
      · obtain ⟨i, hi, rfl⟩ := List.getElem_of_mem h
        obtain ⟨w, hw, _, hpar, _⟩ := hn i _ (List.getElem?_eq_getElem hi)
        exact ⟨w, (sort_perm _).subset (List.mem_of_getElem? hw), hpar.symm⟩
    intro k hk
    obtain ⟨w, hw, rfl⟩ := key k hk
    obtain ⟨v, hv, hvw⟩ := List.mem_map.1 (hp.mem_iff.2 (List.mem_map_of_mem hw))
    exact ⟨v, hv, by rw [hvw]⟩

/-- C118 fails for the parent of a sample, which is documented as -1 for those of the first ensemble and as the id of the
walker it was copied from for the others: it is always the id of the walker itself, never -1. -/
theorem C118_counterexample_parent (e : Env α σ) (he : Stores e) (o : Opts) (s0 s : St α σ) (h0 : Fresh o s0)
    (ha : Adam s0) (h : Reach e o s0 s) : (-1 : ℤ) ∉ parentEvolution s.samples := by
  intro hm
  obtain ⟨w, _, hw⟩ := C118_parent e he o s0 s h0 ha h _ hm
  omega

/-! ## The ensemble of a frame -/

theorem body_starts (e : Env α σ) (he : Copies e) (o : Opts) (s s' : St α σ) (hb : body e o s = some s') :
    s'.walkers.items.map Walker.start =
      List.replicate o.discard (s.iteration + 1) ++ ((sortWalkers s.walkers).items.drop o.discard).map Walker.start := by
  obtain ⟨h0, hl, hlt, w, wl1, r1, hw, hlow, hit, hc, hx, -⟩ := body_spec e o s s' hb
  obtain ⟨h1, h2, h3⟩ := copyLoop_ids e o _ _ _ _ _ _ _ hc
  have hlen : wl1.items.length = s.walkers.items.length := by
    have := congrArg List.length h1
    simpa [sortWalkers] using this
  have h4 := explore_leaves e _ (copies_leaves e he) o _ _ _ _ _ _ (fun k hk => by
      have := List.mem_range.1 hk; omega) hx
  have h5 : s'.walkers.items.map Walker.start = wl1.items.map Walker.start := by
    have := congrArg (List.map Prod.snd) h4
    simpa [Function.comp_def] using this
  rw [h5]
  apply List.ext_getElem?
  intro i
  by_cases hi : i < o.discard
  · rw [List.getElem?_append_left (by simpa using hi), List.getElem?_replicate, if_pos hi, List.getElem?_map,
      List.getElem?_eq_getElem (by omega : i < wl1.items.length)]
    simp only [Option.map_some, Option.some.injEq]
    exact h2 i (List.mem_range.2 hi) _ (List.getElem?_eq_getElem _)
  · rw [List.getElem?_append_right (by simpa using hi), List.length_replicate, List.getElem?_map, List.getElem?_map,
      List.getElem?_drop, h3 i (by simpa using hi)]
    congr 2
    omega

/-- The samples from number `i` times `discard` on which are not younger than `i`. -/
def alive (d i : ℕ) (l : List (Sample α)) : ℕ := (l.drop (i * d)).countP fun x => x.start ≤ i

theorem countP_start (l : List (Sample α)) (i : ℕ) :
    l.countP (fun x => decide (x.start ≤ i)) = (l.map Sample.start).countP fun k => k ≤ i := by
  rw [List.countP_map]
  rfl

theorem countP_start_walkers (l : List (Walker α ℝ)) (i : ℕ) :
    l.countP (fun x => decide (x.start ≤ i)) = (l.map Walker.start).countP fun k => k ≤ i := by
  rw [List.countP_map]
  rfl

theorem new_starts (o : Opts) (ws : List (Walker α ℝ)) (new : List (Sample α)) (hl : new.length = ws.length)
    (h : ∀ (i : ℕ) (x : Sample α), new[i]? = some x → ∃ w, ws[i]? = some w ∧ x.start = w.start) :
    new.map Sample.start = ws.map Walker.start := by
  apply List.ext_getElem?
  intro i
  rw [List.getElem?_map, List.getElem?_map]
  by_cases hi : i < new.length
  · obtain ⟨w, hw, hs⟩ := h i _ (List.getElem?_eq_getElem hi)
    rw [hw, List.getElem?_eq_getElem hi]
    simp [hs]
  · rw [List.getElem?_eq_none (by omega), List.getElem?_eq_none (by omega)]
    rfl

theorem alive_reach (e : Env α σ) (he : Copies e) (o : Opts) (ho : o.maxsize = none) (s0 s : St α σ) (h0 : Fresh o s0)
    (ha : Adam s0) (h : Reach e o s0 s) : s.walkers.items.length = o.ensemble ∧
      s.samples.items.length = s.iteration * o.discard ∧ (∀ w ∈ s.walkers.items, w.start ≤ s.iteration) ∧
      ∀ i, i ≤ s.iteration → alive o.discard i s.samples.items +
        s.walkers.items.countP (fun w => w.start ≤ i) = o.ensemble := by
  have hstores : Stores e := fun g r wl kw low wl' mv r' hx => by
    obtain ⟨l, _, hl⟩ := he _ _ _ _ _ _ _ _ hx
    exact ⟨l, hl⟩
  induction h with
  | refl =>
    obtain ⟨wl, low, r, hl, rfl⟩ := h0
    refine ⟨hl, by simp [initState], fun w hw => by rw [(ha.2 w hw).1]; exact Nat.zero_le _, ?_⟩
    intro i hi
    have : (initState o wl low ⟨[], 0⟩ 0 r).samples.items = [] := rfl
    rw [this, alive]
    simp only [List.drop_nil, List.countP_nil, Nat.zero_add]
    rw [List.countP_eq_length.2 fun w hw => by rw [(ha.2 w hw).1]; simp]
    exact hl
  | @step s s' hr hnx hb ih =>
    obtain ⟨il, isz, ist, ial⟩ := ih
    have hp := C118_ids e hstores o s0 s' (.step hr hnx hb)
    have hp' := C118_ids e hstores o s0 s hr
    have hlen : s'.walkers.items.length = s.walkers.items.length := by
      have := hp.length_eq
      have := hp'.length_eq
      simp only [List.length_map] at *
      omega
    have hst := body_starts e he o s s' hb
    obtain ⟨new, hnl, hs, hn⟩ := C118_stored e o s s' hb
    obtain ⟨hd0, hdl, -, -, -, -, -, -, hit, -⟩ := body_spec e o s s' hb
    have hsl : (sortWalkers s.walkers).items.length = s.walkers.items.length := (sort_perm _).length_eq
    rw [ho] at hs
    have hitems : s'.samples.items = s.samples.items ++ new := by rw [hs]; rfl
    have hns : new.map Sample.start = ((sortWalkers s.walkers).items.take o.discard).map Walker.start := by
      refine new_starts o _ new (by rw [List.length_take]; omega) fun i x hx => ?_
      obtain ⟨w, hw, _, _, h, _⟩ := hn i x hx
      have hi := (List.getElem?_eq_some_iff.1 hx).1
      exact ⟨w, by rw [List.getElem?_take, if_pos (by omega)]; exact hw, h⟩
    have hle : ∀ w ∈ s'.walkers.items, w.start ≤ s'.iteration := by
      intro w hw
      have : w.start ∈ s'.walkers.items.map Walker.start := List.mem_map_of_mem hw
      rw [hst, List.mem_append] at this
      rcases this with h | h
      · rw [List.eq_of_mem_replicate h, hit]
      · obtain ⟨v, hv, hvw⟩ := List.mem_map.1 h
        rw [← hvw, hit]
        have := ist v ((sort_perm _).subset (List.mem_of_mem_drop hv))
        omega
    refine ⟨hlen.trans il, by rw [hitems, List.length_append, isz, hnl, hit]; ring, hle, ?_⟩
    intro i hi
    rw [hit] at hi
    rcases Nat.lt_or_eq_of_le hi with hi | rfl
    · have hdrop : (s.samples.items ++ new).drop (i * o.discard) = s.samples.items.drop (i * o.discard) ++ new := by
        rw [List.drop_append_of_le_length]
        rw [isz]
        exact Nat.mul_le_mul_right _ (by omega)
      rw [hitems, alive, hdrop, List.countP_append, countP_start new, hns, countP_start_walkers s'.walkers.items, hst,
        List.countP_append]
      have hz : (List.replicate o.discard (s.iteration + 1)).countP (fun k => decide (k ≤ i)) = 0 := by
        rw [List.countP_eq_zero]
        intro k hk
        rw [List.eq_of_mem_replicate hk]
        simp
        omega
      have hsum : (((sortWalkers s.walkers).items.take o.discard).map Walker.start).countP (fun k => decide (k ≤ i)) +
          (((sortWalkers s.walkers).items.drop o.discard).map Walker.start).countP (fun k => decide (k ≤ i)) =
          s.walkers.items.countP fun w => decide (w.start ≤ i) := by
        rw [← List.countP_append, ← List.map_append, List.take_append_drop, ← countP_start_walkers]
        exact (sort_perm _).countP_eq _
      have := ial i (by omega)
      rw [alive] at this
      omega
    · have : s'.samples.items.length ≤ (s.iteration + 1) * o.discard := by
        rw [hitems, List.length_append, isz, hnl]
        exact le_of_eq (by ring)
      rw [alive, List.drop_eq_nil_of_le this, List.countP_nil, Nat.zero_add, List.countP_eq_length.2 fun w hw => by
        have := hle w hw
        rw [hit] at this
        simpa using this]
      exact hlen.trans il

theorem finish_starts (o : Opts) (s s' : St α σ) (hl : s.walkers.items.length = o.ensemble)
    (h : finish o s = some s') :
    startEvolution s'.samples = startEvolution s.samples ++ s.walkers.items.map Walker.start := by
  simp only [finish] at h
  split at h
  · cases h
  · rename_i s1 h1
    simp only [updateEvidence] at h1
    split_ifs at h1
    obtain rfl := Option.some.inj h1
    split at h
    · cases h
    · rename_i sl hsl
      obtain rfl := Option.some.inj h
      have h2 : startEvolution sl = startEvolution (evLoop o 0 (s.walkers.items.take o.ensemble) s).samples := by
        simp only [SampleList.normalize] at hsl
        split at hsl
        · cases hsl
        · obtain rfl := Option.some.inj hsl
          simp [startEvolution, Function.comp_def]
      show startEvolution sl = _
      rw [h2, List.take_of_length_le (by omega)]
      obtain ⟨_, new, h3, h4, h5⟩ := evLoop_samples o s.walkers.items 0 s
      rw [startEvolution, h3, List.map_append, new_starts o s.walkers.items new h4 fun i x hx => ?_]
      · rfl
      · have hi : i < s.walkers.items.length := by
          rw [← h4]
          exact (List.getElem?_eq_some_iff.1 hx).1
        exact ⟨_, List.getElem?_eq_getElem hi, (h5 i x _ hx (List.getElem?_eq_getElem hi)).2.2.1⟩

/-- C118, for engines that store copies of the walker, as the Galilean engine does, and without weeding: at each iteration
`i` of a run the samples that were alive, i.e. stored afterwards and started before, are as many as the ensemble; when one
walker is discarded in each iteration, they are what a movie shows in frame `i`. -/
theorem C118_alive_partial (e : Env α σ) (he : Copies e) (o : Opts) (ho : o.maxsize = none) (s0 s s' : St α σ)
    (h0 : Fresh o s0) (ha : Adam s0) (h : Reach e o s0 s) (hf : finish o s = some s') (i : ℕ) (hi : i ≤ s.iteration) :
    ((startEvolution s'.samples).drop (i * o.discard)).countP (· ≤ i) = o.ensemble ∧
      (o.discard = 1 → (frame s'.samples i).length = o.ensemble) := by
  obtain ⟨hl, hsz, hst, hal⟩ := alive_reach e he o ho s0 s h0 ha h
  have hfs := finish_starts o s s' hl hf
  have h1 : ((startEvolution s'.samples).drop (i * o.discard)).countP (· ≤ i) = o.ensemble := by
    rw [hfs, List.drop_append_of_le_length, List.countP_append, ← countP_start_walkers, startEvolution, ← List.map_drop,
      ← countP_start]
    · exact hal i hi
    · rw [startEvolution, List.length_map, hsz]
      exact Nat.mul_le_mul_right _ hi
  refine ⟨h1, fun hd => ?_⟩
  rw [hd, Nat.mul_one, startEvolution, ← List.map_drop, List.countP_map] at h1
  rw [← h1, frame, List.countP_eq_length_filter]
  congr 2
  funext x
  simp

/-! ## Engines which store new walkers -/

/-- Place `kw` of the ensemble has a walker that was made at the start. -/
def ZeroAt (kw : ℕ) (wl : WalkerList α ℝ) : Prop := ∀ w, wl.items[kw]? = some w → w.start = 0

/-- The other places are the same. -/
def SameBut (kw : ℕ) (wl wl' : WalkerList α ℝ) : Prop :=
  wl'.items.length = wl.items.length ∧ ∀ i, i ≠ kw → wl'.items[i]? = wl.items[i]?

theorem SameBut.trans {kw : ℕ} {a b c : WalkerList α ℝ} (h : SameBut kw a b) (h' : SameBut kw b c) : SameBut kw a c :=
  ⟨h'.1.trans h.1, fun i hi => (h'.2 i hi).trans (h.2 i hi)⟩

theorem execute_renews (e : Env α σ) (he : Renews e) (g : ℕ) (r : σ) (wl : WalkerList α ℝ) (kw : ℕ) (low : ℝ)
    (wl' : WalkerList α ℝ) (mv : ℕ) (r' : σ) (hk : kw < wl.items.length) (h : e.execute g r wl kw low = some (wl', mv, r')) :
    SameBut kw wl wl' ∧ ZeroAt kw wl' := by
  obtain ⟨l, h0, h1, rfl⟩ := he _ _ _ _ _ _ _ _ h
  obtain ⟨w, hw, _, _, hz⟩ := stores_spec kw l wl _ (List.getElem?_eq_getElem hk)
  refine ⟨⟨by rw [hw, List.length_set], fun i hi => by rw [hw, List.getElem?_set, if_neg (Ne.symm hi)]⟩, ?_⟩
  intro v hv
  rw [hw, List.getElem?_set, if_pos rfl, if_pos hk] at hv
  rw [← Option.some.inj hv]
  exact hz h0 h1

theorem round_renews (e : Env α σ) (he : Renews e) (kw : ℕ) (low : ℝ) : ∀ (gs : List ℕ) (wl : WalkerList α ℝ) (mv : ℕ)
    (r : σ) (wl' : WalkerList α ℝ) (mv' : ℕ) (r' : σ), kw < wl.items.length →
    engineRound e kw low gs wl mv r = some (wl', mv', r') →
    SameBut kw wl wl' ∧ (gs ≠ [] ∨ ZeroAt kw wl → ZeroAt kw wl') := by
  intro gs
  induction gs with
  | nil =>
    intro wl mv r wl' mv' r' hk h
    simp only [engineRound, Option.some.injEq, Prod.mk.injEq] at h
    rw [← h.1]
    exact ⟨⟨rfl, fun _ _ => rfl⟩, fun h => h.resolve_left (by simp)⟩
  | cons g gs ih =>
    intro wl mv r wl' mv' r' hk h
    simp only [engineRound] at h
    split at h
    · cases h
    · rename_i wl1 m1 r1 h1
      obtain ⟨a, b⟩ := execute_renews e he _ _ _ _ _ _ _ _ hk h1
      obtain ⟨c, d⟩ := ih _ _ _ _ _ _ (by rw [a.1]; exact hk) h
      exact ⟨a.trans c, fun _ => d (Or.inr b)⟩

theorem trial_renews (e : Env α σ) (he : Renews e) (o : Opts) (kw : ℕ) (low : ℝ) : ∀ (n : ℕ) (wl : WalkerList α ℝ) (mv : ℕ)
    (r : σ) (b : Bool) (wl' : WalkerList α ℝ) (mv' : ℕ) (r' : σ) (b' : Bool), kw < wl.items.length →
    (b = true → ZeroAt kw wl) → trialLoop e o kw low n wl mv r b = some (wl', mv', r', b') →
    SameBut kw wl wl' ∧ (b' = true → ZeroAt kw wl') := by
  intro n
  induction n with
  | zero =>
    intro wl mv r b wl' mv' r' b' hk hz h
    simp only [trialLoop, Option.some.injEq, Prod.mk.injEq] at h
    rw [← h.1, ← h.2.2.2]
    exact ⟨⟨rfl, fun _ _ => rfl⟩, hz⟩
  | succ n ih =>
    intro wl mv r b wl' mv' r' b' hk hz h
    simp only [trialLoop] at h
    split at h
    · split at h
      · cases h
      · rename_i wl1 m1 r1 h1
        obtain ⟨a, c⟩ := round_renews e he _ _ _ _ _ _ _ _ _ hk h1
        obtain ⟨d, f⟩ := ih _ _ _ _ _ _ _ _ (by rw [a.1]; exact hk) (fun hb => c (by
          rcases Bool.or_eq_true _ _ ▸ hb with hb | hb
          · exact Or.inr (hz hb)
          · refine Or.inl fun hn => ?_
            rw [hn] at hb
            cases hb)) h
        exact ⟨a.trans d, f⟩
    · simp only [Option.some.injEq, Prod.mk.injEq] at h
      rw [← h.1, ← h.2.2.2]
      exact ⟨⟨rfl, fun _ _ => rfl⟩, hz⟩

theorem explore_renews (e : Env α σ) (he : Renews e) (o : Opts) (low : ℝ) : ∀ (ks : List ℕ) (wl : WalkerList α ℝ) (r : σ)
    (wl' : WalkerList α ℝ) (r' : σ), (∀ k ∈ ks, k < wl.items.length) → (∀ i, i ∉ ks → ZeroAt i wl) →
    explore e o low ks wl r = some (wl', r') → wl'.items.length = wl.items.length ∧ ∀ i, ZeroAt i wl' := by
  intro ks
  induction ks with
  | nil =>
    intro wl r wl' r' hk hz h
    simp only [explore, Option.some.injEq, Prod.mk.injEq] at h
    rw [← h.1]
    exact ⟨rfl, fun i => hz i (by simp)⟩
  | cons k ks ih =>
    intro wl r wl' r' hk hz h
    simp only [explore] at h
    split at h
    · cases h
    · rename_i wl1 r1 h1
      have a : SameBut k wl wl1 ∧ ZeroAt k wl1 := by
        simp only [exploreWalker] at h1
        split at h1
        · cases h1
        · rename_i wl2 m2 r2 b2 h2
          split at h1
          · cases h1
          · split_ifs at h1 with h3 h4 h5
            simp only [Option.some.injEq, Prod.mk.injEq] at h1
            rw [← h1.1]
            obtain ⟨a, b⟩ := trial_renews e he o _ _ _ _ _ _ _ _ _ _ _ (hk k (List.mem_cons_self ..))
              (fun hb => by cases hb) h2
            exact ⟨a, b (by simpa using h4)⟩
      obtain ⟨c, d⟩ := ih _ _ _ _ (fun j hj => by rw [a.1.1]; exact hk j (List.mem_cons_of_mem _ hj)) (fun i hi => by
        by_cases hik : i = k
        · rw [hik]
          exact a.2
        · intro w hw
          rw [a.1.2 i hik] at hw
          exact hz i (by simp [hik, hi]) w hw) h
      exact ⟨c.trans a.1.1, d⟩

/-- C118 fails for the start of samples when the engines store new walkers, as all engines except the Galilean do: all
samples say that they started at iteration 0, so that frame `i` of a movie shows all later samples, more than the ensemble.
-/
theorem C118_counterexample_start (e : Env α σ) (he : Renews e) (o : Opts) (ho : o.maxsize = none) (s0 s s' : St α σ)
    (h0 : Fresh o s0) (ha : Adam s0) (h : Reach e o s0 s) (hf : finish o s = some s') :
    (∀ k ∈ startEvolution s'.samples, k = 0) ∧
      ∀ i, i < s.iteration → o.ensemble < (frame s'.samples i).length := by
  have hstores : Stores e := fun g r wl kw low wl' mv r' hx => by
    obtain ⟨l, _, _, hl⟩ := he _ _ _ _ _ _ _ _ hx
    exact ⟨l, hl⟩
  have key : s.walkers.items.length = o.ensemble ∧ (∀ i, ZeroAt i s.walkers) ∧ (∀ k ∈ startEvolution s.samples, k = 0) ∧
      (startEvolution s.samples).length = s.iteration * o.discard ∧ (0 < s.iteration → 0 < o.discard) := by
    clear hf
    induction h with
    | refl =>
      obtain ⟨wl, low, r, hl, rfl⟩ := h0
      exact ⟨hl, fun i w hw => (ha.2 w (List.mem_of_getElem? hw)).1, by simp [initState, startEvolution],
        by simp [initState, startEvolution], fun h => by simp [initState] at h⟩
    | @step s s' hr hnx hb ih =>
      obtain ⟨il, iz, isz, isl, _⟩ := ih
      obtain ⟨hd0, hl, hlt, w, wl1, r1, hw, hlow, hit, hc, hx, -⟩ := body_spec e o s s' hb
      obtain ⟨h1, h2, h3⟩ := copyLoop_ids e o _ _ _ _ _ _ _ hc
      have hlen : wl1.items.length = s.walkers.items.length := by
        have := congrArg List.length h1
        simpa [sortWalkers] using this
      have hzero : ∀ w ∈ (sortWalkers s.walkers).items, w.start = 0 := by
        intro w hw
        obtain ⟨i, hi, rfl⟩ := List.getElem_of_mem ((sort_perm _).subset hw)
        exact iz i _ (List.getElem?_eq_getElem hi)
      obtain ⟨a, b⟩ := explore_renews e he o _ _ _ _ _ _ (fun k hk => by have := List.mem_range.1 hk; omega) (fun i hi v hv => by
        rw [h3 i hi] at hv
        exact hzero v (List.mem_of_getElem? hv)) hx
      obtain ⟨new, hnl, hs, hn⟩ := C118_stored e o s s' hb
      rw [ho] at hs
      have hitems : s'.samples.items = s.samples.items ++ new := by rw [hs]; rfl
      refine ⟨by rw [a, hlen, il], b, ?_, ?_, fun _ => hd0⟩
      · intro k hk
        rw [startEvolution, hitems, List.map_append, List.mem_append] at hk
        rcases hk with hk | hk
        · exact isz k hk
        · obtain ⟨x, hx, rfl⟩ := List.mem_map.1 hk
          obtain ⟨i, hi, rfl⟩ := List.getElem_of_mem hx
          obtain ⟨v, hv, _, _, h, _⟩ := hn i _ (List.getElem?_eq_getElem hi)
          rw [h]
          exact hzero v (List.mem_of_getElem? hv)
      · rw [startEvolution, List.length_map] at isl ⊢
        rw [hitems, List.length_append, isl, hnl, hit]
        ring
  obtain ⟨hl, hz, hs, hsl, hd⟩ := key
  have hfs := finish_starts o s s' hl hf
  have hall : ∀ k ∈ startEvolution s'.samples, k = 0 := by
    intro k hk
    rw [hfs, List.mem_append] at hk
    rcases hk with hk | hk
    · exact hs k hk
    · obtain ⟨w, hw, rfl⟩ := List.mem_map.1 hk
      obtain ⟨i, hi, rfl⟩ := List.getElem_of_mem hw
      exact hz i _ (List.getElem?_eq_getElem hi)
  refine ⟨hall, fun i hi => ?_⟩
  have h1 : (frame s'.samples i) = s'.samples.items.drop i := by
    rw [frame, List.filter_eq_self]
    intro x hx
    rw [hall x.start (List.mem_map_of_mem (List.mem_of_mem_drop hx))]
    simp
  have h2 : s'.samples.items.length = s.iteration * o.discard + o.ensemble := by
    have := congrArg List.length hfs
    rw [List.length_append, hsl, List.length_map, hl, startEvolution, List.length_map] at this
    exact this
  rw [h1, List.length_drop, h2]
  have := Nat.le_mul_of_pos_right s.iteration (hd (by omega))
  omega

/-! ## The place of the new walker in the ensemble -/

theorem firstAbove_sorted (v : ℝ) : ∀ (l : List (Walker α ℝ)), l.Pairwise (fun a b => a.logL ≤ b.logL) →
    WalkerList.firstAbove v l = l.countP fun w => w.logL ≤ v := by
  intro l
  induction l with
  | nil => intro _; rfl
  | cons w l ih =>
    intro h
    rw [List.pairwise_cons] at h
    rw [WalkerList.firstAbove]
    split_ifs with hw
    · rw [List.countP_eq_zero.2]
      intro u hu
      rcases List.mem_cons.1 hu with rfl | hu
      · simpa using hw
      · have := h.1 u hu
        simp
        linarith
    · rw [ih h.2, List.countP_cons_of_pos (by simpa using hw)]

/-- C118: when one walker is discarded in each iteration, the number that is added to `histinsert` is the rank of the new
walker in the ensemble: the number of walkers not higher than it. -/
theorem C118_rank (e : Env α σ) (he : OnlyAsked e) (o : Opts) (ho : o.discard = 1) (s s' : St α σ)
    (hb : body e o s = some s') : ∃ w, s'.walkers.items[0]? = some w ∧
      insertIndex o.discard s'.walkers = some (s'.walkers.items.countP fun v => v.logL ≤ w.logL) := by
  obtain ⟨h1, h2⟩ := C07_others_untouched e he o s s' hb
  rw [ho] at h1 ⊢
  obtain ⟨_, hl, _, w, wl1, r1, hw, hlow, hit, hc, hx, -⟩ := body_spec e o s s' hb
  have hn : s'.walkers.items ≠ [] := by
    intro hn
    simp only [ho, List.range_one, explore] at hx
    split at hx
    · cases hx
    · rename_i wl2 r2 h3
      obtain ⟨_, ⟨v, hv, _⟩, _⟩ := exploreWalker_above e he o _ _ _ _ _ _ h3
      simp only [Option.some.injEq, Prod.mk.injEq] at hx
      rw [hx.1, hn] at hv
      simp at hv
  obtain ⟨a, t, hat⟩ := List.exists_cons_of_ne_nil hn
  refine ⟨a, by rw [hat]; rfl, ?_⟩
  have hsort : t.Pairwise fun a b => a.logL ≤ b.logL := by
    have : t = (sortWalkers s.walkers).items.drop 1 := by rw [← h1, hat]; rfl
    rw [this]
    exact (List.pairwise_insertionSort (fun v w : Walker α ℝ => v.logL ≤ w.logL) s.walkers.items).sublist (List.drop_sublist _ _)
  simp only [insertIndex, hat, Nat.sub_self, List.getElem?_cons_zero, Option.bind_some, WalkerList.firstIndex,
    List.length_cons, Nat.succ_ne_zero, if_false, Nat.add_eq_zero_iff, one_ne_zero, and_false]
  rw [WalkerList.firstAbove, if_neg (lt_irrefl _), firstAbove_sorted _ _ hsort, List.countP_cons_of_pos (by simp)]

/-- C118: for different likelihoods each rank from 1 up to the size of the ensemble belongs to exactly one walker: when the
new walker is as likely to be the one as the other, the ranks are uniform. -/
theorem C118_rank_uniform (l : List ℝ) (h : l.Nodup) : (l.map fun x => l.countP (· ≤ x)).Perm (List.range' 1 l.length) := by
  have key : ∀ s : List ℝ, s.Pairwise (· < ·) → s.map (fun x => s.countP (· ≤ x)) = List.range' 1 s.length := by
    intro s
    induction s with
    | nil => intro _; rfl
    | cons a t ih =>
      intro hs
      rw [List.pairwise_cons] at hs
      rw [List.map_cons, List.length_cons, List.range'_succ]
      have h1 : (a :: t).countP (fun y => decide (y ≤ a)) = 1 := by
        rw [List.countP_cons_of_pos (by simp), List.countP_eq_zero.2]
        intro y hy
        have := hs.1 y hy
        simpa using this
      have h2 : t.map (fun x => (a :: t).countP fun y => decide (y ≤ x)) = (t.map fun x => t.countP fun y => decide (y ≤ x)).map (1 + ·) := by
        rw [List.map_map]
        apply List.map_congr_left
        intro x hx
        rw [List.countP_cons_of_pos (by simpa using le_of_lt (hs.1 x hx))]
        simp only [Function.comp_apply]
        omega
      rw [h1, h2, ih hs.2, List.map_add_range']
  have hp : (l.insertionSort (· ≤ ·)).Perm l := List.perm_insertionSort _ _
  have hlt : (l.insertionSort (· ≤ ·)).Pairwise (· < ·) := by
    have h1 : (l.insertionSort (· ≤ ·)).Pairwise (fun a b : ℝ => a ≤ b) := List.pairwise_insertionSort _ _
    have h2 : (l.insertionSort (· ≤ ·)).Pairwise (fun a b : ℝ => a ≠ b) := hp.nodup_iff.2 h
    exact (h1.and h2).imp fun hab => lt_of_le_of_ne hab.1 hab.2
  have h3 := key _ hlt
  rw [hp.length_eq] at h3
  rw [← h3]
  refine (hp.symm.map _).trans (List.Perm.of_eq ?_)
  apply List.map_congr_left
  intro x _
  exact (hp.countP_eq _).symm

/-! ## The hypotheses can be met -/

/-- One engine, which stores one walker, with a likelihood that depends on its place. -/
noncomputable def storeEnv (keep : Bool) (f : ℕ → ℝ) : Env ℕ Unit where
  randint r := (0, r)
  permutation r := ([0], r)
  execute _ r wl kw _ := if kw < wl.items.length then some (engineStores wl kw [⟨keep, [5], f kw⟩], 1, r) else none
  logLcheck _ := true

theorem storeEnv_stores (keep : Bool) (f : ℕ → ℝ) (g : ℕ) (r : Unit) (wl : WalkerList ℕ ℝ) (kw : ℕ) (low : ℝ)
    (wl' : WalkerList ℕ ℝ) (mv : ℕ) (r' : Unit) (h : (storeEnv keep f).execute g r wl kw low = some (wl', mv, r')) :
    kw < wl.items.length ∧ wl' = engineStores wl kw [⟨keep, [5], f kw⟩] := by
  simp only [storeEnv] at h
  split_ifs at h with hk
  simp only [Option.some.injEq, Prod.mk.injEq] at h
  exact ⟨hk, h.1.symm⟩

theorem storeEnv_copies (f : ℕ → ℝ) : Copies (storeEnv true f) := by
  intro g r wl kw low wl' mv r' h
  exact ⟨_, by simp, (storeEnv_stores _ _ _ _ _ _ _ _ _ _ h).2⟩

theorem storeEnv_renews (f : ℕ → ℝ) : Renews (storeEnv false f) := by
  intro g r wl kw low wl' mv r' h
  exact ⟨_, by simp, by simp, (storeEnv_stores _ _ _ _ _ _ _ _ _ _ h).2⟩

theorem storeEnv_asked (keep : Bool) (f : ℕ → ℝ) : OnlyAsked (storeEnv keep f) := by
  intro g r wl kw low wl' mv r' h
  obtain ⟨hk, rfl⟩ := storeEnv_stores _ _ _ _ _ _ _ _ _ _ h
  obtain ⟨w, hw, -⟩ := stores_spec kw [⟨keep, [5], f kw⟩] wl _ (List.getElem?_eq_getElem hk)
  exact ⟨by rw [hw, List.length_set], fun i hi => by rw [hw, List.getElem?_set, if_neg (Ne.symm hi)]⟩

theorem demo_adam : Adam demoStart := by
  refine ⟨?_, ?_⟩
  · simp [demoStart, initState]
    rfl
  · simp [demoStart, initState]

theorem store_body (keep : Bool) : ∃ s', body (storeEnv keep fun _ => 7) (demoOpts 3 1) demoStart = some s' ∧
    s'.walkers.items.map Walker.logL = [7, 2, 3] ∧ s'.walkers.items.map Walker.id = [1, 0, 2] ∧
    s'.walkers.items.map Walker.start = [if keep then 1 else 0, 0, 0] ∧ parentEvolution s'.samples = [1] ∧
    s'.iteration = 1 := by
  have h7 : ¬ (7 : ℝ) < 1 := by norm_num
  cases keep <;> refine ⟨_, by
    simp only [body, demo_sorted]
    simp [demoOpts, updateEvidence, demo_sorted, updateWalkers, copyWalker, copyLoop, evLoop, evStep,
      storeEnv, WalkerList.copy, explore, exploreWalker, trialLoop, engineRound, SampleList.weed, h7, engineStores,
      engineSet, WalkerList.setWalker]
    rfl, ?_⟩ <;>
  simp [demoStart, initState, SampleList.add, toSample, parentEvolution]

/-- A run of the two kinds of engines: iterations, ends, and is not empty. -/
example (keep : Bool) : ∃ s s', Fresh (demoOpts 3 1) demoStart ∧ Adam demoStart ∧
    Reach (storeEnv keep fun _ => 7) (demoOpts 3 1) demoStart s ∧ 0 < s.iteration ∧ finish (demoOpts 3 1) s = some s' := by
  obtain ⟨s, hb, hl, _, _, _, hit⟩ := store_body keep
  have hlen : s.walkers.items.length = 3 := by
    have := congrArg List.length hl
    simpa using this
  refine ⟨s, ?_⟩
  have hne : (evLoop (demoOpts 3 1) 0 s.walkers.items s).samples.items ≠ [] := by
    obtain ⟨_, new, h2, h3, _⟩ := evLoop_samples (demoOpts 3 1) s.walkers.items 0 s
    rw [h2]
    intro h
    have := congrArg List.length h
    rw [List.length_append, h3, hlen] at this
    simp at this
  obtain ⟨sl, hsl⟩ := Option.ne_none_iff_exists'.1 (show
      (evLoop (demoOpts 3 1) 0 s.walkers.items s).samples.normalize ≠ none by
    simp only [SampleList.normalize]
    split
    · rename_i h
      exact absurd (List.map_eq_nil_iff.1 h) hne
    · simp)
  refine ⟨{ (evLoop (demoOpts 3 1) 0 s.walkers.items s) with samples := sl }, demo_fresh, demo_adam,
    .step .refl demo_next hb, by omega, ?_⟩
  have h3 : (demoOpts 3 1).ensemble = 3 := rfl
  simp only [finish, updateEvidence, h3, hlen]
  rw [if_neg (by norm_num), List.take_of_length_le (by omega)]
  simp only [hsl]

example : ∃ s', body (storeEnv true fun _ => 7) (demoOpts 3 1) demoStart = some s' ∧
    insertIndex 1 s'.walkers = some 3 := by
  obtain ⟨s', hb, hl, -⟩ := store_body true
  refine ⟨s', hb, ?_⟩
  obtain ⟨w, hw, hi⟩ := C118_rank _ (storeEnv_asked _ _) _ rfl _ _ hb
  rw [show (demoOpts 3 1).discard = 1 from rfl] at hi
  rw [hi]
  have hw7 : w.logL = 7 := by
    have := congrArg (fun l : List ℝ => l[0]?) hl
    simpa [hw] using this
  have : s'.walkers.items.countP (fun v => decide (v.logL ≤ w.logL)) =
      (s'.walkers.items.map Walker.logL).countP fun x => decide (x ≤ w.logL) := by
    rw [List.countP_map]
    rfl
  rw [this, hl, hw7]
  norm_num [List.countP_cons]

/-- C118 fails for the rank when more than one walker is discarded: the first new walker is not in order, here it hides
that the second new walker is the second of three. -/
theorem C118_counterexample_rank : ∃ s', body (storeEnv true fun k => 9 - 4 * (k : ℝ)) (demoOpts 3 2) demoStart2 = some s' ∧
    s'.walkers.items.map Walker.logL = [9, 5, 3] ∧ insertIndex (demoOpts 3 2).discard s'.walkers = some 0 := by
  refine ⟨_, by
    simp only [body, demo_sorted2]
    simp [demoOpts, updateEvidence, demo_sorted2, updateWalkers, copyWalker, copyLoop, evLoop, evStep,
      storeEnv, WalkerList.copy, explore, exploreWalker, trialLoop, engineRound, SampleList.weed, engineStores,
      engineSet, WalkerList.setWalker, List.range_succ]
    norm_num
    rfl, ?_⟩
  simp [demoStart2, initState, insertIndex, demoOpts, WalkerList.firstIndex, WalkerList.firstAbove]
  norm_num

example : ([3, 1, 2] : List ℝ).Nodup := by norm_num

end BF.Lineage
