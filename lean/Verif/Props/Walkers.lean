import Verif.Walkers

/-!
# C03: ordered walker lists
-/

namespace BF
namespace WalkerSpec

variable {α β : Type*} [LinearOrder β]

/-- Specification: the list is ordered on log likelihood, low to high. -/
def Ordered (l : List (Walker α β)) : Prop :=
  List.Pairwise (fun v w => v.logL ≤ w.logL) l

/-- Specification: what a walker is, apart from the id that the list hands out. -/
def content (w : Walker α β) : ℤ × ℕ × ℕ × List α × β :=
  (w.parent, w.start, w.step, w.allpars, w.logL)

end WalkerSpec

open WalkerSpec WalkerList

variable {α β : Type*} [LinearOrder β]

theorem firstAbove_le (low : β) (l : List (Walker α β)) : firstAbove low l ≤ l.length := by
  induction l with
  | nil => simp [firstAbove]
  | cons w ws ih => simp only [firstAbove]; split <;> simp <;> omega

theorem take_firstAbove (low : β) (l : List (Walker α β)) (w : Walker α β)
    (h : w ∈ l.take (firstAbove low l)) : w.logL ≤ low := by
  induction l with
  | nil => simp [firstAbove] at h
  | cons v ws ih =>
    simp only [firstAbove] at h
    split at h
    · simp at h
    · rename_i hv
      rw [List.take_succ_cons] at h
      rcases List.mem_cons.1 h with rfl | h
      · exact not_lt.1 hv
      · exact ih h

theorem drop_firstAbove (low : β) (l : List (Walker α β)) (hl : Ordered l) (w : Walker α β)
    (h : w ∈ l.drop (firstAbove low l)) : low < w.logL := by
  induction l with
  | nil => simp at h
  | cons v ws ih =>
    simp only [firstAbove] at h
    split at h
    · rename_i hv
      rcases List.mem_cons.1 (by simpa using h) with rfl | h
      · exact hv
      · exact lt_of_lt_of_le hv ((List.pairwise_cons.1 hl).1 w h)
    · rw [List.drop_succ_cons] at h
      exact ih (List.pairwise_cons.1 hl).2 h

/-- Insertion never loses, duplicates or changes a walker, and keeps the list ordered.
The new walker itself gets a new id only when the list was empty. -/
theorem C03_insert_ordered (wl : WalkerList α β) (w : Walker α β) (h : Ordered wl.items) :
    Ordered (wl.insertWalker w).items ∧
    ((wl.insertWalker w).items.map content).Perm ((w :: wl.items).map content) ∧
    (wl.items ≠ [] → (wl.insertWalker w).items.Perm (w :: wl.items)) ∧
    (wl.insertWalker w).count = wl.count + 1 := by
  by_cases hne : wl.items = []
  · have : wl.insertWalker w = ⟨[{ w with id := wl.count }], wl.count + 1⟩ := by
      simp [insertWalker, firstIndex, setWalker, hne]
    rw [this]
    refine ⟨by simp [Ordered], ?_, fun h => absurd hne h, rfl⟩
    simp [hne, content]
  · set k := firstAbove w.logL wl.items with hk
    have hlen : wl.items.length ≠ 0 := by simpa using hne
    have hit : (wl.insertWalker w).items = wl.items.take k ++ w :: wl.items.drop k := by
      have h0 : wl.firstIndex w.logL = some k := by simp [firstIndex, hne, hk]
      simp only [insertWalker, h0]
      by_cases h1 : (wl.items.drop k).length > 0 <;> by_cases h2 : (wl.items.take k).length > 0 <;>
        simp only [h1, h2, if_true, if_false] <;>
        simp_all
      omega
    have hcount : (wl.insertWalker w).count = wl.count + 1 := by
      have h0 : wl.firstIndex w.logL = some k := by simp [firstIndex, hne, hk]
      simp only [insertWalker, h0]
    have hperm : (wl.insertWalker w).items.Perm (w :: wl.items) := by
      rw [hit]
      refine List.perm_middle.trans (List.Perm.cons _ ?_)
      rw [List.take_append_drop]
    refine ⟨?_, hperm.map _, fun _ => hperm, hcount⟩
    rw [hit]
    unfold Ordered at *
    rw [List.pairwise_append]
    refine ⟨h.sublist (List.take_sublist _ _), ?_, ?_⟩
    · rw [List.pairwise_cons]
      exact ⟨fun v hv => (drop_firstAbove _ _ h v hv).le, h.sublist (List.drop_sublist _ _)⟩
    · intro a ha b hb
      have h1 := take_firstAbove _ _ a ha
      rcases List.mem_cons.1 hb with rfl | hb
      · exact h1
      · exact h1.trans (drop_firstAbove _ _ h b hb).le

/-- The reported index is the number of walkers at or below the level (`None` when empty). -/
theorem C03_firstIndex_counts (wl : WalkerList α β) (low : β) (h : Ordered wl.items) :
    wl.firstIndex low =
      if wl.items = [] then none else some (wl.items.countP (fun w => decide (w.logL ≤ low))) := by
  have key : firstAbove low wl.items = wl.items.countP (fun w => decide (w.logL ≤ low)) := by
    generalize wl.items = l at h ⊢
    induction l with
    | nil => simp [firstAbove]
    | cons v ws ih =>
      have hp := List.pairwise_cons.1 h
      simp only [firstAbove]
      split
      · rename_i hv
        symm
        rw [List.countP_eq_zero]
        intro a ha
        rcases List.mem_cons.1 ha with rfl | ha
        · simpa using hv
        · have := lt_of_lt_of_le hv (hp.1 a ha)
          simpa using this
      · rename_i hv
        rw [List.countP_cons_of_pos (by simpa using hv), ih hp.2]
  simp [firstIndex, key]

/-- Cropping at a level is exactly filtering: walkers at or below the level go, the others stay,
in their order; the id counter is not touched. -/
theorem C03_crop_is_filter (wl : WalkerList α β) (low : β) (h : Ordered wl.items) :
    (wl.cropOnLow low).items = wl.items.filter (fun w => decide (low < w.logL)) ∧
    Ordered (wl.cropOnLow low).items ∧ (wl.cropOnLow low).count = wl.count := by
  have key : ∀ l : List (Walker α β), Ordered l →
      l.drop (firstAbove low l) = l.filter (fun w => decide (low < w.logL)) := by
    intro l hl
    induction l with
    | nil => simp [firstAbove]
    | cons v ws ih =>
      have hp := List.pairwise_cons.1 hl
      simp only [firstAbove]
      split
      · rename_i hv
        symm
        rw [List.drop_zero, List.filter_eq_self]
        intro a ha
        rcases List.mem_cons.1 ha with rfl | ha
        · simpa using hv
        · simpa using lt_of_lt_of_le hv (hp.1 a ha)
      · rename_i hv
        rw [List.drop_succ_cons, ih hp.2, List.filter_cons_of_neg (by simpa using hv)]
  have h1 : (wl.cropOnLow low).items = wl.items.filter (fun w => decide (low < w.logL)) := by
    unfold cropOnLow firstIndex
    by_cases hne : wl.items = []
    · simp [hne]
    · simp [hne, key _ h]
  refine ⟨h1, ?_, ?_⟩
  · rw [h1]; exact h.sublist List.filter_sublist
  · unfold cropOnLow; split <;> rfl

/-- One operation on the phantom list. -/
inductive WOp (α β : Type*) where
  | insert (w : Walker α β)
  | crop (low : β)

/-- The list after one operation. -/
def WOp.run (wl : WalkerList α β) : WOp α β → WalkerList α β
  | .insert w => wl.insertWalker w
  | .crop low => wl.cropOnLow low

/-- Specification of a history: what must be in the list after it, as a plain multiset of walker
contents: inserted walkers minus those that a later crop removed. -/
def WOp.spec (s : List (ℤ × ℕ × ℕ × List α × β)) : WOp α β → List (ℤ × ℕ × ℕ × List α × β)
  | .insert w => content w :: s
  | .crop low => s.filter (fun c => decide (low < c.2.2.2.2))

/-- For every history of insertions and crops, starting from the empty list, the list is ordered
and holds exactly the walkers inserted and not cropped since. -/
theorem C03_history (ops : List (WOp α β)) :
    Ordered (ops.foldl WOp.run ⟨[], 0⟩).items ∧
    ((ops.foldl WOp.run ⟨[], 0⟩).items.map content).Perm (ops.foldl WOp.spec []) := by
  suffices H : ∀ (wl : WalkerList α β) s, Ordered wl.items → (wl.items.map content).Perm s →
      Ordered (ops.foldl WOp.run wl).items ∧
      ((ops.foldl WOp.run wl).items.map content).Perm (ops.foldl WOp.spec s) from
    H ⟨[], 0⟩ [] (by simp [Ordered]) (by simp)
  induction ops with
  | nil => intro wl s h1 h2; exact ⟨h1, h2⟩
  | cons op ops ih =>
    intro wl s h1 h2
    simp only [List.foldl_cons]
    cases op with
    | insert w =>
      obtain ⟨a, b, -, -⟩ := C03_insert_ordered wl w h1
      refine ih _ _ a (b.trans ?_)
      exact h2.cons (content w)
    | crop low =>
      obtain ⟨a, b, -⟩ := C03_crop_is_filter wl low h1
      refine ih _ _ b ?_
      change ((wl.cropOnLow low).items.map content).Perm _
      rw [a]
      have := h2.filter (fun c => decide (low < c.2.2.2.2))
      rw [List.filter_map] at this
      exact this

/-- The lowest likelihood reported is a lower bound, it is attained at the reported position, and
this is the first such position. -/
theorem C03_low (wl : WalkerList α β) :
    (wl.getLowLogL = none ↔ wl.items = []) ∧
    ∀ low k, wl.getLowLogL = some (low, k) →
      (∀ w ∈ wl.items, low ≤ w.logL) ∧
      (∃ w, wl.items[k]? = some w ∧ w.logL = low) ∧
      (∀ j w, j < k → wl.items[j]? = some w → low < w.logL) := by
  constructor
  · unfold getLowLogL; cases wl.items <;> simp
  · intro low k h
    have key : ∀ (post pre : List (Walker α β)) (lo : β) (klo : ℕ) ,
        klo < pre.length ∨ (pre = [] ∧ klo = 0 ∧ ∃ w ws, post = w :: ws ∧ w.logL = lo) →
        (∀ w ∈ pre, lo ≤ w.logL) →
        (pre ≠ [] → ∃ w, pre[klo]? = some w ∧ w.logL = lo) →
        (∀ j w, j < klo → pre[j]? = some w → lo < w.logL) →
        ∀ r, lowLoop post lo klo pre.length = r →
        pre ++ post ≠ [] →
        (∀ w ∈ pre ++ post, r.1 ≤ w.logL) ∧
        (∃ w, (pre ++ post)[r.2]? = some w ∧ w.logL = r.1) ∧
        (∀ j w, j < r.2 → (pre ++ post)[j]? = some w → r.1 < w.logL) := by
      intro post
      induction post with
      | nil =>
        intro pre lo klo h0 h1 h2 h3 r hr hne
        simp only [lowLoop] at hr
        subst hr
        simp only [List.append_nil] at hne ⊢
        exact ⟨h1, h2 hne, h3⟩
      | cons v vs ih =>
        intro pre lo klo h0 h1 h2 h3 r hr hne
        have e : pre ++ v :: vs = (pre ++ [v]) ++ vs := by simp
        simp only [lowLoop] at hr
        split at hr
        · rename_i hv
          have := ih (pre ++ [v]) v.logL pre.length (by left; simp) (by
              intro w hw
              rcases List.mem_append.1 hw with hw | hw
              · exact hv.le.trans (h1 w hw)
              · simp at hw; subst hw; exact le_rfl) (by
              intro _; exact ⟨v, by simp, rfl⟩) (by
              intro j w hj hjw
              rw [List.getElem?_append_left hj] at hjw
              exact lt_of_lt_of_le hv (h1 w (List.mem_of_getElem? hjw))) r (by simpa using hr)
              (by simp)
          rw [e]; exact this
        · rename_i hv
          have hv' : lo ≤ v.logL := not_lt.1 hv
          have hk : klo < (pre ++ [v]).length := by
            rcases h0 with h0 | ⟨-, h0, -⟩ <;> simp <;> omega
          have := ih (pre ++ [v]) lo klo (Or.inl hk) (by
              intro w hw
              rcases List.mem_append.1 hw with hw | hw
              · exact h1 w hw
              · simp at hw; subst hw; exact hv') (by
              intro _
              rcases h0 with h0 | ⟨h0, h0', w, ws, hw, hwl⟩
              · obtain ⟨w, hw, hwl⟩ := h2 (by rintro rfl; simp at h0)
                exact ⟨w, by rw [List.getElem?_append_left h0]; exact hw, hwl⟩
              · simp only [List.cons.injEq] at hw
                exact ⟨v, by simp [h0, h0'], by rw [hw.1]; exact hwl⟩) (by
              intro j w hj hjw
              rcases h0 with h0 | ⟨h0, h0', -⟩
              · rw [List.getElem?_append_left (by omega)] at hjw
                exact h3 j w hj hjw
              · omega) r (by simpa using hr) (by simp)
          rw [e]; exact this
    unfold getLowLogL at h
    cases hit : wl.items with
    | nil => simp [hit] at h
    | cons w ws =>
      simp only [hit, Option.some.injEq] at h
      have := key (w :: ws) [] w.logL 0 (Or.inr ⟨rfl, rfl, w, ws, rfl, rfl⟩) (by simp) (by simp)
        (by simp) (low, k) (by simpa using h) (by simp)
      simpa using this

omit [LinearOrder β] in
/-- Copying one walker over another changes the destination only. The destination keeps its id, gets all
that the source has, and remembers the source as its parent. It fails only for places outside the lists. -/
theorem C03_copy (wl : WalkerList α β) (src des : ℕ) (wlist : List (Walker α β)) (start : ℕ) :
    (wl.copy src des wlist start = none ↔ wl.items.length ≤ des ∨ wlist.length ≤ src) ∧
    ∀ wl', wl.copy src des wlist start = some wl' →
      wl'.count = wl.count ∧ wl'.items.length = wl.items.length ∧
      (∀ j, j ≠ des → wl'.items[j]? = wl.items[j]?) ∧
      ∃ d s w, wl.items[des]? = some d ∧ wlist[src]? = some s ∧ wl'.items[des]? = some w ∧
        w.id = d.id ∧ w.allpars = s.allpars ∧ w.logL = s.logL ∧ w.parent = src ∧ w.start = start ∧
        w.step = 0 := by
  unfold copy
  rcases hd : wl.items[des]? with _ | d
  · refine ⟨by simp [List.getElem?_eq_none_iff.1 hd], fun wl' h => by simp at h⟩
  have hdl := (List.getElem?_eq_some_iff.1 hd).1
  rcases hs : wlist[src]? with _ | s
  · refine ⟨by simp [List.getElem?_eq_none_iff.1 hs], fun wl' h => by simp at h⟩
  have hsl := (List.getElem?_eq_some_iff.1 hs).1
  refine ⟨by simp; omega, fun wl' h => ?_⟩
  simp only [Option.some.injEq] at h
  subst h
  refine ⟨rfl, by simp, fun j hj => by simp [List.getElem?_set_ne (Ne.symm hj)], d, s,
    { s with id := d.id, parent := src, start := start, step := 0 }, rfl, rfl,
    by simp [hdl], rfl, rfl, rfl, rfl, rfl, rfl⟩

omit [LinearOrder β] in
/-- Adding `n` walkers appends `n` copies with the next ids. -/
theorem C03_add (wl : WalkerList α β) (w : Walker α β) (n : ℕ) :
    (wl.addWalkers w n).items
      = wl.items ++ (List.range n).map (fun i => { w with id := wl.count + i }) ∧
    (wl.addWalkers w n).count = wl.count + n := by
  induction n generalizing wl with
  | zero => simp [addWalkers]
  | succ n ih =>
    obtain ⟨a, b⟩ := ih ⟨wl.items ++ [{ w with id := wl.count }], wl.count + 1⟩
    simp only [addWalkers]
    rw [a, b]
    refine ⟨?_, by simp only; omega⟩
    rw [List.range_succ_eq_map]
    simp only [List.append_assoc, List.singleton_append, List.map_cons, List.map_map, Nat.add_zero]
    congr 2
    refine List.map_congr_left fun i _ => ?_
    simp only [Function.comp, Nat.succ_eq_add_one]
    congr 1
    omega

/-- One operation on the ensemble. -/
inductive EOp (α β : Type*) where
  | add (w : Walker α β) (n : ℕ)
  | append (w : Walker α β)
  | copy (src des start : ℕ)
  | crop (low : β)

/-- The ensemble after one operation; a copy that raises leaves it. -/
def EOp.run (wl : WalkerList α β) : EOp α β → WalkerList α β
  | .add w n => wl.addWalkers w n
  | .append w => wl.setWalker w wl.items.length
  | .copy src des start => (wl.copy src des wl.items start).getD wl
  | .crop low => wl.cropOnLow low

/-- For every history of additions, copies and crops, no two walkers have the same id. -/
theorem C03_ids (ops : List (EOp α β)) :
    ((ops.foldl EOp.run ⟨[], 0⟩).items.map (·.id)).Nodup ∧
    ∀ w ∈ (ops.foldl EOp.run ⟨[], 0⟩).items, w.id < (ops.foldl EOp.run ⟨[], 0⟩).count := by
  have hadd : ∀ (wl : WalkerList α β) (w : Walker α β) (n : ℕ),
      ((wl.items.map (·.id)).Nodup ∧ ∀ w ∈ wl.items, w.id < wl.count) →
      (((wl.addWalkers w n).items.map (·.id)).Nodup ∧
        ∀ v ∈ (wl.addWalkers w n).items, v.id < (wl.addWalkers w n).count) := by
    intro wl w n ⟨h1, h2⟩
    obtain ⟨a, b⟩ := C03_add wl w n
    rw [a, b]
    constructor
    · rw [List.map_append, List.nodup_append]
      refine ⟨h1, ?_, ?_⟩
      · rw [List.map_map]
        refine (List.nodup_map_iff_inj_on List.nodup_range).2 fun i _ j _ hij => ?_
        simpa using hij
      · intro x hx y hy hxy
        obtain ⟨v, hv, rfl⟩ := List.mem_map.1 hx
        obtain ⟨u, hu, rfl⟩ := List.mem_map.1 hy
        obtain ⟨i, _, rfl⟩ := List.mem_map.1 hu
        have := h2 v hv
        simp only at hxy
        omega
    · intro v hv
      rcases List.mem_append.1 hv with hv | hv
      · have := h2 v hv; omega
      · obtain ⟨i, hi, rfl⟩ := List.mem_map.1 hv
        have := List.mem_range.1 hi
        simp only
        omega
  suffices H : ∀ wl : WalkerList α β, ((wl.items.map (·.id)).Nodup ∧ ∀ w ∈ wl.items, w.id < wl.count) →
      ((ops.foldl EOp.run wl).items.map (·.id)).Nodup ∧
        ∀ w ∈ (ops.foldl EOp.run wl).items, w.id < (ops.foldl EOp.run wl).count from
    H ⟨[], 0⟩ (by simp)
  induction ops with
  | nil => intro wl h; exact h
  | cons op ops ih =>
    intro wl h
    simp only [List.foldl_cons]
    apply ih
    cases op with
    | add w n => exact hadd wl w n h
    | append w =>
      have : EOp.run wl (.append w) = wl.addWalkers w 1 := by
        simp [EOp.run, setWalker, addWalkers]
      rw [this]
      exact hadd wl w 1 h
    | copy src des start =>
      simp only [EOp.run]
      cases hc : wl.copy src des wl.items start with
      | none => exact h
      | some wl' =>
        obtain ⟨a, b, c, d, s, w, hd, hs, hw, hid, -⟩ := (C03_copy wl src des wl.items start).2 wl' hc
        have hm : wl'.items.map (·.id) = wl.items.map (·.id) := by
          refine List.ext_getElem? fun j => ?_
          rw [List.getElem?_map, List.getElem?_map]
          by_cases hj : j = des
          · rw [hj, hd, hw]; simp [hid]
          · rw [c j hj]
        simp only [Option.getD_some]
        refine ⟨hm ▸ h.1, fun v hv => ?_⟩
        have : v.id ∈ wl.items.map (·.id) := hm ▸ List.mem_map_of_mem hv
        obtain ⟨u, hu, hui⟩ := List.mem_map.1 this
        rw [a, ← hui]
        exact h.2 u hu
    | crop low =>
      have hsub : ∀ k : ℕ, ((wl.items.drop k).map (·.id)).Nodup ∧ ∀ w ∈ wl.items.drop k, w.id < wl.count :=
        fun k => ⟨h.1.sublist ((List.drop_sublist _ _).map _), fun v hv => h.2 v (List.mem_of_mem_drop hv)⟩
      simp only [EOp.run, cropOnLow]
      split
      · exact h
      · exact hsub _

/-! Non-vacuity: a history with ties, a crop at a tie and an insertion at the front. -/
def mkw (i : ℕ) (l : ℤ) : Walker ℤ ℤ := ⟨i, -1, 0, 0, [l, 2 * l], l⟩

example : Ordered [mkw 0 1, mkw 1 3, mkw 2 3, mkw 3 7] := by
  simp [Ordered, mkw]

example : (WalkerList.insertWalker ⟨[mkw 0 1, mkw 1 3, mkw 2 3, mkw 3 7], 4⟩ (mkw 9 3)).items.map
    (·.id) = [0, 1, 2, 9, 3] := by decide

example : (WalkerList.cropOnLow ⟨[mkw 0 1, mkw 1 3, mkw 2 3, mkw 3 7], 4⟩ 3).items.map (·.id)
    = [3] := by decide

example : ([WOp.insert (mkw 4 5), .insert (mkw 5 2), .crop 2, .insert (mkw 6 9)].foldl WOp.run
    (⟨[], 0⟩ : WalkerList ℤ ℤ)).items.map (·.logL) = [5, 9] := by decide

example : ([EOp.add (mkw 7 5) 2, .copy 0 1 3, .append (mkw 7 8), .crop 6, .add (mkw 7 1) 1].foldl EOp.run
    (⟨[], 0⟩ : WalkerList ℤ ℤ)).items.map (·.id) = [2, 3] := by decide

example : ((WalkerList.copy ⟨[mkw 0 1, mkw 1 3], 2⟩ 1 0 [mkw 0 1, mkw 1 3] 4).map (·.items))
    = some [⟨0, 1, 4, 0, [3, 6], 3⟩, mkw 1 3] := by decide

example : WalkerList.getLowLogL ⟨[mkw 0 4, mkw 1 3, mkw 2 3], 3⟩ = some (3, 1) := by decide

end BF
