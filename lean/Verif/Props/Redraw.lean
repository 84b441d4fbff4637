import Verif.Redraw
import Verif.Props.Orders
import Mathlib.Data.Fintype.Pi
import Mathlib.Data.Fintype.BigOperators
import Mathlib.Logic.Equiv.Basic

/-!
# Properties of drawing another place

C146: the engines that change an order draw a second place that is another one, each with the same chance, and the
drawing ends.
-/

namespace BF
namespace Orders

variable {α β : Type*}

/-! ## Specification -/

/-- The number of sequences of `n` draws out of `np` numbers after which the loop has ended in `d`. -/
def endings (np src n d : ℕ) : ℕ :=
  (Finset.univ.filter fun f : Fin n → Fin np => another np src (List.ofFn fun k => (f k : ℕ)) = some d).card

/-- The number of sequences of `n` draws out of `np` numbers after which the loop is still running. -/
def running (np src n : ℕ) : ℕ :=
  (Finset.univ.filter fun f : Fin n → Fin np => another np src (List.ofFn fun k => (f k : ℕ)) = none).card

/-! ## The loop -/

/-- The place is another one. -/
theorem C146_other (np src : ℕ) (hn : 0 < np) (ds : List ℕ) (d : ℕ) (h : another np src ds = some d) :
    d < np ∧ d ≠ src := by
  induction ds with
  | nil => simp [another] at h
  | cons r rs ih =>
    by_cases hr : r % np = src
    · simp only [another, hr, if_true] at h
      exact ih h
    · simp only [another, hr, if_false, Option.some.injEq] at h
      subst h
      exact ⟨Nat.mod_lt _ hn, hr⟩

/-- The loop runs as long as the source itself is drawn. -/
theorem still_running (np src : ℕ) (ds : List ℕ) : another np src ds = none ↔ ∀ r ∈ ds, r % np = src := by
  induction ds with
  | nil => simp [another]
  | cons r rs ih =>
    by_cases hr : r % np = src
    · simp [another, hr, ih]
    · simp [another, hr]

/-- It stops at the first draw that differs: later draws are not used. -/
theorem C146_first (np src : ℕ) (ds es : List ℕ) (r : ℕ) (h : ∀ k ∈ ds, k % np = src) (hr : r % np ≠ src) :
    another np src (ds ++ r :: es) = some (r % np) := by
  induction ds with
  | nil => simp [another, hr]
  | cons k ks ih =>
    have := h k (by simp)
    simp only [List.cons_append, another, this, if_true]
    exact ih fun j hj => h j (by simp [hj])

/-- Of all sequences of draws one only keeps the loop running, so of `np ^ n` equally probable ones. -/
theorem C146_ends (np src n : ℕ) (hs : src < np) : running np src n = 1 ∧ Fintype.card (Fin n → Fin np) = np ^ n := by
  refine ⟨?_, by simp⟩
  unfold running
  rw [Finset.card_eq_one]
  refine ⟨fun _ => ⟨src, hs⟩, ?_⟩
  ext f
  simp only [Finset.mem_filter, Finset.mem_univ, true_and, Finset.mem_singleton, still_running, List.mem_ofFn]
  constructor
  · intro h
    funext k
    have := h _ ⟨k, rfl⟩
    rw [Nat.mod_eq_of_lt (f k).isLt] at this
    exact Fin.ext this
  · rintro rfl r ⟨k, rfl⟩
    exact Nat.mod_eq_of_lt hs

theorem another_map (np src : ℕ) (σ : Equiv.Perm (Fin np)) (l : List (Fin np))
    (hσ : ∀ a : Fin np, (a : ℕ) = src ↔ ((σ a : Fin np) : ℕ) = src) (d : Fin np)
    (h : another np src (l.map fun a : Fin np => (a : ℕ)) = some (d : ℕ)) :
    another np src (l.map fun a : Fin np => ((σ a : Fin np) : ℕ)) = some ((σ d : Fin np) : ℕ) := by
  induction l with
  | nil => simp [another] at h
  | cons a l ih =>
    simp only [List.map_cons, another, Nat.mod_eq_of_lt (Fin.isLt _)] at h ⊢
    by_cases ha : (a : ℕ) = src
    · rw [if_pos ha] at h
      rw [if_pos ((hσ a).1 ha)]
      exact ih h
    · rw [if_neg ha, Option.some.injEq] at h
      rw [if_neg (mt (hσ a).2 ha), Fin.ext h]

theorem endings_le (np src n : ℕ) (d e : Fin np) (hd : (d : ℕ) ≠ src) (he : (e : ℕ) ≠ src) :
    endings np src n d ≤ endings np src n e := by
  unfold endings
  apply Finset.card_le_card_of_injOn fun f k => Equiv.swap d e (f k)
  · intro f hf
    simp only [Finset.coe_filter, Finset.mem_univ, true_and, Set.mem_setOf_eq] at hf ⊢
    have key := another_map np src (Equiv.swap d e) (List.ofFn f) ?_ d (by rwa [List.map_ofFn])
    · rwa [List.map_ofFn, Equiv.swap_apply_left] at key
    · intro a
      by_cases h1 : a = d
      · subst h1
        simp [hd, he]
      · by_cases h2 : a = e
        · subst h2
          simp [hd, he]
        · rw [Equiv.swap_apply_of_ne_of_ne h1 h2]
  · intro f _ g _ h
    funext k
    exact (Equiv.swap d e).injective (congrFun h k)

/-- All other places have the same chance: as many sequences of draws end in the one as in the other, whatever the number of
draws. -/
theorem C146_uniform (np src n d e : ℕ) (hd : d < np) (he : e < np) (hds : d ≠ src) (hes : e ≠ src) :
    endings np src n d = endings np src n e :=
  le_antisymm (endings_le np src n ⟨d, hd⟩ ⟨e, he⟩ hds hes) (endings_le np src n ⟨e, he⟩ ⟨d, hd⟩ hes hds)

/-- Every other place can be drawn. -/
theorem C146_every (np src n d : ℕ) (hd : d < np) (hds : d ≠ src) (hn : 0 < n) : 0 < endings np src n d := by
  unfold endings
  rw [Finset.card_pos]
  refine ⟨fun _ => ⟨d, hd⟩, ?_⟩
  obtain ⟨m, rfl⟩ : ∃ m, n = m + 1 := ⟨n - 1, by omega⟩
  simp [List.ofFn_succ, another, Nat.mod_eq_of_lt hd, hds]

/-! ## The engines -/

theorem otherThan_onto (src np d : ℕ) (hs : src < np) (hd : d < np) (hne : d ≠ src) : ∃ r, otherThan src np r = d := by
  unfold otherThan
  rcases lt_or_gt_of_ne hne with h | h
  · refine ⟨d + np - src - 1, ?_⟩
    rw [Nat.mod_eq_of_lt (show d + np - src - 1 < np - 1 by omega),
      show src + 1 + (d + np - src - 1) = d + np by omega, Nat.add_mod_right, Nat.mod_eq_of_lt hd]
  · refine ⟨d - src - 1, ?_⟩
    rw [Nat.mod_eq_of_lt (show d - src - 1 < np - 1 by omega),
      show src + 1 + (d - src - 1) = d by omega, Nat.mod_eq_of_lt hd]

/-- One draw that ends the loop. -/
theorem another_otherThan (src np r : ℕ) (hs : src < np) (hn : 1 < np) :
    another np src [otherThan src np r] = some (otherThan src np r) := by
  simp [another, Nat.mod_eq_of_lt (otherThan_lt (src := src) (r := r) hn), otherThan_ne (r := r) hn hs]

section
variable [LinearOrder β]

theorem moveLoop_congr (L : List α → β) (low : β) (param : List α) (src des : ℕ) (d e : ℕ → ℕ) (t k : ℕ)
    (h : ∀ j, k ≤ j → d j = e j) : moveLoop L low param src des d t k = moveLoop L low param src des e t k := by
  induction t using Nat.strong_induction_on generalizing k with
  | _ t ih =>
    rw [moveLoop, moveLoop.eq_1 L low param src des e]
    by_cases ht : t > 0
    · rw [dif_pos ht, dif_pos ht]
      by_cases hl : low ≤ L (moveTry param src des t)
      · simp only [hl, if_true]
      · simp only [hl, if_false]
        rw [h k le_rfl]
        exact ih _ (Nat.mod_lt _ ht) (k + 1) fun j hj => h j (by omega)
    · rw [dif_neg ht, dif_neg ht]

/-- What the switch engine does with its loop is just what it does when its loop is replaced by the outcome: the properties
of the one are those of the other. -/
theorem C146_switch (L : List α → β) (low : β) (param : List α) (o : Outcome α β) :
    (∃ first ds, switchDrawn L low param first ds = some o) ↔ ∃ draw, switchOnce L low param draw = some o := by
  constructor
  · rintro ⟨first, ds, h⟩
    simp only [switchDrawn] at h
    by_cases h0 : param.length = 0
    · simp [h0] at h
    · rw [if_neg h0] at h
      have hs : first % param.length < param.length := Nat.mod_lt _ (by omega)
      rcases ha : another param.length (first % param.length) ds with _ | des
      · simp [ha] at h
      · rw [ha] at h
        obtain ⟨h1, h2⟩ := C146_other _ _ (by omega) ds des ha
        obtain ⟨r, hr⟩ := otherThan_onto _ _ des hs h1 h2
        refine ⟨fun k => if k = 0 then first else r, ?_⟩
        simp only [switchOnce]
        rw [if_neg (by omega)]
        simp only [if_true, Nat.one_ne_zero, if_false, hr]
        simp only [Option.map_some] at h
        rw [← h]
        split <;> rfl
  · rintro ⟨draw, h⟩
    simp only [switchOnce] at h
    by_cases h1 : param.length ≤ 1
    · simp [h1] at h
    · rw [if_neg h1] at h
      have hs : draw 0 % param.length < param.length := Nat.mod_lt _ (by omega)
      refine ⟨draw 0, [otherThan (draw 0 % param.length) param.length (draw 1)], ?_⟩
      simp only [switchDrawn]
      rw [if_neg (by omega), another_otherThan _ _ _ hs (by omega), Option.map_some, ← h]
      split <;> rfl

/-- The same for the move engine. -/
theorem C146_move (L : List α → β) (low : β) (param : List α) (o : Outcome α β) :
    (∃ first ds draw, moveDrawn L low param first ds draw = some o) ↔ ∃ draw, moveOnce L low param draw = some o := by
  constructor
  · rintro ⟨first, ds, draw, h⟩
    simp only [moveDrawn] at h
    by_cases h0 : param.length = 0
    · simp [h0] at h
    · rw [if_neg h0] at h
      have hs : first % param.length < param.length := Nat.mod_lt _ (by omega)
      rcases ha : another param.length (first % param.length) ds with _ | des
      · simp [ha] at h
      · rw [ha] at h
        obtain ⟨h1, h2⟩ := C146_other _ _ (by omega) ds des ha
        obtain ⟨r, hr⟩ := otherThan_onto _ _ des hs h1 h2
        refine ⟨fun k => if k = 0 then first else if k = 1 then r else draw k, ?_⟩
        simp only [moveOnce]
        rw [if_neg (by omega)]
        simp only [if_true, Nat.one_ne_zero, if_false, hr, OfNat.ofNat_ne_zero, OfNat.ofNat_ne_one]
        simp only [Option.map_some] at h
        rw [← h]
        congr 1
        exact moveLoop_congr L low param _ des _ _ _ 3 fun k hk => by
          rw [if_neg (by omega), if_neg (by omega)]
  · rintro ⟨draw, h⟩
    simp only [moveOnce] at h
    by_cases h1 : param.length ≤ 1
    · simp [h1] at h
    · rw [if_neg h1] at h
      have hs : draw 0 % param.length < param.length := Nat.mod_lt _ (by omega)
      refine ⟨draw 0, [otherThan (draw 0 % param.length) param.length (draw 1)], draw, ?_⟩
      simp only [moveDrawn]
      rw [if_neg (by omega), another_otherThan _ _ _ hs (by omega), Option.map_some, ← h]

/-- With one parameter there is no other place: both engines run for ever, whatever is drawn. -/
theorem C146_counterexample_one (L : List α → β) (low : β) (a : α) (first : ℕ) (ds : List ℕ) (draw : ℕ → ℕ) :
    switchDrawn L low [a] first ds = none ∧ moveDrawn L low [a] first ds draw = none := by
  have h : another 1 0 ds = none := (still_running 1 0 ds).2 fun r _ => Nat.mod_one r
  simp [switchDrawn, moveDrawn, Nat.mod_one, h]

end

/-! ## Concrete cases -/

/-- Three places, source 1: after two draws each of the others has four of the nine sequences. -/
example : endings 3 1 2 0 = 4 ∧ endings 3 1 2 2 = 4 ∧ running 3 1 2 = 1 := by decide

/-- Source 1 of three; 1 and 4 are drawn first, they are the source itself; 5 is place 2. -/
example : switchDrawn (fun l : List ℕ => l.length) 0 [7, 8, 9] 1 [1, 4, 5, 0] = some (.accept 2 [7, 9, 8] 3) := by
  rfl

end Orders
end BF
