import Verif.Images
import Mathlib.Data.List.Forall2
import Mathlib.Data.List.Nodup
import Mathlib.Data.List.Induction
import Mathlib.Tactic.Ring
import Mathlib.Tactic.Linarith

/-!
# C38: image indices enumerate every pixel exactly once

A pixel of an image is a multi-index with as many entries as the shape, each below its dimension.
-/

namespace BF.Images

/-- The pixels of an image. -/
def Pixel (shape idx : List ℕ) : Prop := List.Forall₂ (· < ·) idx shape

theorem digits_shift (i dd : ℕ) (ns : List ℕ) : digits i dd ns = digits (i / dd) 1 ns := by
  induction ns generalizing i dd with
  | nil => rfl
  | cons n ns ih =>
    simp only [digits, one_mul, Nat.div_one]
    rw [ih i (dd * n), ih (i / dd) n, Nat.div_div_eq_div_mul]

theorem digits_length (i dd : ℕ) (ns : List ℕ) : (digits i dd ns).length = ns.length := by
  induction ns generalizing dd with
  | nil => rfl
  | cons n ns ih => simp [digits, ih]

theorem row_nil (i : ℕ) : row .C [] i = [] := rfl

theorem row_snoc (s : List ℕ) (n i : ℕ) : row .C (s ++ [n]) i = row .C s (i / n) ++ [i % n] := by
  have e : (s ++ [n]).reverse = n :: s.reverse := by simp
  simp only [row, e, digits, Nat.div_one, one_mul, List.reverse_cons]
  rw [digits_shift]

theorem ravel_snoc (s ks : List ℕ) (n k : ℕ) (h : ks.length = s.length) :
    ravel (s ++ [n]) (ks ++ [k]) = ravel s ks * n + k := by
  induction s generalizing ks with
  | nil =>
    obtain rfl : ks = [] := List.length_eq_zero_iff.1 (by simpa using h)
    simp [ravel]
  | cons m s ih =>
    cases ks with
    | nil => simp at h
    | cons j ks =>
      simp only [List.cons_append, ravel, List.prod_append, List.prod_singleton]
      rw [ih ks (by simpa using h)]
      ring

theorem row_length (s : List ℕ) (i : ℕ) : (row .C s i).length = s.length := by
  simp [row, digits_length]

theorem pixel_snoc (s ks : List ℕ) (n k : ℕ) :
    Pixel (s ++ [n]) (ks ++ [k]) ↔ Pixel s ks ∧ k < n := by
  induction s generalizing ks with
  | nil =>
    cases ks with
    | nil => simp [Pixel]
    | cons a ks => cases ks <;> simp [Pixel]
  | cons m s ih =>
    cases ks with
    | nil => cases s <;> simp [Pixel]
    | cons a ks =>
      have := ih ks
      simp only [Pixel, List.cons_append, List.forall₂_cons] at this ⊢
      rw [this, and_assoc]

theorem ravel_row (s : List ℕ) (i : ℕ) (h : i < s.prod) : ravel s (row .C s i) = i := by
  induction s using List.reverseRecOn generalizing i with
  | nil =>
    obtain rfl : i = 0 := by simpa using h
    rfl
  | append_singleton s n ih =>
    rw [row_snoc, ravel_snoc _ _ _ _ (row_length s _)]
    have hn : i < s.prod * n := by simpa using h
    rw [ih (i / n) (Nat.div_lt_of_lt_mul (by rwa [mul_comm] at hn))]
    exact Nat.div_add_mod' i n

theorem pixel_row (s : List ℕ) (i : ℕ) (h : i < s.prod) : Pixel s (row .C s i) := by
  induction s using List.reverseRecOn generalizing i with
  | nil => exact List.Forall₂.nil
  | append_singleton s n ih =>
    have hn : i < s.prod * n := by simpa using h
    rw [row_snoc, pixel_snoc]
    refine ⟨ih _ (Nat.div_lt_of_lt_mul (by rwa [mul_comm] at hn)), Nat.mod_lt _ ?_⟩
    rcases Nat.eq_zero_or_pos n with rfl | hp
    · simp at hn
    · exact hp

theorem ravel_lt (s idx : List ℕ) (h : Pixel s idx) : ravel s idx < s.prod := by
  induction s generalizing idx with
  | nil =>
    cases h
    simp [ravel]
  | cons n s ih =>
    cases h with
    | cons h1 h2 =>
      rename_i k ks
      have := ih ks h2
      simp only [ravel, List.prod_cons]
      calc k * s.prod + ravel s ks < k * s.prod + s.prod := by omega
        _ = (k + 1) * s.prod := by ring
        _ ≤ n * s.prod := Nat.mul_le_mul_right _ h1

theorem row_ravel (s idx : List ℕ) (h : Pixel s idx) : row .C s (ravel s idx) = idx := by
  induction s using List.reverseRecOn generalizing idx with
  | nil =>
    cases h
    rfl
  | append_singleton s n ih =>
    have hl : idx.length = s.length + 1 := by simpa using h.length_eq
    rcases List.eq_nil_or_concat idx with rfl | ⟨ks, k, rfl⟩
    · simp at hl
    · rw [List.concat_eq_append] at h hl ⊢
      have hks : ks.length = s.length := by simpa using hl
      obtain ⟨h1, h2⟩ := (pixel_snoc s ks n k).1 h
      rw [ravel_snoc _ _ _ _ hks, row_snoc]
      have e1 : (ravel s ks * n + k) / n = ravel s ks := by
        rw [Nat.add_comm, Nat.add_mul_div_right _ _ (by omega), Nat.div_eq_of_lt h2, zero_add]
      have e2 : (ravel s ks * n + k) % n = k := by
        rw [Nat.add_comm, Nat.add_mul_mod_self_right, Nat.mod_eq_of_lt h2]
      rw [e1, e2, ih ks h1]

theorem mem_pixels (s idx : List ℕ) : idx ∈ pixels s ↔ Pixel s idx := by
  induction s generalizing idx with
  | nil => simp [pixels, Pixel]
  | cons n s ih =>
    simp only [pixels, List.mem_flatMap, List.mem_range, List.mem_map]
    constructor
    · rintro ⟨k, hk, ks, hks, rfl⟩
      exact List.Forall₂.cons hk ((ih ks).1 hks)
    · intro h
      cases h with
      | cons h1 h2 => exact ⟨_, h1, _, (ih _).2 h2, rfl⟩

theorem range_mul (n P : ℕ) :
    (List.range n).flatMap (fun k => (List.range P).map (k * P + ·)) = List.range (n * P) := by
  induction n with
  | zero => simp
  | succ n ih =>
    rw [List.range_succ, List.flatMap_append, ih, Nat.succ_mul, List.range_add]
    simp

theorem map_ravel_pixels (s : List ℕ) : (pixels s).map (ravel s) = List.range s.prod := by
  induction s with
  | nil => rfl
  | cons n s ih =>
    simp only [pixels, List.map_flatMap, List.map_map, List.prod_cons]
    rw [← range_mul n s.prod, ← ih]
    simp [Function.comp_def, ravel]

theorem pixels_eq (s : List ℕ) : pixels s = getIndices .C s := by
  rw [getIndices, ← map_ravel_pixels s, List.map_map]
  symm
  rw [List.map_eq_iff]
  intro i
  rcases h : (pixels s)[i]? with _ | idx
  · rfl
  · simp only [Option.map_some, Function.comp]
    rw [row_ravel s idx ((mem_pixels s idx).1 (List.mem_of_getElem? h))]

/-- Every pixel is listed exactly once, and nothing else. -/
theorem C38_once (shape : List ℕ) :
    (getIndices .C shape).Nodup ∧ ∀ idx, idx ∈ getIndices .C shape ↔ Pixel shape idx := by
  refine ⟨?_, fun idx => by rw [← pixels_eq]; exact mem_pixels shape idx⟩
  rw [getIndices, List.nodup_map_iff_inj_on List.nodup_range]
  intro i hi j hj hij
  rw [← ravel_row shape i (List.mem_range.1 hi), ← ravel_row shape j (List.mem_range.1 hj), hij]

/-- The same for the order F, in which the rows are given with the fastest index first. -/
theorem C38_once_fortran (shape : List ℕ) :
    (getIndices .F shape).Nodup ∧
      ∀ idx, idx ∈ getIndices .F shape ↔ Pixel shape idx.reverse := by
  have e : getIndices .F shape = (getIndices .C shape).map List.reverse := by
    simp [getIndices, row, Function.comp_def]
  obtain ⟨h1, h2⟩ := C38_once shape
  refine ⟨?_, fun idx => ?_⟩
  · rw [e]
    exact h1.map List.reverse_injective
  · rw [e, List.mem_map]
    constructor
    · rintro ⟨a, ha, rfl⟩
      simpa using (h2 a).1 ha
    · intro h
      exact ⟨idx.reverse, (h2 _).2 h, by simp⟩

/-- The `i`-th entry of the list is the position of the `i`-th value of the flattened image. -/
theorem C38_flat {α : Type*} (shape : List ℕ) (img : List ℕ → α) :
    (getIndices .C shape).map img = getydata .C shape img := by
  rw [getydata, reading, pixels_eq]

/-- Values calculated at the listed positions come back on their own pixels. -/
theorem C38_back {α : Type*} (shape idx : List ℕ) (f : List ℕ → α) (h : Pixel shape idx) :
    resizeData .C shape ((getIndices .C shape).map f) idx = some (f idx) := by
  have hlt := ravel_lt shape idx h
  simp only [resizeData, offset, getIndices, List.map_map, List.getElem?_map,
    List.getElem?_range hlt, Option.map_some, Function.comp]
  rw [row_ravel shape idx h]

/-- Flattening and resizing with the same order gives the image back, for both orders. -/
theorem C38_roundtrip {α : Type*} (o : Order) (shape idx : List ℕ) (img : List ℕ → α)
    (h : Pixel shape idx) : resizeData o shape (getydata o shape img) idx = some (img idx) := by
  cases o with
  | C =>
    rw [← C38_flat]
    exact C38_back shape idx img h
  | F =>
    have h' : Pixel shape.reverse idx.reverse := List.rel_reverse h
    have := C38_back shape.reverse idx.reverse (fun l => img l.reverse) h'
    simp only [List.reverse_reverse] at this
    simpa [resizeData, offset, getydata, reading, pixels_eq, Function.comp_def] using this

/-- With order F the list of positions does not belong to the flattened image: in an image of 2 by 3
the data are read in Fortran order while the positions follow the order in memory. -/
theorem C38_counterexample_fortran :
    ∃ (shape : List ℕ) (img : List ℕ → ℕ),
      (getIndices .F shape).map (fun k => img k.reverse) ≠ getydata .F shape img ∧
      (getIndices .F shape).map img ≠ getydata .F shape img := by
  refine ⟨[2, 3], fun l => l.foldl (fun a k => 10 * a + k) 0, ?_, ?_⟩ <;> decide

/-- For square images of order F the list belongs to the flattened image, row for row. -/
theorem C38_fortran_square_partial {α : Type*} (n rank : ℕ) (img : List ℕ → α) :
    (getIndices .F (List.replicate rank n)).map img = getydata .F (List.replicate rank n) img := by
  have e : getIndices .F (List.replicate rank n)
      = (getIndices .C (List.replicate rank n)).map List.reverse := by
    simp [getIndices, row, Function.comp_def]
  rw [getydata, reading, List.reverse_replicate, pixels_eq, e]

example : getIndices .C [2, 3] = [[0, 0], [0, 1], [0, 2], [1, 0], [1, 1], [1, 2]] := by decide
example : Pixel [2, 3, 4] [1, 0, 3] := by simp [Pixel]
example : resizeData .C [2, 3] ["a", "b", "c", "d", "e", "f"] [1, 1] = some "e" := by decide
example : getydata .F [2, 3] (fun l => l) = [[0, 0], [1, 0], [0, 1], [1, 1], [0, 2], [1, 2]] := by
  decide

end BF.Images
