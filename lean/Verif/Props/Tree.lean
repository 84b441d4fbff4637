import Verif.Tree
import Mathlib.Data.List.Perm.Basic
import Mathlib.Algebra.BigOperators.Group.Finset.Basic
import Mathlib.Tactic.Linarith
import Mathlib.Tactic.NormNum

/-!
# C59-C62: decision trees
-/

namespace BF.Tree

open BF.Dynamic

noncomputable section

/-! ## Specification -/

/-- Each branch has something to decide on: a split or a mask. The constructors and `grow` see to that. -/
def WF : Tree → Prop
  | .leaf _ => True
  | .branch _ s m l r => (s.isSome ∨ m.isSome) ∧ WF l ∧ WF r

/-- The number of leaves. -/
def leaves : Tree → ℕ
  | .leaf _ => 1
  | .branch _ _ _ l r => leaves l + leaves r

/-- A row with a one in place `k` and zeros elsewhere. -/
def oneHot (n k : ℕ) : List ℝ := (List.replicate n 0).set k 1

/-! ## Partition -/

theorem partition_some (d : Data) (dim : ℕ) (s : Option ℝ) (m : Option ℕ) (h : s.isSome ∨ m.isSome)
    (pl : List ℕ) :
    ∃ p : ℕ → Bool, partition d dim s m pl = some (pl.filter p, pl.filter fun i => !p i) := by
  by_cases h0 : pl = []
  · subst h0
    exact ⟨fun _ => true, by simp [partition]⟩
  · unfold partition
    rw [if_neg h0]
    cases s with
    | some s => exact ⟨_, rfl⟩
    | none =>
      cases m with
      | none => simp at h
      | some m =>
        by_cases h2 : 2 ≤ m
        · simp only [if_pos h2]; exact ⟨_, rfl⟩
        · simp only [if_neg h2]; exact ⟨_, rfl⟩

theorem leaves_pos (t : Tree) : 0 < leaves t := by
  induction t with
  | leaf => simp [leaves]
  | branch _ _ _ l r ihl ihr => simp only [leaves]; omega

/-- Number of the leaf in which a point of the list ends. -/
def place (d : Data) : Tree → List ℕ → ℕ → ℕ
  | .leaf _, _, _ => 0
  | .branch dim s m l r, pl, i =>
      match partition d dim s m pl with
      | none => 0
      | some pp => if i ∈ pp.1 then place d l pp.1 i else leaves l + place d r pp.2 i

theorem place_branch {d : Data} {dim : ℕ} {s : Option ℝ} {m : Option ℕ} {l r : Tree} {pl : List ℕ}
    {p : ℕ → Bool} (h : partition d dim s m pl = some (pl.filter p, pl.filter fun i => !p i)) {i : ℕ}
    (hi : i ∈ pl) :
    place d (.branch dim s m l r) pl i = if p i = true then place d l (pl.filter p) i
      else leaves l + place d r (pl.filter fun i => !p i) i := by
  simp only [place, h]
  by_cases hp : p i = true <;> simp [hi, hp]

theorem place_lt (d : Data) (t : Tree) (h : WF t) (pl : List ℕ) (i : ℕ) (hi : i ∈ pl) :
    place d t pl i < leaves t := by
  induction t generalizing pl with
  | leaf => simp [place, leaves]
  | branch dim s m l r ihl ihr =>
    obtain ⟨h1, h2, h3⟩ := h
    obtain ⟨p, hp⟩ := partition_some d dim s m h1 pl
    rw [place_branch hp hi]
    by_cases hpi : p i = true
    · rw [if_pos hpi]
      have := ihl h2 (pl.filter p) (by simp [hi, hpi])
      simp only [leaves]; omega
    · rw [if_neg hpi]
      have := ihr h3 (pl.filter fun i => !p i) (by simp [hi, hpi])
      simp only [leaves]; omega

/-! ## The results -/

theorem assign_length {α : Type} (res : List α) (pl : List ℕ) (v : α) :
    (assign res pl v).length = res.length := by
  induction pl generalizing res with
  | nil => rfl
  | cons a pl ih => simp only [assign, List.foldl_cons] at ih ⊢; rw [ih]; simp

theorem assign_get {α : Type} (res : List α) (pl : List ℕ) (v : α) (i : ℕ) :
    (assign res pl v)[i]? = if i ∈ pl ∧ i < res.length then some v else res[i]? := by
  induction pl generalizing res with
  | nil => simp [assign]
  | cons a pl ih =>
    have e : assign res (a :: pl) v = assign (res.set a v) pl v := rfl
    rw [e, ih]
    by_cases h1 : i ∈ pl <;> by_cases h2 : i < res.length <;> by_cases h3 : a = i <;>
      simp_all [List.getElem?_set, eq_comm]

theorem recResult_spec (d : Data) (params : List ℝ) (t : Tree) (h : WF t) (kpar : ℕ) (pl : List ℕ)
    (res : List ℝ) (hk : kpar + leaves t ≤ params.length) :
    ∃ res', recResult d params t kpar pl res = some (res', kpar + leaves t) ∧
      res'.length = res.length ∧
      ∀ i, res'[i]? = if i ∈ pl ∧ i < res.length then params[kpar + place d t pl i]? else res[i]? := by
  induction t generalizing kpar pl res with
  | leaf m =>
    simp only [leaves] at hk
    refine ⟨assign res pl params[kpar], ?_, assign_length _ _ _, ?_⟩
    · simp only [recResult, leaves]
      rw [List.getElem?_eq_getElem (by omega)]; rfl
    · intro i
      rw [assign_get]
      have e : params[kpar]? = some params[kpar] := List.getElem?_eq_getElem (by omega)
      simp only [place, Nat.add_zero, e]
  | branch dim s m l r ihl ihr =>
    obtain ⟨h1, h2, h3⟩ := h
    obtain ⟨p, hp⟩ := partition_some d dim s m h1 pl
    simp only [leaves] at hk
    obtain ⟨r1, e1, n1, g1⟩ := ihl h2 kpar (pl.filter p) res (by omega)
    obtain ⟨r2, e2, n2, g2⟩ := ihr h3 (kpar + leaves l) (pl.filter fun i => !p i) r1 (by omega)
    refine ⟨r2, ?_, n2.trans n1, ?_⟩
    · simp only [recResult, hp, Option.bind_some, e1, e2, leaves]
      rw [Nat.add_assoc]
    · intro i
      rw [g2, g1, n1]
      by_cases hi : i ∈ pl
      · rw [place_branch hp hi]
        by_cases hpi : p i = true
        · simp [hi, hpi]
        · simp [hi, hpi, Nat.add_assoc]
      · simp [hi]

theorem assignCol_length (part : List (List ℝ)) (pl : List ℕ) (k : ℕ) :
    (assignCol part pl k).length = part.length := by
  induction pl generalizing part with
  | nil => rfl
  | cons a pl ih => simp only [assignCol, List.foldl_cons] at ih ⊢; rw [ih]; simp

theorem assignCol_get (part : List (List ℝ)) (pl : List ℕ) (k i : ℕ) :
    (assignCol part pl k)[i]? = if i ∈ pl then (part[i]?).map fun row => row.set k 1 else part[i]? := by
  induction pl generalizing part with
  | nil => simp [assignCol]
  | cons a pl ih =>
    have e : assignCol part (a :: pl) k = assignCol (part.modify a fun row => row.set k 1) pl k := rfl
    rw [e, ih]
    have hc : ∀ x : List ℝ, (x.set k 1).set k 1 = x.set k 1 := by intro x; simp
    by_cases h1 : i ∈ pl <;> by_cases h3 : a = i <;>
      simp [h1, h3, eq_comm, List.getElem?_modify, Function.comp_def, hc]
    all_goals (first | (cases part[i]? <;> simp [h3, eq_comm] <;> try (intro h; exact absurd h.symm h3)) | skip)

theorem recPartial_spec (d : Data) (np : ℕ) (t : Tree) (h : WF t) (kpar : ℕ) (pl : List ℕ)
    (part : List (List ℝ)) (hk : kpar + leaves t ≤ np) :
    ∃ part', recPartial d np t kpar pl part = some (part', kpar + leaves t) ∧
      part'.length = part.length ∧
      ∀ i, part'[i]? = if i ∈ pl then (part[i]?).map fun row => row.set (kpar + place d t pl i) 1
        else part[i]? := by
  induction t generalizing kpar pl part with
  | leaf m =>
    simp only [leaves] at hk
    refine ⟨assignCol part pl kpar, ?_, assignCol_length _ _ _, ?_⟩
    · simp only [recPartial, leaves]
      rw [if_pos (by omega)]
    · intro i
      rw [assignCol_get]; simp only [place, Nat.add_zero]
  | branch dim s m l r ihl ihr =>
    obtain ⟨h1, h2, h3⟩ := h
    obtain ⟨p, hp⟩ := partition_some d dim s m h1 pl
    simp only [leaves] at hk
    obtain ⟨r1, e1, n1, g1⟩ := ihl h2 kpar (pl.filter p) part (by omega)
    obtain ⟨r2, e2, n2, g2⟩ := ihr h3 (kpar + leaves l) (pl.filter fun i => !p i) r1 (by omega)
    refine ⟨r2, ?_, n2.trans n1, ?_⟩
    · simp only [recPartial, hp, Option.bind_some, e1, e2, leaves]
      rw [Nat.add_assoc]
    · intro i
      rw [g2, g1]
      by_cases hi : i ∈ pl
      · rw [place_branch hp hi]
        by_cases hpi : p i = true
        · simp [hi, hpi]
        · simp [hi, hpi, Nat.add_assoc]
      · simp [hi]

theorem recOrder_spec (d : Data) (t : Tree) (h : WF t) (pl : List ℕ) (hn : pl.Nodup) :
    ∃ o, recOrder d t pl = some o ∧ o.Perm pl ∧ (o.map (place d t pl)).Pairwise (· ≤ ·) := by
  induction t generalizing pl with
  | leaf m =>
    refine ⟨pl, rfl, List.Perm.refl _, ?_⟩
    rw [List.pairwise_map]
    exact List.Pairwise.imp (fun _ => le_refl _) hn
  | branch dim s m l r ihl ihr =>
    obtain ⟨h1, h2, h3⟩ := h
    obtain ⟨p, hp⟩ := partition_some d dim s m h1 pl
    obtain ⟨a, ea, pa, sa⟩ := ihl h2 (pl.filter p) (hn.filter _)
    obtain ⟨b, eb, pb, sb⟩ := ihr h3 (pl.filter fun i => !p i) (hn.filter _)
    have hperm : (a ++ b).Perm pl := (pa.append pb).trans (List.filter_append_perm p pl)
    have ha : ∀ i ∈ a, i ∈ pl ∧ p i = true := fun i hi => by simpa using pa.mem_iff.1 hi
    have hb : ∀ i ∈ b, i ∈ pl ∧ ¬ p i = true := fun i hi => by simpa using pb.mem_iff.1 hi
    refine ⟨a ++ b, ?_, hperm, ?_⟩
    · simp only [recOrder, hp, Option.bind_some, ea, eb, Option.map_some]
    · rw [List.map_append, List.pairwise_append]
      have e1 : a.map (place d (.branch dim s m l r) pl) = a.map (place d l (pl.filter p)) := by
        apply List.map_congr_left
        intro i hi
        rw [place_branch hp (ha i hi).1, if_pos (ha i hi).2]
      have e2 : b.map (place d (.branch dim s m l r) pl)
          = (b.map (place d r (pl.filter fun i => !p i))).map (leaves l + ·) := by
        rw [List.map_map]
        apply List.map_congr_left
        intro i hi
        rw [place_branch hp (hb i hi).1, if_neg (hb i hi).2]; rfl
      rw [e1, e2]
      refine ⟨sa, ?_, ?_⟩
      · rw [List.pairwise_map]
        exact sb.imp fun h => by omega
      · intro x hx y hy
        simp only [List.mem_map] at hx hy
        obtain ⟨i, hi, rfl⟩ := hx
        obtain ⟨_, ⟨j, _, rfl⟩, rfl⟩ := hy
        have := place_lt d l h2 (pl.filter p) i (pa.mem_iff.1 hi)
        omega

theorem isLeaf_iff (t : Tree) : t.isLeaf = true ↔ ∃ m, t = .leaf m := by
  cases t <;> simp [Tree.isLeaf]

theorem baseResult_at (d : Data) (t : Tree) (h : WF t) (params : List ℝ)
    (hp : params.length = leaves t) :
    ∃ o, baseResult d t params = some o ∧
      ∀ i < d.n, o.at i = params[place d t (List.range d.n) i]? := by
  have hne : params ≠ [] := by
    intro h0; rw [h0] at hp; have := leaves_pos t; simp at hp; omega
  unfold baseResult
  rw [if_neg hne]
  by_cases hl : t.isLeaf = true
  · obtain ⟨m, rfl⟩ := (isLeaf_iff t).1 hl
    simp only [leaves] at hp
    rw [if_pos hl, List.getElem?_eq_getElem (by omega)]
    refine ⟨_, rfl, fun i _ => ?_⟩
    simp only [Out.at, place]
    rw [List.getElem?_eq_getElem (by omega)]
  · rw [if_neg hl]
    obtain ⟨r, e, n, g⟩ := recResult_spec d params t h 0 (List.range d.n) (List.replicate d.n 0)
      (by omega)
    rw [e]
    refine ⟨_, rfl, fun i hi => ?_⟩
    simp only [Out.at]
    rw [g]
    simp [hi]

theorem basePartial_at (d : Data) (t : Tree) (h : WF t) :
    ∃ part, basePartial d t (leaves t) none = some part ∧ part.length = d.n ∧
      ∀ i < d.n, part[i]? = some (oneHot (leaves t) (place d t (List.range d.n) i)) := by
  unfold basePartial
  by_cases hl : t.isLeaf = true
  · obtain ⟨m, rfl⟩ := (isLeaf_iff t).1 hl
    rw [if_pos hl]
    refine ⟨_, rfl, by simp, fun i hi => ?_⟩
    simp [hi, oneHot, leaves, place]
  · rw [if_neg hl]
    obtain ⟨r, e, n, g⟩ := recPartial_spec d (leaves t) t h 0 (List.range d.n)
      (List.replicate d.n (List.replicate (leaves t) 0)) (by omega)
    simp only [Option.getD_none]
    rw [e]
    refine ⟨_, rfl, by simpa using n, fun i hi => ?_⟩
    simp only
    rw [g]
    simp [hi, oneHot]

/-- C59: a tree sends each point to exactly one of its leaves, whatever the parameters are: the result
at the point is the parameter of that leaf, and the derivatives to the parameters are one for that
parameter and zero for all others. The points ordered by `sortXdata` are the same points, those of
the first leaf first, then those of the second, and so on. -/
theorem C59_leaf (d : Data) (t : Tree) (h : WF t) :
    ∃ w : ℕ → ℕ, (∀ i < d.n, w i < leaves t) ∧
      (∀ params : List ℝ, params.length = leaves t → ∃ o, baseResult d t params = some o ∧
        ∀ i < d.n, o.at i = params[w i]?) ∧
      (∃ part, basePartial d t (leaves t) none = some part ∧ part.length = d.n ∧
        ∀ i < d.n, part[i]? = some (oneHot (leaves t) (w i))) ∧
      ∃ o, sortXdata d t = some o ∧ o.Perm (List.range d.n) ∧ (o.map w).Pairwise (· ≤ ·) :=
  ⟨place d t (List.range d.n), fun i hi => place_lt d t h _ i (by simpa using hi),
    fun params hp => baseResult_at d t h params hp, basePartial_at d t h,
    recOrder_spec d t h _ List.nodup_range⟩

/-- Non-vacuity: a tree with three leaves, a split and a mask, meets the hypotheses. -/
example : WF (.branch 0 (some (1 / 2)) none (.leaf none) (.branch 1 none (some 2) (.leaf none) (.leaf none)))
    ∧ leaves (.branch 0 (some (1 / 2)) none (.leaf none)
      (.branch 1 none (some 2) (.leaf none) (.leaf none))) = 3 := by
  simp [WF, leaves]

/-! ## What a branch decides -/

theorem minOf_spec (l : List ℝ) (h : l ≠ []) : minOf l ∈ l ∧ ∀ x ∈ l, minOf l ≤ x := by
  have key : ∀ (l : List ℝ) (a : ℝ), (l.foldl min a ∈ a :: l) ∧ ∀ x ∈ a :: l, l.foldl min a ≤ x := by
    intro l
    induction l with
    | nil => intro a; simp
    | cons b l ih =>
      intro a
      obtain ⟨h1, h2⟩ := ih (min a b)
      simp only [List.foldl_cons]
      constructor
      · rcases List.mem_cons.1 h1 with h | h
        · rw [h]; rcases min_choice a b with h' | h' <;> rw [h'] <;> simp
        · simp [h]
      · intro x hx
        have h3 := h2 (min a b) (by simp)
        rcases List.mem_cons.1 hx with rfl | hx
        · exact h3.trans (min_le_left _ _)
        · rcases List.mem_cons.1 hx with rfl | hx
          · exact h3.trans (min_le_right _ _)
          · exact h2 x (by simp [hx])
  cases l with
  | nil => exact absurd rfl h
  | cons a l => exact key l a

theorem maxOf_spec (l : List ℝ) (h : l ≠ []) : maxOf l ∈ l ∧ ∀ x ∈ l, x ≤ maxOf l := by
  have key : ∀ (l : List ℝ) (a : ℝ), (l.foldl max a ∈ a :: l) ∧ ∀ x ∈ a :: l, x ≤ l.foldl max a := by
    intro l
    induction l with
    | nil => intro a; simp
    | cons b l ih =>
      intro a
      obtain ⟨h1, h2⟩ := ih (max a b)
      simp only [List.foldl_cons]
      constructor
      · rcases List.mem_cons.1 h1 with h | h
        · rw [h]; rcases max_choice a b with h' | h' <;> rw [h'] <;> simp
        · simp [h]
      · intro x hx
        have h3 := h2 (max a b) (by simp)
        rcases List.mem_cons.1 hx with rfl | hx
        · exact (le_max_left _ _).trans h3
        · rcases List.mem_cons.1 hx with rfl | hx
          · exact (le_max_right _ _).trans h3
          · exact h2 x (by simp [hx])
  cases l with
  | nil => exact absurd rfl h
  | cons a l => exact key l a

/-- C59: a branch with a split: the points of the table whose value is above the cut, at the fraction
`s` between the lowest and the highest value, get the first parameter and the others the second. If
the values are not all the same there are points of both kinds. -/
theorem C59_split (d : Data) (dim : ℕ) (s lo hi a b : ℝ) (m ml mr : Option ℕ)
    (hlo : IsLeast {x | ∃ i < d.n, x = d.num dim i} lo)
    (hhi : IsGreatest {x | ∃ i < d.n, x = d.num dim i} hi) :
    ∃ o, baseResult d (.branch dim (some s) m (.leaf ml) (.leaf mr)) [a, b] = some o ∧
      (∀ i < d.n, o.at i = some (if lo + (hi - lo) * s < d.num dim i then a else b)) ∧
      (lo < hi → 0 ≤ s → s < 1 → (∃ i < d.n, lo + (hi - lo) * s < d.num dim i) ∧
        ∃ i < d.n, ¬ lo + (hi - lo) * s < d.num dim i) := by
  obtain ⟨o, h1, h2⟩ := baseResult_at d (.branch dim (some s) m (.leaf ml) (.leaf mr))
    (by simp [WF]) [a, b] rfl
  refine ⟨o, h1, fun i hi' => ?_, fun hlt h0 hs => ⟨?_, ?_⟩⟩
  · rw [h2 i hi']
    have hne : List.range d.n ≠ [] := by
      intro h; rw [List.range_eq_nil] at h; omega
    have hne' : (List.range d.n).map (d.num dim) ≠ [] := by simpa using hne
    have emin : minOf ((List.range d.n).map (d.num dim)) = lo := by
      obtain ⟨u, v⟩ := minOf_spec _ hne'
      apply le_antisymm
      · obtain ⟨j, hj, e⟩ := hlo.1
        rw [e]; exact v _ (List.mem_map.2 ⟨j, by simpa using hj, rfl⟩)
      · obtain ⟨j, hj, e⟩ := List.mem_map.1 u
        exact hlo.2 ⟨j, by simpa using hj, e.symm⟩
    have emax : maxOf ((List.range d.n).map (d.num dim)) = hi := by
      obtain ⟨u, v⟩ := maxOf_spec _ hne'
      apply le_antisymm
      · obtain ⟨j, hj, e⟩ := List.mem_map.1 u
        exact hhi.2 ⟨j, by simpa using hj, e.symm⟩
      · obtain ⟨j, hj, e⟩ := hhi.1
        rw [e]; exact v _ (List.mem_map.2 ⟨j, by simpa using hj, rfl⟩)
    simp only [place, partition, if_neg hne, emin, emax]
    by_cases hc : lo + (hi - lo) * s < d.num dim i
    · simp [hi', hc]
    · simp [hi', hc, not_lt.1 hc, leaves]
  · obtain ⟨j, hj, e⟩ := hhi.1
    exact ⟨j, hj, by rw [← e]; nlinarith⟩
  · obtain ⟨j, hj, e⟩ := hlo.1
    exact ⟨j, hj, by rw [← e]; nlinarith⟩

/-- C59: a branch with a mask of a column of categories: the points with a bit in common with the mask
get the first parameter. The mask 1 (for booleans) selects the points that equal 1. -/
theorem C59_mask (d : Data) (dim k : ℕ) (a b : ℝ) (ml mr : Option ℕ) :
    ∃ o, baseResult d (.branch dim none (some k) (.leaf ml) (.leaf mr)) [a, b] = some o ∧
      ∀ i < d.n, o.at i = some (if (2 ≤ k ∧ d.cat dim i &&& k ≠ 0) ∨ (k < 2 ∧ d.cat dim i = k)
        then a else b) := by
  obtain ⟨o, h1, h2⟩ := baseResult_at d (.branch dim none (some k) (.leaf ml) (.leaf mr))
    (by simp [WF]) [a, b] rfl
  refine ⟨o, h1, fun i hi => ?_⟩
  rw [h2 i hi]
  have hne : List.range d.n ≠ [] := by
    intro h; rw [List.range_eq_nil] at h; omega
  simp only [place, partition, if_neg hne]
  by_cases hk : 2 ≤ k
  · have hk' : ¬ k < 2 := by omega
    by_cases hc : d.cat dim i &&& k = 0 <;> simp [hk, hk', hc, hi, leaves]
  · have hk' : k < 2 := by omega
    by_cases hc : d.cat dim i = k
    · simp [hk, hk', hc, hi, leaves]
    · simp [hk, hk', hc, hi, leaves]

/-- C59 is false with a list of parameters (as used when parameters are fixed): `basePartial` takes the
numbers of the parameters for numbers of points. Here the derivative to parameter 1 at the second
point, which is 1, is not found. -/
theorem C59_counterexample_parlist :
    let d : Data := ⟨2, fun _ i => i, fun _ i => i⟩
    let t : Tree := .branch 0 none (some 1) (.leaf none) (.leaf none)
    basePartial d t 2 none = some [[0, 1], [1, 0]] ∧
      basePartial d t 2 (some [0]) = some [[0, 1], [0, 0]] := by
  simp [basePartial, Tree.isLeaf, recPartial, partition, assignCol, List.range_succ]

/-! ## C60: the other points -/

/-- All decisions are made with masks. -/
def Masks : Tree → Prop
  | .leaf _ => True
  | .branch _ s m l r => s = none ∧ m.isSome ∧ Masks l ∧ Masks r

/-- Which categories go to the left. -/
def maskTest (m c : ℕ) : Bool := if 2 ≤ m then decide (c &&& m ≠ 0) else decide (c = m)

theorem partition_mask (d : Data) (dim m : ℕ) (pl : List ℕ) :
    partition d dim none (some m) pl = some (pl.filter fun i => maskTest m (d.cat dim i),
      pl.filter fun i => !maskTest m (d.cat dim i)) := by
  by_cases h0 : pl = []
  · subst h0; simp [partition]
  · unfold partition maskTest
    rw [if_neg h0]
    by_cases hk : 2 ≤ m <;> simp [hk]

theorem place_masks (t : Tree) (h : Masks t) (d d' : Data) (i j : ℕ)
    (hij : ∀ dim, d.cat dim i = d'.cat dim j) (pl pl' : List ℕ) (hi : i ∈ pl) (hj : j ∈ pl') :
    place d t pl i = place d' t pl' j := by
  induction t generalizing pl pl' with
  | leaf => rfl
  | branch dim s m l r ihl ihr =>
    obtain ⟨rfl, hm, h2, h3⟩ := h
    obtain ⟨m, rfl⟩ := Option.isSome_iff_exists.1 hm
    rw [place_branch (partition_mask d dim m pl) hi, place_branch (partition_mask d' dim m pl') hj,
      hij dim]
    by_cases hc : maskTest m (d'.cat dim j) = true
    · rw [if_pos hc, if_pos hc]
      exact ihl h2 _ _ (by simp [hi, hij, hc]) (by simp [hj, hc])
    · rw [if_neg hc, if_neg hc]
      exact congrArg _ (ihr h3 _ _ (by simp [hi, hij, hc]) (by simp [hj, hc]))

theorem masks_wf (t : Tree) (h : Masks t) : WF t := by
  induction t with
  | leaf => trivial
  | branch _ _ _ _ _ ihl ihr => exact ⟨.inr h.2.1, ihl h.2.2.1, ihr h.2.2.2⟩

/-- C60, for trees that decide on categories only: the result at a point is the same in any table that
has the point. -/
theorem C60_masks_partial (t : Tree) (h : Masks t) (params : List ℝ) (hp : params.length = leaves t)
    (d d' : Data) (i j : ℕ) (hi : i < d.n) (hj : j < d'.n) (hij : ∀ dim, d.cat dim i = d'.cat dim j) :
    ∃ o o', baseResult d t params = some o ∧ baseResult d' t params = some o' ∧ o.at i = o'.at j := by
  obtain ⟨o, e, g⟩ := baseResult_at d t (masks_wf t h) params hp
  obtain ⟨o', e', g'⟩ := baseResult_at d' t (masks_wf t h) params hp
  refine ⟨o, o', e, e', ?_⟩
  rw [g i hi, g' j hj, place_masks t h d d' i j hij (List.range d.n) (List.range d'.n)
    (List.mem_range.2 hi) (List.mem_range.2 hj)]

/-- Non-vacuity: such a tree, and a point that is in two tables. -/
example : Masks (.branch 0 none (some 2) (.leaf none) (.branch 1 none (some 1) (.leaf none) (.leaf none))) ∧
    ∀ dim : ℕ, (⟨3, fun _ i => i, fun _ i => i⟩ : Data).cat dim 2 =
      (⟨1, fun _ _ => 2, fun _ _ => 2⟩ : Data).cat dim 0 := by
  simp [Masks]

/-- C60 is false when the tree has a split: the cut is relative to the lowest and highest value in the
table, so one more row in the table can change the result at all others. Here the point x = 1 gets
the first parameter in the table (0, 1) and the second in the table (0, 1, 10). -/
theorem C60_counterexample :
    let d : Data := ⟨2, fun _ i => [0, 1, 10].getD i 0, fun _ _ => 0⟩
    let t : Tree := .branch 0 (some (1 / 2)) none (.leaf none) (.leaf none)
    ∃ o o', baseResult d t [5, 7] = some o ∧ baseResult { d with n := 3 } t [5, 7] = some o' ∧
      o.at 1 = some 5 ∧ o'.at 1 = some 7 := by
  intro d t
  have hl : IsLeast {x | ∃ i < d.n, x = d.num 0 i} 0 := by
    refine ⟨⟨0, by decide, by simp [d]⟩, ?_⟩
    rintro x ⟨i, hi, rfl⟩
    have : i = 0 ∨ i = 1 := by simp only [d] at hi; omega
    rcases this with rfl | rfl <;> simp [d]
  have hh : IsGreatest {x | ∃ i < d.n, x = d.num 0 i} 1 := by
    refine ⟨⟨1, by decide, by simp [d]⟩, ?_⟩
    rintro x ⟨i, hi, rfl⟩
    have : i = 0 ∨ i = 1 := by simp only [d] at hi; omega
    rcases this with rfl | rfl <;> simp [d]
  have hl' : IsLeast {x | ∃ i < 3, x = d.num 0 i} 0 := by
    refine ⟨⟨0, by decide, by simp [d]⟩, ?_⟩
    rintro x ⟨i, hi, rfl⟩
    have : i = 0 ∨ i = 1 ∨ i = 2 := by omega
    rcases this with rfl | rfl | rfl <;> simp [d]
  have hh' : IsGreatest {x | ∃ i < 3, x = d.num 0 i} 10 := by
    refine ⟨⟨2, by decide, by simp [d]⟩, ?_⟩
    rintro x ⟨i, hi, rfl⟩
    have : i = 0 ∨ i = 1 ∨ i = 2 := by omega
    rcases this with rfl | rfl | rfl <;> simp [d]
  obtain ⟨o, e, g, _⟩ := C59_split d 0 (1 / 2) 0 1 5 7 none none none hl hh
  obtain ⟨o', e', g', _⟩ := C59_split { d with n := 3 } 0 (1 / 2) 0 10 5 7 none none none hl' hh'
  refine ⟨o, o', e, e', ?_, ?_⟩
  · rw [g 1 (by decide)]
    have : (0 : ℝ) + (1 - 0) * (1 / 2) < d.num 0 1 := by simp [d]; norm_num
    rw [if_pos this]
  · rw [g' 1 (by decide)]
    have : ¬ (0 : ℝ) + (10 - 0) * (1 / 2) < ({ d with n := 3 } : Data).num 0 1 := by simp [d]; norm_num
    rw [if_neg this]

/-! ## C61: growing, shrinking and varying -/

theorem leafs_branch (dim : ℕ) (s : Option ℝ) (m : Option ℕ) (l r : Tree) :
    ((walk (.branch dim s m l r)).filter fun q => q.2.isLeaf)
      = (((walk l).filter fun q => q.2.isLeaf).map fun q => (false :: q.1, q.2))
        ++ ((walk r).filter fun q => q.2.isLeaf).map fun q => (true :: q.1, q.2) := by
  simp [walk, Tree.isLeaf, List.filter_map, Function.comp_def]

theorem branches_branch (dim : ℕ) (s : Option ℝ) (m : Option ℕ) (l r : Tree) :
    ((walk (.branch dim s m l r)).filter fun q => !q.2.isLeaf)
      = ([], .branch dim s m l r) :: (((walk l).filter fun q => !q.2.isLeaf).map fun q => (false :: q.1, q.2))
        ++ ((walk r).filter fun q => !q.2.isLeaf).map fun q => (true :: q.1, q.2) := by
  simp [walk, Tree.isLeaf, List.filter_map, Function.comp_def]

theorem countLeaf_eq (t : Tree) : countLeaf t = leaves t := by
  induction t with
  | leaf => simp [countLeaf, walk, Tree.isLeaf, leaves]
  | branch dim s m l r ihl ihr =>
    unfold countLeaf at *
    rw [leafs_branch]
    simp [leaves, ihl, ihr]

theorem countBranch_eq (t : Tree) : countBranch t + 1 = leaves t := by
  induction t with
  | leaf => simp [countBranch, walk, Tree.isLeaf, leaves]
  | branch dim s m l r ihl ihr =>
    unfold countBranch at *
    rw [branches_branch]
    simp only [leaves, List.length_append, List.length_cons, List.length_map]
    omega

theorem findLeaf_branch (dim : ℕ) (s : Option ℝ) (m : Option ℕ) (l r : Tree) (k : ℕ) :
    findLeaf (.branch dim s m l r) k = if k < leaves l
      then (findLeaf l k).map fun q => (false :: q.1, q.2)
      else (findLeaf r (k - leaves l)).map fun q => (true :: q.1, q.2) := by
  unfold findLeaf
  rw [leafs_branch]
  have hl : ((walk l).filter fun q => q.2.isLeaf).length = leaves l := countLeaf_eq l
  by_cases hk : k < leaves l
  · rw [if_pos hk, List.getElem?_append_left (by simpa [hl] using hk), List.getElem?_map]
  · rw [if_neg hk, List.getElem?_append_right (by simpa [hl] using hk), List.getElem?_map]
    simp [hl]

theorem findLeaf_some (t : Tree) (k : ℕ) (hk : k < leaves t) : ∃ q, findLeaf t k = some q := by
  refine ⟨((walk t).filter fun q => q.2.isLeaf)[k]'?_, ?_⟩
  · have := countLeaf_eq t
    unfold countLeaf at this
    omega
  · exact List.getElem?_eq_getElem _

theorem findBranch_some (t : Tree) (k : ℕ) (hk : k + 1 < leaves t) : ∃ q, findBranch t k = some q := by
  refine ⟨((walk t).filter fun q => !q.2.isLeaf)[k]'?_, ?_⟩
  · have := countBranch_eq t
    unfold countBranch at this
    omega
  · exact List.getElem?_eq_getElem _

theorem findLeaf_leaf (m : Option ℕ) (k : ℕ) (q : Path × Tree) (h : findLeaf (.leaf m) k = some q) :
    k = 0 ∧ q = ([], .leaf m) := by
  unfold findLeaf at h
  cases k with
  | zero => simp [walk, Tree.isLeaf] at h; exact ⟨rfl, h.symm⟩
  | succ k => simp [walk, Tree.isLeaf] at h

theorem findLeaf_lt (t : Tree) (k : ℕ) (q : Path × Tree) (h : findLeaf t k = some q) : k < leaves t := by
  have h1 := (List.getElem?_eq_some_iff.1 h).1
  have := countLeaf_eq t
  unfold countLeaf at this
  omega

theorem sprout_shape (kdim itype : ℕ) (split : ℝ) (m : Option ℕ) :
    ∃ s mk, sprout kdim itype split (.leaf m) = .branch kdim s mk (.leaf none) (.leaf none) ∧
      (s.isSome ∨ mk.isSome) := by
  by_cases h : itype = 0
  · simp only [sprout, if_pos h]; exact ⟨_, _, rfl, .inl rfl⟩
  · simp only [sprout, if_neg h]; exact ⟨_, _, rfl, .inr rfl⟩

/-- Growing a leaf: the points of all other leaves stay in their leaf. -/
theorem grow_place (kdim itype : ℕ) (split : ℝ) (t : Tree) (h : WF t) (loc : ℕ) (q : Path × Tree)
    (hq : findLeaf t loc = some q) :
    let t' := modifyAt (sprout kdim itype split) q.1 t
    WF t' ∧ leaves t' = leaves t + 1 ∧ ∀ (d : Data) (pl : List ℕ), ∀ i ∈ pl,
      (place d t pl i < loc → place d t' pl i = place d t pl i) ∧
      (place d t pl i = loc → place d t' pl i = loc ∨ place d t' pl i = loc + 1) ∧
      (loc < place d t pl i → place d t' pl i = place d t pl i + 1) := by
  induction t generalizing loc q with
  | leaf m =>
    obtain ⟨rfl, rfl⟩ := findLeaf_leaf m loc q hq
    obtain ⟨s, mk, e, hs⟩ := sprout_shape kdim itype split m
    intro t'
    have et : t' = .branch kdim s mk (.leaf none) (.leaf none) := e
    rw [et]
    refine ⟨⟨hs, trivial, trivial⟩, rfl, fun d pl i hi => ⟨?_, fun _ => ?_, ?_⟩⟩
    · simp [place]
    · obtain ⟨p, hp⟩ := partition_some d kdim s mk hs pl
      rw [place_branch hp hi]
      by_cases hpi : p i = true
      · left; rw [if_pos hpi]; rfl
      · right; rw [if_neg hpi]; rfl
    · simp [place]
  | branch dim s m l r ihl ihr =>
    obtain ⟨h1, h2, h3⟩ := h
    rw [findLeaf_branch] at hq
    by_cases hk : loc < leaves l
    · rw [if_pos hk] at hq
      obtain ⟨q', hq', rfl⟩ := Option.map_eq_some_iff.1 hq
      obtain ⟨w, n, g⟩ := ihl h2 loc q' hq'
      simp only [modifyAt]
      refine ⟨⟨h1, w, h3⟩, by simp only [leaves]; omega, fun d pl i hi => ?_⟩
      obtain ⟨p, hp⟩ := partition_some d dim s m h1 pl
      rw [place_branch hp hi, place_branch hp hi]
      by_cases hpi : p i = true
      · rw [if_pos hpi, if_pos hpi]
        exact g d (pl.filter p) i (by simp [hi, hpi])
      · rw [if_neg hpi, if_neg hpi, n]
        refine ⟨fun h => by omega, fun h => by omega, fun h => by omega⟩
    · rw [if_neg hk] at hq
      obtain ⟨q', hq', rfl⟩ := Option.map_eq_some_iff.1 hq
      obtain ⟨w, n, g⟩ := ihr h3 (loc - leaves l) q' hq'
      simp only [modifyAt]
      refine ⟨⟨h1, h2, w⟩, by simp only [leaves]; omega, fun d pl i hi => ?_⟩
      obtain ⟨p, hp⟩ := partition_some d dim s m h1 pl
      rw [place_branch hp hi, place_branch hp hi]
      by_cases hpi : p i = true
      · rw [if_pos hpi, if_pos hpi]
        have := place_lt d l h2 (pl.filter p) i (by simp [hi, hpi])
        refine ⟨fun h => by omega, fun h => by omega, fun h => by omega⟩
      · rw [if_neg hpi, if_neg hpi]
        obtain ⟨g1, g2, g3⟩ := g d (pl.filter fun i => !p i) i (by simp [hi, hpi])
        refine ⟨fun h => ?_, fun h => ?_, fun h => ?_⟩
        · rw [g1 (by omega)]
        · rcases g2 (by omega) with e | e <;> rw [e] <;> omega
        · rw [g3 (by omega)]; omega

/-- Shrinking: the leaves from `a` up to `a + n`, one of which is number `loc`, become one leaf; the
points of all other leaves stay in their leaf. -/
theorem shrink_place (t : Tree) (h : WF t) (loc : ℕ) (q : Path × Tree)
    (hq : findLeaf t loc = some q) (hne : q.1 ≠ []) :
    let t' := modifyAt prune q.1.dropLast t
    WF t' ∧ ∃ a n, 0 < n ∧ leaves t' + n = leaves t ∧ a ≤ loc ∧ loc ≤ a + n ∧ a + n < leaves t ∧
      (q.1.getLast? = some false → loc = a) ∧ (q.1.getLast? = some true → loc = a + n) ∧
      ∀ (d : Data) (pl : List ℕ), ∀ i ∈ pl,
        (place d t pl i < a → place d t' pl i = place d t pl i) ∧
        (a ≤ place d t pl i → place d t pl i ≤ a + n → place d t' pl i = a) ∧
        (a + n < place d t pl i → place d t' pl i + n = place d t pl i) := by
  induction t generalizing loc q with
  | leaf m =>
    obtain ⟨rfl, rfl⟩ := findLeaf_leaf m loc q hq
    exact absurd rfl hne
  | branch dim s m l r ihl ihr =>
    have hWF := h
    obtain ⟨h1, h2, h3⟩ := h
    have lp := leaves_pos l
    have rp := leaves_pos r
    have top : ∀ (b : Bool), (b = false → leaves l = 1 ∧ loc = 0 ∨ loc = 0) →
        (b = true → loc + 1 = leaves l + leaves r) → loc < leaves l + leaves r →
        WF (Tree.leaf m) ∧ ∃ a n, 0 < n ∧ leaves (Tree.leaf m) + n = leaves (.branch dim s m l r) ∧
        a ≤ loc ∧ loc ≤ a + n ∧ a + n < leaves (.branch dim s m l r) ∧
        ([b].getLast? = some false → loc = a) ∧ ([b].getLast? = some true → loc = a + n) ∧
        ∀ (d : Data) (pl : List ℕ), ∀ i ∈ pl,
          (place d (.branch dim s m l r) pl i < a →
            place d (.leaf m) pl i = place d (.branch dim s m l r) pl i) ∧
          (a ≤ place d (.branch dim s m l r) pl i → place d (.branch dim s m l r) pl i ≤ a + n →
            place d (.leaf m) pl i = a) ∧
          (a + n < place d (.branch dim s m l r) pl i →
            place d (.leaf m) pl i + n = place d (.branch dim s m l r) pl i) := by
      intro b hb1 hb2 hlt
      refine ⟨trivial, 0, leaves l + leaves r - 1, by omega, by simp only [leaves]; omega, by omega,
        by omega, by simp only [leaves]; omega, ?_, ?_, fun d pl i hi => ⟨by simp, by simp [place], ?_⟩⟩
      · intro hb
        simp at hb
        rcases hb1 hb with h | h <;> omega
      · intro hb
        simp at hb
        have := hb2 hb; omega
      · intro hlt'
        have := place_lt d _ hWF pl i hi
        simp only [leaves] at this
        omega
    rw [findLeaf_branch] at hq
    by_cases hk : loc < leaves l
    · rw [if_pos hk] at hq
      obtain ⟨q', hq', rfl⟩ := Option.map_eq_some_iff.1 hq
      by_cases hq0 : q'.1 = []
      · have hleaf : ∃ ml, l = .leaf ml := by
          cases l with
          | leaf ml => exact ⟨ml, rfl⟩
          | branch dim' s' m' l' r' =>
            rw [findLeaf_branch] at hq'
            by_cases hk' : loc < leaves l'
            · rw [if_pos hk'] at hq'
              obtain ⟨_, _, rfl⟩ := Option.map_eq_some_iff.1 hq'
              simp at hq0
            · rw [if_neg hk'] at hq'
              obtain ⟨_, _, rfl⟩ := Option.map_eq_some_iff.1 hq'
              simp at hq0
        obtain ⟨ml, rfl⟩ := hleaf
        have hloc := (findLeaf_leaf ml loc q' hq').1
        simp only [hq0, List.dropLast_singleton, modifyAt, prune]
        exact top false (fun _ => .inr hloc) (by simp) (by omega)
      · obtain ⟨w, a, n, g0, g1, g2, g3, g4, g5, g6, g⟩ := ihl h2 loc q' hq' hq0
        have ed : (false :: q'.1).dropLast = false :: q'.1.dropLast :=
          List.dropLast_cons_of_ne_nil hq0
        have el : (false :: q'.1).getLast? = q'.1.getLast? := by
          obtain ⟨x, xs, e⟩ := List.exists_cons_of_ne_nil hq0
          rw [e, List.getLast?_cons_cons]
        simp only [ed, modifyAt, el]
        refine ⟨⟨h1, w, h3⟩, a, n, g0, by simp only [leaves]; omega, g2, g3,
          by simp only [leaves]; omega, g5, g6, fun d pl i hi => ?_⟩
        obtain ⟨p, hp⟩ := partition_some d dim s m h1 pl
        rw [place_branch hp hi, place_branch hp hi]
        by_cases hpi : p i = true
        · rw [if_pos hpi, if_pos hpi]
          exact g d (pl.filter p) i (by simp [hi, hpi])
        · rw [if_neg hpi, if_neg hpi]
          refine ⟨fun h => by omega, fun h h' => by omega, fun h => by omega⟩
    · rw [if_neg hk] at hq
      obtain ⟨q', hq', rfl⟩ := Option.map_eq_some_iff.1 hq
      by_cases hq0 : q'.1 = []
      · have hleaf : ∃ ml, r = .leaf ml := by
          cases r with
          | leaf ml => exact ⟨ml, rfl⟩
          | branch dim' s' m' l' r' =>
            rw [findLeaf_branch] at hq'
            by_cases hk' : loc - leaves l < leaves l'
            · rw [if_pos hk'] at hq'
              obtain ⟨_, _, rfl⟩ := Option.map_eq_some_iff.1 hq'
              simp at hq0
            · rw [if_neg hk'] at hq'
              obtain ⟨_, _, rfl⟩ := Option.map_eq_some_iff.1 hq'
              simp at hq0
        obtain ⟨ml, rfl⟩ := hleaf
        have hloc := (findLeaf_leaf ml _ q' hq').1
        simp only [hq0, List.dropLast_singleton, modifyAt, prune]
        exact top true (by simp) (fun _ => by simp only [leaves]; omega) (by simp only [leaves]; omega)
      · obtain ⟨w, a, n, g0, g1, g2, g3, g4, g5, g6, g⟩ := ihr h3 (loc - leaves l) q' hq' hq0
        have ed : (true :: q'.1).dropLast = true :: q'.1.dropLast :=
          List.dropLast_cons_of_ne_nil hq0
        have el : (true :: q'.1).getLast? = q'.1.getLast? := by
          obtain ⟨x, xs, e⟩ := List.exists_cons_of_ne_nil hq0
          rw [e, List.getLast?_cons_cons]
        simp only [ed, modifyAt, el]
        refine ⟨⟨h1, h2, w⟩, leaves l + a, n, g0, by simp only [leaves]; omega, by omega, by omega,
          by simp only [leaves]; omega, fun h => ?_, fun h => ?_, fun d pl i hi => ?_⟩
        · have := g5 h; omega
        · have := g6 h; omega
        obtain ⟨p, hp⟩ := partition_some d dim s m h1 pl
        rw [place_branch hp hi, place_branch hp hi]
        by_cases hpi : p i = true
        · rw [if_pos hpi, if_pos hpi]
          have := place_lt d l h2 (pl.filter p) i (by simp [hi, hpi])
          refine ⟨fun h => by omega, fun h h' => by omega, fun h => by omega⟩
        · rw [if_neg hpi, if_neg hpi]
          obtain ⟨u1, u2, u3⟩ := g d (pl.filter fun i => !p i) i (by simp [hi, hpi])
          refine ⟨fun h => ?_, fun h h' => ?_, fun h => ?_⟩
          · rw [u1 (by omega)]
          · rw [u2 (by omega) (by omega)]
          · have := u3 (by omega); omega

theorem findBranch_branch (dim : ℕ) (s : Option ℝ) (m : Option ℕ) (l r : Tree) (k : ℕ) (q : Path × Tree)
    (h : findBranch (.branch dim s m l r) k = some q) :
    q = ([], .branch dim s m l r) ∨ (∃ k' q', findBranch l k' = some q' ∧ q = (false :: q'.1, q'.2)) ∨
      ∃ k' q', findBranch r k' = some q' ∧ q = (true :: q'.1, q'.2) := by
  have hm := List.mem_of_getElem? h
  rw [branches_branch] at hm
  simp only [List.cons_append, List.mem_cons, List.mem_append, List.mem_map] at hm
  rcases hm with rfl | ⟨q', hq', rfl⟩ | ⟨q', hq', rfl⟩
  · exact .inl rfl
  · obtain ⟨k', hk'⟩ := List.mem_iff_getElem?.1 hq'
    exact .inr (.inl ⟨k', q', hk', rfl⟩)
  · obtain ⟨k', hk'⟩ := List.mem_iff_getElem?.1 hq'
    exact .inr (.inr ⟨k', q', hk', rfl⟩)

theorem varyNode_shape (kdim itype : ℕ) (split : ℝ) (rng : Option (ℝ × ℝ × ℕ)) (dim : ℕ)
    (s : Option ℝ) (m : Option ℕ) (l r : Tree) :
    ∃ s' m', varyNode kdim itype split rng (.branch dim s m l r) = .branch kdim s' m' l r ∧
      (s'.isSome ∨ m'.isSome) := by
  cases rng with
  | none =>
    by_cases h : itype = 0
    · simp only [varyNode, if_pos h]; exact ⟨_, _, rfl, .inl rfl⟩
    · simp only [varyNode, if_neg h]; exact ⟨_, _, rfl, .inr rfl⟩
  | some u =>
    by_cases h : itype = 0
    · simp only [varyNode, if_pos h]; exact ⟨_, _, rfl, .inl rfl⟩
    · by_cases h1 : itype = 1
      · simp only [varyNode, if_neg h, if_pos h1]; exact ⟨_, _, rfl, .inr rfl⟩
      · simp only [varyNode, if_neg h, if_neg h1]; exact ⟨_, _, rfl, .inr rfl⟩

/-- Varying a branch: the points of all leaves outside the branch stay in their leaf. -/
theorem vary_place (kdim itype : ℕ) (split : ℝ) (rng : Option (ℝ × ℝ × ℕ)) (t : Tree) (h : WF t)
    (k : ℕ) (q : Path × Tree) (hq : findBranch t k = some q) :
    let t' := modifyAt (varyNode kdim itype split rng) q.1 t
    WF t' ∧ leaves t' = leaves t ∧ ∃ a n, leaves q.2 = n ∧ a + n ≤ leaves t ∧
      ∀ (d : Data) (pl : List ℕ), ∀ i ∈ pl,
      (place d t pl i < a ∨ a + n ≤ place d t pl i → place d t' pl i = place d t pl i) ∧
      (a ≤ place d t pl i → place d t pl i < a + n → a ≤ place d t' pl i ∧ place d t' pl i < a + n) := by
  induction t generalizing k q with
  | leaf m =>
    unfold findBranch at hq
    simp [walk, Tree.isLeaf] at hq
  | branch dim s m l r ihl ihr =>
    have hWF := h
    obtain ⟨h1, h2, h3⟩ := h
    rcases findBranch_branch dim s m l r k q hq with rfl | ⟨k', q', hq', rfl⟩ | ⟨k', q', hq', rfl⟩
    · obtain ⟨s', m', e, hs⟩ := varyNode_shape kdim itype split rng dim s m l r
      simp only [modifyAt, e]
      refine ⟨⟨hs, h2, h3⟩, rfl, 0, _, rfl, by omega, fun d pl i hi => ⟨fun h => ?_, fun _ _ => ⟨Nat.zero_le _, ?_⟩⟩⟩
      · have := place_lt d _ hWF pl i hi
        omega
      · have := place_lt d (.branch kdim s' m' l r) ⟨hs, h2, h3⟩ pl i hi
        simp only [leaves] at this ⊢
        omega
    · obtain ⟨w, n, a, c, hc, hac, g⟩ := ihl h2 k' q' hq'
      simp only [modifyAt]
      refine ⟨⟨h1, w, h3⟩, by simp only [leaves]; omega, a, c, hc, by simp only [leaves]; omega,
        fun d pl i hi => ?_⟩
      obtain ⟨p, hp⟩ := partition_some d dim s m h1 pl
      rw [place_branch hp hi, place_branch hp hi]
      by_cases hpi : p i = true
      · rw [if_pos hpi, if_pos hpi]
        exact g d (pl.filter p) i (by simp [hi, hpi])
      · rw [if_neg hpi, if_neg hpi, n]
        exact ⟨fun _ => rfl, fun u v => ⟨u, v⟩⟩
    · obtain ⟨w, n, a, c, hc, hac, g⟩ := ihr h3 k' q' hq'
      simp only [modifyAt]
      refine ⟨⟨h1, h2, w⟩, by simp only [leaves]; omega, leaves l + a, c, hc,
        by simp only [leaves]; omega, fun d pl i hi => ?_⟩
      obtain ⟨p, hp⟩ := partition_some d dim s m h1 pl
      rw [place_branch hp hi, place_branch hp hi]
      by_cases hpi : p i = true
      · rw [if_pos hpi, if_pos hpi]
        exact ⟨fun _ => rfl, fun u v => ⟨u, v⟩⟩
      · rw [if_neg hpi, if_neg hpi]
        obtain ⟨u1, u2⟩ := g d (pl.filter fun i => !p i) i (by simp [hi, hpi])
        refine ⟨fun h => by rw [u1 (by omega)], fun h h' => ?_⟩
        have := u2 (by omega) (by omega)
        omega

/-! ### The theorems -/

/-- The numbers belong to the tree, for a tree that is a model by itself: as many parameters as leaves,
one branch less. -/
def Ok (s : DT) : Prop :=
  WF s.tree ∧ s.npbase = leaves s.tree ∧ s.npchain = leaves s.tree ∧ s.params.length = leaves s.tree ∧
    s.ncomp + 1 = leaves s.tree ∧ s.itypes ≠ []

theorem getItem_some {α : Type} (l : List α) (h : l ≠ []) (k : ℕ) : ∃ x, getItem l k = some x := by
  unfold getItem
  by_cases hk : l.length ≤ k
  · rw [if_pos hk]
    exact ⟨_, List.getLast?_eq_some_getLast h⟩
  · rw [if_neg hk]
    exact ⟨_, List.getElem?_eq_getElem (by omega)⟩

/-- Growing: either nothing is done, or one leaf becomes two and one parameter is inserted. -/
theorem grow_ok (s : DT) (h : Ok s) (loc kdim : ℕ) (split : ℝ) (v : ℕ → ℝ) (hl : loc < leaves s.tree) :
    ∃ s' b, s.grow 0 loc kdim split v = some (s', b) ∧ Ok s' ∧ (b = false → s' = s) ∧
      (b = true → ∃ itype q, findLeaf s.tree loc = some q ∧
        s'.tree = modifyAt (sprout kdim itype split) q.1 s.tree ∧
        s'.params = s.params.take loc ++ [v 0] ++ s.params.drop loc) := by
  obtain ⟨h1, h2, h3, h4, h5, h6⟩ := h
  unfold DT.grow
  by_cases hd : (!s.dynamic) = true
  · rw [if_pos hd]; exact ⟨s, false, rfl, ⟨h1, h2, h3, h4, h5, h6⟩, fun _ => rfl, by simp⟩
  · rw [if_neg hd]
    by_cases hm : s.maxComp.elim false (fun m => decide (m ≤ s.ncomp)) = true
    · rw [if_pos hm]; exact ⟨s, false, rfl, ⟨h1, h2, h3, h4, h5, h6⟩, fun _ => rfl, by simp⟩
    · rw [if_neg hm]
      obtain ⟨itype, hi⟩ := getItem_some s.itypes h6 kdim
      obtain ⟨q, hq⟩ := findLeaf_some s.tree loc hl
      obtain ⟨w, n, -⟩ := grow_place kdim itype split s.tree h1 loc q hq
      rw [hi, hq]
      simp only [Option.bind_some]
      rw [List.getElem?_eq_getElem (by omega)]
      simp only [Option.bind_some, countLeaf_eq, n, h3]
      rw [if_neg (by omega)]
      have e : leaves s.tree + 1 - leaves s.tree = 1 := by omega
      rw [e]
      unfold insertPars
      rw [if_pos (by omega)]
      refine ⟨_, true, rfl, ⟨w, by simp [n, h2], by simp [n], ?_, ?_, h6⟩, by simp, fun _ => ?_⟩
      · simp [n, h4]; omega
      · exact countBranch_eq _
      · exact ⟨itype, q, rfl, rfl, by simp⟩

/-- Shrinking: either nothing is done, or the leaves of one branch become one leaf and as many
parameters are deleted. -/
theorem shrink_ok (s : DT) (h : Ok s) (loc : ℕ) (hl : loc < leaves s.tree) :
    ∃ s' b, s.shrink 0 loc = some (s', b) ∧ Ok s' ∧ (b = false → s' = s) ∧
      (b = true → ∃ q n, findLeaf s.tree loc = some q ∧ q.1 ≠ [] ∧
        s'.tree = modifyAt prune q.1.dropLast s.tree ∧ leaves s'.tree + n = leaves s.tree ∧
        s'.params = s.params.take (min (loc + n) (leaves s.tree) - n)
          ++ s.params.drop (min (loc + n) (leaves s.tree))) := by
  obtain ⟨h1, h2, h3, h4, h5, h6⟩ := h
  unfold DT.shrink
  by_cases hm : s.ncomp < 1 ∨ s.minComp.elim false (fun m => decide (s.ncomp ≤ m)) = true
  · rw [if_pos hm]; exact ⟨s, false, rfl, ⟨h1, h2, h3, h4, h5, h6⟩, fun _ => rfl, by simp⟩
  · rw [if_neg hm]
    obtain ⟨q, hq⟩ := findLeaf_some s.tree loc hl
    rw [hq]
    simp only [Option.bind_some]
    by_cases hq0 : q.1 = []
    · rw [if_pos hq0]; exact ⟨s, false, rfl, ⟨h1, h2, h3, h4, h5, h6⟩, fun _ => rfl, by simp⟩
    · rw [if_neg hq0]
      obtain ⟨w, a, n, hn, e, u1, u2, u3, -⟩ := shrink_place s.tree h1 loc q hq hq0
      simp only [countLeaf_eq, h3]
      rw [if_neg (by omega)]
      have en : leaves s.tree - leaves (modifyAt prune q.1.dropLast s.tree) = n := by omega
      rw [en]
      unfold deletePars
      rw [if_neg (by omega), if_pos (by omega)]
      refine ⟨_, true, rfl, ⟨w, by simp only [h2]; omega, by simp only; omega, ?_, ?_, h6⟩, by simp,
        fun _ => ?_⟩
      · simp [h4]; omega
      · exact countBranch_eq _
      · exact ⟨q, n, rfl, hq0, rfl, e, by simp⟩

theorem vary_ok (s : DT) (h : Ok s) (k kdim : ℕ) (split : ℝ) (rng : Option (ℝ × ℝ × ℕ))
    (hk : 0 < s.ncomp → k < s.ncomp) :
    ∃ s' b, s.vary k kdim split rng = some (s', b) ∧ Ok s' ∧ s'.params = s.params ∧ (b = false → s' = s) ∧
      (b = true → ∃ itype q, findBranch s.tree k = some q ∧
        s'.tree = modifyAt (varyNode kdim itype split rng) q.1 s.tree) := by
  obtain ⟨h1, h2, h3, h4, h5, h6⟩ := h
  unfold DT.vary
  by_cases hm : s.ncomp < 1
  · rw [if_pos hm]; exact ⟨s, false, rfl, ⟨h1, h2, h3, h4, h5, h6⟩, rfl, fun _ => rfl, by simp⟩
  · rw [if_neg hm]
    obtain ⟨q, hq⟩ := findBranch_some s.tree k (by have := hk (by omega); omega)
    obtain ⟨itype, hi⟩ := getItem_some s.itypes h6 kdim
    obtain ⟨w, n, -⟩ := vary_place kdim itype split rng s.tree h1 k q hq
    rw [hq, hi]
    exact ⟨_, true, rfl, ⟨w, by simp [n, h2], by simp [n, h3], by simp [n, h4], by simp [n, h5], h6⟩, rfl,
      by simp, fun _ => ⟨itype, q, rfl, rfl⟩⟩

/-- C61: whatever history of births, deaths and variations a tree has gone through, no error has
occurred and there are as many parameters as leaves. -/
theorem C61_history (ndim : ℕ) (s : DT) (h : Ok s) (acts : List Act) :
    ∃ s', runAll ndim s acts = some s' ∧ Ok s' := by
  induction acts generalizing s with
  | nil => exact ⟨s, rfl, h⟩
  | cons a acts ih =>
    have step : ∃ s', a.run ndim s = some s' ∧ Ok s' := by
      have hp := leaves_pos s.tree
      have hb := h.2.1
      have hc := h.2.2.2.2.1
      cases a with
      | grow loc kdim split v =>
        obtain ⟨s', b, e, ok, -⟩ := grow_ok s h (loc % s.npbase) (kdim % ndim) split v
          (by rw [hb]; exact Nat.mod_lt _ hp)
        exact ⟨s', by simp [Act.run, e], ok⟩
      | shrink loc =>
        obtain ⟨s', b, e, ok, -⟩ := shrink_ok s h (loc % s.npbase) (by rw [hb]; exact Nat.mod_lt _ hp)
        exact ⟨s', by simp [Act.run, e], ok⟩
      | vary loc kdim rng =>
        obtain ⟨s', b, e, ok, -⟩ := vary_ok s h (loc % s.ncomp) (kdim % ndim) (1 / 2) (some rng)
          (fun h => Nat.mod_lt _ h)
        exact ⟨s', by simp only [Act.run, e, Option.map_some], ok⟩
    obtain ⟨s1, e1, ok1⟩ := step
    obtain ⟨s2, e2, ok2⟩ := ih s1 ok1
    exact ⟨s2, by simp only [runAll, e1, Option.bind_some, e2], ok2⟩

/-- Non-vacuity: a new model meets the hypothesis, so the theorem is about all its histories. -/
example : Ok (DT.init [0]) := by simp [Ok, DT.init, WF, leaves]

/-- C61: a birth changes the result only in the points of the leaf that is split: there some points
keep their value and the others get the new one. -/
theorem C61_grow (s s' : DT) (h : Ok s) (loc kdim : ℕ) (split : ℝ) (v : ℕ → ℝ)
    (hl : loc < leaves s.tree) (hg : s.grow 0 loc kdim split v = some (s', true)) (d : Data) :
    ∃ o o', baseResult d s.tree s.params = some o ∧ baseResult d s'.tree s'.params = some o' ∧
      ∃ w : ℕ → ℕ, (∀ params : List ℝ, params.length = leaves s.tree →
          ∃ op, baseResult d s.tree params = some op ∧ ∀ i < d.n, op.at i = params[w i]?) ∧
        ∀ i < d.n, (w i ≠ loc → o'.at i = o.at i) ∧
          (w i = loc → o'.at i = some (v 0) ∨ o'.at i = o.at i) := by
  obtain ⟨s1, b, e, ok, -, hb⟩ := grow_ok s h loc kdim split v hl
  rw [hg] at e
  obtain ⟨rfl, rfl⟩ : s' = s1 ∧ true = b := by simpa using e
  obtain ⟨itype, q, hq, ht, hp⟩ := hb rfl
  obtain ⟨o, e1, g1⟩ := baseResult_at d s.tree h.1 s.params h.2.2.2.1
  obtain ⟨o', e2, g2⟩ := baseResult_at d s'.tree ok.1 s'.params ok.2.2.2.1
  refine ⟨o, o', e1, e2, place d s.tree (List.range d.n), baseResult_at d s.tree h.1, fun i hi => ?_⟩
  obtain ⟨-, -, g⟩ := grow_place kdim itype split s.tree h.1 loc q hq
  obtain ⟨u1, u2, u3⟩ := g d (List.range d.n) i (List.mem_range.2 hi)
  rw [← ht] at u1 u2 u3
  rw [g1 i hi, g2 i hi, hp]
  generalize place d s.tree (List.range d.n) i = x at *
  have hlen : loc < s.params.length := by rw [h.2.2.2.1]; exact hl
  have key : ∀ k, (s.params.take loc ++ [v 0] ++ s.params.drop loc)[k]?
      = if k < loc then s.params[k]? else if k = loc then some (v 0) else s.params[k - 1]? := by
    intro k
    by_cases hk : k < loc
    · rw [if_pos hk, List.append_assoc, List.getElem?_append_left (by simp; omega),
        List.getElem?_take_of_lt hk]
    · rw [if_neg hk]
      by_cases hk' : k = loc
      · subst hk'
        simp [List.getElem?_append, hlen.le]
      · rw [if_neg hk', List.getElem?_append_right (by simp; omega), List.getElem?_drop]
        congr 1
        simp; omega
  rw [key]
  refine ⟨fun hne => ?_, fun he => ?_⟩
  · rcases lt_or_gt_of_ne hne with hlt | hgt
    · rw [u1 hlt, if_pos hlt]
    · rw [u3 hgt, if_neg (by omega), if_neg (by omega)]; simp
  · rcases u2 he with e | e
    · left; rw [e]; simp
    · right; rw [e, if_neg (by omega), if_neg (by omega), he]; simp

/-- C61, for the death of a leaf that is the left one of its branch, or whose neighbour is a leaf too:
the result changes only in the points of the removed branch, which all get the value of one of its
leaves. What is missing is proved to be false below. -/
theorem C61_shrink_partial (s s' : DT) (h : Ok s) (loc : ℕ) (hl : loc < leaves s.tree)
    (hg : s.shrink 0 loc = some (s', true)) (q : Path × Tree) (hq : findLeaf s.tree loc = some q)
    (hcase : q.1.getLast? = some false ∨ leaves s'.tree + 1 = leaves s.tree) (d : Data) :
    ∃ o o', baseResult d s.tree s.params = some o ∧ baseResult d s'.tree s'.params = some o' ∧
      ∃ (w : ℕ → ℕ) (a k : ℕ), a ≤ loc ∧ loc ≤ a + (leaves s.tree - leaves s'.tree) ∧
        a ≤ k ∧ k ≤ a + (leaves s.tree - leaves s'.tree) ∧
        (∀ params : List ℝ, params.length = leaves s.tree →
          ∃ op, baseResult d s.tree params = some op ∧ ∀ i < d.n, op.at i = params[w i]?) ∧
        ∀ i < d.n, (w i < a ∨ a + (leaves s.tree - leaves s'.tree) < w i → o'.at i = o.at i) ∧
          (a ≤ w i → w i ≤ a + (leaves s.tree - leaves s'.tree) → o'.at i = s.params[k]?) := by
  obtain ⟨s1, b, e, ok, -, hb⟩ := shrink_ok s h loc hl
  rw [hg] at e
  obtain ⟨rfl, rfl⟩ : s' = s1 ∧ true = b := by simpa using e
  obtain ⟨q1, n, hq1, hne, ht, hn, hp⟩ := hb rfl
  rw [hq] at hq1
  obtain rfl : q = q1 := by simpa using hq1
  obtain ⟨o, e1, g1⟩ := baseResult_at d s.tree h.1 s.params h.2.2.2.1
  obtain ⟨o', e2, g2⟩ := baseResult_at d s'.tree ok.1 s'.params ok.2.2.2.1
  obtain ⟨-, a, n', hn0, hn', u1, u2, u3, u4, u5, g⟩ := shrink_place s.tree h.1 loc q hq hne
  rw [← ht] at hn'
  obtain rfl : n' = n := by omega
  have ed : leaves s.tree - leaves s'.tree = n' := by omega
  rw [ed]
  have hlen := h.2.2.2.1
  have key : ∀ c k, c + n' ≤ s.params.length → (s.params.take c ++ s.params.drop (c + n'))[k]?
      = if k < c then s.params[k]? else s.params[k + n']? := by
    intro c k hc
    by_cases hk : k < c
    · rw [if_pos hk, List.getElem?_append_left (by simp; omega), List.getElem?_take_of_lt hk]
    · rw [if_neg hk, List.getElem?_append_right (by simp; omega), List.getElem?_drop]
      congr 1
      simp; omega
  have hlast : loc = a ∨ (loc = a + n' ∧ n' = 1) := by
    rcases hcase with hc | hc
    · exact .inl (u4 hc)
    · have : n' = 1 := by omega
      subst this
      rcases hb : q.1.getLast? with _ | b
      · rw [List.getLast?_eq_none_iff] at hb; exact absurd hb hne
      · cases b
        · exact .inl (u4 hb)
        · exact .inr ⟨u5 hb, rfl⟩
  rcases hlast with rfl | ⟨rfl, rfl⟩
  · refine ⟨o, o', e1, e2, place d s.tree (List.range d.n), loc, loc + n', le_refl _, by omega, by omega,
      le_refl _, baseResult_at d s.tree h.1, fun i hi => ?_⟩
    obtain ⟨v1, v2, v3⟩ := g d (List.range d.n) i (List.mem_range.2 hi)
    rw [← ht] at v1 v2 v3
    have ep : min (loc + n') (leaves s.tree) = loc + n' := by omega
    rw [g1 i hi, g2 i hi, hp, ep, Nat.add_sub_cancel, key _ _ (by omega)]
    generalize place d s.tree (List.range d.n) i = x at *
    refine ⟨fun h => ?_, fun h h' => ?_⟩
    · rcases h with h | h
      · rw [v1 h, if_pos h]
      · have := v3 h
        rw [if_neg (by omega), this]
    · rw [v2 h h', if_neg (by omega)]
  · refine ⟨o, o', e1, e2, place d s.tree (List.range d.n), a, a, by omega, le_refl _, le_refl _,
      by omega, baseResult_at d s.tree h.1, fun i hi => ?_⟩
    obtain ⟨v1, v2, v3⟩ := g d (List.range d.n) i (List.mem_range.2 hi)
    rw [← ht] at v1 v2 v3
    have ep : min (a + 1 + 1) (leaves s.tree) = a + 1 + 1 := by omega
    rw [g1 i hi, g2 i hi, hp, ep, Nat.add_sub_cancel, key _ _ (by omega)]
    generalize place d s.tree (List.range d.n) i = x at *
    refine ⟨fun h => ?_, fun h h' => ?_⟩
    · rcases h with h | h
      · rw [v1 h, if_pos (by omega)]
      · have := v3 h
        rw [if_neg (by omega), this]
    · rw [v2 h h', if_pos (by omega)]

/-- C61: varying a branch changes the result only in points that pass the branch. -/
theorem C61_vary (s s' : DT) (h : Ok s) (k kdim : ℕ) (split : ℝ) (rng : Option (ℝ × ℝ × ℕ))
    (hk : k < s.ncomp) (hg : s.vary k kdim split rng = some (s', true)) (q : Path × Tree)
    (hq : findBranch s.tree k = some q) (d : Data) :
    ∃ o o', baseResult d s.tree s.params = some o ∧ baseResult d s'.tree s'.params = some o' ∧
      ∃ (w : ℕ → ℕ) (a : ℕ), (∀ params : List ℝ, params.length = leaves s.tree →
          ∃ op, baseResult d s.tree params = some op ∧ ∀ i < d.n, op.at i = params[w i]?) ∧
        ∀ i < d.n, w i < a ∨ a + leaves q.2 ≤ w i → o'.at i = o.at i := by
  obtain ⟨s1, b, e, ok, hpar, -, hb⟩ := vary_ok s h k kdim split rng (fun _ => hk)
  rw [hg] at e
  obtain ⟨rfl, rfl⟩ : s' = s1 ∧ true = b := by simpa using e
  obtain ⟨itype, q1, hq1, ht⟩ := hb rfl
  rw [hq] at hq1
  obtain rfl : q = q1 := by simpa using hq1
  obtain ⟨o, e1, g1⟩ := baseResult_at d s.tree h.1 s.params h.2.2.2.1
  obtain ⟨o', e2, g2⟩ := baseResult_at d s'.tree ok.1 s'.params ok.2.2.2.1
  obtain ⟨-, -, a, n, hn, -, g⟩ := vary_place kdim itype split rng s.tree h.1 k q hq
  refine ⟨o, o', e1, e2, place d s.tree (List.range d.n), a, baseResult_at d s.tree h.1, fun i hi hw => ?_⟩
  rw [g1 i hi, g2 i hi, hpar, ht, (g d (List.range d.n) i (List.mem_range.2 hi)).1 (by omega)]

/-- C61 is false for the death of a right leaf next to a branch: the parameters of other leaves are
deleted. Here the point is in the last leaf, outside the branch that is removed; its value was 4 and
becomes 2. -/
theorem C61_counterexample_shrink :
    let t : Tree := .branch 0 none (some 1) (.branch 0 none (some 1)
      (.branch 0 none (some 1) (.leaf none) (.leaf none)) (.leaf none)) (.leaf none)
    let s : DT := ⟨t, 3, none, none, [1], 4, 4, [1, 2, 3, 4], true⟩
    let d : Data := ⟨1, fun _ _ => 0, fun _ _ => 0⟩
    Ok s ∧ baseResult d s.tree s.params = some (.array [4]) ∧
      ∃ s', s.shrink 0 2 = some (s', true) ∧ s'.tree = .branch 0 none (some 1) (.leaf (some 1)) (.leaf none) ∧
        baseResult d s'.tree s'.params = some (.array [2]) := by
  intro t s d
  refine ⟨by simp [s, t, Ok, WF, leaves], ?_, ⟨.branch 0 none (some 1) (.leaf (some 1)) (.leaf none), 1,
    none, none, [1], 2, 2, [1, 2], true⟩, ?_, rfl, ?_⟩
  · simp [s, t, d, baseResult, Tree.isLeaf, recResult, partition, assign, List.range_succ]
  · simp [s, t, DT.shrink, findLeaf, walk, Tree.isLeaf, modifyAt, prune, countLeaf, countBranch, deletePars]
  · simp [d, baseResult, Tree.isLeaf, recResult, partition, assign, List.range_succ]

/-- C61 is false when the tree is part of a compound model: `grow` compares the number of leaves with the
number of parameters of the whole chain. With one parameter elsewhere the tree gets a leaf without a
parameter; with more an error is raised. -/
theorem C61_counterexample_chain (v : ℕ → ℝ) :
    (∃ s', DT.grow ⟨.leaf none, 0, none, none, [0], 1, 2, [0, 5], true⟩ 0 0 0 (1 / 2) v = some (s', true) ∧
      leaves s'.tree = 2 ∧ s'.npbase = 1 ∧ s'.params = [0, 5]) ∧
    DT.grow ⟨.leaf none, 0, none, none, [0], 1, 3, [0, 5, 6], true⟩ 0 0 0 (1 / 2) v = none := by
  constructor
  · refine ⟨⟨.branch 0 (some (1 / 2)) none (.leaf none) (.leaf none), 1, none, none, [0], 1, 2, [0, 5], true⟩,
      ?_, rfl, rfl, rfl⟩
    simp [DT.grow, getItem, findLeaf, walk, Tree.isLeaf, modifyAt, sprout, countLeaf, countBranch, insertPars]
  · simp [DT.grow, getItem, findLeaf, walk, Tree.isLeaf, modifyAt, sprout, countLeaf]

/-- Varying from a dimension of numbers to one of categories leaves the old split in place: `check` finds
the tree not in order, and the new mask is not used. -/
theorem C61_counterexample_vary :
    let s : DT := ⟨.branch 0 (some (1 / 2)) none (.leaf none) (.leaf none), 1, none, none, [0, 2], 2, 2,
      [0, 0], true⟩
    Ok s ∧ check s.itypes s.tree ∧ ∃ s', s.vary 0 1 (1 / 2) none = some (s', true) ∧
      ¬ check s'.itypes s'.tree ∧ ∀ (d : Data) (params : List ℝ),
        baseResult d s'.tree params
          = baseResult d (.branch 1 (some (1 / 2)) none (.leaf none) (.leaf none)) params := by
  intro s
  refine ⟨by simp [s, Ok, WF, leaves], ?_, ⟨.branch 1 (some (1 / 2)) (some (newMask 2 (1 / 2))) (.leaf none)
    (.leaf none), 1, none, none, [0, 2], 2, 2, [0, 0], true⟩, ?_, ?_, ?_⟩
  · simp [s, check, walk, getItem]; norm_num
  · simp [s, DT.vary, findBranch, walk, Tree.isLeaf, getItem, modifyAt, varyNode]
  · simp [check, walk, getItem]
  · intro d params; rfl

/-! ## C62: copies and codes -/

theorem partition_copy (d : Data) (dim : ℕ) (s : ℝ) (m m' : Option ℕ) (pl : List ℕ) :
    partition d dim (some s) m pl = partition d dim (some s) m' pl := by
  unfold partition; rfl

theorem isLeaf_copy (t : Tree) : (copy t).isLeaf = t.isLeaf := by
  cases t with
  | leaf => rfl
  | branch dim s m l r => cases s <;> rfl

theorem recResult_copy (d : Data) (params : List ℝ) (t : Tree) (k : ℕ) (pl : List ℕ) (res : List ℝ) :
    recResult d params (copy t) k pl res = recResult d params t k pl res := by
  induction t generalizing k pl res with
  | leaf => rfl
  | branch dim s m l r ihl ihr =>
    cases s with
    | none => simp only [copy, recResult, ihl, ihr]
    | some s => simp only [copy, recResult, ihl, ihr, partition_copy d dim s none m]

theorem recPartial_copy (d : Data) (np : ℕ) (t : Tree) (k : ℕ) (pl : List ℕ) (part : List (List ℝ)) :
    recPartial d np (copy t) k pl part = recPartial d np t k pl part := by
  induction t generalizing k pl part with
  | leaf => rfl
  | branch dim s m l r ihl ihr =>
    cases s with
    | none => simp only [copy, recPartial, ihl, ihr]
    | some s => simp only [copy, recPartial, ihl, ihr, partition_copy d dim s none m]

theorem leaves_copy (t : Tree) : leaves (copy t) = leaves t := by
  induction t with
  | leaf => rfl
  | branch dim s m l r ihl ihr => cases s <;> simp only [copy, leaves, ihl, ihr]

/-- C62: a copy of a tree gives the same results and derivatives as the tree itself, at all data and for
all parameters. -/
theorem C62_copy (t : Tree) (d : Data) (params : List ℝ) (np : ℕ) (parlist : Option (List ℕ)) :
    leaves (copy t) = leaves t ∧ baseResult d (copy t) params = baseResult d t params ∧
      basePartial d (copy t) np parlist = basePartial d t np parlist := by
  refine ⟨leaves_copy t, ?_, ?_⟩
  · unfold baseResult
    rw [isLeaf_copy, recResult_copy]
  · unfold basePartial
    rw [isLeaf_copy, recPartial_copy]

theorem decode_encode (t : Tree) (c : Code) (ds : List ℕ) (cs : List Cut) (h : encode t = some (c, ds, cs))
    (pre post : List ℕ) (pre' post' : List Cut) (hp : pre.length = pre'.length) :
    cs.length = ds.length ∧
    decode c (pre ++ ds ++ post) (pre' ++ cs ++ post') pre.length
      = some (copy t, pre.length + ds.length - 1) := by
  induction t generalizing c ds cs pre post pre' post' with
  | leaf m =>
    simp only [encode, Option.some.injEq, Prod.mk.injEq] at h
    obtain ⟨rfl, rfl, rfl⟩ := h
    exact ⟨rfl, rfl⟩
  | branch dim s m l r ihl ihr =>
    simp only [encode] at h
    obtain ⟨sm, hsm, h⟩ := Option.bind_eq_some_iff.1 h
    have hput : ∀ l' r', putCut dim l' r' sm = (match s with
        | some s => Tree.branch dim (some s) none l' r'
        | none => Tree.branch dim none m l' r') := by
      intro l' r'
      cases s with
      | some s => simp only [cutOf, Option.some.injEq] at hsm; subst hsm; rfl
      | none =>
        cases m with
        | none => simp [cutOf] at hsm
        | some m => simp only [cutOf, Option.some.injEq] at hsm; subst hsm; rfl
    have hcopy : copy (.branch dim s m l r) = putCut dim (copy l) (copy r) sm := by
      rw [hput]; cases s <;> rfl
    have get1 : ∀ (x : List ℕ), (pre ++ (dim :: x))[pre.length]? = some dim := by
      intro x; simp
    have get2 : ∀ (x : List Cut), (pre' ++ (sm :: x))[pre.length]? = some sm := by
      intro x; rw [hp]; simp
    by_cases hl : l.isLeaf = true
    · obtain ⟨ml, rfl⟩ := (isLeaf_iff l).1 hl
      by_cases hr : r.isLeaf = true
      · obtain ⟨mr, rfl⟩ := (isLeaf_iff r).1 hr
        simp only [Tree.isLeaf, Bool.and_self, if_true, Option.some.injEq, Prod.mk.injEq] at h
        obtain ⟨rfl, rfl, rfl⟩ := h
        refine ⟨rfl, ?_⟩
        simp only [decode, List.append_assoc, List.cons_append, get1, get2, Option.bind_some,
          Option.map_some, hcopy]
        rfl
      · rw [if_neg (by simp [hr]), if_pos hl] at h
        obtain ⟨⟨c', ds', cs'⟩, h1, h2⟩ := Option.map_eq_some_iff.1 h
        simp only [Prod.mk.injEq] at h2
        obtain ⟨rfl, rfl, rfl⟩ := h2
        obtain ⟨e1, e2⟩ := ihr c' ds' cs' h1 (pre ++ [dim]) post (pre' ++ [sm]) post' (by simp [hp])
        refine ⟨by simp [e1], ?_⟩
        simp only [List.append_assoc, List.singleton_append, List.length_append, List.length_cons,
          List.length_nil] at e2
        simp only [decode, List.append_assoc, List.cons_append] at get1 get2 e2 ⊢
        simp only [get1, get2, Option.bind_some, Nat.add_sub_cancel, Nat.zero_add] at e2 ⊢
        rw [e2]
        simp only [Option.map_some, hcopy]
        congr 2
        simp only [List.length_cons, List.length_append]; omega
    · by_cases hr : r.isLeaf = true
      · obtain ⟨mr, rfl⟩ := (isLeaf_iff r).1 hr
        rw [if_neg (by simp [hl]), if_neg hl, if_pos hr] at h
        obtain ⟨⟨c', ds', cs'⟩, h1, h2⟩ := Option.map_eq_some_iff.1 h
        simp only [Prod.mk.injEq] at h2
        obtain ⟨rfl, rfl, rfl⟩ := h2
        obtain ⟨e1, e2⟩ := ihl c' ds' cs' h1 (pre ++ [dim]) post (pre' ++ [sm]) post' (by simp [hp])
        refine ⟨by simp [e1], ?_⟩
        simp only [List.append_assoc, List.singleton_append, List.length_append, List.length_cons,
          List.length_nil] at e2
        simp only [decode, List.append_assoc, List.cons_append] at get1 get2 e2 ⊢
        simp only [get1, get2, Option.bind_some, Nat.zero_add] at e2 ⊢
        rw [e2]
        simp only [Option.bind_some, Option.map_some, hcopy]
        congr 2
        simp only [List.length_cons, List.length_append]; omega
      · rw [if_neg (by simp [hl]), if_neg hl, if_neg hr] at h
        obtain ⟨⟨c1, ds1, cs1⟩, h1, h⟩ := Option.bind_eq_some_iff.1 h
        obtain ⟨⟨c2, ds2, cs2⟩, h2, h3⟩ := Option.map_eq_some_iff.1 h
        simp only [Prod.mk.injEq] at h3
        obtain ⟨rfl, rfl, rfl⟩ := h3
        have hd1 : 0 < ds1.length := by
          cases l with
          | leaf => simp [Tree.isLeaf] at hl
          | branch dim' s' m' l' r' =>
            simp only [encode] at h1
            obtain ⟨sm', -, h1⟩ := Option.bind_eq_some_iff.1 h1
            by_cases a1 : (l'.isLeaf && r'.isLeaf) = true
            · rw [if_pos a1] at h1; simp at h1; simp [← h1.2.1]
            · rw [if_neg a1] at h1
              by_cases a2 : l'.isLeaf = true
              · rw [if_pos a2] at h1; simp at h1; obtain ⟨_, _, _, _, _, e, _⟩ := h1; simp [← e]
              · rw [if_neg a2] at h1
                by_cases a3 : r'.isLeaf = true
                · rw [if_pos a3] at h1; simp at h1; obtain ⟨_, _, _, _, _, e, _⟩ := h1; simp [← e]
                · rw [if_neg a3] at h1
                  obtain ⟨x, _, h1⟩ := Option.bind_eq_some_iff.1 h1
                  simp at h1; obtain ⟨_, _, _, _, _, e, _⟩ := h1; simp [← e]
        obtain ⟨e1, e2⟩ := ihl c1 ds1 cs1 h1 (pre ++ [dim]) (ds2 ++ post) (pre' ++ [sm]) (cs2 ++ post')
          (by simp [hp])
        obtain ⟨e3, e4⟩ := ihr c2 ds2 cs2 h2 (pre ++ [dim] ++ ds1) post (pre' ++ [sm] ++ cs1) post'
          (by simp [hp, e1])
        refine ⟨by simp [e1, e3], ?_⟩
        simp only [List.append_assoc, List.singleton_append, List.length_append, List.length_cons,
          List.length_nil] at e2 e4
        simp only [decode, List.append_assoc, List.cons_append, List.nil_append] at get1 get2 e2 e4 ⊢
        simp only [get1, get2, Option.bind_some, Nat.zero_add] at e2 e4 ⊢
        rw [e2]
        simp only [Option.bind_some]
        have ek : pre.length + 1 + ds1.length - 1 + 1 = pre.length + (ds1.length + 1) := by omega
        rw [ek, e4]
        simp only [Option.map_some, hcopy]
        congr 2
        simp only [List.length_cons, List.length_append]; omega

/-- C62: the tree that is decoded from the code of a tree gives the same results and derivatives, at all
data and for all parameters. -/
theorem C62_code (t : Tree) (h : WF t) :
    ∃ c ds cs t', encode t = some (c, ds, cs) ∧ (decode c ds cs 0).map Prod.fst = some t' ∧
      leaves t' = leaves t ∧
      ∀ (d : Data) (params : List ℝ) (np : ℕ) (parlist : Option (List ℕ)),
        baseResult d t' params = baseResult d t params ∧
        basePartial d t' np parlist = basePartial d t np parlist := by
  have henc : ∃ x, encode t = some x := by
    induction t with
    | leaf => exact ⟨_, rfl⟩
    | branch dim s m l r ihl ihr =>
      obtain ⟨h1, h2, h3⟩ := h
      obtain ⟨x, hx⟩ := ihl h2
      obtain ⟨y, hy⟩ := ihr h3
      have : ∃ sm, cutOf s m = some sm := by
        cases s with
        | some s => exact ⟨_, rfl⟩
        | none => cases m with
          | none => simp at h1
          | some m => exact ⟨_, rfl⟩
      obtain ⟨sm, hsm⟩ := this
      simp only [encode, hsm, hx, hy, Option.bind_some, Option.map_some]
      by_cases a1 : (l.isLeaf && r.isLeaf) = true
      · rw [if_pos a1]; exact ⟨_, rfl⟩
      · rw [if_neg a1]
        by_cases a2 : l.isLeaf = true
        · rw [if_pos a2]; exact ⟨_, rfl⟩
        · rw [if_neg a2]
          by_cases a3 : r.isLeaf = true
          · rw [if_pos a3]; exact ⟨_, rfl⟩
          · rw [if_neg a3]; exact ⟨_, rfl⟩
  obtain ⟨⟨c, ds, cs⟩, e⟩ := henc
  have hd := (decode_encode t c ds cs e [] [] [] [] rfl).2
  simp only [List.nil_append, List.append_nil, List.length_nil] at hd
  refine ⟨c, ds, cs, copy t, e, by rw [hd]; rfl, leaves_copy t, fun d params np parlist => ?_⟩
  exact (C62_copy t d params np parlist).2

/-- C62 is false of a model that is constructed from a code: the tree is right, but the model has one
parameter only, so that it cannot be evaluated with its own parameters. -/
theorem C62_counterexample_constructor :
    let t : Tree := .branch 0 none (some 1) (.leaf none) (.leaf none)
    ∃ s, encode t = some (.two, [0], [.mask 1]) ∧ DT.ofCode [1] .two [0] [.mask 1] = some s ∧
      s.tree = t ∧ s.params.length = 1 ∧ s.ncomp = 0 ∧
      ∀ d : Data, baseResult d s.tree s.params = none := by
  refine ⟨{ DT.init [1] with tree := .branch 0 none (some 1) (.leaf none) (.leaf none) }, ?_, ?_, rfl, rfl,
    rfl, ?_⟩
  · simp [encode, cutOf, Tree.isLeaf]
  · simp [DT.ofCode, decode, putCut]
  · intro d
    obtain ⟨p, hp⟩ := partition_some d 0 none (some 1) (.inr rfl) (List.range d.n)
    simp [baseResult, DT.init, Tree.isLeaf, recResult, hp]

/-- C62: a tree made with a depth has all its branches down to that depth, so `2 ^ depth` leaves, and
the branches have the given dimensions, from the root down, left before right. -/
theorem C62_build (itypes : List ℕ) (hi : itypes ≠ []) (depth : ℕ) (kdim : List ℕ) (split : List ℝ)
    (hk : 2 ^ depth - 1 ≤ kdim.length) (hs : 2 ^ depth - 1 ≤ split.length) :
    ∃ t, build itypes depth kdim split = some t ∧ WF t ∧ leaves t = 2 ^ depth ∧
      ∃ c cs, encode t = some (c, kdim.take (2 ^ depth - 1), cs) := by
  induction depth generalizing kdim split with
  | zero => exact ⟨_, rfl, trivial, rfl, _, _, rfl⟩
  | succ d ih =>
    have hpos : 0 < 2 ^ d := by positivity
    have e2 : 2 ^ (d + 1) - 1 = 1 + (2 ^ d - 1) + (2 ^ d - 1) := by rw [pow_succ]; omega
    rw [e2] at hk hs ⊢
    cases kdim with
    | nil => simp at hk
    | cons k0 kdim =>
      cases split with
      | nil => simp at hs
      | cons s0 split =>
        simp only [List.length_cons] at hk hs
        obtain ⟨tp, htp⟩ := getItem_some itypes hi k0
        obtain ⟨l, el, wl, nl, cl, csl, hl⟩ := ih kdim split (by omega) (by omega)
        obtain ⟨r, er, wr, nr, cr, csr, hr⟩ := ih (kdim.drop (2 ^ d - 1)) (split.drop (2 ^ d - 1))
          (by simp; omega) (by simp; omega)
        have hsame : l.isLeaf = r.isLeaf := by
          have f : ∀ t : Tree, WF t → leaves t = 2 ^ d → t.isLeaf = decide (d = 0) := by
            intro t _ hn
            cases t with
            | leaf =>
              simp only [leaves] at hn
              rcases d with _ | d
              · rfl
              · exfalso; rw [pow_succ] at hn; have : 0 < 2 ^ d := by positivity
                omega
            | branch _ _ _ a b =>
              have := leaves_pos a
              have := leaves_pos b
              simp only [leaves] at hn
              rcases d with _ | d
              · simp at hn; omega
              · rfl
          rw [f l wl nl, f r wr nr]
        have hbuild : build itypes (d + 1) (k0 :: kdim) (s0 :: split) = some (if tp = 0
            then .branch k0 (some s0) none l r else .branch k0 none (some (newMask tp s0)) l r) := by
          simp [build, htp, el, er]
        rw [hbuild]
        have htake : (k0 :: kdim).take (1 + (2 ^ d - 1) + (2 ^ d - 1))
            = k0 :: (kdim.take (2 ^ d - 1) ++ (kdim.drop (2 ^ d - 1)).take (2 ^ d - 1)) := by
          rw [show 1 + (2 ^ d - 1) + (2 ^ d - 1) = (2 ^ d - 1 + (2 ^ d - 1)) + 1 by omega,
            List.take_succ_cons, List.take_add]
        have henc : ∀ (s : Option ℝ) (m : Option ℕ) (sm : Cut), cutOf s m = some sm →
            ∃ c cs, encode (.branch k0 s m l r)
              = some (c, k0 :: (kdim.take (2 ^ d - 1) ++ (kdim.drop (2 ^ d - 1)).take (2 ^ d - 1)), cs) := by
          intro s m sm hsm
          simp only [encode, hsm, Option.bind_some]
          by_cases hll : l.isLeaf = true
          · have hrl : r.isLeaf = true := by rw [← hsame]; exact hll
            rw [if_pos (by simp [hll, hrl])]
            obtain ⟨ml, rfl⟩ := (isLeaf_iff l).1 hll
            obtain ⟨mr, rfl⟩ := (isLeaf_iff r).1 hrl
            simp only [encode, Option.some.injEq, Prod.mk.injEq] at hl hr
            rw [← hl.2.1, ← hr.2.1]
            exact ⟨_, _, rfl⟩
          · have hrl : ¬ r.isLeaf = true := by rw [← hsame]; exact hll
            rw [if_neg (by simp [hll]), if_neg hll, if_neg hrl, hl, hr]
            exact ⟨_, _, rfl⟩
        have hpow : 2 ^ d + 2 ^ d = 2 ^ (d + 1) := by rw [pow_succ]; omega
        by_cases h0 : tp = 0
        · rw [if_pos h0]
          refine ⟨_, rfl, ⟨.inl rfl, wl, wr⟩, by simp only [leaves, nl, nr, hpow], ?_⟩
          rw [htake]
          exact henc _ _ _ rfl
        · rw [if_neg h0]
          refine ⟨_, rfl, ⟨.inr rfl, wl, wr⟩, by simp only [leaves, nl, nr, hpow], ?_⟩
          rw [htake]
          exact henc _ _ _ rfl

/-- Non-vacuity. -/
example : 2 ^ 2 - 1 ≤ [0, 1, 0].length ∧ 2 ^ 2 - 1 ≤ ([1 / 2, 1 / 3, 1 / 4] : List ℝ).length := by
  constructor <;> decide

end

end BF.Tree
