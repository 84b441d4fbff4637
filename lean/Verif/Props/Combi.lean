import Verif.Combi
import Verif.Props.Repeating
import Verif.Props.Compound
import Mathlib.Algebra.BigOperators.Ring.Finset
import Mathlib.Data.List.Sort

/-!
# Combi models (C26)

The layout of the parameters is that of `Verif/Props/Repeating.lean`: first all parameters of the first
copy, then, copy by copy, the parameters that are not tied.
-/

namespace BF.Combi

open BF.Arr BF.Dynamic Finset

variable {α : Type*}

/-! ## Specification -/

/-- The dictionary with keys `ks` and value `av i j` for parameter `i` in copy `j`. Every dictionary
that the constructor accepts is of this form. -/
def dict (n : ℕ) (ks : List ℕ) (av : ℕ → ℕ → α) : List (ℕ × List α) :=
  ks.map fun i => (i, (List.range n).map (av i))

/-- A combi model of `n` copies of a model with `m` parameters. -/
def mk (m n : ℕ) (ak : List ℕ) (av : ℕ → ℕ → α) (mk : List ℕ) (mv : ℕ → ℕ → α) : Combi α :=
  ⟨m, n, dict n ak av, dict n mk mv⟩

/-- Parameter `i` of copy `j`, when `p` are the parameters of the combi model: the tied ones are that
of the first copy, plus the given offset, times the given factor. -/
def fullPar [Add α] [Mul α] [Zero α] [One α] (m : ℕ) (ak : List ℕ) (av : ℕ → ℕ → α) (mk : List ℕ)
    (mv : ℕ → ℕ → α) (p : ℕ → α) (j i : ℕ) : α :=
  (p (pos m (ak ++ mk) j i) + if i ∈ ak then av i j else 0) * if i ∈ mk then mv i j else 1

/-! ## Lists given by functions -/

theorem set_map_range (N k : ℕ) (q : ℕ → α) (v : α) :
    ((List.range N).map q).set k v = (List.range N).map (Function.update q k v) := by
  apply List.ext_getElem?
  intro i
  by_cases hi : i < N
  · by_cases hik : k = i
    · subst hik; simp [hi]
    · rw [List.getElem?_set_ne hik]
      simp [hi, Function.update_of_ne (Ne.symm hik)]
  · rw [List.getElem?_eq_none (by simpa using hi), List.getElem?_eq_none (by simpa using hi)]

theorem gather_map_range (M : ℕ) (p : ℕ → α) (idx : List ℕ) (h : ∀ k ∈ idx, k < M) :
    gather ((List.range M).map p) idx = some (idx.map p) := by
  induction idx with
  | nil => rfl
  | cons i is ih =>
    have hi := h i (by simp)
    simp [gather, ih fun k hk => h k (by simp [hk]), hi]

theorem updateAt_map {β : Type*} (op : α → α → α) (N : ℕ) (q r : ℕ → α) (P : List β)
    (fi : β → ℕ) (fv : β → α) (hlt : ∀ x ∈ P, fi x < N) (hnd : (P.map fi).Nodup)
    (h1 : ∀ x ∈ P, r (fi x) = op (q (fi x)) (fv x))
    (h2 : ∀ k, (∀ x ∈ P, fi x ≠ k) → r k = q k) :
    updateAt op ((List.range N).map q) (P.map fi) (P.map fv) = some ((List.range N).map r) := by
  have hidx : ∀ k ∈ P.map fi, k < N := by
    intro k hk
    obtain ⟨x, hx, rfl⟩ := List.mem_map.1 hk
    exact hlt x hx
  unfold updateAt
  rw [gather_map_range N q _ hidx]
  simp only [List.length_map, if_true, List.map_map]
  rw [List.zipWith_map, List.zipWith_self]
  obtain ⟨b, s1, s2, s3, s4⟩ := scatter_spec ((List.range N).map q) (P.map fi)
    (P.map fun a => op ((q ∘ fi) a) (fv a)) (by simp) (by simpa using hlt) hnd
  rw [s1]
  congr 1
  apply List.ext_getElem?
  intro k
  by_cases hk : k < N
  · by_cases hkp : ∃ x ∈ P, fi x = k
    · obtain ⟨x, hx, rfl⟩ := hkp
      obtain ⟨c, hc⟩ := List.mem_iff_getElem?.1 hx
      rw [s3 c (fi x) (by simp [hc])]
      simp [hc, hk, h1 x hx]
    · push Not at hkp
      rw [s4 k (by simpa using hkp)]
      simp [hk, h2 k hkp]
  · rw [List.getElem?_eq_none (by rw [s2]; simpa using hk),
      List.getElem?_eq_none (by simpa using hk)]

theorem filter_range_get (P : ℕ → Bool) (N k : ℕ) (hk : k < N) (hP : P k = true) :
    ((List.range N).filter P)[((List.range k).filter P).length]? = some k := by
  obtain ⟨c, hc⟩ : ∃ c, N = k + (1 + c) := ⟨N - k - 1, by omega⟩
  rw [hc, List.range_add, List.filter_append, List.getElem?_append_right (le_refl _)]
  rw [Nat.sub_self, Nat.add_comm 1 c, List.range_succ_eq_map]
  simp [hP]

/-! ## The dictionaries -/

/-- All places of the copies of the tied parameters. -/
def pairs (n : ℕ) (ks : List ℕ) : List (ℕ × ℕ) :=
  ks.flatMap fun i => (List.range n).map fun j => (i, j)

theorem mem_pairs (n : ℕ) (ks : List ℕ) (x : ℕ × ℕ) : x ∈ pairs n ks ↔ x.1 ∈ ks ∧ x.2 < n := by
  rcases x with ⟨i, j⟩
  simp [pairs]

theorem setCombi_dict (c : Combi α) (ks : List ℕ) (av : ℕ → ℕ → α) (h : ∀ i ∈ ks, i < c.nmp) :
    setCombi c (dict c.nrepeat ks av)
      = some ((pairs c.nrepeat ks).map (fun x => x.1 + x.2 * c.nmp),
          (pairs c.nrepeat ks).map fun x => av x.1 x.2) := by
  induction ks with
  | nil => rfl
  | cons i is ih =>
    have hi := h i (by simp)
    have := ih fun k hk => h k (by simp [hk])
    simp only [dict] at this
    simp [dict, setCombi, not_le.2 hi, this, pairs, Function.comp_def]

theorem pairs_nodup (m n : ℕ) (ks : List ℕ) (h : ∀ i ∈ ks, i < m) (hnd : ks.Nodup) :
    ((pairs n ks).map fun x => x.1 + x.2 * m).Nodup := by
  apply List.Nodup.map_on
  · intro x hx y hy he
    obtain ⟨hx1, hx2⟩ := (mem_pairs n ks x).1 hx
    obtain ⟨hy1, hy2⟩ := (mem_pairs n ks y).1 hy
    have a := h _ hx1
    have b := h _ hy1
    have e1 : x.1 = y.1 := by
      have := congrArg (· % m) he
      simpa [Nat.add_mul_mod_self_right, Nat.mod_eq_of_lt a, Nat.mod_eq_of_lt b] using this
    have e2 : x.2 = y.2 := by
      rw [e1] at he
      exact Nat.eq_of_mul_eq_mul_right (by omega) (Nat.add_left_cancel he)
    exact Prod.ext e1 e2
  · unfold pairs
    rw [List.nodup_flatMap]
    refine ⟨fun i _ => ?_, ?_⟩
    · exact List.nodup_range.map fun a b h => by simpa using h
    · refine hnd.imp ?_
      intro a b hab x hx hx'
      simp only [List.mem_map, List.mem_range] at hx hx'
      obtain ⟨j, _, rfl⟩ := hx
      obtain ⟨j', _, hj⟩ := hx'
      exact hab (by simpa using (congrArg Prod.fst hj).symm)

/-! ## The index -/

theorem divmod (m key j : ℕ) (h : key < m) : (key + j * m) % m = key ∧ (key + j * m) / m = j := by
  constructor
  · rw [Nat.add_mul_mod_self_right, Nat.mod_eq_of_lt h]
  · rw [Nat.add_mul_div_right _ _ (by omega), Nat.div_eq_of_lt h, Nat.zero_add]

theorem eq_iff_divmod (m key j k : ℕ) (h : key < m) :
    k = key + j * m ↔ k % m = key ∧ k / m = j := by
  constructor
  · rintro rfl; exact divmod m key j h
  · rintro ⟨h1, h2⟩
    have := Nat.mod_add_div k m
    rw [h1, h2, Nat.mul_comm] at this
    exact this.symm

theorem expand_tail (m n key : ℕ) (hkey : key < m) (rest : List ℕ) (i : ℕ) (hi : i % n = 0) :
    ∀ (c j0 : ℕ) (E : ℕ → ℕ), 1 ≤ j0 → j0 + c = n →
    makeExpandIndex n ((List.range' j0 c).map (fun j => key + j * m) ++ rest) (i + j0) key
      ((List.range (m * n)).map E)
    = makeExpandIndex n rest (i + n) key ((List.range (m * n)).map fun k =>
        if k % m = key ∧ j0 ≤ k / m ∧ k / m < n then key else E k) := by
  intro c
  induction c with
  | zero =>
    intro j0 E h1 h2
    obtain rfl : j0 = n := by omega
    simp only [List.range'_zero, List.map_nil, List.nil_append]
    congr 1
    apply List.map_congr_left
    intro k _
    rw [if_neg (by omega)]
  | succ c ih =>
    intro j0 E h1 h2
    rw [List.range'_succ, List.map_cons, List.cons_append, makeExpandIndex]
    have hmod : (i + j0) % n = j0 := by
      rw [Nat.add_mod, hi, Nat.zero_add, Nat.mod_mod, Nat.mod_eq_of_lt (by omega)]
    have hk : key + j0 * m < m * n := by
      have : m * (j0 + 1) ≤ m * n := Nat.mul_le_mul_left _ (by omega)
      rw [Nat.mul_comm j0]
      rw [Nat.mul_add] at this
      omega
    rw [hmod, if_neg (by omega), if_pos (by simpa using hk), set_map_range, Nat.add_assoc,
      ih (j0 + 1) _ (by omega) (by omega)]
    congr 1
    apply List.map_congr_left
    intro k _
    by_cases hkk : k = key + j0 * m
    · obtain ⟨a, b⟩ := (eq_iff_divmod m key j0 k hkey).1 hkk
      rw [if_neg (by omega), if_pos ⟨a, by omega, by omega⟩, hkk, Function.update_self]
    · have := fun h => hkk ((eq_iff_divmod m key j0 k hkey).2 h)
      rw [Function.update_of_ne hkk]
      by_cases hc : k % m = key ∧ j0 + 1 ≤ k / m ∧ k / m < n
      · rw [if_pos hc, if_pos ⟨hc.1, by omega, hc.2.2⟩]
      · rw [if_neg hc, if_neg]
        rintro ⟨a, b, d⟩
        by_cases hb : k / m = j0
        · exact this ⟨a, hb⟩
        · exact hc ⟨a, by omega, d⟩

theorem expand_keys (m n : ℕ) (hn : 1 ≤ n) (ks : List ℕ) (h : ∀ i ∈ ks, i < m) :
    ∀ (i kk : ℕ) (E : ℕ → ℕ), i % n = 0 →
    makeExpandIndex n ((pairs n ks).map fun x => x.1 + x.2 * m) i kk ((List.range (m * n)).map E)
    = some ((List.range (m * n)).map fun k =>
        if k % m ∈ ks ∧ 1 ≤ k / m then k % m else E k) := by
  induction ks with
  | nil => intro i kk E _; simp [pairs, makeExpandIndex]
  | cons key ks ih =>
    intro i kk E hi
    have hkey := h key (by simp)
    obtain ⟨c, rfl⟩ : ∃ c, n = c + 1 := ⟨n - 1, by omega⟩
    have e : (pairs (c + 1) (key :: ks)).map (fun x => x.1 + x.2 * m)
        = key :: ((List.range' 1 c).map (fun j => key + j * m)
          ++ (pairs (c + 1) ks).map fun x => x.1 + x.2 * m) := by
      simp only [pairs, List.flatMap_cons, List.map_append, List.map_map]
      rw [List.range_eq_range', List.range'_succ]
      simp [Function.comp_def]
    rw [e, makeExpandIndex, if_pos hi,
      expand_tail m (c + 1) key hkey _ i hi c 1 E (le_refl _) (by omega),
      ih (fun k hk => h k (by simp [hk])) _ _ _ (by rw [Nat.add_mod_right, hi])]
    congr 1
    apply List.map_congr_left
    intro k hk
    have hkn : k / m < c + 1 := by
      have : k < m * (c + 1) := by simpa using hk
      exact Nat.div_lt_of_lt_mul this
    by_cases h1 : k % m ∈ ks <;> by_cases h2 : k % m = key <;> by_cases h3 : 1 ≤ k / m <;>
      simp [h1, h2, h3, hkn]

/-- A parameter of the full chain that is not a copy of a tied one. -/
def free (m : ℕ) (keys : List ℕ) (k : ℕ) : Bool := decide (k / m = 0 ∨ k % m ∉ keys)

/-- The number of such parameters before `k`. -/
def cnt (m : ℕ) (keys : List ℕ) (k : ℕ) : ℕ := ((List.range k).filter (free m keys)).length

theorem cnt_le (m : ℕ) (keys : List ℕ) (k : ℕ) : cnt m keys k ≤ k := by
  have := List.length_filter_le (free m keys) (List.range k)
  simpa [cnt] using this

theorem cnt_succ (m : ℕ) (keys : List ℕ) (k : ℕ) :
    cnt m keys (k + 1) = cnt m keys k + if free m keys k then 1 else 0 := by
  simp only [cnt, List.range_succ, List.filter_append, List.length_append]
  by_cases h : free m keys k <;> simp [h]

theorem cnt_first (m : ℕ) (keys : List ℕ) (i : ℕ) (hi : i ≤ m) : cnt m keys i = i := by
  induction i with
  | zero => rfl
  | succ i ih =>
    rw [cnt_succ, ih (by omega), if_pos]
    simp [free, Nat.div_eq_of_lt (show i < m by omega)]

theorem cnt_block (m : ℕ) (keys : List ℕ) (j i : ℕ) (hj : 1 ≤ j) (hi : i ≤ m) :
    cnt m keys (j * m + i) = cnt m keys (j * m) + rank keys i := by
  induction i with
  | zero => simp [rank]
  | succ i ih =>
    rw [← Nat.add_assoc, cnt_succ, ih (by omega), Nat.add_assoc]
    congr 1
    have h1 := divmod m i j (by omega)
    rw [Nat.add_comm] at h1
    have hf : free m keys (j * m + i) = decide (i ∉ keys) := by
      simp only [free, h1.1, h1.2]
      have : ¬ j = 0 := by omega
      simp [this]
    rw [hf]
    simp only [rank, List.range_succ, List.filter_append, List.length_append]
    by_cases h : i ∈ keys <;> simp [h]

theorem cnt_mul (m : ℕ) (keys : List ℕ) (j : ℕ) :
    cnt m keys ((j + 1) * m) = m + j * rank keys m := by
  induction j with
  | zero => simp [cnt_first]
  | succ j ih =>
    rw [Nat.add_mul (j + 1), Nat.one_mul, cnt_block m keys (j + 1) m (by omega) (le_refl _), ih]
    ring

theorem cnt_pos (m : ℕ) (keys : List ℕ) (j i : ℕ) (hi : i < m) (hf : j = 0 ∨ i ∉ keys) :
    cnt m keys (j * m + i) = pos m keys j i := by
  unfold pos
  by_cases hj : j = 0
  · subst hj; simp [cnt_first m keys i (by omega)]
  · obtain ⟨c, rfl⟩ : ∃ c, j = c + 1 := ⟨j - 1, by omega⟩
    have : i ∉ keys := by rcases hf with h | h; exact absurd h hj; exact h
    rw [cnt_block m keys (c + 1) i (by omega) (by omega), cnt_mul]
    simp [this]

/-- The index before renumbering. -/
def pre (m : ℕ) (keys : List ℕ) (k : ℕ) : ℕ := if free m keys k then k else k % m

theorem renumber_eq (m : ℕ) (keys : List ℕ) :
    ∀ (c k : ℕ), renumber ((List.range' k c).map (pre m keys)) (cnt m keys k)
      = (List.range' k c).map fun k => pos m keys (k / m) (k % m) := by
  intro c
  induction c with
  | zero => intro k; rfl
  | succ c ih =>
    intro k
    rw [List.range'_succ, List.map_cons, List.map_cons, renumber]
    by_cases hf : free m keys k = true
    · have e1 : pre m keys k = k := by simp [pre, hf]
      rw [e1, if_pos (cnt_le m keys k)]
      have := ih (k + 1)
      rw [cnt_succ, if_pos hf] at this
      rw [this]
      congr 1
      have hf' : k / m = 0 ∨ k % m ∉ keys := by simpa [free] using hf
      rcases Nat.eq_zero_or_pos m with hm | hm
      · subst hm
        have : cnt 0 keys k = k := by
          unfold cnt
          rw [List.filter_eq_self.2 (fun a _ => by simp [free])]
          simp
        simp [this, pos]
      · rw [← cnt_pos m keys _ _ (Nat.mod_lt _ hm) hf', Nat.mul_comm, Nat.div_add_mod]
    · have hf' : ¬ (k / m = 0) ∧ k % m ∈ keys := by simpa [free] using hf
      have e1 : pre m keys k = k % m := by simp [pre, hf]
      have hm : 0 < m := by
        by_contra hc
        have : m = 0 := by omega
        subst this
        simp at hf'
      have hle : m ≤ cnt m keys k := by
        have h1 : m ≤ k := by
          by_contra hc
          exact hf'.1 (Nat.div_eq_of_lt (by omega))
        have h2 : cnt m keys m ≤ cnt m keys k := by
          unfold cnt
          obtain ⟨d, rfl⟩ : ∃ d, k = m + d := ⟨k - m, by omega⟩
          rw [List.range_add, List.filter_append, List.length_append]
          omega
        rwa [cnt_first m keys m (le_refl _)] at h2
      have hlt := Nat.mod_lt k hm
      rw [e1, if_neg (by omega)]
      have := ih (k + 1)
      rw [cnt_succ, if_neg hf] at this
      simp only [Nat.add_zero] at this
      rw [this]
      congr 1
      simp [pos, hf'.2]

theorem select_eq (m n : ℕ) (keys : List ℕ) :
    (((List.range (m * n)).map (pre m keys)).dedup).mergeSort (fun a b => decide (a ≤ b))
      = (List.range (m * n)).filter (free m keys) := by
  set l := ((List.range (m * n)).map (pre m keys)).dedup
  have hsorted : (l.mergeSort (fun a b => decide (a ≤ b))).Pairwise (· ≤ ·) := by
    have := List.pairwise_mergeSort (le := fun a b : ℕ => decide (a ≤ b))
      (fun a b c => by simp; omega) (fun a b => by simp; omega) l
    simpa using this
  have hperm := List.mergeSort_perm l (fun a b => decide (a ≤ b))
  apply List.Perm.eq_of_pairwise' (r := (· ≤ ·)) hsorted
  · exact (List.pairwise_lt_range.imp fun h => le_of_lt h).filter _
  · refine hperm.trans ?_
    rw [List.perm_ext_iff_of_nodup (List.nodup_dedup _) (List.nodup_range.filter _)]
    intro a
    simp only [l, List.mem_dedup, List.mem_map, List.mem_range, List.mem_filter]
    constructor
    · rintro ⟨k, hk, rfl⟩
      unfold pre
      by_cases hf : free m keys k = true
      · simp [hf, hk]
      · have hf' : ¬ (k / m = 0) ∧ k % m ∈ keys := by simpa [free] using hf
        have hm : 0 < m := by
          by_contra hc
          have : m = 0 := by omega
          subst this
          simp at hf'
        have := Nat.mod_lt k hm
        have h2 := Nat.mod_le k m
        simp only [hf, Bool.false_eq_true, if_false]
        exact ⟨by omega, by simp [free, Nat.div_eq_of_lt this]⟩
    · rintro ⟨h1, h2⟩
      exact ⟨a, h1, by simp [pre, h2]⟩

/-- What `combine` makes of proper dictionaries. -/
theorem combine_eq (m n : ℕ) (hn : 1 ≤ n) (ak bk : List ℕ) (av mv : ℕ → ℕ → α)
    (ha : ∀ i ∈ ak, i < m) (hb : ∀ i ∈ bk, i < m) :
    (mk m n ak av bk mv).combine = some
      ⟨(pairs n ak).map (fun x => x.1 + x.2 * m), (pairs n ak).map (fun x => av x.1 x.2),
       (pairs n bk).map (fun x => x.1 + x.2 * m), (pairs n bk).map (fun x => mv x.1 x.2),
       (List.range (m * n)).map (fun k => pos m (ak ++ bk) (k / m) (k % m)),
       (List.range (m * n)).filter (free m (ak ++ bk))⟩ := by
  have h1 := setCombi_dict (mk m n ak av bk mv) ak av ha
  have h2 := setCombi_dict (mk m n ak av bk mv) bk mv hb
  unfold Combi.combine
  rw [show (mk m n ak av bk mv).add = dict (mk m n ak av bk mv).nrepeat ak av from rfl,
    show (mk m n ak av bk mv).mul = dict (mk m n ak av bk mv).nrepeat bk mv from rfl, h1, h2]
  have h3 := expand_keys m n hn ak ha 0 0 id (by simp)
  simp only [List.map_id] at h3
  have h4 := expand_keys m n hn bk hb 0 0
    (fun k => if k % m ∈ ak ∧ 1 ≤ k / m then k % m else id k) (by simp)
  have e : (fun k => if k % m ∈ bk ∧ 1 ≤ k / m then k % m
      else if k % m ∈ ak ∧ 1 ≤ k / m then k % m else id k) = pre m (ak ++ bk) := by
    funext k
    by_cases a1 : k % m ∈ ak <;> by_cases a2 : k % m ∈ bk <;> by_cases a3 : k / m = 0
    all_goals
      have a4 : 1 ≤ k / m ↔ ¬ (k / m = 0) := Nat.one_le_iff_ne_zero
      simp [pre, free, a1, a2, a3, a4]
  rw [e] at h4
  simp only [mk, Combi.npcmax, h3, h4]
  congr 2
  · have := renumber_eq m (ak ++ bk) (m * n) 0
    rw [← List.range_eq_range'] at this
    exact this
  · exact select_eq m n (ak ++ bk)

/-! ## Result -/

theorem pos_lt_size (m n j i : ℕ) (keys : List ℕ) (hi : i < m) (hj : j < n) :
    pos m keys j i < size m keys n :=
  pos_lt (⟨n, m, keys, fun _ => 0⟩ : Rep ℕ) n j i hi hj

theorem expand_eq [CommSemiring α] (m n : ℕ) (ak bk : List ℕ) (av mv : ℕ → ℕ → α)
    (ha : ∀ i ∈ ak, i < m) (hb : ∀ i ∈ bk, i < m) (han : ak.Nodup) (hbn : bk.Nodup) (p : ℕ → α)
    (sel : List ℕ) :
    expandParameters ⟨(pairs n ak).map (fun x => x.1 + x.2 * m),
       (pairs n ak).map (fun x => av x.1 x.2),
       (pairs n bk).map (fun x => x.1 + x.2 * m), (pairs n bk).map (fun x => mv x.1 x.2),
       (List.range (m * n)).map (fun k => pos m (ak ++ bk) (k / m) (k % m)), sel⟩
      ((List.range (size m (ak ++ bk) n)).map p)
      = some ((List.range (m * n)).map fun k => fullPar m ak av bk mv p (k / m) (k % m)) := by
  unfold expandParameters
  have hlt : ∀ (ks : List ℕ), (∀ i ∈ ks, i < m) → ∀ x ∈ pairs n ks, x.1 + x.2 * m < m * n := by
    intro ks hks x hx
    obtain ⟨h1, h2⟩ := (mem_pairs n ks x).1 hx
    have h3 := hks _ h1
    have : m * (x.2 + 1) ≤ m * n := Nat.mul_le_mul_left _ h2
    rw [Nat.mul_comm x.2]
    rw [Nat.mul_add] at this
    omega
  have hg := gather_map_range (size m (ak ++ bk) n) p
    ((List.range (m * n)).map (fun k => pos m (ak ++ bk) (k / m) (k % m))) (by
      intro k hk
      simp only [List.mem_map, List.mem_range] at hk
      obtain ⟨a, ha', rfl⟩ := hk
      have hm : 0 < m := by
        by_contra hc
        have : m = 0 := by omega
        simp [this] at ha'
      exact pos_lt_size m n _ _ _ (Nat.mod_lt _ hm) (Nat.div_lt_of_lt_mul ha'))
  simp only [hg, List.map_map]
  have hdm : ∀ (ks : List ℕ), (∀ i ∈ ks, i < m) → ∀ x ∈ pairs n ks,
      (x.1 + x.2 * m) % m = x.1 ∧ (x.1 + x.2 * m) / m = x.2 := by
    intro ks hks x hx
    exact divmod m _ _ (hks _ ((mem_pairs n ks x).1 hx).1)
  have houtside : ∀ (ks : List ℕ) (k : ℕ), k < m * n →
      (∀ x ∈ pairs n ks, x.1 + x.2 * m ≠ k) → k % m ∉ ks := by
    intro ks k hk h hmem
    apply h (k % m, k / m)
    · exact (mem_pairs n ks _).2 ⟨hmem, Nat.div_lt_of_lt_mul hk⟩
    · rw [Nat.mul_comm]; exact Nat.mod_add_div k m
  -- outside the array any value will do
  have h1 := updateAt_map (· + ·) (m * n) (p ∘ fun k => pos m (ak ++ bk) (k / m) (k % m))
    (fun k => if k < m * n then p (pos m (ak ++ bk) (k / m) (k % m))
      + (if k % m ∈ ak then av (k % m) (k / m) else 0)
      else p (pos m (ak ++ bk) (k / m) (k % m)))
    (pairs n ak) (fun x => x.1 + x.2 * m) (fun x => av x.1 x.2) (hlt ak ha)
    (pairs_nodup m n ak ha han)
    (by
      intro x hx
      obtain ⟨e1, e2⟩ := hdm ak ha x hx
      simp [e1, e2, hlt ak ha x hx, ((mem_pairs n ak x).1 hx).1])
    (by
      intro k hk
      by_cases hkn : k < m * n
      · simp [hkn, houtside ak k hkn hk]
      · simp [hkn])
  rw [h1]
  have h2 := updateAt_map (· * ·) (m * n)
    (fun k => if k < m * n then p (pos m (ak ++ bk) (k / m) (k % m))
      + (if k % m ∈ ak then av (k % m) (k / m) else 0)
      else p (pos m (ak ++ bk) (k / m) (k % m)))
    (fun k => if k < m * n then fullPar m ak av bk mv p (k / m) (k % m)
      else p (pos m (ak ++ bk) (k / m) (k % m)))
    (pairs n bk) (fun x => x.1 + x.2 * m) (fun x => mv x.1 x.2) (hlt bk hb)
    (pairs_nodup m n bk hb hbn)
    (by
      intro x hx
      obtain ⟨e1, e2⟩ := hdm bk hb x hx
      simp [e1, e2, hlt bk hb x hx, ((mem_pairs n bk x).1 hx).1, fullPar])
    (by
      intro k hk
      by_cases hkn : k < m * n
      · simp [hkn, houtside bk k hkn hk, fullPar]
      · simp [hkn])
  simp only
  rw [h2]
  congr 1
  apply List.map_congr_left
  intro k hk
  rw [if_pos (by simpa using hk)]

/-- A combi model is the repeated chain with each tied parameter equal to that of the first copy, plus
its offset, times its factor, and each other parameter free. The list `select` tells which parameters
of the chain are its own. -/
theorem C26_result [CommSemiring α] (m n : ℕ) (hn : 1 ≤ n) (ak bk : List ℕ) (av mv : ℕ → ℕ → α)
    (ha : ∀ i ∈ ak, i < m) (hb : ∀ i ∈ bk, i < m) (han : ak.Nodup) (hbn : bk.Nodup)
    (full : List α → Option α) (p : ℕ → α) :
    ∃ d, (mk m n ak av bk mv).combine = some d ∧ d.select.length = size m (ak ++ bk) n ∧
      (∀ j i, j < n → i < m → (j = 0 ∨ i ∉ ak ++ bk) →
        d.select[pos m (ak ++ bk) j i]? = some (j * m + i)) ∧
      baseResult d full ((List.range (size m (ak ++ bk) n)).map p)
        = full ((List.range (m * n)).map fun k => fullPar m ak av bk mv p (k / m) (k % m)) := by
  refine ⟨_, combine_eq m n hn ak bk av mv ha hb, ?_, ?_, ?_⟩
  · show cnt m (ak ++ bk) (m * n) = _
    obtain ⟨c, rfl⟩ : ∃ c, n = c + 1 := ⟨n - 1, by omega⟩
    rw [Nat.mul_comm, cnt_mul]
    simp [size]
  · intro j i hj hi hf
    rw [← cnt_pos m (ak ++ bk) j i hi hf]
    apply filter_range_get
    · have : m * (j + 1) ≤ m * n := Nat.mul_le_mul_left _ hj
      rw [Nat.mul_comm j]
      rw [Nat.mul_add] at this
      omega
    · have h1 := divmod m i j hi
      rw [Nat.add_comm] at h1
      simp only [free, h1.1, h1.2]
      simpa using hf
  · simp only [baseResult]
    rw [expand_eq m n ak bk av mv ha hb han hbn]
    rfl

/-! ### The chain of copies -/

open BF.Compound in
/-- The value of the chain of copies is the sum, or the product, over the copies. -/
theorem repeated_value {K : Type*} [Field K] (b : Base K) (x : K) (n : ℕ) (q : ℕ → ℕ → K) :
    (repeated .add (.base b) n).value x
        ((List.range (b.np * (n + 1))).map fun k => q (k / b.np) (k % b.np))
      = ∑ j ∈ range (n + 1), b.res ((List.range b.np).map (q j)) x ∧
    (repeated .mul (.base b) n).value x
        ((List.range (b.np * (n + 1))).map fun k => q (k / b.np) (k % b.np))
      = ∏ j ∈ range (n + 1), b.res ((List.range b.np).map (q j)) x := by
  have hnp : ∀ o n, (repeated o (Expr.base b) n).np = b.np * (n + 1) := by
    intro o n
    induction n with
    | zero => simp [repeated, Expr.np]
    | succ n ih => simp [repeated, Expr.np, ih]; ring
  induction n with
  | zero =>
    have : (List.range (b.np * (0 + 1))).map (fun k => q (k / b.np) (k % b.np))
        = (List.range b.np).map (q 0) := by
      simp only [Nat.zero_add, Nat.mul_one]
      apply List.map_congr_left
      intro k hk
      have : k < b.np := by simpa using hk
      simp [Nat.div_eq_of_lt this, Nat.mod_eq_of_lt this]
    simp only [repeated, Expr.value, this]
    simp
  | succ n ih =>
    have hsplit : (List.range (b.np * (n + 1 + 1))).map (fun k => q (k / b.np) (k % b.np))
        = (List.range (b.np * (n + 1))).map (fun k => q (k / b.np) (k % b.np))
          ++ (List.range b.np).map (q (n + 1)) := by
      rw [Nat.mul_add _ (n + 1) 1, Nat.mul_one, List.range_add, List.map_append, List.map_map]
      congr 1
      apply List.map_congr_left
      intro i hi
      have hi : i < b.np := by simpa using hi
      have h1 := divmod b.np i (n + 1) hi
      rw [Nat.add_comm, Nat.mul_comm] at h1
      simp only [Function.comp, h1.1, h1.2]
    have hl : ∀ o, (repeated o (Expr.base b) n).np
        = ((List.range (b.np * (n + 1))).map (fun k => q (k / b.np) (k % b.np))).length := by
      intro o; rw [hnp]; simp
    constructor
    · rw [repeated, Expr.value, hsplit, hl, List.take_left, List.drop_left, ih.1,
        sum_range_succ _ (n + 1)]
      rfl
    · rw [repeated, Expr.value, hsplit, hl, List.take_left, List.drop_left, ih.2,
        prod_range_succ _ (n + 1)]
      rfl

open BF.Compound in
/-- The result of a combi model of `n + 1` copies of a base model: the sum, or for `oper='mul'` the
product, of the base model over the copies with tied parameters. -/
theorem C26_copies {K : Type*} [Field K] (b : Base K) (x : K) (n : ℕ) (ak bk : List ℕ)
    (av mv : ℕ → ℕ → K) (ha : ∀ i ∈ ak, i < b.np) (hb : ∀ i ∈ bk, i < b.np) (han : ak.Nodup)
    (hbn : bk.Nodup) (p : ℕ → K) :
    ∃ d, (mk b.np (n + 1) ak av bk mv).combine = some d ∧
      baseResult d ((repeated .add (.base b) n).build.result x)
          ((List.range (size b.np (ak ++ bk) (n + 1))).map p)
        = some (∑ j ∈ range (n + 1),
            b.res ((List.range b.np).map (fullPar b.np ak av bk mv p j)) x) ∧
      baseResult d ((repeated .mul (.base b) n).build.result x)
          ((List.range (size b.np (ak ++ bk) (n + 1))).map p)
        = some (∏ j ∈ range (n + 1),
            b.res ((List.range b.np).map (fullPar b.np ak av bk mv p j)) x) := by
  have hnp : ∀ o n, (repeated o (Expr.base b) n).np = b.np * (n + 1) := by
    intro o n
    induction n with
    | zero => simp [repeated, Expr.np]
    | succ n ih => simp [repeated, Expr.np, ih]; ring
  have hv := repeated_value b x n (fullPar b.np ak av bk mv p)
  refine ⟨_, combine_eq b.np (n + 1) (by omega) ak bk av mv ha hb, ?_, ?_⟩
  · simp only [baseResult]
    rw [expand_eq b.np (n + 1) ak bk av mv ha hb han hbn, Option.bind_some,
      (C17_result _ x _ (by rw [hnp]; simp)).2, hv.1]
  · simp only [baseResult]
    rw [expand_eq b.np (n + 1) ak bk av mv ha hb han hbn, Option.bind_some,
      (C17_result _ x _ (by rw [hnp]; simp)).2, hv.2]

/-! ## Partial derivatives -/

theorem modifyAt_map_range (M k : ℕ) (hk : k < M) (q : ℕ → α) (f : α → α) :
    modifyAt ((List.range M).map q) k f
      = some ((List.range M).map (Function.update q k (f (q k)))) := by
  simp [modifyAt, hk, set_map_range]

theorem addLoop_tail [AddCommMonoid α] (m n M key : ℕ) (hkey : key < m) (hM : m ≤ M)
    (D : ℕ → α) (rest : List ℕ) (i : ℕ) (hi : i % n = 0) :
    ∀ (c j0 : ℕ) (q : ℕ → α), 1 ≤ j0 → j0 + c = n →
    addLoop n ((List.range (m * n)).map D) ((List.range' j0 c).map (fun j => key + j * m) ++ rest)
      (i + j0) key ((List.range M).map q)
    = addLoop n ((List.range (m * n)).map D) rest (i + n) key ((List.range M).map
        (Function.update q key (q key + ∑ j ∈ Ico j0 n, D (key + j * m)))) := by
  intro c
  induction c with
  | zero =>
    intro j0 q h1 h2
    obtain rfl : j0 = n := by omega
    simp
  | succ c ih =>
    intro j0 q h1 h2
    rw [List.range'_succ, List.map_cons, List.cons_append, addLoop]
    have hmod : (i + j0) % n = j0 := by
      rw [Nat.add_mod, hi, Nat.zero_add, Nat.mod_mod, Nat.mod_eq_of_lt (by omega)]
    have hk : key + j0 * m < m * n := by
      have : m * (j0 + 1) ≤ m * n := Nat.mul_le_mul_left _ (by omega)
      rw [Nat.mul_comm j0]
      rw [Nat.mul_add] at this
      omega
    rw [hmod, if_neg (by omega)]
    have : ((List.range (m * n)).map D)[key + j0 * m]? = some (D (key + j0 * m)) := by simp [hk]
    simp only [this]
    rw [modifyAt_map_range M key (by omega)]
    simp only
    rw [Nat.add_assoc, ih (j0 + 1) _ (by omega) (by omega)]
    congr 2
    rw [Function.update_idem, Function.update_self, add_assoc,
      ← sum_eq_sum_Ico_succ_bot (a := j0) (b := n) (by omega) (fun j => D (key + j * m))]

theorem addLoop_keys [AddCommMonoid α] (m n M : ℕ) (hn : 1 ≤ n) (hM : m ≤ M) (D : ℕ → α)
    (ks : List ℕ) (h : ∀ i ∈ ks, i < m) (hnd : ks.Nodup) :
    ∀ (i kk : ℕ) (q : ℕ → α), i % n = 0 →
    addLoop n ((List.range (m * n)).map D) ((pairs n ks).map fun x => x.1 + x.2 * m) i kk
      ((List.range M).map q)
    = some ((List.range M).map fun k =>
        if k ∈ ks then q k + ∑ j ∈ Ico 1 n, D (k + j * m) else q k) := by
  induction ks with
  | nil => intro i kk q _; simp [pairs, addLoop]
  | cons key ks ih =>
    intro i kk q hi
    have hkey := h key (by simp)
    obtain ⟨hnk, hnd'⟩ := List.nodup_cons.1 hnd
    obtain ⟨c, rfl⟩ : ∃ c, n = c + 1 := ⟨n - 1, by omega⟩
    have e : (pairs (c + 1) (key :: ks)).map (fun x => x.1 + x.2 * m)
        = key :: ((List.range' 1 c).map (fun j => key + j * m)
          ++ (pairs (c + 1) ks).map fun x => x.1 + x.2 * m) := by
      simp only [pairs, List.flatMap_cons, List.map_append, List.map_map]
      rw [List.range_eq_range', List.range'_succ]
      simp [Function.comp_def]
    rw [e, addLoop, if_pos hi,
      addLoop_tail m (c + 1) M key hkey hM D _ i hi c 1 q (le_refl _) (by omega),
      ih (fun k hk => h k (by simp [hk])) hnd' _ _ _ (by rw [Nat.add_mod_right, hi])]
    congr 1
    apply List.map_congr_left
    intro k _
    by_cases hk : k = key
    · subst hk; simp [hnk]
    · simp [hk, Function.update_of_ne hk]

theorem mulLoop_tail [CommSemiring α] (m n M key : ℕ) (hkey : key < m) (hM : m ≤ M)
    (D : ℕ → α) (mv : ℕ → ℕ → α) (rest : List (ℕ × α)) (i : ℕ) (hi : i % n = 0) :
    ∀ (c j0 : ℕ) (q : ℕ → α), 1 ≤ j0 → j0 + c = n →
    mulLoop n ((List.range (m * n)).map D)
      ((List.range' j0 c).map (fun j => (key + j * m, mv key j)) ++ rest)
      (i + j0) key ((List.range M).map q)
    = mulLoop n ((List.range (m * n)).map D) rest (i + n) key ((List.range M).map
        (Function.update q key (q key + ∑ j ∈ Ico j0 n, D (key + j * m) * mv key j))) := by
  intro c
  induction c with
  | zero =>
    intro j0 q h1 h2
    obtain rfl : j0 = n := by omega
    simp
  | succ c ih =>
    intro j0 q h1 h2
    rw [List.range'_succ, List.map_cons, List.cons_append, mulLoop]
    have hmod : (i + j0) % n = j0 := by
      rw [Nat.add_mod, hi, Nat.zero_add, Nat.mod_mod, Nat.mod_eq_of_lt (by omega)]
    have hk : key + j0 * m < m * n := by
      have : m * (j0 + 1) ≤ m * n := Nat.mul_le_mul_left _ (by omega)
      rw [Nat.mul_comm j0]
      rw [Nat.mul_add] at this
      omega
    rw [hmod, if_neg (by omega)]
    have : ((List.range (m * n)).map D)[key + j0 * m]? = some (D (key + j0 * m)) := by simp [hk]
    simp only [this]
    rw [modifyAt_map_range M key (by omega)]
    simp only
    rw [Nat.add_assoc, ih (j0 + 1) _ (by omega) (by omega)]
    congr 2
    rw [Function.update_idem, Function.update_self, add_assoc,
      ← sum_eq_sum_Ico_succ_bot (a := j0) (b := n) (by omega) (fun j => D (key + j * m) * mv key j)]

theorem mulLoop_keys [CommSemiring α] (m n M : ℕ) (hn : 1 ≤ n) (hM : m ≤ M) (D : ℕ → α)
    (mv : ℕ → ℕ → α) (ks : List ℕ) (h : ∀ i ∈ ks, i < m) (hnd : ks.Nodup) :
    ∀ (i kk : ℕ) (q : ℕ → α), i % n = 0 →
    mulLoop n ((List.range (m * n)).map D)
      ((pairs n ks).map fun x => (x.1 + x.2 * m, mv x.1 x.2)) i kk ((List.range M).map q)
    = some ((List.range M).map fun k =>
        if k ∈ ks then q k * mv k 0 + ∑ j ∈ Ico 1 n, D (k + j * m) * mv k j else q k) := by
  induction ks with
  | nil => intro i kk q _; simp [pairs, mulLoop]
  | cons key ks ih =>
    intro i kk q hi
    have hkey := h key (by simp)
    obtain ⟨hnk, hnd'⟩ := List.nodup_cons.1 hnd
    obtain ⟨c, rfl⟩ : ∃ c, n = c + 1 := ⟨n - 1, by omega⟩
    have e : (pairs (c + 1) (key :: ks)).map (fun x => (x.1 + x.2 * m, mv x.1 x.2))
        = (key, mv key 0) :: ((List.range' 1 c).map (fun j => (key + j * m, mv key j))
          ++ (pairs (c + 1) ks).map fun x => (x.1 + x.2 * m, mv x.1 x.2)) := by
      simp only [pairs, List.flatMap_cons, List.map_append, List.map_map]
      rw [List.range_eq_range', List.range'_succ]
      simp [Function.comp_def]
    rw [e, mulLoop, if_pos hi, modifyAt_map_range M key (by omega)]
    simp only
    rw [mulLoop_tail m (c + 1) M key hkey hM D mv _ i hi c 1 _ (le_refl _) (by omega),
      ih (fun k hk => h k (by simp [hk])) hnd' _ _ _ (by rw [Nat.add_mod_right, hi])]
    congr 1
    apply List.map_congr_left
    intro k _
    by_cases hk : k = key
    · subst hk; simp [hnk]
    · simp [hk, Function.update_of_ne hk]

theorem zip_map_map {β γ δ : Type*} (l : List β) (f : β → γ) (g : β → δ) :
    (l.map f).zip (l.map g) = l.map fun x => (f x, g x) := by
  induction l with
  | nil => rfl
  | cons a l ih => simp [ih]

/-- The partials of a combi model in which no parameter is tied both ways: the `k`-th one is the sum
over all parameters of the chain that are made from it, each times its factor. -/
theorem C26_basePartial_partial [CommSemiring α] (m n : ℕ) (hn : 1 ≤ n) (ak bk : List ℕ)
    (av mv : ℕ → ℕ → α) (ha : ∀ i ∈ ak, i < m) (hb : ∀ i ∈ bk, i < m) (han : ak.Nodup)
    (hbn : bk.Nodup) (hdis : ∀ i ∈ ak, i ∉ bk) (D : List α → ℕ → α) (p : ℕ → α) :
    ∃ d, (mk m n ak av bk mv).combine = some d ∧
      basePartial (mk m n ak av bk mv) d (fun l => some ((List.range (m * n)).map (D l)))
        ((List.range (size m (ak ++ bk) n)).map p)
      = some ((List.range (size m (ak ++ bk) n)).map fun k => ∑ j ∈ range n, ∑ i ∈ range m,
          if pos m (ak ++ bk) j i = k then
            D ((List.range (m * n)).map fun k => fullPar m ak av bk mv p (k / m) (k % m))
              (i + j * m) * (if i ∈ bk then mv i j else 1)
          else 0) := by
  obtain ⟨d, hd, hsl, hsel, -⟩ := C26_result m n hn ak bk av mv ha hb han hbn (fun _ => none) p
  have hd' := combine_eq m n hn ak bk av mv ha hb
  rw [hd] at hd'
  obtain rfl := Option.some.inj hd'
  refine ⟨_, hd, ?_⟩
  set keys := ak ++ bk with hkeys
  set M := size m keys n with hMdef
  have hmM : m ≤ M := Nat.le_add_right _ _
  unfold basePartial
  rw [expand_eq m n ak bk av mv ha hb han hbn]
  simp only
  set E := D ((List.range (m * n)).map fun k => fullPar m ak av bk mv p (k / m) (k % m)) with hE
  simp only at hsl hsel
  set sel := (List.range (m * n)).filter (free m keys) with hseldef
  have hlt : ∀ k ∈ sel, k < m * n := by
    intro k hk
    rw [hseldef, List.mem_filter] at hk
    simpa using hk.1
  rw [gather_map_range _ _ _ hlt]
  simp only
  -- `sel` as a function
  set s : ℕ → ℕ := fun k => (sel[k]?).getD 0 with hs
  have hselmap : sel.map E = (List.range M).map fun k => E (s k) := by
    apply List.ext_getElem?
    intro k
    by_cases hk : k < M
    · have hk' : k < sel.length := by omega
      simp [hk, hs, List.getElem?_eq_getElem hk']
    · rw [List.getElem?_eq_none (by simp; omega), List.getElem?_eq_none (by simpa using hk)]
  have hnr : (mk m n ak av bk mv).nrepeat = n := rfl
  rw [hselmap, hnr]
  rw [addLoop_keys m n M hn hmM E ak ha han 0 0 _ (by simp)]
  simp only
  rw [zip_map_map]
  have := mulLoop_keys m n M hn hmM E mv bk hb hbn 0 0 (fun k => if k ∈ ak then
    E (s k) + ∑ j ∈ Ico 1 n, E (k + j * m) else E (s k)) (by simp)
  rw [this]
  congr 1
  apply List.map_congr_left
  intro k hk
  have hkM : k < M := by simpa using hk
  -- the origin of parameter k
  obtain ⟨j0, i0, hj0, hi0, hf0, hp0, hs0⟩ : ∃ j i, j < n ∧ i < m ∧ (j = 0 ∨ i ∉ keys) ∧
      pos m keys j i = k ∧ s k = j * m + i := by
    have hk' : k < sel.length := by omega
    have hmem : sel[k] ∈ sel := List.getElem_mem hk'
    have hall : ∀ a ∈ sel, a < m * n ∧ (a / m = 0 ∨ a % m ∉ keys) := by
      intro a ha'
      rw [hseldef, List.mem_filter] at ha'
      exact ⟨by simpa using ha'.1, by simpa [free] using ha'.2⟩
    obtain ⟨h2, h3⟩ := hall _ hmem
    have hm : 0 < m := by
      by_contra hc
      have : m = 0 := by omega
      simp [this] at h2
    have h4 := Nat.mod_lt sel[k] hm
    have h5 := Nat.div_lt_of_lt_mul h2
    have h6 := hsel _ _ h5 h4 h3
    have h7 : sel[k] / m * m + sel[k] % m = sel[k] := by
      rw [Nat.mul_comm]; exact Nat.div_add_mod _ _
    rw [h7] at h6
    obtain ⟨h8, h9⟩ := List.getElem?_eq_some_iff.1 h6
    have hnd : sel.Nodup := List.nodup_range.filter _
    have h10 := (hnd.getElem_inj_iff).1 h9
    exact ⟨_, _, h5, h4, h3, h10, by simp [hs, List.getElem?_eq_getElem hk', h7]⟩
  by_cases hik : i0 ∈ keys
  · -- tied
    obtain rfl : j0 = 0 := by rcases hf0 with h | h; exact h; exact absurd hik h
    have hik' : i0 = k := by rw [← hp0]; simp [pos]
    subst hik'
    have hsk : s i0 = i0 := by simpa using hs0
    have hiff : ∀ j i, i < m → (pos m keys j i = i0 ↔ i = i0) := by
      intro j i hi
      unfold pos
      split
      · rfl
      · rename_i hc
        constructor
        · intro h; omega
        · rintro rfl; exact absurd (Or.inr hik) hc
    have hsum : ∀ j, (∑ i ∈ range m, if pos m keys j i = i0 then
        E (i + j * m) * (if i ∈ bk then mv i j else 1) else 0)
        = E (i0 + j * m) * (if i0 ∈ bk then mv i0 j else 1) := by
      intro j
      rw [sum_eq_single i0]
      · simp [(hiff j i0 hi0).2 rfl]
      · intro b hb' hbi
        rw [if_neg]
        rw [hiff j b (by simpa using hb')]
        exact hbi
      · intro h; exact absurd (by simpa using hi0) h
    simp only [hsum]
    rw [range_eq_Ico, sum_eq_sum_Ico_succ_bot (a := 0) (b := n) (by omega)
      (fun j => E (i0 + j * m) * (if i0 ∈ bk then mv i0 j else 1))]
    by_cases h1 : i0 ∈ ak
    · have h2 := hdis i0 h1
      simp [h1, h2, hsk]
    · have h2 : i0 ∈ bk := by
        rcases List.mem_append.1 hik with h | h
        · exact absurd h h1
        · exact h
      simp [h1, h2, hsk]
  · -- free
    have h1 : i0 ∉ ak := fun h => hik (by simp [hkeys, h])
    have h2 : i0 ∉ bk := fun h => hik (by simp [hkeys, h])
    have hkk : k ∉ keys := by
      intro hc
      have hkm : k < m := by
        rcases List.mem_append.1 hc with h | h
        · exact ha k h
        · exact hb k h
      have : i0 = k := by
        rw [← hp0]
        unfold pos
        by_cases hj : j0 = 0
        · simp [hj]
        · exfalso
          have h3 := hp0
          unfold pos at h3
          rw [if_neg (by simp [hj, hik])] at h3
          omega
      exact hik (this ▸ hc)
    have hka : k ∉ ak := fun h => hkk (by simp [hkeys, h])
    have hkb : k ∉ bk := fun h => hkk (by simp [hkeys, h])
    rw [if_neg hkb, if_neg hka, sum_eq_single j0, sum_eq_single i0]
    · rw [if_pos hp0, if_neg h2, mul_one, hs0, Nat.add_comm]
    · intro b hb' hbi
      rw [if_neg]
      intro he
      have hbm : b < m := by simpa using hb'
      by_cases hbk : b ∈ keys
      · have : k = b := by rw [← he]; simp [pos, hbk]
        exact hkk (this ▸ hbk)
      · exact hbi (pos_inj (⟨n, m, keys, fun _ => 0⟩ : Rep ℕ) _ _ _ _ hbm hi0 hbk hik
          (he.trans hp0.symm)).2
    · intro h; exact absurd (by simpa using hi0) h
    · intro j hj hjj
      apply sum_eq_zero
      intro b hb'
      rw [if_neg]
      intro he
      have hbm : b < m := by simpa using hb'
      by_cases hbk : b ∈ keys
      · have : k = b := by rw [← he]; simp [pos, hbk]
        exact hkk (this ▸ hbk)
      · exact hjj (pos_inj (⟨n, m, keys, fun _ => 0⟩ : Rep ℕ) _ _ _ _ hbm hi0 hbk hik
          (he.trans hp0.symm)).1
    · intro h; exact absurd (by simpa using hj0) h

theorem sum_blocks {β : Type*} [AddCommMonoid β] (m n : ℕ) (g : ℕ → ℕ → β) :
    ∑ l ∈ range (m * n), g (l / m) (l % m) = ∑ j ∈ range n, ∑ i ∈ range m, g j i := by
  induction n with
  | zero => simp
  | succ n ih =>
    rw [Nat.mul_add, Nat.mul_one, sum_range_add, ih, sum_range_succ _ n]
    congr 1
    apply sum_congr rfl
    intro i hi
    have h1 := divmod m i n (by simpa using hi)
    rw [Nat.add_comm, Nat.mul_comm] at h1
    rw [h1.1, h1.2]

/-- When the chain of copies returns its true gradient, and no parameter is tied both ways, the partials
of the combi model are the true derivatives of its result. -/
theorem C26_partial_true_partial (m n : ℕ) (hn : 1 ≤ n) (ak bk : List ℕ)
    (av mv : ℕ → ℕ → ℝ) (ha : ∀ i ∈ ak, i < m) (hb : ∀ i ∈ bk, i < m) (han : ak.Nodup)
    (hbn : bk.Nodup) (hdis : ∀ i ∈ ak, i ∉ bk) (full : List ℝ → ℝ) (D : List ℝ → ℕ → ℝ) (p : ℕ → ℝ)
    (hD : HasFDerivAt (fun q : Fin (m * n) → ℝ => full (List.ofFn q))
      (∑ k : Fin (m * n), D ((List.range (m * n)).map fun k =>
        fullPar m ak av bk mv p (k / m) (k % m)) k
          • ContinuousLinearMap.proj (R := ℝ) (φ := fun _ : Fin (m * n) => ℝ) k)
      (fun k => fullPar m ak av bk mv p (k / m) (k % m)))
    (k : ℕ) (hk : k < size m (ak ++ bk) n) :
    ∃ d der value, (mk m n ak av bk mv).combine = some d ∧
      (basePartial (mk m n ak av bk mv) d (fun l => some ((List.range (m * n)).map (D l)))
        ((List.range (size m (ak ++ bk) n)).map p)).bind (·[k]?) = some der ∧
      (∀ t, baseResult d (fun l => some (full l))
        (((List.range (size m (ak ++ bk) n)).map p).set k t) = some (value t)) ∧
      HasDerivAt value der (p k) := by
  obtain ⟨d, hd, hp⟩ := C26_basePartial_partial m n hn ak bk av mv ha hb han hbn hdis D p
  refine ⟨d, ∑ j ∈ range n, ∑ i ∈ range m,
      if pos m (ak ++ bk) j i = k then
        D ((List.range (m * n)).map fun k => fullPar m ak av bk mv p (k / m) (k % m))
          (i + j * m) * (if i ∈ bk then mv i j else 1)
      else 0, fun t => full ((List.range (m * n)).map fun l =>
    fullPar m ak av bk mv (Function.update p k t) (l / m) (l % m)), hd, ?_, ?_, ?_⟩
  · rw [hp]; simp [hk]
  · intro t
    obtain ⟨d', hd', -, -, hr⟩ := C26_result m n hn ak bk av mv ha hb han hbn
      (fun l => some (full l)) (Function.update p k t)
    rw [hd] at hd'
    obtain rfl := Option.some.inj hd'
    rw [set_map_range, hr]
  · have hlist : ∀ q : ℕ → ℝ, (List.range (m * n)).map q
        = List.ofFn fun i : Fin (m * n) => q i := by
      intro q
      apply List.ext_getElem
      · simp
      · intro i h1 h2; simp
    simp only [hlist (fun l => fullPar m ak av bk mv (Function.update p k _) (l / m) (l % m))]
    have hc : HasDerivAt (fun t => fun l : Fin (m * n) =>
        fullPar m ak av bk mv (Function.update p k t) (l / m) (l % m))
        (fun l : Fin (m * n) => if pos m (ak ++ bk) (l / m) (l % m) = k then
          (if (l : ℕ) % m ∈ bk then mv (l % m) (l / m) else 1) else 0) (p k) := by
      rw [hasDerivAt_pi]
      intro l
      unfold fullPar
      by_cases hl : pos m (ak ++ bk) (l / m) (l % m) = k
      · simp only [hl, Function.update_self, if_true]
        have := ((hasDerivAt_id (p k)).add_const
          (if (l : ℕ) % m ∈ ak then av (l % m) (l / m) else 0)).mul_const
          (if (l : ℕ) % m ∈ bk then mv (l % m) (l / m) else 1)
        simpa using this
      · simp only [Function.update_of_ne hl, if_neg hl]
        exact hasDerivAt_const _ _
    have h0 := hD
    have e : (fun l : Fin (m * n) => fullPar m ak av bk mv p (l / m) (l % m))
        = (fun t => fun l : Fin (m * n) =>
          fullPar m ak av bk mv (Function.update p k t) (l / m) (l % m)) (p k) := by
      funext i
      simp
    rw [e] at h0
    refine (h0.comp_hasDerivAt (p k) hc).congr_deriv ?_
    -- sum over the chain = sum over copies and parameters
    rw [ContinuousLinearMap.sum_apply]
    simp only [ContinuousLinearMap.smul_apply, ContinuousLinearMap.proj_apply, smul_eq_mul,
      mul_ite, mul_zero, mul_one]
    set E := D ((List.range (m * n)).map fun k => fullPar m ak av bk mv p (k / m) (k % m))
    rw [← sum_blocks m n (fun j i => if pos m (ak ++ bk) j i = k then
      (if i ∈ bk then E (i + j * m) * mv i j else E (i + j * m)) else 0), ← Fin.sum_univ_eq_sum_range]
    apply Finset.sum_congr rfl
    intro l _
    have : (l : ℕ) % m + (l : ℕ) / m * m = l := Nat.mod_add_div' _ _
    rw [this]

/-- When a parameter is tied both ways the partial is wrong: for one parameter in two copies, tied with
offsets 0 and factors 1 and 3, the full parameters are `p` and `3 p`; where the partials of the chain are
1 and 1 the derivative is 4, but 5 is returned. -/
theorem C26_counterexample : ∃ d, (mk 1 2 [0] (fun _ _ => 0) [0] (fun _ j => 1 + 2 * j)).combine = some d ∧
    expandParameters d [7] = some [7, 21] ∧
    basePartial (mk 1 2 [0] (fun _ _ => 0) [0] (fun _ j => 1 + 2 * j)) d
      (fun _ => some [1, 1]) [7] = some [5] ∧
    (∑ j ∈ range 2, ∑ i ∈ range 1, if pos 1 [0, 0] j i = 0 then 1 * (1 + 2 * j) else 0) = 4 :=
  ⟨_, combine_eq 1 2 (by omega) [0] [0] _ _ (by simp) (by simp), by decide, by decide, by decide⟩

/-! Non-vacuity: two copies of a model of 3 parameters, of which 1 has an offset and 2 a factor. -/
example : (mk 3 2 [1] (fun _ j => 10 * j) [2] (fun _ j => 1 + j)).combine.bind
    (fun d => expandParameters d [1, 2, 3, 4]) = some [1, 2, 3, 4, 12, 6] := by
  rw [combine_eq 3 2 (by omega) [1] [2] _ _ (by simp) (by simp)]
  decide
example : ∀ i ∈ [1], i < 3 ∧ i ∉ [2] := by decide

end BF.Combi
