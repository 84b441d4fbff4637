import Verif.Dynamic
import Mathlib.Algebra.BigOperators.Intervals
import Mathlib.Algebra.BigOperators.Group.List.Lemmas
import Mathlib.Analysis.Calculus.Deriv.Add
import Mathlib.Analysis.Calculus.Deriv.Mul
import Mathlib.Analysis.Calculus.Deriv.Comp
import Mathlib.Analysis.Calculus.Deriv.Prod
import Mathlib.Tactic.Linarith
import Mathlib.Tactic.Ring

/-!
# Repeating models (C25)
-/

namespace BF.Dynamic

open BF.Arr Finset

variable {α : Type*}

/-! ## Specification -/

/-- The number of parameters before `i` that are not shared. -/
def rank (same : List ℕ) (i : ℕ) : ℕ := ((List.range i).filter fun k => k ∉ same).length

/-- The place of parameter `i` of the repeated model, in component `j`: the parameters of component 0
come first, behind those come the ones of the other components that are not shared. -/
def pos (m : ℕ) (same : List ℕ) (j i : ℕ) : ℕ :=
  if j = 0 ∨ i ∈ same then i else m + (j - 1) * rank same m + rank same i

/-- The number of parameters of a model of `n` components. -/
def size (m : ℕ) (same : List ℕ) (n : ℕ) : ℕ := m + (n - 1) * rank same m

/-- The parameters of component `j`. -/
def block (m : ℕ) (same : List ℕ) (p : ℕ → α) (j : ℕ) : List α :=
  (List.range m).map fun i => p (pos m same j i)

/-! ## Lemmas -/

theorem delta_eq (r : Rep α) : r.delta = rank r.same r.m := rfl

theorem index_rank (r : Rep α) (i : ℕ) (hi : i < r.m) (hs : i ∉ r.same) :
    r.index[rank r.same i]? = some i := by
  obtain ⟨c, hc⟩ : ∃ c, r.m = i + (1 + c) := ⟨r.m - i - 1, by omega⟩
  unfold Rep.index rank
  rw [hc, List.range_add, List.filter_append, List.getElem?_append_right (le_refl _)]
  rw [Nat.sub_self, Nat.add_comm 1 c, List.range_succ_eq_map]
  simp [hs]

theorem rank_lt (r : Rep α) (i : ℕ) (hi : i < r.m) (hs : i ∉ r.same) :
    rank r.same i < rank r.same r.m := by
  have := index_rank r i hi hs
  exact (List.getElem?_eq_some_iff.1 this).1

theorem index_nodup (r : Rep α) : r.index.Nodup := List.nodup_range.filter _

theorem mem_index (r : Rep α) (i : ℕ) : i ∈ r.index ↔ i < r.m ∧ i ∉ r.same := by
  simp [Rep.index]

theorem index_get (r : Rep α) (t i : ℕ) (h : r.index[t]? = some i) :
    t = rank r.same i ∧ i < r.m ∧ i ∉ r.same := by
  have hm := (mem_index r i).1 (List.mem_of_getElem? h)
  refine ⟨?_, hm⟩
  have h2 := index_rank r i hm.1 hm.2
  obtain ⟨h3, h4⟩ := List.getElem?_eq_some_iff.1 h
  obtain ⟨h5, h6⟩ := List.getElem?_eq_some_iff.1 h2
  exact ((index_nodup r).getElem_inj_iff).1 (h4.trans h6.symm)

theorem pos_lt (r : Rep α) (n j i : ℕ) (hi : i < r.m) (hj : j < n) :
    pos r.m r.same j i < size r.m r.same n := by
  unfold pos size
  split
  · exact lt_of_lt_of_le hi (Nat.le_add_right _ _)
  · rename_i h
    push Not at h
    have h1 := rank_lt r i hi h.2
    obtain ⟨c, rfl⟩ : ∃ c, j = c + 1 := ⟨j - 1, by omega⟩
    obtain ⟨e, rfl⟩ : ∃ e, n = e + 1 + 1 + c := ⟨n - 2 - c, by omega⟩
    have : (e + 1 + 1 + c - 1) * rank r.same r.m
        = c * rank r.same r.m + rank r.same r.m + e * rank r.same r.m := by
      have : e + 1 + 1 + c - 1 = c + 1 + e := by omega
      rw [this]; ring
    simp only [Nat.add_sub_cancel]
    omega

theorem pos_inj (r : Rep α) (j j' i i' : ℕ) (hi : i < r.m) (hi' : i' < r.m) (hs : i ∉ r.same)
    (hs' : i' ∉ r.same) (h : pos r.m r.same j i = pos r.m r.same j' i') : j = j' ∧ i = i' := by
  have h1 := rank_lt r i hi hs
  have h2 := rank_lt r i' hi' hs'
  have hr : rank r.same i = rank r.same i' → i = i' := by
    intro he
    have e1 := index_rank r i hi hs
    have e2 := index_rank r i' hi' hs'
    rw [he, e2] at e1
    exact (Option.some.inj e1).symm
  unfold pos at h
  simp only [hs, hs', or_false] at h
  split at h <;> split at h
  · exact ⟨by omega, h⟩
  · omega
  · omega
  · have h3 : (j - 1) * rank r.same r.m + rank r.same i
        = (j' - 1) * rank r.same r.m + rank r.same i' := by omega
    have e1 : j - 1 = j' - 1 := by
      have a := congrArg (· / rank r.same r.m) h3
      rw [Nat.mul_comm, Nat.mul_add_div (by omega), Nat.div_eq_of_lt h1, Nat.mul_comm,
        Nat.mul_add_div (by omega), Nat.div_eq_of_lt h2] at a
      omega
    rw [e1] at h3
    exact ⟨by omega, hr (by omega)⟩

theorem block_step (r : Rep α) (p : ℕ → α) (n j : ℕ) (hj : j + 1 < n) :
    scatter (block r.m r.same p j) r.index
      ((((List.range (size r.m r.same n)).map p).drop (r.m + j * r.delta)).take r.delta)
      = some (block r.m r.same p (j + 1)) := by
  set vals := (((List.range (size r.m r.same n)).map p).drop (r.m + j * r.delta)).take r.delta
  have hsz : r.m + j * r.delta + r.delta ≤ size r.m r.same n := by
    unfold size
    rw [delta_eq]
    obtain ⟨e, rfl⟩ : ∃ e, n = e + 1 + 1 + j := ⟨n - 2 - j, by omega⟩
    have : (e + 1 + 1 + j - 1) * rank r.same r.m
        = j * rank r.same r.m + rank r.same r.m + e * rank r.same r.m := by
      have : e + 1 + 1 + j - 1 = j + 1 + e := by omega
      rw [this]; ring
    omega
  have hv : ∀ t, t < r.delta → vals[t]? = some (p (r.m + j * r.delta + t)) := by
    intro t ht
    simp only [vals]
    rw [List.getElem?_take_of_lt ht, List.getElem?_drop, List.getElem?_map,
      List.getElem?_range (by omega)]
    rfl
  have hvl : vals.length = r.index.length := by
    show vals.length = r.delta
    simp only [vals, List.length_take, List.length_drop, List.length_map, List.length_range]
    omega
  obtain ⟨b, h1, h2, h3, h4⟩ := scatter_spec (block r.m r.same p j) r.index vals hvl
    (by intro i hi; simpa [block] using ((mem_index r i).1 hi).1) (index_nodup r)
  rw [h1]
  congr 1
  apply List.ext_getElem?
  intro i
  by_cases hi : i < r.m
  · by_cases hs : i ∈ r.same
    · rw [h4 i (by simp [mem_index, hs])]
      simp [block, pos, hs, hi]
    · have hr := index_rank r i hi hs
      rw [h3 _ i hr, hv _ (rank_lt r i hi hs)]
      simp [block, pos, hs, hi, delta_eq]
  · rw [List.getElem?_eq_none (by rw [h2]; simpa [block] using hi),
      List.getElem?_eq_none (by simpa [block] using hi)]

theorem repLoop_eq [AddCommMonoid α] (r : Rep α) (p : ℕ → α) (N : ℕ) :
    ∀ (n j : ℕ) (acc : α), j + n < N →
    repLoop r ((List.range (size r.m r.same N)).map p) n (r.m + j * r.delta)
      (block r.m r.same p j) acc
      = some (acc + ∑ k ∈ range (n + 1), r.f (block r.m r.same p (j + k))) := by
  intro n
  induction n with
  | zero => intro j acc h; simp [repLoop]
  | succ n ih =>
    intro j acc h
    simp only [repLoop]
    rw [block_step r p N j (by omega)]
    have := ih (j + 1) (acc + r.f (block r.m r.same p j)) (by omega)
    have e : r.m + (j + 1) * r.delta = r.m + j * r.delta + r.delta := by ring
    rw [e] at this
    simp only [this]
    rw [sum_range_succ' _ (n + 1), add_assoc, add_comm (r.f _)]
    congr 3
    apply sum_congr rfl
    intro k _
    congr 2
    omega

theorem block_zero (r : Rep α) (p : ℕ → α) (n : ℕ) :
    ((List.range (size r.m r.same n)).map p).take r.m = block r.m r.same p 0 := by
  rw [← List.map_take, List.take_range, min_eq_left (show r.m ≤ size r.m r.same n from Nat.le_add_right _ _)]
  simp [block, pos]

/-! ## The properties -/

/-- A repeating model returns the sum of the repeated model over its components, each with its own
parameters and the shared ones of the first. -/
theorem C25_result [AddCommMonoid α] (r : Rep α) (p : ℕ → α) :
    r.baseResult ((List.range (size r.m r.same r.ncomp)).map p)
      = some (∑ j ∈ range r.ncomp, r.f (block r.m r.same p j)) := by
  unfold Rep.baseResult
  cases hn : r.ncomp with
  | zero => simp
  | succ n =>
    simp only
    rw [block_zero]
    have := repLoop_eq r p (n + 1) n 0 0 (by omega)
    simp only [Nat.zero_mul, Nat.add_zero, zero_add] at this
    exact this

/-- `par2model` is the inverse of the layout. -/
theorem C25_par2model (r : Rep α) (j i : ℕ) (hi : i < r.m) (hs : i ∈ r.same → j = 0) :
    r.par2model (pos r.m r.same j i) = some (i, j) := by
  unfold pos Rep.par2model
  by_cases h : j = 0
  · simp [h, not_le.2 hi]
  · have hs' : i ∉ r.same := fun hc => h (hs hc)
    have h1 := rank_lt r i hi hs'
    obtain ⟨c, rfl⟩ : ∃ c, j = c + 1 := ⟨j - 1, by omega⟩
    simp only [h, hs', or_self, if_false, Nat.add_sub_cancel]
    rw [if_pos (by omega), if_neg (by rw [delta_eq]; omega)]
    have e : r.m + c * rank r.same r.m + rank r.same i - r.m
        = rank r.same r.m * c + rank r.same i := by rw [Nat.mul_comm]; omega
    rw [e, delta_eq, Nat.mul_add_mod, Nat.mod_eq_of_lt h1, index_rank r i hi hs',
      Nat.mul_add_div (by omega), Nat.div_eq_of_lt h1]
    simp
    omega

/-! ### Shuffling -/

/-- Component number at place `c` in the list that `shuffle` permutes. -/
def sidx (n c : ℕ) : ℕ := if c + 1 = n then 0 else c + 1

theorem sidx_lt (n c : ℕ) (h : c < n) : sidx n c < n := by unfold sidx; split <;> omega

theorem shuffle_step (r : Rep α) (n offset : ℕ) (hn : 2 ≤ n) (per : List ℕ)
    (hper : per.Perm (List.range n)) (t i : ℕ) (hi : i < r.m) (hs : i ∉ r.same)
    (ht : t = rank r.same i) (param : List α)
    (hlen : offset + size r.m r.same n ≤ param.length) :
    ∃ dst vals p', gather (((List.range n).map fun j => j * r.delta + (r.m + offset)).dropLast.map
        (· + t) ++ [offset + i]) per = some dst ∧
      gather param (((List.range n).map fun j => j * r.delta + (r.m + offset)).dropLast.map
        (· + t) ++ [offset + i]) = some vals ∧
      scatter param dst vals = some p' ∧ p'.length = param.length ∧
      (∀ (c d : ℕ), per[c]? = some d → p'[offset + pos r.m r.same (sidx n d) i]?
        = param[offset + pos r.m r.same (sidx n c) i]?) ∧
      (∀ k, (∀ j < n, k ≠ offset + pos r.m r.same j i) → p'[k]? = param[k]?) := by
  set src := ((List.range n).map fun j => j * r.delta + (r.m + offset)).dropLast.map (· + t)
    ++ [offset + i] with hsrc
  have hpl : per.length = n := by simpa using hper.length_eq
  have hmem : ∀ d ∈ per, d < n := fun d hd => by simpa using hper.mem_iff.1 hd
  have hsl : src.length = n := by simp [hsrc]; omega
  have hs1 : ∀ c, c < n → src[c]? = some (offset + pos r.m r.same (sidx n c) i) := by
    intro c hc
    by_cases hcn : c + 1 = n
    · rw [hsrc, List.getElem?_append_right (by simp; omega)]
      have : c - (((List.range n).map fun j => j * r.delta + (r.m + offset)).dropLast.map
        (· + t)).length = 0 := by simp; omega
      rw [this]
      simp [sidx, hcn, pos]
    · rw [hsrc, List.getElem?_append_left (by simp; omega)]
      simp only [List.getElem?_map, sidx, if_neg hcn, pos, hs, Nat.add_one_ne_zero, or_self,
        if_false, Nat.add_sub_cancel, ht, delta_eq]
      rw [List.getElem?_dropLast, if_pos (by simp; omega), List.getElem?_map,
        List.getElem?_range hc]
      simp
      omega
  have hpp : ∀ j, j < n → offset + pos r.m r.same j i < param.length := fun j hj => by
    have := pos_lt r n j i hi hj
    omega
  obtain ⟨dst, g1, g2, g3⟩ := gather_spec src per (fun d hd => by rw [hsl]; exact hmem d hd)
  obtain ⟨vals, v1, v2, v3⟩ := gather_spec param src (fun s hss => by
    obtain ⟨c, hc⟩ := List.mem_iff_getElem?.1 hss
    have hcn : c < n := by rw [← hsl]; exact (List.getElem?_eq_some_iff.1 hc).1
    rw [hs1 c hcn] at hc
    rw [← Option.some.inj hc]
    exact hpp _ (sidx_lt n c hcn))
  have hdst : ∀ (c d : ℕ), per[c]? = some d →
      dst[c]? = some (offset + pos r.m r.same (sidx n d) i) := by
    intro c d hcd
    rw [g3 c d hcd, hs1 d (hmem d (List.mem_of_getElem? hcd))]
  have hdm : ∀ k ∈ dst, ∃ (c d : ℕ), per[c]? = some d ∧ dst[c]? = some k ∧
      k = offset + pos r.m r.same (sidx n d) i := by
    intro k hk
    obtain ⟨c, hc⟩ := List.mem_iff_getElem?.1 hk
    have hcl : c < per.length := by rw [← g2]; exact (List.getElem?_eq_some_iff.1 hc).1
    refine ⟨c, per[c], List.getElem?_eq_getElem hcl, hc, ?_⟩
    have := hdst c per[c] (List.getElem?_eq_getElem hcl)
    rw [hc] at this
    exact Option.some.inj this
  have hnd : dst.Nodup := by
    rw [List.nodup_iff_injective_get]
    intro a b hab
    have ha : a.1 < per.length := by rw [← g2]; exact a.2
    have hb : b.1 < per.length := by rw [← g2]; exact b.2
    have e1 := hdst a.1 per[a.1] (List.getElem?_eq_getElem ha)
    have e2 := hdst b.1 per[b.1] (List.getElem?_eq_getElem hb)
    rw [List.getElem?_eq_getElem a.2] at e1
    rw [List.getElem?_eq_getElem b.2] at e2
    have hab' : dst[a.1] = dst[b.1] := hab
    have e3 : offset + pos r.m r.same (sidx n per[a.1]) i
        = offset + pos r.m r.same (sidx n per[b.1]) i := by
      rw [← Option.some.inj e1, ← Option.some.inj e2, hab']
    have e4 := (pos_inj r _ _ i i hi hi hs hs (Nat.add_left_cancel e3)).1
    have e5 : per[a.1] = per[b.1] := by
      have q1 := hmem _ (List.getElem_mem ha)
      have q2 := hmem _ (List.getElem_mem hb)
      unfold sidx at e4
      split at e4 <;> split at e4 <;> omega
    have hpn : per.Nodup := hper.nodup_iff.2 List.nodup_range
    exact Fin.ext ((hpn.getElem_inj_iff).1 e5)
  obtain ⟨p', s1, s2, s3, s4⟩ := scatter_spec param dst vals (by rw [v2, g2, hsl, hpl])
    (fun k hk => by
      obtain ⟨c, d, h1, h2, rfl⟩ := hdm k hk
      exact hpp _ (sidx_lt n d (hmem d (List.mem_of_getElem? h1)))) hnd
  refine ⟨dst, vals, p', g1, v1, s1, s2, ?_, ?_⟩
  · intro c d hcd
    have hc : c < n := by rw [← hpl]; exact (List.getElem?_eq_some_iff.1 hcd).1
    rw [s3 c _ (hdst c d hcd), v3 c _ (hs1 c hc)]
  · intro k hk
    apply s4
    intro hkd
    obtain ⟨c, d, h1, h2, h3⟩ := hdm k hkd
    exact hk _ (sidx_lt n d (hmem d (List.mem_of_getElem? h1))) h3

theorem shuffleLoop_eq (r : Rep α) (n offset : ℕ) (hn : 2 ≤ n) (per : List ℕ)
    (hper : per.Perm (List.range n)) :
    ∀ (is : List ℕ) (t : ℕ) (param : List α), r.index.drop t = is →
    offset + size r.m r.same n ≤ param.length →
    ∃ p', shuffleLoop ((List.range n).map fun j => j * r.delta + (r.m + offset)) per offset is t
        param = some p' ∧ p'.length = param.length ∧
      (∀ i ∈ is, ∀ (c d : ℕ), per[c]? = some d → p'[offset + pos r.m r.same (sidx n d) i]?
        = param[offset + pos r.m r.same (sidx n c) i]?) ∧
      (∀ k, (∀ i ∈ is, ∀ j < n, k ≠ offset + pos r.m r.same j i) → p'[k]? = param[k]?) := by
  intro is
  induction is with
  | nil => intro t param h hl; exact ⟨param, rfl, rfl, by simp, by simp⟩
  | cons i is ih =>
    intro t param h hl
    have hit : r.index[t]? = some i := by
      have := congrArg (·[0]?) h
      simpa using this
    obtain ⟨ht, hi, hs⟩ := index_get r t i hit
    have hdrop : r.index.drop (t + 1) = is := by
      rw [← List.drop_drop, h]; rfl
    have hnd : (i :: is).Nodup := by rw [← h]; exact (index_nodup r).sublist (List.drop_sublist _ _)
    have hmem : ∀ i' ∈ is, i' < r.m ∧ i' ∉ r.same := fun i' hi' =>
      (mem_index r i').1 (List.mem_of_mem_drop (hdrop ▸ hi'))
    obtain ⟨dst, vals, p1, g1, g2, g3, g4, g5, g6⟩ :=
      shuffle_step r n offset hn per hper t i hi hs ht param hl
    obtain ⟨p', h1, h2, h3, h4⟩ := ih (t + 1) p1 hdrop (by omega)
    have hpm : ∀ (c d : ℕ), per[c]? = some d → c < n ∧ d < n := by
      intro c d hcd
      refine ⟨?_, by simpa using hper.mem_iff.1 (List.mem_of_getElem? hcd)⟩
      have hpl : per.length = n := by simpa using hper.length_eq
      rw [← hpl]
      exact (List.getElem?_eq_some_iff.1 hcd).1
    refine ⟨p', by simp only [shuffleLoop, g1, g2, g3]; exact h1, by omega, ?_, ?_⟩
    · intro i' hi' c d hcd
      rcases List.mem_cons.1 hi' with rfl | hi'
      · rw [h4, g5 c d hcd]
        intro i'' hi'' j hj he
        have := (pos_inj r _ _ _ _ hi (hmem i'' hi'').1 hs (hmem i'' hi'').2
          (Nat.add_left_cancel he)).2
        exact (List.nodup_cons.1 hnd).1 (this ▸ hi'')
      · rw [h3 i' hi' c d hcd, g6]
        intro j hj he
        have := (pos_inj r _ _ _ _ (hmem i' hi').1 hi (hmem i' hi').2 hs
          (Nat.add_left_cancel he)).2
        exact (List.nodup_cons.1 hnd).1 (this ▸ hi')
    · intro k hk
      rw [h4 k (fun i' hi' => hk i' (by simp [hi'])), g6 k (hk i (by simp))]

/-- Shuffling a repeating model that stands anywhere in a chain permutes its components as a whole,
whatever the random permutation, and leaves the parameters of all other models in place. -/
theorem C25_shuffle (r : Rep α) (p : ℕ → α) (pre post : List α) (per : List ℕ)
    (hper : per.Perm (List.range r.ncomp)) :
    ∃ p' : ℕ → α,
      r.shuffle (pre ++ (List.range (size r.m r.same r.ncomp)).map p ++ post) pre.length per
        = some (pre ++ (List.range (size r.m r.same r.ncomp)).map p' ++ post) ∧
      ((List.range r.ncomp).map (block r.m r.same p')).Perm
        ((List.range r.ncomp).map (block r.m r.same p)) := by
  unfold Rep.shuffle
  by_cases hn : r.ncomp ≤ 1
  · exact ⟨p, by simp [hn], List.Perm.refl _⟩
  simp only [hn, if_false]
  set n := r.ncomp with hnd
  set N := size r.m r.same n with hN
  set param := pre ++ (List.range N).map p ++ post with hparam
  obtain ⟨q, h1, h2, h3, h4⟩ := shuffleLoop_eq r n pre.length (by omega) per hper r.index 0 param
    (by simp) (by simp [hparam]; omega)
  have hidx : ∀ i ∈ r.index, i < r.m ∧ i ∉ r.same := fun i hi => (mem_index r i).1 hi
  have hq : ∀ k, (k < pre.length ∨ pre.length + N ≤ k) → q[k]? = param[k]? := by
    intro k hk
    apply h4
    intro i hi j hj he
    have := pos_lt r n j i (hidx i hi).1 hj
    omega
  have hget : ∀ k, k < N → param[pre.length + k]? = some (p k) := by
    intro k hk
    rw [hparam, List.append_assoc, List.getElem?_append_right (by omega),
      List.getElem?_append_left (by simp; omega)]
    simp [hk]
  refine ⟨fun k => (q[pre.length + k]?).getD (p k), ?_, ?_⟩
  · rw [h1]
    congr 1
    apply List.ext_getElem?
    intro k
    by_cases hk1 : k < pre.length
    · rw [hq k (Or.inl hk1), hparam, List.append_assoc, List.append_assoc,
        List.getElem?_append_left hk1, List.getElem?_append_left hk1]
    · by_cases hk2 : pre.length + N ≤ k
      · rw [hq k (Or.inr hk2), hparam, List.getElem?_append_right (by simp; omega),
          List.getElem?_append_right (by simp; omega)]
        simp
      · obtain ⟨c, rfl⟩ : ∃ c, k = pre.length + c := ⟨k - pre.length, by omega⟩
        have hc : c < N := by omega
        have hlt : pre.length + c < q.length := by
          rw [h2]; simp [hparam]; omega
        rw [List.append_assoc, List.getElem?_append_right (by omega),
          List.getElem?_append_left (by simp; omega)]
        simp [hc, List.getElem?_eq_getElem hlt]
  · set p' : ℕ → α := fun k => (q[pre.length + k]?).getD (p k) with hp'
    have hpl : per.length = n := by simpa using hper.length_eq
    -- block by block
    have hb : ∀ (c d : ℕ), per[c]? = some d →
        block r.m r.same p' (sidx n d) = block r.m r.same p (sidx n c) := by
      intro c d hcd
      have hc : c < n := by rw [← hpl]; exact (List.getElem?_eq_some_iff.1 hcd).1
      unfold block
      apply List.map_congr_left
      intro i hi
      have hi : i < r.m := by simpa using hi
      simp only [hp']
      by_cases hs : i ∈ r.same
      · simp only [pos, hs, or_true, if_true]
        rw [h4, hget i (lt_of_lt_of_le hi (Nat.le_add_right _ _))]
        · rfl
        · intro i' hi' j hj he
          have hii : i = pos r.m r.same j i' := Nat.add_left_cancel he
          unfold pos at hii
          split at hii
          · exact (hidx i' hi').2 (hii ▸ hs)
          · omega
      · rw [h3 i ((mem_index r i).2 ⟨hi, hs⟩) c d hcd,
          hget _ (pos_lt r n _ i hi (sidx_lt n c hc))]
        rfl
    have hsp : ((List.range n).map (sidx n)).Perm (List.range n) := by
      obtain ⟨e, he⟩ : ∃ e, n = e + 1 := ⟨n - 1, by omega⟩
      rw [he]
      conv_lhs => rw [List.range_succ]
      rw [List.map_append, List.range_succ_eq_map]
      have : (List.range e).map (sidx (e + 1)) = (List.range e).map Nat.succ := by
        apply List.map_congr_left
        intro c hc
        have : c < e := by simpa using hc
        simp [sidx]; omega
      rw [this]
      simp only [sidx, List.map_cons, List.map_nil, if_true]
      exact List.perm_append_singleton _ _
    have e1 : (per.map (sidx n)).Perm (List.range n) := (hper.map _).trans hsp
    refine ((e1.map (block r.m r.same p')).symm).trans ?_
    have e2 : (per.map (sidx n)).map (block r.m r.same p')
        = ((List.range n).map (sidx n)).map (block r.m r.same p) := by
      apply List.ext_getElem?
      intro c
      by_cases hc : c < n
      · have hcp : c < per.length := by omega
        have := hb c per[c] (List.getElem?_eq_getElem hcp)
        simp [hc, List.getElem?_eq_getElem hcp, this]
      · simp [hc, List.getElem?_eq_none (show per.length ≤ c by omega)]
    rw [e2]
    exact hsp.map _

/-- So the result of the model stays the same. -/
theorem C25_shuffle_result [AddCommMonoid α] (r : Rep α) (p : ℕ → α) (pre post : List α)
    (per : List ℕ) (hper : per.Perm (List.range r.ncomp)) :
    ∃ own' : List α,
      r.shuffle (pre ++ (List.range (size r.m r.same r.ncomp)).map p ++ post) pre.length per
        = some (pre ++ own' ++ post) ∧
      r.baseResult own' = r.baseResult ((List.range (size r.m r.same r.ncomp)).map p) := by
  obtain ⟨p', h1, h2⟩ := C25_shuffle r p pre post per hper
  refine ⟨_, h1, ?_⟩
  rw [C25_result, C25_result]
  congr 1
  have := (h2.map r.f).sum_eq
  simp only [List.map_map] at this
  rw [← List.sum_toFinset _ List.nodup_range, ← List.sum_toFinset _ List.nodup_range] at this
  simpa [List.toFinset_range] using this

/-! ### Partial derivatives -/

/-- The place where the partial derivatives of component `j` go. -/
def places (m : ℕ) (same : List ℕ) (j : ℕ) : List ℕ := (List.range m).map (pos m same j)

theorem places_step (r : Rep α) (j : ℕ) :
    scatter (places r.m r.same j) r.index ((List.range r.delta).map (r.m + j * r.delta + ·))
      = some (places r.m r.same (j + 1)) := by
  obtain ⟨b, h1, h2, h3, h4⟩ := scatter_spec (places r.m r.same j) r.index
    ((List.range r.delta).map (r.m + j * r.delta + ·)) (by simp [Rep.delta])
    (by intro i hi; simpa [places] using ((mem_index r i).1 hi).1) (index_nodup r)
  rw [h1]
  congr 1
  apply List.ext_getElem?
  intro i
  by_cases hi : i < r.m
  · by_cases hs : i ∈ r.same
    · rw [h4 i (by simp [mem_index, hs])]
      simp [places, pos, hs, hi]
    · have hr := index_rank r i hi hs
      have := rank_lt r i hi hs
      rw [h3 _ i hr]
      simp [places, pos, hs, hi, delta_eq, this]
  · rw [List.getElem?_eq_none (by rw [h2]; simpa [places] using hi),
      List.getElem?_eq_none (by simpa [places] using hi)]

theorem places_nodup (r : Rep α) (j : ℕ) : (places r.m r.same j).Nodup := by
  unfold places
  apply List.Nodup.map_on _ List.nodup_range
  intro i hi i' hi' h
  have hi : i < r.m := by simpa using hi
  have hi' : i' < r.m := by simpa using hi'
  by_cases hs : i ∈ r.same <;> by_cases hs' : i' ∈ r.same
  · simpa [pos, hs, hs'] using h
  · unfold pos at h
    simp only [hs, hs', or_true, or_false, if_true] at h
    split at h
    · exact h
    · omega
  · unfold pos at h
    simp only [hs, hs', or_true, or_false, if_true] at h
    split at h
    · exact h
    · omega
  · exact (pos_inj r j j i i' hi hi' hs hs' h).2

theorem addAt_eq [AddCommMonoid α] (r : Rep α) (n j : ℕ) (hj : j < n) (q : ℕ → α) (G : ℕ → α) :
    addAt ((List.range (size r.m r.same n)).map q) (places r.m r.same j) ((List.range r.m).map G)
      = some ((List.range (size r.m r.same n)).map fun k =>
          q k + ∑ i ∈ range r.m, if pos r.m r.same j i = k then G i else 0) := by
  have hlt : ∀ k ∈ places r.m r.same j, k < ((List.range (size r.m r.same n)).map q).length := by
    intro k hk
    simp only [places, List.mem_map, List.mem_range] at hk
    obtain ⟨i, hi, rfl⟩ := hk
    simpa using pos_lt r n j i hi hj
  obtain ⟨vs, g1, g2, g3⟩ := gather_spec ((List.range (size r.m r.same n)).map q)
    (places r.m r.same j) hlt
  have hpl : ∀ i, i < r.m → (places r.m r.same j)[i]? = some (pos r.m r.same j i) := by
    intro i hi; simp [places, hi]
  have hvs : vs = (List.range r.m).map fun i => q (pos r.m r.same j i) := by
    apply List.ext_getElem?
    intro i
    by_cases hi : i < r.m
    · rw [g3 i _ (hpl i hi)]
      simp [hi, pos_lt r n j i hi hj]
    · rw [List.getElem?_eq_none (by rw [g2]; simpa [places] using hi),
        List.getElem?_eq_none (by simpa using hi)]
  have hz : List.zipWith (· + ·) vs ((List.range r.m).map G)
      = (List.range r.m).map fun i => q (pos r.m r.same j i) + G i := by
    rw [hvs, List.zipWith_map, List.zipWith_self]
  obtain ⟨b, s1, s2, s3, s4⟩ := scatter_spec ((List.range (size r.m r.same n)).map q)
    (places r.m r.same j) ((List.range r.m).map fun i => q (pos r.m r.same j i) + G i)
    (by simp [places]) hlt (places_nodup r j)
  simp only [addAt, g1, hz, s1]
  congr 1
  apply List.ext_getElem?
  intro k
  by_cases hk : k < size r.m r.same n
  · by_cases hkp : ∃ i, i < r.m ∧ pos r.m r.same j i = k
    · obtain ⟨i, hi, rfl⟩ := hkp
      rw [s3 i _ (hpl i hi)]
      have hsum : (∑ i' ∈ range r.m, if pos r.m r.same j i' = pos r.m r.same j i then G i' else 0)
          = G i := by
        rw [sum_eq_single i]
        · simp
        · intro b hb hbi
          rw [if_neg]
          intro he
          have hnd := places_nodup r j
          rw [places] at hnd
          exact hbi (List.inj_on_of_nodup_map hnd (by simpa using hb) (by simpa using hi) he)
        · intro h; exact absurd (by simpa using hi) h
      simp [hi, hk, hsum]
    · push Not at hkp
      rw [s4 k (by
        simp only [places, List.mem_map, List.mem_range, not_exists, not_and]
        exact hkp)]
      have hsum : (∑ i ∈ range r.m, if pos r.m r.same j i = k then G i else 0) = 0 := by
        apply sum_eq_zero
        intro i hi
        rw [if_neg (hkp i (by simpa using hi))]
      simp [hk, hsum]
  · rw [List.getElem?_eq_none (by rw [s2]; simpa using hk),
      List.getElem?_eq_none (by simpa using hk)]

theorem repPartialLoop_eq [AddCommMonoid α] (r : Rep α) (G : List α → ℕ → α) (p : ℕ → α) (N : ℕ) :
    ∀ (n j : ℕ) (q : ℕ → α), j + n < N →
    repPartialLoop r (fun l => (List.range r.m).map (G l))
      ((List.range (size r.m r.same N)).map p) n (r.m + j * r.delta)
      (block r.m r.same p j) (places r.m r.same j) ((List.range (size r.m r.same N)).map q)
      = some ((List.range (size r.m r.same N)).map fun k => q k + ∑ c ∈ range (n + 1),
          ∑ i ∈ range r.m, if pos r.m r.same (j + c) i = k
            then G (block r.m r.same p (j + c)) i else 0) := by
  intro n
  induction n with
  | zero =>
    intro j q h
    simp only [repPartialLoop]
    rw [addAt_eq r N j (by omega)]
    simp
  | succ n ih =>
    intro j q h
    simp only [repPartialLoop]
    rw [addAt_eq r N j (by omega), places_step, block_step r p N j (by omega)]
    have := ih (j + 1) (fun k => q k + ∑ i ∈ range r.m, if pos r.m r.same j i = k
      then G (block r.m r.same p j) i else 0) (by omega)
    have e : r.m + (j + 1) * r.delta = r.m + j * r.delta + r.delta := by ring
    rw [e] at this
    simp only [this]
    congr 1
    apply List.map_congr_left
    intro k _
    rw [sum_range_succ' _ (n + 1), add_assoc, add_comm (∑ i ∈ range r.m, _)]
    congr 1
    simp only [Nat.add_zero]
    congr 1
    apply sum_congr rfl
    intro c _
    have : j + 1 + c = j + (c + 1) := by omega
    rw [this]

/-- The `k`-th partial derivative of a repeating model is the sum of the partial derivatives of the
components to that parameter. -/
theorem C25_basePartial [AddCommMonoid α] (r : Rep α) (G : List α → ℕ → α) (p : ℕ → α) :
    r.basePartial (fun l => (List.range r.m).map (G l)) (size r.m r.same r.ncomp)
      ((List.range (size r.m r.same r.ncomp)).map p)
      = some ((List.range (size r.m r.same r.ncomp)).map fun k => ∑ j ∈ range r.ncomp,
          ∑ i ∈ range r.m, if pos r.m r.same j i = k then G (block r.m r.same p j) i else 0) := by
  unfold Rep.basePartial
  cases hn : r.ncomp with
  | zero =>
    simp only [Finset.range_zero, sum_empty, Option.some.injEq]
    exact (List.eq_replicate_iff.2 ⟨by simp, by simp⟩).symm
  | succ n =>
    simp only
    rw [block_zero]
    have := repPartialLoop_eq r G p (n + 1) n 0 (fun _ => 0) (by omega)
    have e1 : (List.range (size r.m r.same (n + 1))).map (fun _ => (0 : α))
        = List.replicate (size r.m r.same (n + 1)) 0 := List.eq_replicate_iff.2 ⟨by simp, by simp⟩
    have e2 : places r.m r.same 0 = List.range r.m := by
      conv_rhs => rw [← List.map_id (List.range r.m)]
      exact List.map_congr_left fun i _ => by simp [pos]
    rw [e1, e2] at this
    simp only [Nat.zero_mul, Nat.add_zero, zero_add] at this
    exact this

/-- When the repeated model returns its true gradient at the parameters of every component then the
`k`-th partial that the repeating model returns is the derivative of its result to its `k`-th
parameter. -/
theorem C25_partial_true (r : Rep ℝ) (G : List ℝ → ℕ → ℝ) (p : ℕ → ℝ)
    (hG : ∀ j < r.ncomp, HasFDerivAt (fun q : Fin r.m → ℝ => r.f (List.ofFn q))
      (∑ i : Fin r.m, G (block r.m r.same p j) i • ContinuousLinearMap.proj (R := ℝ) i)
      (fun i => p (pos r.m r.same j i)))
    (k : ℕ) (hk : k < size r.m r.same r.ncomp) :
    ∃ d value, (r.basePartial (fun l => (List.range r.m).map (G l)) (size r.m r.same r.ncomp)
        ((List.range (size r.m r.same r.ncomp)).map p)).bind (·[k]?) = some d ∧
      (∀ t, r.baseResult (((List.range (size r.m r.same r.ncomp)).map p).set k t)
        = some (value t)) ∧
      HasDerivAt value d (p k) := by
  rw [C25_basePartial]
  refine ⟨_, fun t => ∑ j ∈ range r.ncomp, r.f (block r.m r.same (Function.update p k t) j),
    by simp [hk]; rfl, ?_, ?_⟩
  · intro t
    have : ((List.range (size r.m r.same r.ncomp)).map p).set k t
        = (List.range (size r.m r.same r.ncomp)).map (Function.update p k t) := by
      apply List.ext_getElem?
      intro i
      by_cases hi : i < size r.m r.same r.ncomp
      · by_cases hik : k = i
        · subst hik; simp [hk]
        · rw [List.getElem?_set_ne hik]
          simp [hi, Function.update_of_ne (Ne.symm hik)]
      · rw [List.getElem?_eq_none (by simpa using hi), List.getElem?_eq_none (by simpa using hi)]
    rw [this, C25_result]
  · apply HasDerivAt.fun_sum
    intro j hj
    have hj : j < r.ncomp := by simpa using hj
    have hblock : ∀ q : ℕ → ℝ, block r.m r.same q j
        = List.ofFn fun i : Fin r.m => q (pos r.m r.same j i) := by
      intro q
      apply List.ext_getElem
      · simp [block]
      · intro i h1 h2; simp [block]
    simp only [hblock (Function.update p k _)]
    have hc : HasDerivAt (fun t => fun i : Fin r.m => Function.update p k t (pos r.m r.same j i))
        (fun i : Fin r.m => if pos r.m r.same j i = k then (1 : ℝ) else 0) (p k) := by
      rw [hasDerivAt_pi]
      intro i
      by_cases hi : pos r.m r.same j i = k
      · simp only [hi, Function.update_self, if_true]
        exact hasDerivAt_id _
      · simp only [Function.update_of_ne hi, if_neg hi]
        exact hasDerivAt_const _ _
    have h0 := hG j hj
    have e : (fun i : Fin r.m => p (pos r.m r.same j i))
        = (fun t => fun i : Fin r.m => Function.update p k t (pos r.m r.same j i)) (p k) := by
      funext i
      simp
    rw [e] at h0
    refine (h0.comp_hasDerivAt (p k) hc).congr_deriv ?_
    rw [Finset.sum_range]
    simp

/-! Non-vacuity: the sum of two lines through a common point, `b x + a` with `a` shared. -/
example : size 2 [0] 3 = 4 := by decide
example : (⟨3, 2, [0], fun l => l.sum⟩ : Rep ℕ).baseResult [1, 10, 20, 30] = some 63 := by decide
example : (⟨3, 2, [0], fun l => l.sum⟩ : Rep ℕ).shuffle [7, 1, 10, 20, 30, 8] 1 [2, 0, 1]
    = some [7, 1, 20, 30, 10, 8] := by decide
example : (⟨2, 2, [0], fun l => l.sum⟩ : Rep ℕ).basePartial (fun l => l) 3 [1, 10, 20]
    = some [2, 10, 20] := by decide

end BF.Dynamic
