import Verif.RepPriors
import Verif.Props.Repeating
import Verif.Props.Combi

/-!
# C130: priors of repeated and combined models

The layout of the parameters is that of C25: parameter `i` of component `j` is number `pos m same j i`.
-/

namespace BF.RepPriors

open BF.Routing BF.Dynamic BF.Combi

variable {α ν : Type}

/-! ## Repeating models -/

/-- In every component each parameter has the prior that the repeated model has for it. -/
theorem C130_repeating (r : Repeat α ν) (j i : ℕ) (hi : i < r.leaf.np) :
    r.getPrior (pos r.leaf.np r.same j i) = r.leaf.basePrior i := by
  by_cases hs : i ∈ r.same
  · have h := C25_par2model r.rep 0 i hi (fun _ => rfl)
    have e : pos r.leaf.np r.same j i = pos r.rep.m r.rep.same 0 i := by simp [pos, hs, Repeat.rep]
    rw [Repeat.getPrior, e, h]
    rfl
  · have h := C25_par2model r.rep j i hi (fun h => absurd h hs)
    have e : pos r.leaf.np r.same j i = pos r.rep.m r.rep.same j i := rfl
    rw [Repeat.getPrior, e, h]
    rfl

theorem setPrior_basePrior (deflt : α) (l l' : Leaf α ν) (k : ℕ) (prior : Option α) (att : α → Option α)
    (h : l.setPrior deflt k prior att = some l') :
    ∃ p, ((l.chosen deflt k prior).bind att) = some p ∧ l'.basePrior k = some p ∧ l'.np = l.np ∧
      ∀ i, i < l.priors.length → i ≠ k → l'.basePrior i = l.basePrior i := by
  unfold Leaf.setPrior at h
  split at h
  · simp at h
  · rename_i hk
    rw [← Option.bind_assoc] at h
    obtain ⟨p, hp, h⟩ := Option.bind_eq_some_iff.1 h
    refine ⟨p, hp, ?_⟩
    split at h
    · rename_i hk2
      simp only [Option.some.injEq] at h
      subst h
      refine ⟨?_, rfl, fun i hi hne => ?_⟩
      · simp [Leaf.basePrior, hk2]
      · simp only [Leaf.basePrior, List.length_append, List.length_singleton]
        rw [if_neg (by omega), if_pos (by omega), if_neg (by omega), if_pos hi, List.getElem?_append_left hi]
    · rename_i hk2
      simp only [Option.some.injEq] at h
      subst h
      refine ⟨?_, rfl, fun i hi hne => ?_⟩
      · simp only [Leaf.basePrior, List.length_set]
        rw [if_neg (by omega), if_pos (by omega), List.getElem?_set_self (by omega)]
      · simp only [Leaf.basePrior, List.length_set]
        rw [if_neg (by omega), if_pos (by omega), if_neg (by omega), if_pos hi, List.getElem?_set_ne (by omega)]

/-- A prior set for one parameter of the repeated model is found at that parameter in every component; parameters
which had one of their own keep it. -/
theorem C130_repeating_set (deflt : α) (r r' : Repeat α ν) (i : ℕ) (prior : Option α) (att : α → Option α)
    (h : r.setPrior deflt i prior att = some r') :
    ∃ p, (r.leaf.chosen deflt i prior).bind att = some p ∧
      (∀ j, r'.getPrior (pos r'.leaf.np r'.same j i) = some p) ∧
      ∀ j i', i' < r.leaf.np → i' < r.leaf.priors.length → i' ≠ i →
        r'.getPrior (pos r'.leaf.np r'.same j i') = r.getPrior (pos r.leaf.np r.same j i') := by
  unfold Repeat.setPrior at h
  split at h
  · rename_i hi
    obtain ⟨l, hl, h⟩ := Option.map_eq_some_iff.1 h
    obtain ⟨p, hp, h1, h2, h3⟩ := setPrior_basePrior deflt r.leaf l i prior att hl
    have e : r'.leaf = l := by rw [← h]; split <;> rfl
    refine ⟨p, hp, fun j => ?_, fun j i' hi' hi'' hne => ?_⟩
    · rw [C130_repeating r' j i (by rw [e, h2]; exact hi), e, h1]
    · rw [C130_repeating r' j i' (by rw [e, h2]; exact hi'), C130_repeating r j i' hi', e, h3 i' hi'' hne]
  · simp at h

/-- All at once: right for one component, when the repeating model was made after the priors were set. Missing: more
components, and priors set afterwards, see the counterexamples. -/
theorem C130_repeating_all_partial (leaf : Leaf α ν) (same : List ℕ) (i : ℕ) (hi : i < leaf.np) :
    (Repeat.make 1 leaf same).nextPrior (pos leaf.np same 0 i) = (Repeat.make 1 leaf same).getPrior (pos leaf.np same 0 i) := by
  have h := C130_repeating (Repeat.make 1 leaf same) 0 i hi
  have e : (Repeat.make 1 leaf same).leaf = leaf := rfl
  have e2 : (Repeat.make 1 leaf same).same = same := rfl
  rw [e, e2] at h
  rw [h]
  simp only [pos, true_or, if_true, Repeat.nextPrior, Leaf.basePrior, Repeat.make]
  by_cases h0 : leaf.priors.length = 0
  · have : leaf.priors = [] := List.eq_nil_of_length_eq_zero h0
    simp [this]
  · rw [if_neg h0]

/-- All at once, in all components but the first: every parameter has the prior of the last parameter of the
model. -/
theorem C130_counterexample_repeating_all (n : ℕ) (leaf : Leaf α ν) (same : List ℕ) (hl : leaf.priors.length = leaf.np)
    (j i : ℕ) (hj : 1 ≤ j) (hs : i ∉ same) :
    (Repeat.make n leaf same).nextPrior (pos leaf.np same j i) = leaf.priors.getLast? := by
  have : ¬ (pos leaf.np same j i < leaf.priors.length) := by
    rw [hl]
    unfold pos
    rw [if_neg (by simp only [hs, or_false]; omega)]
    omega
  show (if pos leaf.np same j i < leaf.priors.length then _ else leaf.priors.getLast?) = _
  rw [if_neg this]

/-- A repeating model that is made before priors are given has them one at a time, but not all at once: the attribute
`priors` stays `None`. -/
theorem C130_counterexample_repeating_later (deflt : α) (n : ℕ) (leaf : Leaf α ν) (same : List ℕ) (hl : leaf.priors = [])
    (hn : 0 < leaf.np) (p : α) : ∃ r, (Repeat.make n leaf same).setPrior deflt 0 (some p) some = some r ∧
      r.getPrior 0 = some p ∧ ∀ k, r.nextPrior k = none := by
  refine ⟨⟨n, same, ⟨leaf.np, [p], leaf.names⟩, [], false⟩, ?_, ?_, ?_⟩
  · simp [Repeat.setPrior, Repeat.make, hn, Leaf.setPrior, Leaf.chosen, hl]
  · have := C130_repeating (⟨n, same, ⟨leaf.np, [p], leaf.names⟩, [], false⟩ : Repeat α ν) 0 0 hn
    simp only [pos, true_or, if_true] at this
    rw [this]
    simp [Leaf.basePrior]
  · intro k
    simp [Repeat.nextPrior]

/-- No prior can be given through the chain to a model that follows a repeating model. -/
theorem C130_counterexample_repeating_chain (deflt : α) (r : Repeat α ν) (hn : 1 ≤ r.ncomp) (next : Chain α ν) (k : ℕ)
    (prior : Option α) (att : α → Option α) :
    r.chainSetPrior deflt next (size r.leaf.np r.same r.ncomp + k) prior att = none := by
  have : ¬ (size r.leaf.np r.same r.ncomp + k < r.leaf.np) := by unfold size; omega
  simp [Repeat.chainSetPrior, Repeat.setPrior, this]

/-! ## Dynamic harmonics -/

/-- However far it has grown: all cosines have the first prior, all sines the second. -/
theorem C130_harmonic (l : Leaf α ν) (a b : α) (rest : List α) (h : l.priors = a :: b :: rest) (m : ℕ) :
    harmonicPrior l (2 * m) = some a ∧ harmonicPrior l (2 * m + 1) = some b := by
  constructor <;> simp [harmonicPrior, Leaf.basePrior, h, Nat.add_mod]

/-- A prior given to the third parameter is accepted and is never used, and all at once the cosines of higher
harmonics get the prior of the sines. -/
theorem C130_counterexample_harmonic (deflt : α) (l : Leaf α ν) (a b c : α) (h : l.priors = [a, b]) :
    (∃ l', l.setPrior deflt 2 (some c) some = some l' ∧ harmonicPrior l' 2 = some a) ∧
      ∀ k, 2 ≤ k → leafNextPrior l k = some b := by
  refine ⟨⟨{ l with priors := [a, b, c] }, ?_, ?_⟩, fun k hk => ?_⟩
  · simp [Leaf.setPrior, Leaf.chosen, h]
  · simp [harmonicPrior, Leaf.basePrior]
  · simp only [leafNextPrior, h]
    rw [if_neg (by simp; omega)]
    rfl

/-! ## Combi models -/

theorem basePrior_lt (l : Leaf α ν) (k : ℕ) : l.basePrior k = none ↔ l.priors = [] := by
  unfold Leaf.basePrior
  constructor
  · intro h
    split at h
    · exact List.eq_nil_of_length_eq_zero ‹_›
    · split at h
      · simp only [List.getElem?_eq_none_iff] at h; omega
      · simpa using h
  · intro h; simp [h]

theorem chain_get (m : ℕ) (hm : 0 < m) : ∀ (ls : List (Leaf α ν)) (l : Leaf α ν), (∀ x ∈ l :: ls, x.np = m) → ∀ k,
    (chainOf l ls).getPrior k = ((l :: ls)[k / m]?).bind fun x => x.basePrior (k % m) := by
  intro ls
  induction ls with
  | nil =>
    intro l h k
    have hl := h l (by simp)
    simp only [chainOf, Chain.getPrior, Node.np, Node.getPrior, hl]
    by_cases hk : k < m
    · simp [hk, Nat.div_eq_of_lt hk, Nat.mod_eq_of_lt hk]
    · have : 1 ≤ k / m := (Nat.one_le_div_iff hm).2 (by omega)
      rw [if_neg hk, List.getElem?_eq_none (by simpa using this)]
      rfl
  | cons a ls ih =>
    intro l h k
    have hl := h l (by simp)
    simp only [chainOf, Chain.getPrior, Node.np, Node.getPrior, hl]
    by_cases hk : k < m
    · simp [hk, Nat.div_eq_of_lt hk, Nat.mod_eq_of_lt hk]
    · rw [if_neg hk, ih a (fun x hx => h x (List.mem_cons_of_mem _ hx)) (k - m)]
      obtain ⟨c, rfl⟩ : ∃ c, k = c + m := ⟨k - m, by omega⟩
      rw [Nat.add_sub_cancel, Nat.add_div_right _ hm, Nat.add_mod_right]
      rfl

/-- What a combi model answers: for parameter `k` the prior at place `k` in the chain of copies, as if nothing were
tied. Only when that copy has no priors it looks at the place where the parameter really is, in the first copy. -/
theorem C130_combi_answer (m : ℕ) (hm : 0 < m) (l : Leaf α ν) (ls : List (Leaf α ν)) (h : ∀ x ∈ l :: ls, x.np = m)
    (select : List ℕ) (k : ℕ) :
    combiGetPrior (chainOf l ls) m select k
      = (((l :: ls)[k / m]?).bind fun x => x.basePrior (k % m)).orElse
          fun _ => (select[k]?).bind fun s => l.basePrior (s % m) := by
  unfold combiGetPrior
  rw [chain_get m hm ls l h k]
  cases ((l :: ls)[k / m]?).bind fun x => x.basePrior (k % m) with
  | some p => rfl
  | none =>
    simp only [Option.orElse_none]
    congr 1
    funext s
    rw [chain_get m hm ls l h, Nat.div_eq_of_lt (Nat.mod_lt _ hm), Nat.mod_mod]
    rfl

theorem select_pos (m n : ℕ) (keys : List ℕ) (j i : ℕ) (hi : i < m) (hj : j < n) (hf : j = 0 ∨ i ∉ keys) :
    ((List.range (m * n)).filter (free m keys))[pos m keys j i]? = some (j * m + i) := by
  have hlt : j * m + i < m * n := by
    have : (j + 1) * m ≤ n * m := Nat.mul_le_mul_right _ hj
    rw [Nat.mul_comm m n]
    rw [Nat.add_mul, Nat.one_mul] at this
    omega
  have hfree : free m keys (j * m + i) = true := by
    have e1 : (j * m + i) / m = j := by
      rw [Nat.add_comm, Nat.add_mul_div_right _ _ (by omega), Nat.div_eq_of_lt hi, Nat.zero_add]
    have e2 : (j * m + i) % m = i := by
      rw [Nat.add_comm, Nat.add_mul_mod_self_right, Nat.mod_eq_of_lt hi]
    simp only [free, e1, e2, decide_eq_true_eq]
    exact hf
  have := filter_range_get (free m keys) (m * n) (j * m + i) hlt hfree
  rw [← cnt_pos m keys j i hi hf]
  exact this

/-- Without ties every parameter of every copy has the prior of that copy, or, when the copy has none, that of the
first copy. -/
theorem C130_combi_free_partial (m n : ℕ) (l : Leaf α ν) (ls : List (Leaf α ν)) (hn : (l :: ls).length = n)
    (h : ∀ x ∈ l :: ls, x.np = m) (j i : ℕ) (hj : j < n) (hi : i < m) (c : Leaf α ν) (hc : (l :: ls)[j]? = some c) :
    combiGetPrior (chainOf l ls) m ((List.range (m * n)).filter (free m [])) (pos m [] j i)
      = (c.basePrior i).orElse fun _ => l.basePrior i := by
  have hm : 0 < m := by omega
  have hs := select_pos m n [] j i hi hj (by simp)
  have hp : pos m [] j i = j * m + i := by
    rw [← cnt_pos m [] j i hi (by simp)]
    unfold cnt
    rw [List.filter_eq_self.2 (fun a _ => by simp [free])]
    simp
  have e1 : (j * m + i) / m = j := by
    rw [Nat.add_comm, Nat.add_mul_div_right _ _ hm, Nat.div_eq_of_lt hi, Nat.zero_add]
  have e2 : (j * m + i) % m = i := by
    rw [Nat.add_comm, Nat.add_mul_mod_self_right, Nat.mod_eq_of_lt hi]
  rw [C130_combi_answer m hm l ls h, hs, hp, e1, e2, hc]
  simp [e2]

/-- With ties the parameters of the first copy have the right priors. -/
theorem C130_combi_first_partial (m n : ℕ) (l : Leaf α ν) (ls : List (Leaf α ν)) (h : ∀ x ∈ l :: ls, x.np = m)
    (keys : List ℕ) (i : ℕ) (hn : 0 < n) (hi : i < m) :
    combiGetPrior (chainOf l ls) m ((List.range (m * n)).filter (free m keys)) (pos m keys 0 i) = l.basePrior i := by
  have hm : 0 < m := by omega
  have hs := select_pos m n keys 0 i hi hn (Or.inl rfl)
  rw [C130_combi_answer m hm l ls h, hs]
  simp only [pos, true_or, if_true, Nat.div_eq_of_lt hi, Nat.mod_eq_of_lt hi, Nat.zero_mul, Nat.zero_add]
  simp only [List.getElem?_cons_zero, Option.bind_some, Nat.mod_eq_of_lt hi]
  cases l.basePrior i <;> rfl

/-- When only the first copy has priors, all parameters have the right one, with any ties. -/
theorem C130_combi_one_partial (m n : ℕ) (l : Leaf α ν) (ls : List (Leaf α ν)) (h : ∀ x ∈ l :: ls, x.np = m)
    (h0 : ∀ x ∈ ls, x.priors = []) (keys : List ℕ) (j i : ℕ) (hj : j < n) (hi : i < m) :
    combiGetPrior (chainOf l ls) m ((List.range (m * n)).filter (free m keys)) (pos m keys j i) = l.basePrior i := by
  have hm : 0 < m := by omega
  by_cases hf : j = 0 ∨ i ∈ keys
  · have e : pos m keys j i = pos m keys 0 i := by simp [pos, hf]
    rw [e]
    exact C130_combi_first_partial m n l ls h keys i (by omega) hi
  · have hf' : j ≠ 0 ∧ i ∉ keys := by simpa using hf
    have hs := select_pos m n keys j i hi hj (Or.inr hf'.2)
    have hge : m ≤ pos m keys j i := by
      unfold pos
      rw [if_neg hf]
      omega
    have hd : 1 ≤ pos m keys j i / m := (Nat.one_le_div_iff hm).2 hge
    have e2 : (j * m + i) % m = i := by
      rw [Nat.add_comm, Nat.add_mul_mod_self_right, Nat.mod_eq_of_lt hi]
    rw [C130_combi_answer m hm l ls h, hs]
    have : (((l :: ls)[pos m keys j i / m]?).bind fun x => x.basePrior (pos m keys j i % m)) = none := by
      obtain ⟨c, hc⟩ : ∃ c, pos m keys j i / m = c + 1 := ⟨pos m keys j i / m - 1, by omega⟩
      rw [hc, List.getElem?_cons_succ]
      cases hx : ls[c]? with
      | none => rfl
      | some x =>
        simp only [Option.bind_some]
        exact (basePrior_lt x _).2 (h0 x (List.mem_of_getElem? hx))
    rw [this]
    simp [e2]

/-- A model of three parameters with three priors, such as a Gauss. -/
def gauss : Leaf String Unit := ⟨3, ["amplitude", "center", "width"], []⟩

/-- Two Gausses with the same center: the last parameter is the width of the second one. It has the prior of the
center. -/
theorem C130_counterexample_combi :
    ∃ d, (mk 3 2 [1] (fun _ _ => (0 : ℤ)) [] fun _ _ => 1).combine = some d ∧ d.select = [0, 1, 2, 3, 5] ∧
      combiGetPrior (chainOf gauss [gauss]) 3 d.select 4 = some "center" ∧ gauss.basePrior (5 % 3) = some "width" := by
  refine ⟨_, combine_eq 3 2 (by omega) [1] [] (fun _ _ => (0 : ℤ)) (fun _ _ => 1) (by simp) (by simp), ?_, ?_, ?_⟩
  · decide
  · decide
  · decide

/-- A model that follows the combi model in a chain is never asked for its priors: its first parameter has that of
a tied width. -/
theorem C130_counterexample_combi_chain :
    combiGetPrior (chainOf gauss [gauss]) 3 [0, 1, 2, 3, 5] 5 = some "width" ∧
      ∀ k, 6 ≤ k → combiGetPrior (chainOf gauss [gauss]) 3 [0, 1, 2, 3, 5] k = none := by
  refine ⟨by decide, fun k hk => ?_⟩
  rw [C130_combi_answer 3 (by omega) gauss [gauss] (by simp [gauss])]
  rw [List.getElem?_eq_none (by simp; omega), List.getElem?_eq_none (by simp; omega)]
  rfl

/-! ## Examples -/

/-- Three Gausses with the same width: the center of the third. -/
example : (Repeat.make 3 gauss [2]).getPrior 6 = some "center" :=
  C130_repeating (Repeat.make 3 gauss [2]) 2 1 (by decide)

/-- All at once that center would have the prior of the width. -/
example : (Repeat.make 3 gauss [2]).nextPrior 6 = some "width" :=
  C130_counterexample_repeating_all 3 gauss [2] rfl 2 1 (by omega) (by decide)

/-- A new prior for the center. -/
example : ∃ r, (Repeat.make 3 gauss [2]).setPrior "flat" 1 (some "narrow") some = some r ∧
    r.getPrior 4 = some "narrow" ∧ r.getPrior 6 = some "narrow" ∧ r.getPrior 5 = some "amplitude" := by
  refine ⟨_, rfl, by decide, by decide, by decide⟩

/-- Three Gausses of which only the first has priors, with the same center: the width of the third. -/
example : combiGetPrior (chainOf gauss [⟨3, [], []⟩, ⟨3, [], []⟩]) 3 ((List.range (3 * 3)).filter (free 3 [1]))
    (pos 3 [1] 2 2) = some "width" :=
  C130_combi_one_partial 3 3 gauss [⟨3, [], []⟩, ⟨3, [], []⟩] (by simp [gauss]) (by simp) [1] 2 2 (by omega) (by omega)

/-- Two Gausses without ties, the second with a prior of its own for the center. -/
example : combiGetPrior (chainOf gauss [⟨3, ["a", "b"], []⟩]) 3 ((List.range (3 * 2)).filter (free 3 []))
    (pos 3 [] 1 1) = some "b" :=
  C130_combi_free_partial 3 2 gauss [⟨3, ["a", "b"], []⟩] rfl (by simp [gauss]) 1 1 (by omega) (by omega) _ rfl

end BF.RepPriors
