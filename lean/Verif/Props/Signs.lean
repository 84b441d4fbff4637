import Verif.Signs
import Mathlib.Analysis.Calculus.Deriv.Abs
import Mathlib.Analysis.Calculus.Deriv.Comp

/-!
# C115: parameters that must be positive or not zero
-/

namespace BF.Signs

variable {K : Type} [AddCommGroup K] [LinearOrder K] [IsOrderedAddMonoid K]

/-! ## Specification -/

/-- What a model makes of the value `v` of its `k`-th parameter: zero becomes `tiny` if it must not be zero; the sign is
dropped if it must be positive. -/
def proper (pos non : List ℕ) (tiny : K) (k : ℕ) (v : K) : K :=
  if k ∈ pos then |if k ∈ non ∧ v = 0 then tiny else v| else if k ∈ non ∧ v = 0 then tiny else v

/-- The same for all parameters of a chain, each model with its own part. -/
def corrected : List (Link K) → List K → List K
  | [], par => par
  | l :: ls, par => (par.take l.npmax).mapIdx (proper l.pos l.non l.tiny) ++ corrected ls (par.drop l.npmax)

/-- The value of a chain: each model is evaluated with its own part of the parameters, as they are. -/
def value (x : List K) : List (Link K) → Option (List K) → List K → Option (List K)
  | [], res, _ => res
  | l :: ls, res, par =>
      let next := l.base (if l.pip then res.getD x else x) ((par.take l.npmax).map .inl)
      value x ls (some (match res with
        | none => next
        | some r => if l.pip then next else l.op r next)) (par.drop l.npmax)

/-- No fixed parameters, and lists of parameters that exist. -/
def Plain (ls : List (Link K)) : Prop :=
  ∀ l ∈ ls, l.fixed = none ∧ (∀ k ∈ l.pos, k < l.npmax) ∧ ∀ k ∈ l.non, k < l.npmax

/-- The `i`-th parameter of the chain must be positive. -/
def MustBePositive : List (Link K) → ℕ → Prop
  | [], _ => False
  | l :: ls, i => if i < l.npmax then i ∈ l.pos else MustBePositive ls (i - l.npmax)

/-- Models that can be made: chains of models, with numbers and such models for fixed parameters. -/
inductive Built : Sub K → Prop
  | chain (ls : List (Link K)) (h : ∀ l ∈ ls, ∀ m ∈ l.subs, Built m) : Built (model ls)

/-! ## The checks -/

omit [IsOrderedAddMonoid K] in
theorem checkZero_nums (tiny : K) : ∀ (ks : List ℕ) (p : List K),
    checkZero tiny ks (p.map .inl) = if ∀ k ∈ ks, k < p.length then
      some ((p.mapIdx fun i v => if i ∈ ks then (if v = 0 then tiny else v) else v).map .inl) else none
  | [], p => by
      have : p.mapIdx (fun _ v => v) = p := List.ext_getElem? fun i => by simp
      simp [checkZero, this]
  | k :: ks, p => by
      simp only [checkZero, List.getElem?_map]
      by_cases hk : k < p.length
      · rw [List.getElem?_eq_getElem hk]
        simp only [Option.map_some, Option.bind_some, zeroArg]
        rw [← List.map_set, checkZero_nums tiny ks]
        simp only [List.length_set, List.mem_cons, forall_eq_or_imp, hk, true_and]
        by_cases ha : ∀ a ∈ ks, a < p.length
        · rw [if_pos ha, if_pos ha]
          congr 2
          apply List.ext_getElem?
          intro i
          simp only [List.getElem?_mapIdx, List.getElem?_set]
          by_cases hi : k = i
          · subst hi
            simp only [hk, if_true, Option.map_some, true_or, List.getElem?_eq_getElem hk]
            by_cases h0 : p[k] = 0 <;> simp [h0]
          · have : ¬ i = k := fun h => hi h.symm
            simp [hi, this]
        · rw [if_neg ha, if_neg ha]
      · rw [List.getElem?_eq_none (by omega)]
        simp [hk]

theorem checkPositive_nums : ∀ (ks : List ℕ) (p : List K),
    checkPositive ks (p.map .inl) = if ∀ k ∈ ks, k < p.length then
      some ((p.mapIdx fun i v => if i ∈ ks then |v| else v).map .inl) else none
  | [], p => by
      have : p.mapIdx (fun _ v => v) = p := List.ext_getElem? fun i => by simp
      simp [checkPositive, this]
  | k :: ks, p => by
      simp only [checkPositive, List.getElem?_map]
      by_cases hk : k < p.length
      · rw [List.getElem?_eq_getElem hk]
        simp only [Option.map_some, Option.bind_some, absArg]
        rw [← List.map_set, checkPositive_nums ks]
        simp only [List.length_set, List.mem_cons, forall_eq_or_imp, hk, true_and]
        by_cases ha : ∀ a ∈ ks, a < p.length
        · rw [if_pos ha, if_pos ha]
          congr 2
          apply List.ext_getElem?
          intro i
          simp only [List.getElem?_mapIdx, List.getElem?_set]
          by_cases hi : k = i
          · subst hi
            simp [hk, List.getElem?_eq_getElem hk]
          · have : ¬ i = k := fun h => hi h.symm
            simp [hi, this]
        · rw [if_neg ha, if_neg ha]
      · rw [List.getElem?_eq_none (by omega)]
        simp [hk]

theorem check_nums (pos non : List ℕ) (tiny : K) (p : List K) :
    check pos non tiny (p.map .inl) =
      if (∀ k ∈ non, k < p.length) ∧ ∀ k ∈ pos, k < p.length then some ((p.mapIdx (proper pos non tiny)).map .inl)
      else none := by
  unfold check
  rw [checkZero_nums]
  by_cases h1 : ∀ k ∈ non, k < p.length
  · rw [if_pos h1, Option.bind_some, checkPositive_nums]
    simp only [List.length_mapIdx]
    by_cases h2 : ∀ k ∈ pos, k < p.length
    · rw [if_pos h2, if_pos ⟨h1, h2⟩, List.mapIdx_mapIdx]
      congr 3
      funext i v
      simp only [proper, Function.comp]
      by_cases hn : i ∈ non <;> simp [hn]
    · rw [if_neg h2, if_neg (by tauto)]
  · rw [if_neg h1, if_neg (by tauto)]; rfl

omit [AddCommGroup K] [LinearOrder K] [IsOrderedAddMonoid K] in
theorem nums_map (p : List K) : nums (p.map .inl) = p := by
  induction p with
  | nil => rfl
  | cons a l ih => simpa [nums] using ih

theorem proper_proper (pos non : List ℕ) (tiny : K) (k : ℕ) (v : K) :
    proper pos non tiny k (proper pos non tiny k v) = proper pos non tiny k v := by
  unfold proper
  by_cases hp : k ∈ pos <;> by_cases hn : k ∈ non <;> by_cases hv : v = 0 <;> by_cases ht : tiny = 0 <;>
    simp [hp, hn, hv, ht]

theorem proper_neg (pos non : List ℕ) (tiny : K) (k : ℕ) (v : K) (h : k ∈ pos) :
    proper pos non tiny k (-v) = proper pos non tiny k v := by
  unfold proper
  by_cases hn : k ∈ non <;> by_cases hv : v = 0 <;> simp [h, hn, hv]

/-! ## Chains without fixed parameters -/

omit [IsOrderedAddMonoid K] in
theorem plain_np (l : Link K) (h : l.fixed = none) : l.np = l.npmax := by simp [Link.np, Link.subs, h]

theorem plain_result (l : Link K) (h : l.fixed = none) (hp : ∀ k ∈ l.pos, k < l.npmax) (hn : ∀ k ∈ l.non, k < l.npmax)
    (x par : List K) (hl : par.length = l.npmax) :
    l.result x par = some (l.base x ((par.mapIdx (proper l.pos l.non l.tiny)).map .inl),
      par.mapIdx (proper l.pos l.non l.tiny)) := by
  unfold Link.result
  simp only [h, hl, if_true]
  rw [check_nums, if_pos ⟨fun k hk => hl ▸ hn k hk, fun k hk => hl ▸ hp k hk⟩]
  simp [nums_map]

/-- The result of a chain is the value of the chain for the proper parameters, and these are in the array of the caller
afterwards. -/
theorem C115_result (x : List K) : ∀ (ls : List (Link K)) (res : Option (List K)) (par : List K), Plain ls →
    par.length = (ls.map Link.npmax).sum →
    run x ls res par = (value x ls res (corrected ls par)).map fun r => (r, corrected ls par)
  | [], res, par, _, _ => by simp [run, value, corrected]
  | l :: ls, res, par, h, hl => by
      obtain ⟨hf, hp, hn⟩ := h l (by simp)
      have hrest : Plain ls := fun m hm => h m (by simp [hm])
      simp only [List.map_cons, List.sum_cons] at hl
      have h1 : (par.take l.npmax).length = l.npmax := by simp; omega
      have h2 : (par.drop l.npmax).length = (ls.map Link.npmax).sum := by simp; omega
      simp only [run, plain_np l hf, plain_result l hf hp hn _ _ h1, Option.bind_some, corrected]
      rw [C115_result x ls _ _ hrest h2]
      have h3 : ((par.take l.npmax).mapIdx (proper l.pos l.non l.tiny)).length = l.npmax := by simp; omega
      simp only [value]
      rw [List.take_left' h3, List.drop_left' h3]
      simp only [Option.map_map, Function.comp_def]
      cases res <;> rfl

theorem corrected_sign : ∀ (ls : List (Link K)) (par : List K) (i : ℕ), MustBePositive ls i →
    par.length = (ls.map Link.npmax).sum → corrected ls (par.modify i fun v => -v) = corrected ls par
  | [], _, _, h, _ => absurd h (by simp [MustBePositive])
  | l :: ls, par, i, h, hl => by
      simp only [List.map_cons, List.sum_cons] at hl
      simp only [MustBePositive] at h
      simp only [corrected]
      by_cases hi : i < l.npmax
      · rw [if_pos hi] at h
        congr 1
        · apply List.ext_getElem?
          intro j
          simp only [List.getElem?_mapIdx, List.getElem?_take, List.getElem?_modify]
          by_cases hj : j < l.npmax
          · simp only [hj, if_true]
            by_cases hij : i = j
            · subst hij
              cases par[i]? with
              | none => rfl
              | some v => simp [proper_neg _ _ _ _ _ h]
            · simp [hij]
          · simp [hj]
        · congr 1
          apply List.ext_getElem?
          intro j
          simp only [List.getElem?_drop, List.getElem?_modify]
          have : ¬ i = l.npmax + j := by omega
          simp [this]
      · rw [if_neg hi] at h
        congr 1
        · congr 1
          apply List.ext_getElem?
          intro j
          simp only [List.getElem?_take, List.getElem?_modify]
          by_cases hj : j < l.npmax
          · have : ¬ i = j := by omega
            simp [this]
          · simp [hj]
        · rw [← corrected_sign ls (par.drop l.npmax) (i - l.npmax) h (by simp; omega)]
          congr 1
          apply List.ext_getElem?
          intro j
          simp only [List.getElem?_drop, List.getElem?_modify]
          by_cases hij : i = l.npmax + j
          · have : i - l.npmax = j := by omega
            simp [hij]
          · have : ¬ i - l.npmax = j := by omega
            simp [hij, this]

/-- The sign of a parameter that must be positive does not matter. -/
theorem C115_sign (x : List K) (ls : List (Link K)) (res : Option (List K)) (par : List K) (i : ℕ) (h : Plain ls)
    (hl : par.length = (ls.map Link.npmax).sum) (hi : MustBePositive ls i) :
    run x ls res (par.modify i fun v => -v) = run x ls res par := by
  rw [C115_result x ls res par h hl, C115_result x ls res _ h (by simpa using hl), corrected_sign ls par i hi hl]

/-- `correctParameters` gives the parameters with which the result is computed. -/
theorem C115_correct : ∀ (ls : List (Link K)) (par : List K), Plain ls → par.length = (ls.map Link.npmax).sum →
    correct ls par = some (corrected ls par)
  | [], par, _, hl => by
      have : par = [] := List.length_eq_zero_iff.1 (by simpa using hl)
      simp [correct, corrected, this]
  | l :: ls, par, h, hl => by
      obtain ⟨hf, hp, hn⟩ := h l (by simp)
      have hrest : Plain ls := fun m hm => h m (by simp [hm])
      simp only [List.map_cons, List.sum_cons] at hl
      have h1 : (par.take l.npmax).length = l.npmax := by simp; omega
      have h2 : (par.drop l.npmax).length = (ls.map Link.npmax).sum := by simp; omega
      simp only [correct, plain_np l hf, corrected]
      rw [check_nums, if_pos ⟨fun k hk => (hn k hk).trans_eq h1.symm, fun k hk => (hp k hk).trans_eq h1.symm⟩, C115_correct ls _ hrest h2]
      simp [nums_map]

/-! ## All models -/

/-- `b` is `a`, perhaps without its sign, or it was zero. -/
def Corr (a b : K) : Prop := b = a ∨ b = |a| ∨ a = 0

structure Good (m : Sub K) : Prop where
  corr : ∀ x p r q, m.run x p = some (r, q) → List.Forall₂ Corr p q
  again : ∀ x p r q, m.run x p = some (r, q) → m.run x q = some (r, q)

omit [IsOrderedAddMonoid K] in
theorem forall₂_refl_corr (p : List K) : List.Forall₂ Corr p p := by
  induction p with
  | nil => exact .nil
  | cons a l ih => exact .cons (.inl rfl) ih

theorem values_good (x : List K) : ∀ (d : List (ℕ × (K ⊕ Sub K))) (par : List K) (v : List (ℕ × Arg K)) (q : List K),
    (∀ m ∈ d.filterMap fun kv => kv.2.getRight?, Good m) → values x d par = some (v, q) →
    List.Forall₂ Corr par q ∧ values x d q = some (v, q)
  | [], [], v, q, _, h => by
      simp only [values, Option.some.injEq, Prod.mk.injEq] at h
      obtain ⟨rfl, rfl⟩ := h
      exact ⟨.nil, rfl⟩
  | [], _ :: _, v, q, _, h => by simp [values] at h
  | (k, .inl c) :: d, par, v, q, hg, h => by
      simp only [values, Option.map_eq_some_iff] at h
      obtain ⟨⟨v', q'⟩, h1, h2⟩ := h
      simp only [Prod.mk.injEq] at h2
      obtain ⟨rfl, rfl⟩ := h2
      obtain ⟨h3, h4⟩ := values_good x d par v' q' (by simpa using hg) h1
      exact ⟨h3, by simp [values, h4]⟩
  | (k, .inr m) :: d, par, v, q, hg, h => by
      simp only [values, Option.bind_eq_some_iff, Option.map_eq_some_iff] at h
      obtain ⟨⟨r, p⟩, h1, ⟨v', q'⟩, h2, h3⟩ := h
      simp only [Prod.mk.injEq] at h3
      obtain ⟨rfl, rfl⟩ := h3
      simp only [List.filterMap_cons, Sum.getRight?_inr, List.mem_cons, forall_eq_or_imp] at hg
      obtain ⟨g1, g2⟩ := hg
      obtain ⟨h4, h5⟩ := values_good x d _ v' q' g2 h2
      have h6 := g1.corr _ _ _ _ h1
      have h7 := g1.again _ _ _ _ h1
      have hlen := h6.length_eq
      refine ⟨?_, ?_⟩
      · have := List.rel_append h6 h4
        dsimp only at this
        rwa [List.take_append_drop] at this
      · simp only [values]
        by_cases hl : m.np ≤ par.length
        · have hp : p.length = m.np := by rw [← hlen]; simp; omega
          rw [List.take_left' hp, List.drop_left' hp, h7]
          simp [h5]
        · have hp : p.length = par.length := by rw [← hlen]; simp; omega
          have hq : q'.length = 0 := by rw [← h4.length_eq]; simp; omega
          have hq' : q' = [] := List.length_eq_zero_iff.1 hq
          subst hq'
          rw [List.append_nil, List.take_of_length_le (by omega), List.drop_of_length_le (by omega), h7]
          simp [h5]

theorem proper_corr (pos non : List ℕ) (tiny : K) (k : ℕ) (v : K) : Corr v (proper pos non tiny k v) := by
  unfold Corr proper
  by_cases hv : v = 0
  · exact .inr (.inr hv)
  · by_cases hp : k ∈ pos <;> simp [hp, hv]

omit [AddCommGroup K] [LinearOrder K] [IsOrderedAddMonoid K] in
theorem forall₂_mapIdx (R : K → K → Prop) (f : ℕ → K → K) (h : ∀ k v, R v (f k v)) (p : List K) :
    List.Forall₂ R p (p.mapIdx f) := by
  rw [List.forall₂_iff_get]
  refine ⟨by simp, ?_⟩
  intro i h1 h2
  simp [h]

/-- `correctParameters` of a chain, also with fixed parameters: what is returned has the numbers of the caller in their
places, each perhaps without its sign unless it was zero. -/
theorem C115_correct_all : ∀ (ls : List (Link K)) (par q : List K), par.length = (ls.map Link.np).sum →
    correct ls par = some q → List.Forall₂ Corr par q
  | [], par, q, hl, h => by
      have : par = [] := List.length_eq_zero_iff.1 (by simpa using hl)
      simp only [correct, Option.some.injEq] at h
      rw [this, ← h]
      exact .nil
  | l :: ls, par, q, hl, h => by
      simp only [List.map_cons, List.sum_cons] at hl
      simp only [correct, Option.bind_eq_some_iff, Option.map_eq_some_iff] at h
      obtain ⟨e, h1, q', h2, rfl⟩ := h
      rw [check_nums] at h1
      split at h1
      · simp only [Option.some.injEq] at h1
        subst h1
        have h3 := C115_correct_all ls _ q' (by simp; omega) h2
        have h4 : List.Forall₂ Corr (par.take l.np) ((par.take l.np).mapIdx (proper l.pos l.non l.tiny)) :=
          forall₂_mapIdx _ _ (fun k v => proper_corr _ _ _ k v) _
        have := List.rel_append h4 h3
        dsimp only at this
        rw [List.take_append_drop] at this
        rwa [nums_map]
      · cases h1

theorem link_good (l : Link K) (x par r q : List K) (hg : ∀ m ∈ l.subs, Good m) (h : l.result x par = some (r, q)) :
    List.Forall₂ Corr par q ∧ l.result x q = some (r, q) := by
  unfold Link.result at h ⊢
  cases hf : l.fixed with
  | none =>
      simp only [hf] at h ⊢
      split at h
      · rename_i hl
        rw [check_nums] at h
        split at h
        · rename_i hc
          simp only [Option.map_some, Option.some.injEq, Prod.mk.injEq, nums_map] at h
          obtain ⟨rfl, rfl⟩ := h
          refine ⟨forall₂_mapIdx _ _ (fun k v => proper_corr _ _ _ k v) par, ?_⟩
          rw [if_pos (by simpa using hl), check_nums, if_pos (by simpa using hc), List.mapIdx_mapIdx]
          have : (fun k => proper l.pos l.non l.tiny k ∘ proper l.pos l.non l.tiny k) = proper l.pos l.non l.tiny := by
            funext k v
            exact proper_proper _ _ _ k v
          rw [this]
          simp [nums_map]
        · simp at h
      · simp at h
  | some d =>
      simp only [hf] at h ⊢
      simp only [Option.bind_eq_some_iff, Option.map_eq_some_iff] at h
      obtain ⟨⟨v, p⟩, h1, e, h2, e', h3, h4⟩ := h
      simp only [Prod.mk.injEq] at h4
      obtain ⟨rfl, rfl⟩ := h4
      obtain ⟨h5, h6⟩ := values_good x d _ v p (by simpa [Link.subs, hf] using hg) h1
      refine ⟨?_, ?_⟩
      · have := List.rel_append (forall₂_refl_corr (par.take (l.npmax - d.length))) h5
        dsimp only at this
        rwa [List.take_append_drop] at this
      · dsimp only at h2 ⊢
        by_cases hl : l.npmax - d.length ≤ par.length
        · have hp : (par.take (l.npmax - d.length)).length = l.npmax - d.length := by simp; omega
          rw [List.drop_left' hp, List.take_left' hp, h6]
          simp only [Option.bind_some]
          rw [h2]
          simp [h3]
        · have hq : p.length = 0 := by rw [← h5.length_eq]; simp; omega
          have hq' : p = [] := List.length_eq_zero_iff.1 hq
          subst hq'
          rw [List.append_nil, List.take_of_length_le (by omega), List.drop_of_length_le (by omega), h6]
          rw [List.take_of_length_le (by omega)] at h2
          simp only [Option.bind_some]
          rw [List.take_of_length_le (by omega), h2]
          simp [h3]

theorem run_good (x : List K) : ∀ (ls : List (Link K)) (res : Option (List K)) (par r q : List K),
    (∀ l ∈ ls, ∀ m ∈ l.subs, Good m) → run x ls res par = some (r, q) →
    List.Forall₂ Corr par q ∧ run x ls res q = some (r, q)
  | [], res, par, r, q, _, h => by
      simp only [run, Option.map_eq_some_iff, Prod.mk.injEq] at h
      obtain ⟨a, rfl, rfl, rfl⟩ := h
      exact ⟨forall₂_refl_corr par, rfl⟩
  | l :: ls, res, par, r, q, hg, h => by
      simp only [run, Option.bind_eq_some_iff, Option.map_eq_some_iff] at h
      obtain ⟨⟨r1, p1⟩, h1, ⟨r2, p2⟩, h2, h3⟩ := h
      simp only [Prod.mk.injEq] at h3
      obtain ⟨rfl, rfl⟩ := h3
      obtain ⟨h4, h5⟩ := link_good l _ _ _ _ (hg l (by simp)) h1
      obtain ⟨h6, h7⟩ := run_good x ls _ _ _ _ (fun m hm => hg m (by simp [hm])) h2
      refine ⟨?_, ?_⟩
      · have := List.rel_append h4 h6
        dsimp only at this
        rwa [List.take_append_drop] at this
      · simp only [run]
        have hlen := h4.length_eq
        by_cases hl : l.np ≤ par.length
        · have hp : p1.length = l.np := by rw [← hlen]; simp; omega
          rw [List.take_left' hp, List.drop_left' hp, h5]
          simp [h7]
        · have hp : p1.length = par.length := by rw [← hlen]; simp; omega
          have hq : p2.length = 0 := by rw [← h6.length_eq]; simp; omega
          have hq' : p2 = [] := List.length_eq_zero_iff.1 hq
          subst hq'
          rw [List.append_nil, List.take_of_length_le (by omega), List.drop_of_length_le (by omega), h5]
          simp [h7]

theorem built_good (m : Sub K) (h : Built m) : Good m := by
  induction h with
  | chain ls _ ih => exact ⟨fun x p r q hr => (run_good x ls none p r q ih hr).1,
      fun x p r q hr => (run_good x ls none p r q ih hr).2⟩

/-- For every model: computing the result again with the same array gives the same result, and no further changes. -/
theorem C115_again (m : Sub K) (hm : Built m) (x par r q : List K) (h : m.run x par = some (r, q)) :
    m.run x q = some (r, q) := (built_good m hm).again x par r q h

/-- For every model: of the array of the caller only signs are lost and zeros replaced. -/
theorem C115_caller (m : Sub K) (hm : Built m) (x par r q : List K) (h : m.run x par = some (r, q)) :
    q.length = par.length ∧ ∀ (i : ℕ) (a b : K), par[i]? = some a → q[i]? = some b → a ≠ 0 → b = a ∨ b = |a| := by
  have hc := (built_good m hm).corr x par r q h
  refine ⟨hc.length_eq.symm, ?_⟩
  intro i a b ha hb h0
  obtain ⟨h1, rfl⟩ := List.getElem?_eq_some_iff.1 ha
  obtain ⟨h2, rfl⟩ := List.getElem?_eq_some_iff.1 hb
  have := (List.forall₂_iff_get.1 hc).2 i h1 h2
  simp only [List.get_eq_getElem] at this
  rcases this with h | h | h
  · exact .inl h
  · exact .inr h
  · exact absurd h h0

/-- Positive parameters: the array of the caller is not changed. -/
theorem C115_unchanged (m : Sub K) (hm : Built m) (x par r q : List K) (h : m.run x par = some (r, q))
    (hp : ∀ a ∈ par, 0 < a) : q = par := by
  obtain ⟨h1, h2⟩ := C115_caller m hm x par r q h
  apply List.ext_getElem h1
  intro i hi hi'
  rcases h2 i par[i] q[i] (List.getElem?_eq_getElem hi') (List.getElem?_eq_getElem hi)
    (hp _ (List.getElem_mem hi')).ne' with h | h
  · exact h
  · rw [h, abs_of_pos (hp _ (List.getElem_mem hi'))]

/-! ### Examples -/

/-- A model like a gaussian for the examples: three parameters; the last must be positive and not zero. -/
def peak (fixed : Option (List (ℕ × (ℤ ⊕ Sub ℤ)))) : Link ℤ :=
  { npmax := 3, fixed := fixed, pos := [2], non := [2], tiny := 1, pip := false, op := List.zipWith (· + ·)
    base := fun x p => match p with
      | [.inl a, .inl c, .inl w] => x.map fun v => a * (v - c) * w
      | [.inr a, .inl c, .inl w] => List.zipWith (fun a v => a * (v - c) * w) a x
      | _ => [] }

example : Plain [peak none, peak none] := by
  intro l hl
  simp only [List.mem_cons, List.not_mem_nil, or_false, or_self] at hl
  subst hl
  simp [peak]

example : MustBePositive [peak none, peak none] 5 := by simp [MustBePositive, peak]

/-- A peak, and a peak the amplitude of which is a peak. -/
example : Built (model [peak none, peak (some [(0, .inr (model [peak none]))])]) ∧
    (model [peak none, peak (some [(0, .inr (model [peak none]))])]).run [1, 2] [1, 0, -2, 3, 0, 1, 0, -1] =
      some ([0, 2], [1, 0, 2, 3, 0, 1, 0, 1]) := by
  refine ⟨.chain _ ?_, by decide⟩
  intro l hl m hm
  simp only [List.mem_cons, List.not_mem_nil, or_false] at hl
  rcases hl with rfl | rfl
  · simp [Link.subs, peak] at hm
  · simp only [Link.subs, peak, Option.getD_some, List.filterMap_cons, Sum.getRight?_inr, List.filterMap_nil,
      List.mem_singleton] at hm
    subst hm
    refine .chain _ ?_
    intro l hl m hm
    simp only [List.mem_singleton] at hl
    subst hl
    simp [Link.subs, peak] at hm

/-! ## The array of the caller -/

/-- Asking for the result changes the array of the caller, which is that of the model itself when no parameters are
given: whenever a parameter that must be positive is negative. -/
theorem C115_counterexample_caller (x : List K) (ls : List (Link K)) (par : List K) (i : ℕ) (h : Plain ls)
    (hn : ls ≠ []) (hl : par.length = (ls.map Link.npmax).sum) (hi : MustBePositive ls i) (hi' : i < par.length)
    (hneg : par[i] < 0) : ∃ r q, run x ls none par = some (r, q) ∧ q ≠ par := by
  have key : ∀ (ls : List (Link K)) (par : List K) (i : ℕ), MustBePositive ls i →
      par.length = (ls.map Link.npmax).sum → ∀ v, par[i]? = some v → v < 0 → (corrected ls par)[i]? = some |v| := by
    intro ls
    induction ls with
    | nil => intro par i h; exact absurd h (by simp [MustBePositive])
    | cons l ls ih =>
        intro par i h hl v hv hneg
        simp only [List.map_cons, List.sum_cons] at hl
        simp only [MustBePositive] at h
        simp only [corrected]
        by_cases hi : i < l.npmax
        · rw [if_pos hi] at h
          rw [List.getElem?_append_left (by simp; omega)]
          simp [hi, hv, proper, h, hneg.ne]
        · rw [if_neg hi] at h
          rw [List.getElem?_append_right (by simp; omega)]
          have : i - ((par.take l.npmax).mapIdx (proper l.pos l.non l.tiny)).length = i - l.npmax := by
            simp only [List.length_mapIdx, List.length_take]; omega
          rw [this]
          refine ih _ _ h (by simp; omega) v ?_ hneg
          rw [List.getElem?_drop, show l.npmax + (i - l.npmax) = i by omega]
          exact hv
  have hv : ∃ r, value x ls none (corrected ls par) = some r := by
    have : ∀ (ls : List (Link K)) (r : List K) (par : List K), ∃ r', value x ls (some r) par = some r' := by
      intro ls
      induction ls with
      | nil => exact fun r _ => ⟨r, rfl⟩
      | cons l ls ih => exact fun r par => ih _ _
    cases ls with
    | nil => exact absurd rfl hn
    | cons l ls => exact this ls _ _
  obtain ⟨r, hr⟩ := hv
  refine ⟨r, corrected ls par, by rw [C115_result x ls none par h hl, hr]; rfl, ?_⟩
  intro he
  have h1 := key ls par i hi hl par[i] (List.getElem?_eq_getElem hi') hneg
  rw [he, List.getElem?_eq_getElem hi', Option.some.injEq] at h1
  have : 0 ≤ par[i] := by rw [h1]; exact abs_nonneg _
  exact absurd hneg (not_lt.2 this)

/-! ## A model for a parameter that must not be zero -/

/-- When a parameter that must not be zero, like the width of a gaussian, is replaced by a model, the result can be
computed for one data point only: for more the question whether an array is zero raises. -/
theorem C115_counterexample_model (l : Link K) (m : Sub K) (k : ℕ) (hk : k < l.npmax) (hf : l.fixed = some [(k, .inr m)])
    (hn : l.non = [k]) (x par : List K) (h : ∀ p r q, m.run x p = some (r, q) → r.length ≠ 1) :
    l.result x par = none := by
  unfold Link.result
  simp only [hf]
  rw [Option.eq_none_iff_forall_not_mem]
  intro rq hrq
  simp only [Option.mem_def, Option.bind_eq_some_iff, Option.map_eq_some_iff, values] at hrq
  obtain ⟨⟨v, p⟩, ⟨⟨r, q⟩, h1, ⟨v', q'⟩, h2, h3⟩, e, h4, e', h5, -⟩ := hrq
  have hv' : v' = [] := by
    cases hd : (par.drop (l.npmax - [(k, (Sum.inr m : K ⊕ Sub K))].length)).drop m.np with
    | nil => rw [hd] at h2; simp only [values, Option.some.injEq, Prod.mk.injEq] at h2; exact h2.1.symm
    | cons a b => rw [hd] at h2; simp [values] at h2
  subst hv'
  simp only [Prod.mk.injEq] at h3
  obtain ⟨rfl, -⟩ := h3
  have hfill : ∀ (ks : List ℕ) (par : List K) (e : List (Arg K)), fill [(k, (Sum.inr r : Arg K))] ks par = some e →
      ∀ i : ℕ, ks[i]? = some k → e[i]? = some (Sum.inr r) := by
    intro ks
    induction ks with
    | nil => intro par e _ i hi; simp at hi
    | cons a ks ih =>
        intro par e he i hi
        simp only [fill] at he
        cases i with
        | zero =>
            simp only [List.getElem?_cons_zero, Option.some.injEq] at hi
            subst hi
            simp only [List.lookup_cons, beq_self_eq_true, Option.map_eq_some_iff] at he
            obtain ⟨t, -, rfl⟩ := he
            rfl
        | succ i =>
            simp only [List.getElem?_cons_succ] at hi
            split at he
            · rw [Option.map_eq_some_iff] at he
              obtain ⟨t, ht, rfl⟩ := he
              exact ih _ _ ht i hi
            · split at he
              · simp at he
              · rw [Option.map_eq_some_iff] at he
                obtain ⟨t, ht, rfl⟩ := he
                exact ih _ _ ht i hi
  have he := hfill _ _ _ h4 k (by simp [hk])
  have hr := h _ _ _ h1
  simp only [check, hn, checkZero, he, Option.bind_some] at h5
  have hz : zeroArg l.tiny (.inr r) = none := by
    match r, hr with
    | [], _ => rfl
    | [a], hr => exact absurd rfl hr
    | a :: b :: t, _ => rfl
  rw [hz] at h5
  simp at h5

/-- With one datum it works. -/
example : (peak (some [(2, .inr (model [peak none]))])).result [3] [1, 1, 1, 0, 1] = some ([], [1, 1, 1, 0, 1]) ∧
    (peak (some [(2, .inr (model [peak none]))])).result [3, 4] [1, 1, 1, 0, 1] = none := by decide

/-! ## correctParameters with fixed parameters -/

/-- A model like a gaussian that has one of its three parameters fixed: `correctParameters` raises. -/
theorem C115_counterexample_correct (l : Link K) (k : ℕ) (v : K) (hm : l.npmax = 3) (hf : l.fixed = some [(k, .inl v)])
    (hn : l.non = [2]) (par : List K) : correct [l] par = none := by
  have hnp : l.np = 2 := by
    simp only [Link.np, Link.subs, hf, hm, Option.getD_some, List.filterMap_cons, Sum.getRight?_inl]
    simp
  simp only [correct, hnp]
  have : check l.pos l.non l.tiny ((par.take 2).map .inl) = none := by
    rw [check_nums, if_neg]
    rintro ⟨h1, -⟩
    have := h1 2 (by simp [hn])
    simp only [List.length_take] at this
    omega
  rw [this]
  rfl

/-- A model like an etalon with drift, where the third of five parameters must be positive, with the first one fixed:
`correctParameters` takes the sign from the fourth and leaves that of the third. -/
theorem C115_counterexample_correct_other (l : Link K) (v : K) (hm : l.npmax = 5) (hf : l.fixed = some [(0, .inl v)])
    (hp : l.pos = [2]) (hn : l.non = []) (p1 p2 p3 p4 : K) :
    correct [l] [p1, p2, p3, p4] = some [p1, p2, |p3|, p4] ∧
      fill [(0, .inl v)] (List.range l.npmax) [p1, p2, p3, p4] = some [.inl v, .inl p1, .inl p2, .inl p3, .inl p4] ∧
      check l.pos l.non l.tiny [.inl v, .inl p1, .inl p2, .inl p3, .inl p4] =
        some [.inl v, .inl p1, .inl |p2|, .inl p3, .inl p4] := by
  have hnp : l.np = 4 := by
    simp only [Link.np, Link.subs, hf, hm, Option.getD_some, List.filterMap_cons, Sum.getRight?_inl]
    simp
  refine ⟨?_, ?_, ?_⟩
  · simp [correct, hnp, check, hn, hp, checkZero, checkPositive, absArg, nums]
  · rw [hm]; simp [List.range_succ, fill, List.lookup]
  · simp [check, hn, hp, checkZero, checkPositive, absArg]

/-! ## Partial derivatives -/

/-- The partial to a parameter that must be positive, at a negative value of it, is minus the derivative of the result.
At a positive value it is the derivative. -/
theorem C115_counterexample_partial (pos non : List ℕ) (tiny : ℝ) (R : List (Arg ℝ) → ℝ) (D : List (Arg ℝ) → ℕ → ℝ)
    (par : List ℝ) (k : ℕ) (hk : k < par.length) (hp : k ∈ pos) (hpos : ∀ j ∈ pos, j < par.length)
    (hnon : ∀ j ∈ non, j < par.length)
    (hD : ∀ q : List ℝ, q.length = par.length → (∀ h : k < q.length, 0 < q[k]) →
      HasDerivAt (fun t => R ((q.set k t).map .inl)) (D (q.map .inl) k) (q.getD k 0)) :
    ∃ d, partialOf pos non tiny D par k = some d ∧
      (par[k] < 0 → HasDerivAt (fun t => ((check pos non tiny ((par.set k t).map .inl)).map R).getD 0) (-d) par[k]) ∧
      (0 < par[k] → HasDerivAt (fun t => ((check pos non tiny ((par.set k t).map .inl)).map R).getD 0) d par[k]) := by
  have hc : ∀ q : List ℝ, q.length = par.length → check pos non tiny (q.map .inl) =
      some ((q.mapIdx (proper pos non tiny)).map .inl) := by
    intro q hq
    rw [check_nums, if_pos]
    rw [hq]
    exact ⟨hnon, hpos⟩
  refine ⟨D ((par.mapIdx (proper pos non tiny)).map .inl) k, ?_, ?_⟩
  · simp only [partialOf]
    rw [hc par rfl, Option.bind_some, hc _ (by simp), List.mapIdx_mapIdx]
    have : (fun k => proper pos non tiny k ∘ proper pos non tiny k) = proper pos non tiny := by
      funext k v
      exact proper_proper _ _ _ k v
    rw [this]
    rfl
  · have hset : ∀ t : ℝ, t ≠ 0 → (par.set k t).mapIdx (proper pos non tiny) =
        (par.mapIdx (proper pos non tiny)).set k |t| := by
      intro t ht
      apply List.ext_getElem?
      intro i
      simp only [List.getElem?_mapIdx, List.getElem?_set, List.length_mapIdx]
      by_cases hi : k = i
      · subst hi
        simp [hk, proper, hp, ht]
      · simp [hi]
    have hev : ∀ v : ℝ, v ≠ 0 → (fun t => ((check pos non tiny ((par.set k t).map .inl)).map R).getD 0) =ᶠ[nhds v]
        fun t => R (((par.mapIdx (proper pos non tiny)).set k |t|).map .inl) := by
      intro v hv
      filter_upwards [isOpen_ne.mem_nhds hv] with t ht
      rw [hc _ (by simp), hset t ht]
      rfl
    have hv0 : par[k] ≠ 0 → (par.mapIdx (proper pos non tiny)).getD k 0 = |par[k]| := by
      intro h0
      rw [List.getD_eq_getElem?_getD, List.getElem?_mapIdx, List.getElem?_eq_getElem hk]
      simp [proper, hp, h0]
    have hd : par[k] ≠ 0 → HasDerivAt (fun t => R (((par.mapIdx (proper pos non tiny)).set k t).map .inl))
        (D ((par.mapIdx (proper pos non tiny)).map .inl) k) |par[k]| := by
      intro h0
      have := hD (par.mapIdx (proper pos non tiny)) (by simp) (by
        intro h
        simp [proper, hp, h0])
      rwa [hv0 h0] at this
    constructor
    · intro hneg
      refine HasDerivAt.congr_of_eventuallyEq ?_ (hev _ hneg.ne)
      have h1 := (hd hneg.ne).comp par[k] (hasDerivAt_abs_neg hneg)
      rw [mul_neg_one] at h1
      exact h1
    · intro hpo
      refine HasDerivAt.congr_of_eventuallyEq ?_ (hev _ hpo.ne')
      have h1 := (hd hpo.ne').comp par[k] (hasDerivAt_abs_pos hpo)
      rw [mul_one] at h1
      exact h1

end BF.Signs
