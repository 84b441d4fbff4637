import Verif.Fixed
import Verif.Props.Combi

/-!
# Fixing parameters (C22)
-/

namespace BF.Fixed

open BF.Arr BF.Dynamic BF.Combi Finset

variable {α : Type*}

/-! ## Specification -/

/-- The model with `n` parameters of which those in `ks` are fixed, parameter `i` at `F i`. -/
def fm (n : ℕ) (ks : List ℕ) (F : ℕ → Fix α) : FM α := ⟨n, ks.map fun i => (i, F i)⟩

/-- The number of parameters of all fixed models. -/
def extra (ks : List ℕ) (F : ℕ → Fix α) : ℕ := (ks.map fun i => (F i).np).sum

/-- The number of free parameters: those of the model, then those of the fixed models. -/
def total (n : ℕ) (ks : List ℕ) (F : ℕ → Fix α) : ℕ := n - ks.length + extra ks F

/-- The place of the first parameter of the model fixed at `i`: behind the free parameters of the model
itself and those of the models before it. -/
def off (n : ℕ) (ks : List ℕ) (F : ℕ → Fix α) (i : ℕ) : ℕ :=
  n - ks.length + extra (ks.takeWhile fun k => decide (k ≠ i)) F

/-- The value of a fixed parameter when `p o, p (o+1), ...` are the parameters of its model. -/
def fixval (x : α) (p : ℕ → α) (o : ℕ) : Fix α → α
  | .val v => v
  | .mdl m res _ => res x ((List.range m).map fun l => p (o + l))

/-- Parameter `i` of the free model: its fixed value, the result of the model fixed there, or the next
one of the free parameters `p`. (`rank ks i` is the number of free parameters before `i`.) -/
def fullPar (n : ℕ) (ks : List ℕ) (F : ℕ → Fix α) (x : α) (p : ℕ → α) (i : ℕ) : α :=
  if i ∈ ks then fixval x p (off n ks F i) (F i) else p (rank ks i)

/-- All of them. -/
def full (n : ℕ) (ks : List ℕ) (F : ℕ → Fix α) (x : α) (p : ℕ → α) : List α :=
  (List.range n).map (fullPar n ks F x p)

/-! ## The list of free parameters -/

theorem rank_succ (ks : List ℕ) (i : ℕ) :
    rank ks (i + 1) = rank ks i + if i ∈ ks then 0 else 1 := by
  simp only [rank, List.range_succ, List.filter_append, List.length_append]
  by_cases h : i ∈ ks <;> simp [h]

theorem rank_all (n : ℕ) (ks : List ℕ) (h : ∀ i ∈ ks, i < n) (hnd : ks.Nodup) :
    rank ks n + ks.length = n := by
  have h1 := List.length_eq_length_filter_add (l := List.range n) (fun k => decide (k ∈ ks))
  have h2 : ((List.range n).filter fun k => decide (k ∈ ks)).Perm ks := by
    rw [List.perm_ext_iff_of_nodup (List.nodup_range.filter _) hnd]
    intro a
    simp only [List.mem_filter, List.mem_range, decide_eq_true_eq]
    exact ⟨fun h => h.2, fun hk => ⟨h a hk, hk⟩⟩
  have h3 := h2.length_eq
  have h4 : ((List.range n).filter fun k => !decide (k ∈ ks)).length = rank ks n := by
    unfold rank
    congr 1
    apply List.filter_congr
    intro a _
    simp
  rw [h3, h4] at h1
  simp at h1
  omega

theorem rank_add (n : ℕ) (ks : List ℕ) (h : ∀ i ∈ ks, i < n) (l : ℕ) :
    rank ks (n + l) = rank ks n + l := by
  induction l with
  | zero => rfl
  | succ l ih =>
    rw [← Nat.add_assoc, rank_succ, ih, if_neg]
    · omega
    · intro hc; have := h _ hc; omega

theorem rank_mono (ks : List ℕ) {i j : ℕ} (h : i ≤ j) : rank ks i ≤ rank ks j := by
  obtain ⟨d, rfl⟩ : ∃ d, j = i + d := ⟨j - i, by omega⟩
  unfold rank
  rw [List.range_add, List.filter_append, List.length_append]
  omega

theorem setxor_eq (N : ℕ) (ks : List ℕ) (h : ∀ i ∈ ks, i < N) :
    setxor1d (List.range N) ks = (List.range N).filter fun k => decide (k ∉ ks) := by
  unfold setxor1d
  have h1 : (ks.filter fun k => decide (k ∉ List.range N)) = [] := by
    rw [List.filter_eq_nil_iff]
    intro a ha
    have := h a ha
    simp [this]
  rw [h1, List.append_nil, List.Nodup.dedup (List.nodup_range.filter _)]
  set l := (List.range N).filter fun k => decide (k ∉ ks)
  have hsorted : (l.mergeSort (fun a b => decide (a ≤ b))).Pairwise (· ≤ ·) := by
    have := List.pairwise_mergeSort (le := fun a b : ℕ => decide (a ≤ b))
      (fun a b c => by simp; omega) (fun a b => by simp; omega) l
    simpa using this
  exact List.Perm.eq_of_pairwise' (r := (· ≤ ·)) hsorted
    ((List.pairwise_lt_range.imp fun h => le_of_lt h).filter _) (List.mergeSort_perm l _)

section

variable (n : ℕ) (ks : List ℕ) (F : ℕ → Fix α)

theorem npb_eq : (fm n ks F).npb = n + extra ks F := by
  simp [FM.npb, fm, extra, Function.comp_def]

theorem keys_eq : (fm n ks F).fixed.map Prod.fst = ks := by
  simp [fm, Function.comp_def]

theorem parlist_eq (h : ∀ i ∈ ks, i < n) :
    (fm n ks F).parlist = (List.range (n + extra ks F)).filter fun k => decide (k ∉ ks) := by
  unfold FM.parlist
  rw [npb_eq, keys_eq, setxor_eq]
  intro i hi; have := h i hi; omega

theorem parlist_get (h : ∀ i ∈ ks, i < n) (i : ℕ) (hi : i < n + extra ks F) (hk : i ∉ ks) :
    (fm n ks F).parlist[rank ks i]? = some i := by
  rw [parlist_eq n ks F h]
  exact filter_range_get (fun k => decide (k ∉ ks)) _ i hi (by simpa using hk)

theorem parlist_length (h : ∀ i ∈ ks, i < n) (hnd : ks.Nodup) :
    (fm n ks F).parlist.length = total n ks F := by
  rw [parlist_eq n ks F h]
  show rank ks (n + extra ks F) = _
  rw [rank_add n ks h]
  have := rank_all n ks h hnd
  unfold total
  omega

theorem scatter_free [Zero α] (h : ∀ i ∈ ks, i < n) (hnd : ks.Nodup) (p : ℕ → α) :
    scatter (List.replicate (fm n ks F).npb 0) (fm n ks F).parlist
      ((List.range (total n ks F)).map p)
      = some ((List.range (n + extra ks F)).map fun i => if i ∈ ks then 0 else p (rank ks i)) := by
  obtain ⟨b, s1, s2, s3, s4⟩ := scatter_spec (List.replicate (fm n ks F).npb (0 : α))
    (fm n ks F).parlist ((List.range (total n ks F)).map p)
    (by simp [parlist_length n ks F h hnd])
    (by
      intro i hi
      rw [parlist_eq n ks F h, List.mem_filter] at hi
      rw [npb_eq]
      simpa using hi.1)
    (by rw [parlist_eq n ks F h]; exact List.nodup_range.filter _)
  rw [s1]
  congr 1
  apply List.ext_getElem?
  intro i
  by_cases hi : i < n + extra ks F
  · by_cases hk : i ∈ ks
    · rw [s4 i (by rw [parlist_eq n ks F h]; simp [hk])]
      simp [hi, hk, npb_eq]
    · rw [s3 _ i (parlist_get n ks F h i hi hk)]
      have hlt : rank ks i < total n ks F := by
        rw [← parlist_length n ks F h hnd]
        exact (List.getElem?_eq_some_iff.1 (parlist_get n ks F h i hi hk)).1
      simp [hi, hk, hlt]
  · rw [List.getElem?_eq_none (by rw [s2]; simpa [npb_eq] using hi),
      List.getElem?_eq_none (by simpa using hi)]

end

/-! ## Expanding -/

theorem slice_map_range (T o m : ℕ) (p : ℕ → α) (h : o + m ≤ T) :
    (((List.range T).map p).drop o).take m = (List.range m).map fun l => p (o + l) := by
  apply List.ext_getElem?
  intro i
  by_cases hi : i < m
  · rw [List.getElem?_take_of_lt hi, List.getElem?_drop]
    simp [hi, show o + i < T by omega]
  · rw [List.getElem?_eq_none (by simp; omega), List.getElem?_eq_none (by simpa using hi)]

theorem extra_cons (k : ℕ) (ks : List ℕ) (F : ℕ → Fix α) :
    extra (k :: ks) F = (F k).np + extra ks F := by simp [extra]

theorem expLoop_eq (T N : ℕ) (x : α) (p : ℕ → α) (F : ℕ → Fix α) (ks : List ℕ)
    (h : ∀ i ∈ ks, i < N) (hnd : ks.Nodup) :
    ∀ (ns : ℕ) (q : ℕ → α), ns + extra ks F ≤ T →
    expLoop x ((List.range T).map p) (ks.map fun i => (i, F i)) ns ((List.range N).map q)
      = some ((List.range N).map fun i => if i ∈ ks then
          fixval x p (ns + extra (ks.takeWhile fun k => decide (k ≠ i)) F) (F i) else q i) := by
  induction ks with
  | nil => intro ns q _; simp [expLoop]
  | cons k ks ih =>
    intro ns q hT
    have hk := h k (by simp)
    obtain ⟨hnk, hnd'⟩ := List.nodup_cons.1 hnd
    rw [extra_cons] at hT
    have hstep : expLoop x ((List.range T).map p) ((k :: ks).map fun i => (i, F i)) ns
        ((List.range N).map q)
        = expLoop x ((List.range T).map p) (ks.map fun i => (i, F i)) (ns + (F k).np)
          ((List.range N).map (Function.update q k (fixval x p ns (F k)))) := by
      rw [List.map_cons]
      cases hF : F k with
      | val v => simp [expLoop, hk, Fix.np, fixval, set_map_range]
      | mdl m res par =>
        rw [hF] at hT
        simp only [Fix.np] at hT ⊢
        rw [expLoop, if_pos (by simpa using hk), slice_map_range T ns m p (by omega), set_map_range]
        rfl
    rw [hstep, ih (fun i hi => h i (by simp [hi])) hnd' _ _ (by omega)]
    congr 1
    apply List.map_congr_left
    intro i _
    by_cases hik : i = k
    · subst hik
      simp [hnk, extra]
    · by_cases him : i ∈ ks
      · have : k ≠ i := fun h => hik h.symm
        simp [him, this, extra_cons, Nat.add_assoc]
      · simp [him, hik, Function.update_of_ne hik]

theorem extra_vals (ks : List ℕ) (F : ℕ → Fix α) (h : ∀ i ∈ ks, (F i).isModel = false) :
    extra ks F = 0 := by
  unfold extra
  apply List.sum_eq_zero
  intro a ha
  obtain ⟨i, hi, rfl⟩ := List.mem_map.1 ha
  have := h i hi
  cases hF : F i with
  | val v => rfl
  | mdl m res par => rw [hF] at this; simp [Fix.isModel] at this

theorem mlist_nil (n : ℕ) (ks : List ℕ) (F : ℕ → Fix α) :
    (fm n ks F).mlist = [] ↔ ∀ i ∈ ks, (F i).isModel = false := by
  simp [FM.mlist, fm, List.filter_eq_nil_iff]

theorem values_eq (x : α) (p : ℕ → α) (ks : List ℕ) (F : ℕ → Fix α)
    (h : ∀ i ∈ ks, (F i).isModel = false) :
    values (ks.map fun i => (i, F i)) = ks.map fun i => fixval x p 0 (F i) := by
  induction ks with
  | nil => rfl
  | cons k ks ih =>
    have hk := h k (by simp)
    have := ih fun i hi => h i (by simp [hi])
    cases hF : F k with
    | val v => simp [hF, values, fixval, this]
    | mdl m res par => rw [hF] at hk; simp [Fix.isModel] at hk

/-- All parameters of the free model, and behind them those of the fixed models. -/
theorem expand_eq [Zero α] (n : ℕ) (ks : List ℕ) (F : ℕ → Fix α) (h : ∀ i ∈ ks, i < n)
    (hnd : ks.Nodup) (x : α) (p : ℕ → α) :
    (fm n ks F).expand x ((List.range (total n ks F)).map p)
      = some ((List.range (n + extra ks F)).map (fullPar n ks F x p)) := by
  unfold FM.expand
  rw [scatter_free n ks F h hnd p]
  simp only
  have hlen : (fm n ks F).fixed.length = ks.length := by simp [fm]
  by_cases hm : (fm n ks F).mlist = []
  · rw [if_pos hm]
    have hv := (mlist_nil n ks F).1 hm
    rw [keys_eq, show (fm n ks F).fixed = ks.map fun i => (i, F i) from rfl, values_eq x p ks F hv]
    obtain ⟨b, s1, s2, s3, s4⟩ := scatter_spec
      ((List.range (n + extra ks F)).map fun i => if i ∈ ks then 0 else p (rank ks i)) ks
      (ks.map fun i => fixval x p 0 (F i)) (by simp)
      (by intro i hi; have := h i hi; simp; omega) hnd
    rw [s1]
    congr 1
    apply List.ext_getElem?
    intro i
    by_cases hi : i < n + extra ks F
    · by_cases hk : i ∈ ks
      · obtain ⟨c, hc⟩ := List.mem_iff_getElem?.1 hk
        rw [s3 c i hc]
        have hvi := hv i hk
        cases hF : F i with
        | val v => simp [hi, hk, hc, fullPar, hF, fixval]
        | mdl m res par => rw [hF] at hvi; simp [Fix.isModel] at hvi
      · rw [s4 i hk]
        simp [hi, hk, fullPar]
    · rw [List.getElem?_eq_none (by rw [s2]; simpa using hi),
        List.getElem?_eq_none (by simpa using hi)]
  · rw [if_neg hm, hlen, show (fm n ks F).fixed = ks.map fun i => (i, F i) from rfl,
      show (fm n ks F).npmax = n from rfl,
      expLoop_eq (total n ks F) (n + extra ks F) x p F ks
        (fun i hi => by have := h i hi; omega) hnd _ _ (le_refl _)]
    congr 1
    apply List.map_congr_left
    intro i _
    by_cases hk : i ∈ ks <;> simp [fullPar, hk, off]

/-! ## The properties -/

/-- The result of a model with fixed parameters is that of the free model with the fixed values, and the
results of the fixed models, at their places and the free parameters, in order, at the others. -/
theorem C22_result [Zero α] (n : ℕ) (ks : List ℕ) (F : ℕ → Fix α) (h : ∀ i ∈ ks, i < n)
    (hnd : ks.Nodup) (R : List α → α) (x : α) (p : ℕ → α) :
    (fm n ks F).npbase = total n ks F ∧
    (fm n ks F).result R x ((List.range (total n ks F)).map p) = some (R (full n ks F x p)) := by
  have hr := rank_all n ks h hnd
  refine ⟨?_, ?_⟩
  · rw [FM.npbase, npb_eq]
    simp only [fm, List.length_map, total]
    omega
  · unfold FM.result
    rw [expand_eq n ks F h hnd]
    simp only [Option.map_some]
    rw [← List.map_take, List.take_range, show (fm n ks F).npmax = n from rfl,
      min_eq_left (Nat.le_add_right _ _)]
    rfl

/-- The derivative to x, for a model without fixed models. -/
theorem C22_derivative [Zero α] (n : ℕ) (ks : List ℕ) (F : ℕ → Fix α) (h : ∀ i ∈ ks, i < n)
    (hnd : ks.Nodup) (hv : ∀ i ∈ ks, (F i).isModel = false) (dR : List α → α) (x : α) (p : ℕ → α) :
    (fm n ks F).derivative dR x ((List.range (total n ks F)).map p)
      = some (dR (full n ks F x p)) := by
  unfold FM.derivative
  rw [expand_eq n ks F h hnd, extra_vals ks F hv]
  rfl

/-- The partials of the model fixed at `i`, at the parameters that are its own. -/
def subPar (n : ℕ) (ks : List ℕ) (F : ℕ → Fix α) (x : α) (p : ℕ → α) (i : ℕ) : List α :=
  match F i with
  | .val _ => []
  | .mdl m _ par => par x ((List.range m).map fun l => p (off n ks F i + l))

theorem partLoop_eq [CommSemiring α] (n nf T : ℕ) (x : α) (E : ℕ → α) (e : ℕ → α) (p : ℕ → α)
    (N : ℕ) (F : ℕ → Fix α) (bp : List α)
    (he : ∀ l, nf + l < T → n + l < N ∧ e (n + l) = p (nf + l))
    (hpar : ∀ i m res par, F i = .mdl m res par → ∀ y l, l.length = m → (par y l).length = m) (ks : List ℕ)
    (hnd : ks.Nodup) :
    ∀ (s c : ℕ) (part : List α), part.length = T → nf + s + extra ks F ≤ T →
    bp.drop c = ((ks.filter fun i => (F i).isModel).map E) →
    ∃ part', partLoop x bp ((List.range N).map e) ((ks.filter fun i => (F i).isModel).map F)
        (nf + s) c (n + s) part = some part' ∧ part'.length = T ∧
      (∀ k, k < nf + s → part'[k]? = part[k]?) ∧
      (∀ i ∈ ks, ∀ m res par, F i = .mdl m res par → ∀ (l : ℕ) (g : α), l < m →
        (par x ((List.range m).map fun l =>
          p (nf + s + extra (ks.takeWhile fun k => decide (k ≠ i)) F + l)))[l]? = some g →
        part'[nf + s + extra (ks.takeWhile fun k => decide (k ≠ i)) F + l]? = some (E i * g)) := by
  induction ks with
  | nil => intro s c part h1 _ _; exact ⟨part, by simp [partLoop], h1, by simp, by simp⟩
  | cons k ks ih =>
    intro s c part hT hs hbp
    obtain ⟨hnk, hnd'⟩ := List.nodup_cons.1 hnd
    rw [extra_cons] at hs
    have htw : ∀ i ∈ ks, (k :: ks).takeWhile (fun k' => decide (k' ≠ i))
        = k :: ks.takeWhile (fun k' => decide (k' ≠ i)) := by
      intro i hi
      have : k ≠ i := fun hc => hnk (hc ▸ hi)
      simp [this]
    cases hF : F k with
    | val v =>
      have hf : (k :: ks).filter (fun i => (F i).isModel) = ks.filter (fun i => (F i).isModel) := by
        simp [hF, Fix.isModel]
      rw [hf] at hbp ⊢
      have hnp : (F k).np = 0 := by rw [hF]; rfl
      obtain ⟨part', g1, g2, g3, g4⟩ := ih hnd' s c part hT (by omega) hbp
      refine ⟨part', g1, g2, g3, ?_⟩
      intro i hi m res par hFi
      rcases List.mem_cons.1 hi with rfl | hi
      · rw [hF] at hFi; exact absurd hFi (by simp)
      · rw [htw i hi, extra_cons, hnp, Nat.zero_add]
        exact g4 i hi m res par hFi
    | mdl m res par =>
      have hf : (k :: ks).filter (fun i => (F i).isModel)
          = k :: ks.filter (fun i => (F i).isModel) := by
        simp [hF, Fix.isModel]
      rw [hf] at hbp ⊢
      have hnp : (F k).np = m := by rw [hF]; rfl
      rw [hnp] at hs
      have hbc : bp[c]? = some (E k) := by
        have := congrArg (·[0]?) hbp
        simpa using this
      have hbp' : bp.drop (c + 1) = (ks.filter fun i => (F i).isModel).map E := by
        rw [← List.drop_drop, hbp]; rfl
      have hsl : (((List.range N).map e).drop (n + s)).take m
          = (List.range m).map fun l => p (nf + s + l) := by
        rw [List.ext_getElem?_iff]
        intro l
        by_cases hl : l < m
        · have hlN : n + s + l < N := by
            rw [Nat.add_assoc]; exact (he (s + l) (by omega)).1
          rw [List.getElem?_take_of_lt hl, List.getElem?_drop]
          have := (he (s + l) (by omega)).2
          rw [← Nat.add_assoc, ← Nat.add_assoc] at this
          simp [hl, hlN, this]
        · rw [List.getElem?_eq_none (by simp; omega), List.getElem?_eq_none (by simpa using hl)]
      set G := par x ((List.range m).map fun l => p (nf + s + l)) with hG
      have hGl : G.length = m := hpar k m res par hF x _ (by simp)
      obtain ⟨b, s1, s2, s3, s4⟩ := scatter_spec part ((List.range m).map (nf + s + ·))
        (G.map (E k * ·)) (by simp [hGl]) (by
          intro i hi
          simp only [List.mem_map, List.mem_range] at hi
          obtain ⟨l, hl, rfl⟩ := hi
          omega) (List.nodup_range.map fun a b h => by simpa using h)
      obtain ⟨part', g1, g2, g3, g4⟩ := ih hnd' (s + m) (c + 1) b (by omega) (by omega) hbp'
      refine ⟨part', ?_, g2, ?_, ?_⟩
      · rw [List.map_cons, hF, partLoop, hbc]
        simp only [hsl, ← hG, s1]
        rw [← g1, Nat.add_assoc nf s m, Nat.add_assoc n s m]
      · intro j hj
        rw [g3 j (by omega), s4]
        simp only [List.mem_map, List.mem_range, not_exists, not_and]
        intro l _; omega
      · intro i hi m' res' par' hFi l g hl hg
        rcases List.mem_cons.1 hi with rfl | hi
        · rw [hF] at hFi
          simp only [Fix.mdl.injEq] at hFi
          obtain ⟨rfl, rfl, rfl⟩ := hFi
          have e0 : extra ((i :: ks).takeWhile fun k => decide (k ≠ i)) F = 0 := by simp [extra]
          simp only [e0, Nat.add_zero] at hg ⊢
          rw [g3 _ (by omega), s3 l (nf + s + l) (by simp [hl]), List.getElem?_map, hG, hg]
          rfl
        · have e1 : nf + s + extra ((k :: ks).takeWhile fun k => decide (k ≠ i)) F
              = nf + (s + m) + extra (ks.takeWhile fun k => decide (k ≠ i)) F := by
            rw [htw i hi, extra_cons, hnp]; omega
          rw [e1] at hg ⊢
          exact g4 i hi m' res' par' hFi l g hl hg

/-- The partials of a model with fixed parameters: at a free parameter that of the free model; at a
parameter of a fixed model that of the free model times that of the fixed model. -/
theorem C22_partials [CommSemiring α] (n : ℕ) (ks : List ℕ) (F : ℕ → Fix α) (h : ∀ i ∈ ks, i < n)
    (hnd : ks.Nodup) (hpar : ∀ i m res par, F i = .mdl m res par → ∀ y l, l.length = m → (par y l).length = m)
    (D : List α → ℕ → α) (x : α) (p : ℕ → α) :
    ∃ part, (fm n ks F).partials D x ((List.range (total n ks F)).map p) = some part ∧
      part.length = total n ks F ∧
      (∀ i, i < n → i ∉ ks → part[rank ks i]? = some (D (full n ks F x p) i)) ∧
      (∀ i ∈ ks, ∀ (l : ℕ) (g : α), (subPar n ks F x p i)[l]? = some g →
        part[off n ks F i + l]? = some (D (full n ks F x p) i * g)) := by
  unfold FM.partials
  rw [expand_eq n ks F h hnd]
  simp only
  have hr := rank_all n ks h hnd
  by_cases hm : (fm n ks F).mlist = []
  · rw [if_pos hm]
    have hv := (mlist_nil n ks F).1 hm
    have hE : (List.range (n + extra ks F)).map (fullPar n ks F x p) = full n ks F x p := by
      rw [extra_vals ks F hv]; rfl
    rw [hE]
    refine ⟨_, rfl, by simp [parlist_length n ks F h hnd], ?_, ?_⟩
    · intro i hi hk
      rw [List.getElem?_map, parlist_get n ks F h i (by omega) hk]
      rfl
    · intro i hi l g hg
      have := hv i hi
      cases hF : F i with
      | val v => simp [subPar, hF] at hg
      | mdl m res par => rw [hF] at this; simp [Fix.isModel] at this
  · rw [if_neg hm]
    have hnf : (fm n ks F).npmax - (fm n ks F).fixed.length = rank ks n := by
      simp only [fm, List.length_map]; omega
    have hnf' : n - ks.length = rank ks n := by omega
    have htk : ((List.range (n + extra ks F)).map (fullPar n ks F x p)).take (fm n ks F).npmax
        = full n ks F x p := by
      rw [← List.map_take, List.take_range, show (fm n ks F).npmax = n from rfl,
        min_eq_left (Nat.le_add_right _ _)]
      rfl
    have hml : (fm n ks F).mlist = ks.filter fun i => (F i).isModel := by
      simp only [FM.mlist, fm, List.filter_map, List.map_map]
      simp [Function.comp_def]
    have hms : (((fm n ks F).fixed.filter fun kv => kv.2.isModel).map Prod.snd)
        = (ks.filter fun i => (F i).isModel).map F := by
      simp only [fm, List.filter_map, List.map_map]
      rfl
    simp only [hnf, htk, hml, hms]
    set E := D (full n ks F x p) with hE
    have hpl : rank ks n ≤ (fm n ks F).parlist.length := by
      rw [parlist_length n ks F h hnd]; unfold total; omega
    set bp := ((fm n ks F).parlist.take (rank ks n) ++ ks.filter fun i => (F i).isModel).map E
      with hbp
    have hbt : bp.take (rank ks n) = ((fm n ks F).parlist.take (rank ks n)).map E := by
      rw [hbp, List.map_append, List.take_left' (by simp; omega)]
    have hbd : bp.drop (rank ks n) = (ks.filter fun i => (F i).isModel).map E := by
      rw [hbp, List.map_append, List.drop_left' (by simp; omega)]
    have hT : total n ks F = rank ks n + extra ks F := by unfold total; omega
    obtain ⟨b, s1, s2, s3, s4⟩ := scatter_spec
      (List.replicate ((List.range (total n ks F)).map p).length (0 : α)) (List.range (rank ks n))
      (bp.take (rank ks n)) (by rw [hbt]; simp; omega)
      (by intro i hi; have : i < rank ks n := by simpa using hi
          simp; omega) List.nodup_range
    rw [s1]
    simp only
    have hlen : b.length = total n ks F := by rw [s2]; simp
    obtain ⟨part, g1, g2, g3, g4⟩ := partLoop_eq n (rank ks n) (total n ks F) x E
      (fullPar n ks F x p) p (n + extra ks F) F bp
      (by
        intro l hl
        refine ⟨by omega, ?_⟩
        have : n + l ∉ ks := fun hc => by have := h _ hc; omega
        simp [fullPar, this, rank_add n ks h])
      hpar ks hnd 0 (rank ks n) b hlen (by omega) hbd
    simp only [Nat.add_zero] at g1 g3 g4
    refine ⟨part, g1, g2, ?_, ?_⟩
    · intro i hi hk
      have hlt : rank ks i < rank ks n := by
        have := rank_mono ks (show i + 1 ≤ n from hi)
        rw [rank_succ, if_neg hk] at this
        omega
      rw [g3 _ hlt, s3 (rank ks i) (rank ks i) (by simp [hlt]), hbt, List.getElem?_map,
        List.getElem?_take_of_lt hlt, parlist_get n ks F h i (by omega) hk]
      rfl
    · intro i hi l g hg
      cases hF : F i with
      | val v => simp [subPar, hF] at hg
      | mdl m res par =>
        simp only [subPar, hF] at hg
        have hl : l < m := by
          have := (List.getElem?_eq_some_iff.1 hg).1
          rwa [hpar i m res par hF _ _ (by simp)] at this
        unfold off at hg ⊢
        rw [hnf'] at hg ⊢
        exact g4 i hi m res par hF l g hl hg

/-! ### The true derivatives -/

/-- Every place in the list of parameters is that of a free parameter or of one parameter of one fixed
model. -/
theorem place_cases (n : ℕ) (ks : List ℕ) (F : ℕ → Fix α) (h : ∀ i ∈ ks, i < n) (hnd : ks.Nodup)
    (k : ℕ) (hk : k < total n ks F) :
    (∃ i, i < n ∧ i ∉ ks ∧ rank ks i = k) ∨
    (∃ i ∈ ks, ∃ l, l < (F i).np ∧ off n ks F i + l = k) := by
  have hr := rank_all n ks h hnd
  by_cases hkn : k < rank ks n
  · left
    have : k < ((List.range n).filter fun k => decide (k ∉ ks)).length := hkn
    set L := (List.range n).filter fun k => decide (k ∉ ks) with hL
    have hmem : L[k] ∈ (List.range n).filter fun k => decide (k ∉ ks) := List.getElem_mem this
    rw [List.mem_filter] at hmem
    have h1 : L[k] < n := by simpa using hmem.1
    have h2 : L[k] ∉ ks := by simpa using hmem.2
    refine ⟨L[k], h1, h2, ?_⟩
    have h3 := filter_range_get (fun k => decide (k ∉ ks)) n L[k] h1 (by simpa using h2)
    obtain ⟨h4, h5⟩ := List.getElem?_eq_some_iff.1 h3
    have hnd' : L.Nodup := List.nodup_range.filter _
    exact (hnd'.getElem_inj_iff).1 h5
  · right
    have key : ∀ (ls : List ℕ), ls.Nodup → ∀ d, d < extra ls F →
        ∃ i ∈ ls, ∃ l, l < (F i).np ∧ extra (ls.takeWhile fun k => decide (k ≠ i)) F + l = d := by
      intro ls
      induction ls with
      | nil => intro _ d hd; simp [extra] at hd
      | cons a ls ih =>
        intro hn d hd
        obtain ⟨ha, hn'⟩ := List.nodup_cons.1 hn
        rw [extra_cons] at hd
        by_cases hda : d < (F a).np
        · exact ⟨a, by simp, d, hda, by simp [extra]⟩
        · obtain ⟨i, hi, l, hl, he⟩ := ih hn' (d - (F a).np) (by omega)
          have : a ≠ i := fun hc => ha (hc ▸ hi)
          refine ⟨i, by simp [hi], l, hl, ?_⟩
          simp only [List.takeWhile_cons, this, ne_eq, not_false_eq_true, decide_true, if_true,
            extra_cons]
          simp only [ne_eq] at he
          omega
    unfold total at hk
    obtain ⟨i, hi, l, hl, he⟩ := key ks hnd (k - rank ks n) (by omega)
    exact ⟨i, hi, l, hl, by unfold off; omega⟩

theorem off_inj (n : ℕ) (ks : List ℕ) (F : ℕ → Fix α) (hnd : ks.Nodup) (i j l l' : ℕ) (hi : i ∈ ks)
    (hj : j ∈ ks) (hl : l < (F i).np) (hl' : l' < (F j).np)
    (he : off n ks F i + l = off n ks F j + l') : i = j ∧ l = l' := by
  have key : ∀ (ls : List ℕ), ls.Nodup → i ∈ ls → j ∈ ls →
      extra (ls.takeWhile fun k => decide (k ≠ i)) F + l
        = extra (ls.takeWhile fun k => decide (k ≠ j)) F + l' → i = j := by
    intro ls
    induction ls with
    | nil => intro _ h; simp at h
    | cons a ls ih =>
      intro hn hi hj he
      obtain ⟨ha, hn'⟩ := List.nodup_cons.1 hn
      by_cases hai : a = i <;> by_cases haj : a = j
      · rw [← hai, haj]
      · exfalso
        subst hai
        simp only [List.takeWhile_cons, haj, ne_eq, not_true_eq_false, decide_false,
          Bool.false_eq_true, if_false, not_false_eq_true, decide_true, if_true, extra_cons] at he
        simp [extra] at he
        omega
      · exfalso
        subst haj
        simp only [List.takeWhile_cons, hai, ne_eq, not_true_eq_false, decide_false,
          Bool.false_eq_true, if_false, not_false_eq_true, decide_true, if_true, extra_cons] at he
        simp [extra] at he
        omega
      · simp only [List.takeWhile_cons, hai, haj, ne_eq, not_false_eq_true, decide_true, if_true,
          extra_cons] at he
        refine ih hn' ?_ ?_ ?_
        · rcases List.mem_cons.1 hi with h | h
          · exact absurd h.symm hai
          · exact h
        · rcases List.mem_cons.1 hj with h | h
          · exact absurd h.symm haj
          · exact h
        · simp only [ne_eq]; omega
  unfold off at he
  have := key ks hnd hi hj (by omega)
  subst this
  exact ⟨rfl, by omega⟩

/-- When the free model and the fixed models return their true derivatives, so does the model with
fixed parameters, for each of its parameters. -/
theorem C22_partials_true (n : ℕ) (ks : List ℕ) (F : ℕ → Fix ℝ) (h : ∀ i ∈ ks, i < n)
    (hnd : ks.Nodup) (hpar : ∀ i m res par, F i = .mdl m res par → ∀ y l, l.length = m → (par y l).length = m)
    (R : List ℝ → ℝ) (D : List ℝ → ℕ → ℝ) (x : ℝ) (p : ℕ → ℝ)
    (hR : HasFDerivAt (fun q : Fin n → ℝ => R (List.ofFn q))
      (∑ i : Fin n, D (full n ks F x p) i
        • ContinuousLinearMap.proj (R := ℝ) (φ := fun _ : Fin n => ℝ) i)
      (fun i => fullPar n ks F x p i))
    (hsub : ∀ i ∈ ks, ∀ m res par, F i = .mdl m res par → ∀ (l : ℕ) (g : ℝ), l < m →
      (par x ((List.range m).map fun l => p (off n ks F i + l)))[l]? = some g →
      HasDerivAt (fun t => res x (((List.range m).map fun l => p (off n ks F i + l)).set l t)) g
        (p (off n ks F i + l)))
    (k : ℕ) (hk : k < total n ks F) :
    ∃ der value, ((fm n ks F).partials D x ((List.range (total n ks F)).map p)).bind (·[k]?)
        = some der ∧
      (∀ t, (fm n ks F).result R x (((List.range (total n ks F)).map p).set k t)
        = some (value t)) ∧
      HasDerivAt value der (p k) := by
  obtain ⟨part, h1, h2, h3, h4⟩ := C22_partials n ks F h hnd hpar D x p
  have hres : ∀ t, (fm n ks F).result R x (((List.range (total n ks F)).map p).set k t)
      = some (R (full n ks F x (Function.update p k t))) := by
    intro t
    rw [set_map_range]
    exact (C22_result n ks F h hnd R x (Function.update p k t)).2
  have hlist : ∀ q : ℕ → ℝ, (List.range n).map q = List.ofFn fun i : Fin n => q i := by
    intro q
    apply List.ext_getElem
    · simp
    · intro i h1 h2; simp
  -- it is enough to know the derivatives of the full parameters
  have main : ∀ c : ℕ → ℝ, (∀ i, i < n →
      HasDerivAt (fun t => fullPar n ks F x (Function.update p k t) i) (c i) (p k)) →
      HasDerivAt (fun t => R (full n ks F x (Function.update p k t)))
        (∑ i ∈ range n, D (full n ks F x p) i * c i) (p k) := by
    intro c hc
    simp only [full, hlist]
    have hc' : HasDerivAt (fun t => fun i : Fin n => fullPar n ks F x (Function.update p k t) i)
        (fun i : Fin n => c i) (p k) := by
      rw [hasDerivAt_pi]
      intro i
      exact hc i i.2
    have h0 := hR
    have e : (fun i : Fin n => fullPar n ks F x p i)
        = (fun t => fun i : Fin n => fullPar n ks F x (Function.update p k t) i) (p k) := by
      funext i
      simp
    rw [e] at h0
    refine (h0.comp_hasDerivAt (p k) hc').congr_deriv ?_
    rw [ContinuousLinearMap.sum_apply, Finset.sum_range]
    simp only [ContinuousLinearMap.smul_apply, ContinuousLinearMap.proj_apply, smul_eq_mul]
    simp only [full, hlist]
  have hr := rank_all n ks h hnd
  have hrl : ∀ i, i < n → i ∉ ks → rank ks i < rank ks n := by
    intro i hi hk
    have := rank_mono ks (show i + 1 ≤ n from hi)
    rw [rank_succ, if_neg hk] at this
    omega
  have hrinj : ∀ i j, i < n → j < n → i ∉ ks → j ∉ ks → rank ks i = rank ks j → i = j := by
    intro i j hi hj hik hjk he
    have e1 := filter_range_get (fun k => decide (k ∉ ks)) n i hi (by simpa using hik)
    have e2 := filter_range_get (fun k => decide (k ∉ ks)) n j hj (by simpa using hjk)
    have e3 : ((List.range i).filter fun k => decide (k ∉ ks)).length
        = ((List.range j).filter fun k => decide (k ∉ ks)).length := he
    rw [e3, e2] at e1
    exact (Option.some.inj e1).symm
  -- the value of a fixed parameter depends only on its own parameters
  have hfix : ∀ i ∈ ks, (∀ l, l < (F i).np → off n ks F i + l ≠ k) → ∀ t,
      fixval x (Function.update p k t) (off n ks F i) (F i) = fixval x p (off n ks F i) (F i) := by
    intro i hi hne t
    cases hF : F i with
    | val v => rfl
    | mdl m res par =>
      simp only [fixval]
      congr 1
      apply List.map_congr_left
      intro l hl
      have hl : l < m := by simpa using hl
      exact Function.update_of_ne (hne l (by rw [hF]; exact hl)) _ _
  rcases place_cases n ks F h hnd k hk with ⟨i0, hi0, hk0, hrk⟩ | ⟨i0, hi0, l0, hl0, hok⟩
  · refine ⟨D (full n ks F x p) i0, fun t => R (full n ks F x (Function.update p k t)), ?_, hres, ?_⟩
    · rw [h1, Option.bind_some, ← hrk]
      exact h3 i0 hi0 hk0
    · have := main (fun i => if i = i0 then 1 else 0) (by
        intro i hi
        unfold fullPar
        by_cases hik : i ∈ ks
        · have hne : i ≠ i0 := fun hc => hk0 (hc ▸ hik)
          simp only [hik, if_true, hne, if_false]
          have : (fun t => fixval x (Function.update p k t) (off n ks F i) (F i))
              = fun _ => fixval x p (off n ks F i) (F i) := by
            funext t
            apply hfix i hik
            intro l hl hc
            have := hrl i0 hi0 hk0
            unfold off at hc
            omega
          rw [this]
          exact hasDerivAt_const _ _
        · simp only [hik, if_false]
          by_cases hii : i = i0
          · subst hii
            simp only [hrk, Function.update_self, if_true]
            exact hasDerivAt_id _
          · have hne : rank ks i ≠ k := fun hc =>
              hii (hrinj i i0 hi hi0 hik hk0 (hc.trans hrk.symm))
            simp only [Function.update_of_ne hne, hii, if_false]
            exact hasDerivAt_const _ _)
      refine this.congr_deriv ?_
      simp [hi0]
  · cases hF : F i0 with
    | val v => rw [hF] at hl0; simp [Fix.np] at hl0
    | mdl m res par =>
      have hl0' : l0 < m := by rw [hF] at hl0; exact hl0
      have hlen : l0 < (par x ((List.range m).map fun l => p (off n ks F i0 + l))).length := by
        rw [hpar i0 m res par hF _ _ (by simp)]; exact hl0'
      obtain ⟨g, hg⟩ : ∃ g, (par x ((List.range m).map fun l => p (off n ks F i0 + l)))[l0]?
          = some g := ⟨_, List.getElem?_eq_getElem hlen⟩
      refine ⟨D (full n ks F x p) i0 * g, fun t => R (full n ks F x (Function.update p k t)), ?_,
        hres, ?_⟩
      · rw [h1, Option.bind_some, ← hok]
        exact h4 i0 hi0 l0 g (by simp only [subPar, hF]; exact hg)
      · have := main (fun i => if i = i0 then g else 0) (by
          intro i hi
          unfold fullPar
          by_cases hik : i ∈ ks
          · simp only [hik, if_true]
            by_cases hii : i = i0
            · subst hii
              simp only [if_true, hF, fixval]
              have hd := hsub i hi0 m res par hF l0 g hl0' hg
              rw [hok] at hd
              refine hd.congr_of_eventuallyEq (Filter.Eventually.of_forall fun t => ?_)
              simp only
              congr 1
              rw [set_map_range]
              apply List.map_congr_left
              intro l _
              by_cases hll : l = l0
              · subst hll; rw [hok]; simp
              · rw [Function.update_of_ne hll, Function.update_of_ne (by omega)]
            · simp only [hii, if_false]
              have : (fun t => fixval x (Function.update p k t) (off n ks F i) (F i))
                  = fun _ => fixval x p (off n ks F i) (F i) := by
                funext t
                apply hfix i hik
                intro l hl hc
                exact hii (off_inj n ks F hnd i i0 l l0 hik hi0 hl hl0 (hc.trans hok.symm)).1
              rw [this]
              exact hasDerivAt_const _ _
          · have hne : i ≠ i0 := fun hc => hik (hc ▸ hi0)
            have hne' : rank ks i ≠ k := by
              intro hc
              have := hrl i hi hik
              unfold off at hok
              omega
            simp only [hik, if_false, hne, Function.update_of_ne hne']
            exact hasDerivAt_const _ _)
        refine this.congr_deriv ?_
        simp [h i0 hi0]

/-- Negative keys count from the end. -/
theorem C22_negative_keys (n : ℕ) (fixed : List (ℤ × Fix α))
    (hd : (fixed.map fun kv => if kv.1 < 0 then kv.1 + (n : ℤ) else kv.1).Nodup) :
    normalise n fixed = fixed.map fun kv => (if kv.1 < 0 then kv.1 + (n : ℤ) else kv.1, kv.2) := by
  have hset : ∀ (d : List (ℤ × Fix α)) (k : ℤ) (v : Fix α), k ∉ d.map Prod.fst →
      dictSet d k v = d ++ [(k, v)] := by
    intro d
    induction d with
    | nil => intro k v _; rfl
    | cons a d ih =>
      intro k v hk
      have h' : ¬ a.1 = k := fun hc => hk (by simp [hc])
      rcases a with ⟨a1, a2⟩
      rw [dictSet, if_neg h', ih k v (fun hc => hk (by simp [hc]))]
      rfl
  have key : ∀ (rest d : List (ℤ × Fix α)),
      (d.map Prod.fst ++ rest.map fun kv => if kv.1 < 0 then kv.1 + (n : ℤ) else kv.1).Nodup →
      rest.foldl (fun d kv => dictSet d (if kv.1 < 0 then kv.1 + (n : ℤ) else kv.1) kv.2) d
        = d ++ rest.map fun kv => (if kv.1 < 0 then kv.1 + (n : ℤ) else kv.1, kv.2) := by
    intro rest
    induction rest with
    | nil => intro d _; simp
    | cons a rest ih =>
      intro d hdn
      have hna : (if a.1 < 0 then a.1 + (n : ℤ) else a.1) ∉ d.map Prod.fst := by
        rw [List.map_cons, List.nodup_middle] at hdn
        intro hc
        exact (List.nodup_cons.1 hdn).1 (List.mem_append_left _ hc)
      rw [List.foldl_cons, hset _ _ _ hna, ih]
      · simp
      · simpa using hdn
  have := key fixed [] (by simpa using hd)
  simpa [normalise] using this

/-- When a parameter is fixed twice, once with a negative key, the later one counts. -/
theorem C22_last_key (n : ℕ) (fixed : List (ℤ × Fix α)) (k : ℤ) :
    (normalise n fixed).lookup k
      = ((fixed.filter fun kv => (if kv.1 < 0 then kv.1 + (n : ℤ) else kv.1) == k).getLast?).map Prod.snd := by
  have hset : ∀ (d : List (ℤ × Fix α)) (k' : ℤ) (v : Fix α),
      (dictSet d k' v).lookup k = if k = k' then some v else d.lookup k := by
    intro d
    induction d with
    | nil =>
      intro k' v
      by_cases h : k = k'
      · simp [dictSet, List.lookup_cons, h]
      · simp [dictSet, List.lookup_cons, h, beq_false_of_ne h]
    | cons a d ih =>
      intro k' v
      obtain ⟨a1, a2⟩ := a
      by_cases h' : a1 = k'
      · subst h'
        by_cases h : k = a1
        · simp [dictSet, List.lookup_cons, h]
        · simp [dictSet, List.lookup_cons, h, beq_false_of_ne h]
      · rw [dictSet, if_neg h', List.lookup_cons, List.lookup_cons, ih]
        by_cases h : k = a1
        · subst h
          simp [h']
        · simp [beq_false_of_ne h]
  induction fixed using List.reverseRecOn with
  | nil => simp [normalise]
  | append_singleton l a ih =>
    have : normalise n (l ++ [a]) = dictSet (normalise n l) (if a.1 < 0 then a.1 + (n : ℤ) else a.1) a.2 := by
      simp [normalise]
    rw [this, hset, ih, List.filter_append]
    by_cases h : k = (if a.1 < 0 then a.1 + (n : ℤ) else a.1)
    · rw [if_pos h, h]
      simp
    · rw [if_neg h, List.filter_singleton, beq_false_of_ne (Ne.symm h)]
      simp

/-! Non-vacuity: of 4 parameters number 3 is fixed at 50 and number 1 is the sum of x and two
parameters. -/
example : (fm 4 [3, 1] fun i => if i = 3 then .val 50
    else .mdl 2 (fun x l => x + l.sum) (fun _ _ => [1, 1])).expand 1000 [1, 2, 30, 40]
    = some [1, 1070, 2, 50, 30, 40] := by
  rw [show ([1, 2, 30, 40] : List ℕ) = (List.range 4).map (fun i => [1, 2, 30, 40].getD i 0) from rfl]
  exact (expand_eq 4 [3, 1] _ (by decide) (by decide) 1000 _).trans (by decide)

example : normalise 4 [((-1 : ℤ), Fix.val (5 : ℕ)), (0, .val 6)]
    = [((3 : ℤ), Fix.val (5 : ℕ)), (0, .val 6)] := by
  rw [C22_negative_keys 4 _ (by decide)]
  rfl

end BF.Fixed
