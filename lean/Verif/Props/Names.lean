import Verif.Names
import Verif.Props.Fixed

/-!
# Names of parameters (C113)
-/

namespace BF.Names

open BF.Fixed (rank_all)
open BF.Combi (mk)

/-! ## Numbers and names -/

/-- The number that is written in decimal digits. -/
def decode (l : List Char) : ℕ := l.foldl (fun n c => 10 * n + (c.toNat - 48)) 0

theorem decode_toDigits (n : ℕ) : decode (Nat.toDigits 10 n) = n := by
  induction n using Nat.strongRecOn with
  | _ n ih =>
    by_cases h : n < 10
    · rw [Nat.toDigits_of_lt_base h]
      simp [decode, Nat.toNat_digitChar_sub_48_of_lt_ten h]
    · rw [Nat.toDigits_of_base_le (by omega) (by omega)]
      have h1 := ih (n / 10) (by omega)
      unfold decode at h1 ⊢
      rw [List.foldl_append, h1]
      have h2 : n % 10 < 10 := Nat.mod_lt _ (by omega)
      simp only [List.foldl_cons, List.foldl_nil, Nat.toNat_digitChar_sub_48_of_lt_ten h2]
      omega

theorem num_inj {m n : ℕ} (h : toString m = toString n) : m = n := by
  have h1 : Nat.toDigits 10 m = Nat.toDigits 10 n := by
    rw [← Nat.toList_repr, ← Nat.toList_repr]
    exact congrArg String.toList h
  rw [← decode_toDigits m, h1, decode_toDigits]

theorem append_left_inj' {a b c : String} (h : a ++ b = a ++ c) : b = c := by
  have := congrArg String.toList h
  simp only [String.toList_append, List.append_cancel_left_eq] at this
  exact String.toList_inj.1 this

theorem split_under (a b c d : List Char) (hc : '_' ∉ c) (hd : '_' ∉ d) (h : a ++ '_' :: c = b ++ '_' :: d) :
    a = b ∧ c = d := by
  rcases List.append_eq_append_iff.1 h with ⟨e, h1, h2⟩ | ⟨e, h1, h2⟩
  · cases e with
    | nil => simp at h1 h2; exact ⟨h1.symm, h2⟩
    | cons x e =>
      simp only [List.cons_append, List.cons.injEq] at h2
      exact absurd (h2.2 ▸ by simp : '_' ∈ c) hc
  · cases e with
    | nil => simp at h1 h2; exact ⟨h1, h2.symm⟩
    | cons x e =>
      simp only [List.cons_append, List.cons.injEq] at h2
      exact absurd (h2.2 ▸ by simp : '_' ∈ d) hd

/-- Names that end in an underscore and a number are only the same when both parts are. -/
theorem suffix_inj {a b : String} {m n : ℕ} (h : a ++ "_" ++ toString m = b ++ "_" ++ toString n) : a = b ∧ m = n := by
  have h1 := congrArg String.toList h
  simp only [String.toList_append, Nat.toString_eq_repr, Nat.toList_repr, List.append_assoc] at h1
  rw [show "_".toList = ['_'] from rfl] at h1
  simp only [List.singleton_append] at h1
  obtain ⟨h2, h3⟩ := split_under _ _ _ _ Nat.underscore_not_in_toDigits Nat.underscore_not_in_toDigits h1
  refine ⟨String.toList_inj.1 h2, ?_⟩
  rw [← decode_toDigits m, h3, decode_toDigits]

theorem int_num (n : ℕ) : toString (n : ℤ) = toString n := rfl

theorem pyGet_nat {β : Type*} (l : List β) (k : ℕ) : pyGet l (k : ℤ) = l[k]? := by
  simp [pyGet]

/-! ## Chains -/

/-- C113, chains: parameter `j` of a link has in the chain, behind the parameters of all links before it, the name that
the link has for it. Beyond the last parameter there is an IndexError. -/
theorem C113_chain (before after : List Link) (l : Link) (j : ℕ) :
    (j < l.npbase → chainName (before ++ l :: after) ((npchain before + j : ℕ) : ℤ) = l.baseName j) ∧
    chainName before ((npchain before + j : ℕ) : ℤ) = none := by
  induction before with
  | nil =>
    constructor
    · intro h
      simp [chainName, npchain, h]
    · rfl
  | cons b bs ih =>
    have h1 : npchain (b :: bs) = b.npbase + npchain bs := by simp [npchain]
    have h2 : ¬ ((npchain (b :: bs) + j : ℕ) : ℤ) < b.npbase := by rw [h1]; push_cast; omega
    have h3 : ((npchain (b :: bs) + j : ℕ) : ℤ) - b.npbase = ((npchain bs + j : ℕ) : ℤ) := by rw [h1]; push_cast; omega
    constructor
    · intro h
      rw [List.cons_append, chainName, if_neg h2, h3]
      exact ih.1 h
    · rw [chainName, if_neg h2, h3]
      exact ih.2

/-- What one would like of the names of a link: one for each parameter. -/
def Link.Named (l : Link) : Prop := ∀ j : ℕ, j < l.npbase → ∃ s, l.baseName j = some s

/-- C113: when every link has a name for each of its parameters then so has the chain, also between brackets. -/
theorem C113_named (c : List Link) (h : ∀ l ∈ c, l.Named) :
    (∀ k : ℕ, (∃ s, chainName c k = some s) ↔ k < npchain c) ∧ (brackets c).Named ∧
      ∀ k : ℤ, (brackets c).baseName k = chainName c k := by
  have h1 : ∀ k : ℕ, k < npchain c → ∃ s, chainName c k = some s := by
    induction c with
    | nil => intro k hk; simp [npchain] at hk
    | cons l c ih =>
      intro k hk
      have e : npchain (l :: c) = l.npbase + npchain c := by simp [npchain]
      rw [chainName]
      by_cases hlt : k < l.npbase
      · rw [if_pos (by exact_mod_cast hlt)]
        exact h l (by simp) k hlt
      · rw [if_neg (by exact_mod_cast hlt), show (k : ℤ) - l.npbase = ((k - l.npbase : ℕ) : ℤ) by omega]
        exact ih (fun l hl => h l (by simp [hl])) _ (by omega)
  refine ⟨fun k => ⟨fun hs => ?_, h1 k⟩, h1, fun k => rfl⟩
  by_contra hk
  obtain ⟨s, hs⟩ := hs
  have := (C113_chain c [] ⟨0, [], none⟩ (k - npchain c)).2
  rw [show npchain c + (k - npchain c) = k by omega, hs] at this
  cases this

/-! ## Fixed parameters -/

theorem modelNames_append (a b : Dict) : modelNames (a ++ b) = modelNames a ++ modelNames b := by
  induction a with
  | nil => rfl
  | cons x a ih =>
    obtain ⟨k, v⟩ := x
    cases v with
    | none => simpa [modelNames] using ih
    | some c => simp [modelNames, ih]

theorem chain_length (c : List Link) (h : ∀ l ∈ c, l.parNames.length = l.npbase) :
    (c.flatMap Link.parNames).length = npchain c := by
  induction c with
  | nil => rfl
  | cons l c ih =>
    rw [List.flatMap_cons, List.length_append, h l (by simp), ih fun l hl => h l (by simp [hl])]
    simp [npchain]

/-- The dictionary that fixes the parameters in `ks`, parameter `i` at `G i`. -/
def dict (ks : List ℕ) (G : ℕ → Option (List Link)) : Dict := ks.map fun i => (i, G i)

/-- The number of parameters of the fixed models. -/
def more (ks : List ℕ) (G : ℕ → Option (List Link)) : ℕ := (ks.map fun i => ((G i).map npchain).getD 0).sum

theorem npb_dict (n : ℕ) (ks : List ℕ) (G : ℕ → Option (List Link)) : npb n (dict ks G) = n + more ks G := by
  simp [npb, dict, more, Function.comp_def]

theorem modelNames_length (ks : List ℕ) (G : ℕ → Option (List Link))
    (hG : ∀ i ∈ ks, ∀ c, G i = some c → ∀ l ∈ c, l.parNames.length = l.npbase) :
    (modelNames (dict ks G)).length = more ks G := by
  induction ks with
  | nil => rfl
  | cons k ks ih =>
    have ih' := ih fun i hi => hG i (by simp [hi])
    unfold dict more at ih' ⊢
    rw [List.map_cons, List.map_cons, List.sum_cons]
    cases h : G k with
    | none => simpa [modelNames] using ih'
    | some c =>
      rw [modelNames, List.length_append, chain_length c (hG k (by simp) c h), ih']
      rfl

theorem pick_eq (names : List String) (ks : List ℕ) (h : ∀ k ∈ ks, k < names.length) :
    pick names ks = some (ks.map fun k => (names[k]?).getD "") := by
  unfold pick
  induction ks with
  | nil => rfl
  | cons k ks ih =>
    rw [List.mapM_cons, ih fun i hi => h i (by simp [hi])]
    have := h k (by simp)
    simp [this]

theorem free_list (n m : ℕ) (ks : List ℕ) (h : ∀ i ∈ ks, i < n) :
    ((List.range (n + m)).filter fun k => decide (k ∉ ks)).filter (fun k => decide (k < n))
      = (List.range n).filter fun k => decide (k ∉ ks) := by
  rw [List.filter_filter, List.range_add, List.filter_append]
  have h2 : ((List.range m).map (n + ·)).filter (fun k => decide (k < n) && decide (k ∉ ks)) = [] := by
    rw [List.filter_eq_nil_iff]
    intro a ha
    simp only [List.mem_map] at ha
    obtain ⟨b, -, rfl⟩ := ha
    simp
  rw [h2, List.append_nil]
  apply List.filter_congr
  intro a ha
  have := List.mem_range.1 ha
  simp [this]

/-- The names of the model with parameters that are fixed: those of the free ones, in order, and behind them those of
the models that took the place of a parameter. -/
theorem construct_eq (n : ℕ) (names : List String) (hn : names.length = n) (ks : List ℕ)
    (G : ℕ → Option (List Link)) (h : ∀ i ∈ ks, i < n) (own : Option (ℤ → Option String)) :
    construct n (some names) (some (dict ks G)) own
      = some ⟨n + more ks G - ks.length,
          ((List.range n).filter fun k => decide (k ∉ ks)).map (fun k => (names[k]?).getD "")
            ++ modelNames (dict ks G), own⟩ := by
  have hk : (dict ks G).map Prod.fst = ks := by simp [dict, Function.comp_def]
  have hpl : parlist n (dict ks G) = (List.range (n + more ks G)).filter fun k => decide (k ∉ ks) := by
    unfold parlist
    rw [hk, npb_dict, BF.Fixed.setxor_eq]
    intro i hi
    have := h i hi
    omega
  simp only [construct, selectNames, npbase, npb_dict]
  have hl : (dict ks G).length = ks.length := by simp [dict]
  rw [hl]
  by_cases hm : ((dict ks G).filter fun kv => kv.2.isSome) = []
  · have h0 : ∀ i ∈ ks, G i = none := by
      intro i hi
      rw [List.filter_eq_nil_iff] at hm
      have := hm (i, G i) (by simp only [dict, List.mem_map]; exact ⟨i, hi, rfl⟩)
      simpa using this
    have h1 : more ks G = 0 := by
      unfold more
      rw [List.sum_eq_zero_iff]
      intro x hx
      simp only [List.mem_map] at hx
      obtain ⟨i, hi, rfl⟩ := hx
      rw [h0 i hi]
      rfl
    have h2 : modelNames (dict ks G) = [] := by
      have : ∀ d : Dict, (∀ x ∈ d, x.2 = none) → modelNames d = [] := by
        intro d
        induction d with
        | nil => intro _; rfl
        | cons x d ih =>
          intro hx
          obtain ⟨k, v⟩ := x
          have hv : v = none := hx (k, v) (by simp)
          subst hv
          exact ih fun y hy => hx y (by simp [hy])
      apply this
      intro x hx
      simp only [dict, List.mem_map] at hx
      obtain ⟨i, hi, rfl⟩ := hx
      exact h0 i hi
    rw [if_pos hm, hpl, h1, Nat.add_zero, h2, List.append_nil, pick_eq]
    · rfl
    · intro k hk
      simp at hk
      omega
  · rw [if_neg hm, hpl, free_list n _ ks h, pick_eq]
    · rfl
    · intro k hk
      simp at hk
      omega

/-- C113, fixed parameters: a model with `n` names, of which the parameters in `ks` are fixed: parameter `i` at a number
or, `G i = some c`, replaced by the model `c`. There are as many names as parameters. Each parameter has the name that
belongs to its use in C22: the free parameter `i` of the model is found in `rank ks i`, parameter `j` of the model that
replaces `i` in `off … i + j`. -/
theorem C113_fixed {α : Type*} (n : ℕ) (names : List String) (hn : names.length = n) (ks : List ℕ)
    (G : ℕ → Option (List Link)) (h : ∀ i ∈ ks, i < n) (hnd : ks.Nodup)
    (hG : ∀ i ∈ ks, ∀ c, G i = some c → ∀ l ∈ c, l.parNames.length = l.npbase)
    (F : ℕ → BF.Fixed.Fix α) (hF : ∀ i, (F i).np = ((G i).map npchain).getD 0) :
    ∃ l, construct n (some names) (some (dict ks G)) = some l ∧ l.npbase = BF.Fixed.total n ks F ∧
      l.parNames.length = l.npbase ∧ l.Named ∧
      (∀ i, i < n → i ∉ ks → l.baseName (BF.Dynamic.rank ks i : ℕ) = names[i]?) ∧
      (∀ i ∈ ks, ∀ c, G i = some c → ∀ j : ℕ, j < npchain c →
        l.baseName ((BF.Fixed.off n ks F i + j : ℕ) : ℤ) = (c.flatMap Link.parNames)[j]?) := by
  have hmore : ∀ ks : List ℕ, BF.Fixed.extra ks F = more ks G := by
    intro ks
    unfold BF.Fixed.extra more
    congr 1
    exact List.map_congr_left fun i _ => hF i
  have hr := rank_all n ks h hnd
  have hlen : ((List.range n).filter fun k => decide (k ∉ ks)).length = n - ks.length := by
    show BF.Dynamic.rank ks n = _
    omega
  have hle : ks.length ≤ n := by omega
  have hL : ((((List.range n).filter fun k => decide (k ∉ ks)).map fun k => (names[k]?).getD "")
      ++ modelNames (dict ks G)).length = n + more ks G - ks.length := by
    rw [List.length_append, List.length_map, hlen, modelNames_length ks G hG]
    omega
  refine ⟨_, construct_eq n names hn ks G h none, ?_, hL, ?_, ?_, ?_⟩
  · show n + more ks G - ks.length = _
    unfold BF.Fixed.total
    rw [hmore]
    omega
  · intro j hj
    show ∃ s, pyGet _ _ = some s
    rw [pyGet_nat]
    exact ⟨_, List.getElem?_eq_getElem (by rw [hL]; exact hj)⟩
  · intro i hi hik
    show pyGet _ _ = _
    rw [pyGet_nat]
    have h1 := BF.Combi.filter_range_get (fun k => decide (k ∉ ks)) n i hi (by simpa using hik)
    have h2 : ((List.range n).filter fun k => decide (k ∉ ks))[BF.Dynamic.rank ks i]? = some i := h1
    have h3 : BF.Dynamic.rank ks i < ((List.range n).filter fun k => decide (k ∉ ks)).length :=
      (List.getElem?_eq_some_iff.1 h2).1
    rw [List.getElem?_append_left (by rw [List.length_map]; exact h3), List.getElem?_map, h2]
    have : i < names.length := by omega
    simp [this]
  · intro i hi c hc j hj
    show pyGet _ _ = _
    rw [pyGet_nat]
    have h1 : BF.Fixed.off n ks F i + j
        = ((List.range n).filter fun k => decide (k ∉ ks)).length
          + (more (ks.takeWhile fun k => decide (k ≠ i)) G + j) := by
      unfold BF.Fixed.off
      rw [hmore, hlen]
      omega
    rw [h1, List.getElem?_append_right (by rw [List.length_map]; omega), List.length_map, Nat.add_sub_cancel_left]
    obtain ⟨rest, hks⟩ : ∃ rest, ks = (ks.takeWhile fun k => decide (k ≠ i)) ++ i :: rest := by
      have h2 := List.takeWhile_append_dropWhile (p := fun k => decide (k ≠ i)) (l := ks)
      cases hd : ks.dropWhile fun k => decide (k ≠ i) with
      | nil =>
        rw [hd, List.append_nil] at h2
        rw [← h2] at hi
        have := List.all_takeWhile (l := ks) (p := fun k => decide (k ≠ i))
        rw [List.all_eq_true] at this
        simpa using this i hi
      | cons a r =>
        have h3 := List.head_dropWhile_not (p := fun k => decide (k ≠ i)) (l := ks) (by rw [hd]; simp)
        simp only [hd, List.head_cons] at h3
        have h4 : a = i := by simpa using h3
        exact ⟨r, by rw [← h4]; rw [hd] at h2; rw [← h4] at h2; exact h2.symm⟩
    set pre := ks.takeWhile fun k => decide (k ≠ i) with hpre
    have hd : dict ks G = dict pre G ++ (i, some c) :: dict rest G := by
      conv_lhs => rw [hks]
      simp [dict, hc]
    have hlp : (modelNames (dict pre G)).length = more pre G :=
      modelNames_length pre G fun k hk => hG k (by rw [hks]; simp [hk])
    rw [hd, modelNames_append, List.getElem?_append_right (by omega), hlp, Nat.add_sub_cancel_left, modelNames,
      List.getElem?_append_left]
    rw [chain_length c (hG i hi c hc)]
    exact hj

/-- C113: without names from the class (and without own ones) the parameters are numbered, also when some are fixed;
names and parameters are then equally many and no two are the same. -/
theorem C113_numbered (n : ℕ) (fixed : Option Dict) :
    ∃ l, construct n none fixed = some l ∧ l.parNames.length = l.npbase ∧ l.parNames.Nodup ∧
      ∀ j : ℕ, j < l.npbase → l.baseName j = some ("parameter_" ++ toString j) := by
  refine ⟨_, rfl, by simp [numbered], ?_, ?_⟩
  · show (numbered _).Nodup
    unfold numbered
    rw [List.nodup_map_iff_inj_on List.nodup_range]
    intro a _ b _ hab
    exact num_inj (append_left_inj' hab)
  · intro j hj
    show pyGet (numbered _) _ = _
    rw [pyGet_nat]
    have : j < npbase n fixed := hj
    simp [numbered, this]

/-! ## Names of their own -/

/-- C113: each of them has a name for each parameter. The numbers in the names are those of the power, of the harmonic
(from 0) with its cosine and sine, of the team, of the coefficient in each dimension, and of the model and the
parameter in that model. -/
theorem C113_own_names (k : ℕ) :
    polyName k = some ("polycoeff_" ++ toString k) ∧
    harmonicName (2 * k : ℕ) = some ("cosamp_" ++ toString k) ∧
    harmonicName (2 * k + 1 : ℕ) = some ("sinamp_" ++ toString k) ∧
    (∀ (c t : ℕ) (_ : k < c) (_ : c ≤ 5), footballName c (t * c + k : ℕ)
      = (["trials", "defense", "midfield", "home", "strategy"][k]?).map fun s => s ++ "_team_" ++ toString t) ∧
    (∀ (nxs : List ℕ) (m nx : ℕ) (rest : List ℕ), nxs.length = m → k < nx →
      productName (nxs ++ nx :: rest) (nxs.sum + k : ℕ) = some ("param" ++ toString m ++ "_" ++ toString k)) := by
  refine ⟨rfl, ?_, ?_, ?_, ?_⟩
  · unfold harmonicName
    rw [show ((2 * k : ℕ) : ℤ) % 2 = ((0 : ℕ) : ℤ) by push_cast; omega, pyGet_nat,
      show ((2 * k : ℕ) : ℤ).tdiv 2 = (k : ℤ) by
        rw [show (2 : ℤ) = ((2 : ℕ) : ℤ) from rfl, ← Int.ofNat_tdiv]; congr 1; omega]
    rfl
  · unfold harmonicName
    rw [show ((2 * k + 1 : ℕ) : ℤ) % 2 = ((1 : ℕ) : ℤ) by push_cast; omega, pyGet_nat,
      show ((2 * k + 1 : ℕ) : ℤ).tdiv 2 = (k : ℤ) by
        rw [show (2 : ℤ) = ((2 : ℕ) : ℤ) from rfl, ← Int.ofNat_tdiv]; congr 1; omega]
    rfl
  · intro c t hk hc
    unfold footballName
    rw [if_neg (by omega)]
    rw [show ((t * c + k : ℕ) : ℤ) % (c : ℤ) = ((k : ℕ) : ℤ) by
      rw [← Int.natCast_mod]; congr 1; rw [Nat.add_comm, Nat.add_mul_mod_self_right, Nat.mod_eq_of_lt hk], pyGet_nat,
      show ((t * c + k : ℕ) : ℤ).tdiv (c : ℤ) = (t : ℤ) by
        rw [← Int.ofNat_tdiv]; congr 1; rw [Nat.add_comm, Nat.add_mul_div_right _ _ (by omega), Nat.div_eq_of_lt hk]; omega]
    rfl
  · intro nxs m nx rest hm hk
    subst hm
    have : ∀ (nxs : List ℕ) (m0 : ℕ), productLoop (nxs ++ nx :: rest) m0 ((nxs.sum + k : ℕ) : ℤ)
        = some ("param" ++ toString (m0 + nxs.length) ++ "_" ++ toString k) := by
      intro nxs
      induction nxs with
      | nil =>
        intro m0
        have : (k : ℤ) < nx := by omega
        simp [productLoop, this, int_num]
        rfl
      | cons a nxs ih =>
        intro m0
        rw [List.cons_append, productLoop, if_neg (by rw [List.sum_cons]; omega),
          show (((a :: nxs).sum + k : ℕ) : ℤ) - a = ((nxs.sum + k : ℕ) : ℤ) by rw [List.sum_cons]; omega, ih]
        rw [List.length_cons, show m0 + 1 + nxs.length = m0 + (nxs.length + 1) by omega]
    have h0 := this nxs 0
    rw [Nat.zero_add] at h0
    exact h0

/-- C113: the names that polynomials, harmonics, football models, splines in more dimensions and products make for
their parameters tell which one it is: no two parameters of a model have the same name. -/
theorem C113_own (i j : ℕ) :
    (polyName i = polyName j → i = j) ∧
    (harmonicName i = harmonicName j → i = j) ∧
    (∀ c, 1 ≤ c → c ≤ 5 → footballName c i = footballName c j → i = j) ∧
    (∀ nxs, (∀ n ∈ nxs, 0 < n) → i < nxs.prod → j < nxs.prod → surfaceName nxs i = surfaceName nxs j → i = j) ∧
    (∀ nxs, i < nxs.sum → j < nxs.sum → productName nxs i = productName nxs j → i = j) := by
  refine ⟨?_, ?_, ?_, ?_, ?_⟩
  · intro h
    simp only [polyName, Option.some.injEq, int_num] at h
    exact num_inj (append_left_inj' h)
  · intro h
    have key : ∀ k : ℕ, harmonicName k
        = some ((if k % 2 = 0 then "cosamp_" else "sinamp_") ++ toString (k / 2)) := by
      intro k
      have h1 := C113_own_names (k / 2)
      by_cases hk : k % 2 = 0
      · rw [if_pos hk]
        have := h1.2.1
        rwa [show 2 * (k / 2) = k by omega] at this
      · rw [if_neg hk]
        have := h1.2.2.1
        rwa [show 2 * (k / 2) + 1 = k by omega] at this
    rw [key, key, Option.some.injEq] at h
    by_cases hi : i % 2 = 0 <;> by_cases hj : j % 2 = 0
    · rw [if_pos hi, if_pos hj] at h
      have := num_inj (append_left_inj' h)
      omega
    · rw [if_pos hi, if_neg hj] at h
      have := congrArg String.toList h
      simp at this
    · rw [if_neg hi, if_pos hj] at h
      have := congrArg String.toList h
      simp at this
    · rw [if_neg hi, if_neg hj] at h
      have := num_inj (append_left_inj' h)
      omega
  · intro c hc hc5 h
    have key : ∀ k : ℕ, footballName c k = (["trials", "defense", "midfield", "home", "strategy"][k % c]?).map
        fun s => s ++ "_team_" ++ toString (k / c) := by
      intro k
      have := (C113_own_names (k % c)).2.2.2.1 c (k / c) (Nat.mod_lt _ (by omega)) hc5
      rwa [Nat.div_add_mod'] at this
    have hi := Nat.mod_lt i (show c > 0 by omega)
    have hj := Nat.mod_lt j (show c > 0 by omega)
    rw [key, key, List.getElem?_eq_getElem (by simp; omega), List.getElem?_eq_getElem (by simp; omega)] at h
    simp only [Option.map_some, Option.some.injEq] at h
    rw [show "_team_" = "_team" ++ "_" from rfl, ← String.append_assoc, ← String.append_assoc] at h
    obtain ⟨h1, h2⟩ := suffix_inj h
    have h3 := congrArg String.toList h1
    simp only [String.toList_append, List.append_cancel_right_eq] at h3
    have h4 := String.toList_inj.1 h3
    have hnd : ["trials", "defense", "midfield", "home", "strategy"].Nodup := by decide
    have h5 := (List.Nodup.getElem_inj_iff hnd).1 h4
    rw [← Nat.div_add_mod' i c, ← Nat.div_add_mod' j c, h5, h2]
  · intro nxs hpos hi hj h
    have key : ∀ (nxs : List ℕ), (∀ n ∈ nxs, 0 < n) → ∀ (s s' : String) (i j : ℕ), i < nxs.prod → j < nxs.prod →
        surfaceLoop nxs s i = surfaceLoop nxs s' j → s = s' ∧ i = j := by
      intro nxs
      induction nxs with
      | nil =>
        intro _ s s' i j hi hj h
        simp [surfaceLoop] at h hi hj
        exact ⟨h, by omega⟩
      | cons n nxs ih =>
        intro hp s s' i j hi hj h
        have hn := hp n (by simp)
        rw [List.prod_cons] at hi hj
        simp only [surfaceLoop, if_neg hn.ne'] at h
        rw [← Int.natCast_mod, ← Int.natCast_mod, ← Int.natCast_div, ← Int.natCast_div, int_num, int_num] at h
        obtain ⟨h1, h2⟩ := ih (fun m hm => hp m (by simp [hm])) _ _ _ _ (Nat.div_lt_of_lt_mul hi)
          (Nat.div_lt_of_lt_mul hj) h
        obtain ⟨h3, h4⟩ := suffix_inj h1
        refine ⟨h3, ?_⟩
        rw [← Nat.div_add_mod i n, ← Nat.div_add_mod j n, h2, h4]
    exact (key nxs hpos "param" "param" i j hi hj h).2
  · intro nxs hi hj h
    have key : ∀ (nxs : List ℕ) (i : ℕ), i < nxs.sum → ∃ pre nx rest k, nxs = pre ++ nx :: rest ∧ k < nx ∧
        i = pre.sum + k := by
      intro nxs
      induction nxs with
      | nil => intro i hi; simp at hi
      | cons a nxs ih =>
        intro i hi
        by_cases h : i < a
        · exact ⟨[], a, nxs, i, rfl, h, by simp⟩
        · rw [List.sum_cons] at hi
          obtain ⟨pre, nx, rest, k, h1, h2, h3⟩ := ih (i - a) (by omega)
          exact ⟨a :: pre, nx, rest, k, by rw [h1]; rfl, h2, by rw [List.sum_cons]; omega⟩
    obtain ⟨p1, n1, r1, k1, e1, l1, rfl⟩ := key nxs i hi
    obtain ⟨p2, n2, r2, k2, e2, l2, rfl⟩ := key nxs j hj
    have h1 := (C113_own_names k1).2.2.2.2 p1 p1.length n1 r1 rfl l1
    have h2 := (C113_own_names k2).2.2.2.2 p2 p2.length n2 r2 rfl l2
    rw [← e1] at h1
    rw [← e2] at h2
    rw [h1, h2, Option.some.injEq] at h
    obtain ⟨h3, h4⟩ := suffix_inj h
    have h5 := num_inj (append_left_inj' h3)
    have h6 := (List.append_inj (e1.symm.trans e2) h5).1
    rw [h6, h4]

/-- C113: the names of the numerator and the denominator of a Padé model, one for each coefficient, all different. -/
theorem C113_pade (num den : ℕ) :
    (padeNames num den).length = num + den + 2 ∧ (padeNames num den).Nodup ∧
      (∀ k, k ≤ num → (padeNames num den)[k]? = some ("numer_" ++ toString k)) ∧
      ∀ k, k ≤ den → (padeNames num den)[num + 1 + k]? = some ("denom_" ++ toString k) := by
  refine ⟨by simp [padeNames]; omega, ?_, ?_, ?_⟩
  · unfold padeNames
    rw [List.nodup_append]
    refine ⟨?_, ?_, ?_⟩
    · rw [List.nodup_map_iff_inj_on List.nodup_range]
      intro a _ b _ hab
      exact num_inj (append_left_inj' hab)
    · rw [List.nodup_map_iff_inj_on List.nodup_range]
      intro a _ b _ hab
      exact num_inj (append_left_inj' hab)
    · intro a ha b hb hab
      simp only [List.mem_map] at ha hb
      obtain ⟨i, -, rfl⟩ := ha
      obtain ⟨j, -, rfl⟩ := hb
      have := congrArg String.toList hab
      simp at this
  · intro k hk
    unfold padeNames
    have : k < num + 1 := by omega
    rw [List.getElem?_append_left (by simp; omega)]
    simp [this]
  · intro k hk
    unfold padeNames
    have : k < den + 1 := by omega
    rw [List.getElem?_append_right (by simp)]
    simp [this]

/-! ## Copies that are tied -/

/-- C113, combi models, with the parameters `ak` tied by an offset and `bk` by a factor: parameter `i` of copy `j`,
which C26 finds in `pos … j i`, has the name that it has in the model, with the number of the copy behind it unless it
is tied to the others. -/
theorem C113_combi {α : Type*} [CommSemiring α] (c : List Link) (n : ℕ) (hn : 1 ≤ n) (ak bk : List ℕ)
    (av mv : ℕ → ℕ → α) (ha : ∀ i ∈ ak, i < npchain c) (hb : ∀ i ∈ bk, i < npchain c) (han : ak.Nodup)
    (hbn : bk.Nodup) (j i : ℕ) (hj : j < n) (hi : i < npchain c) (hf : j = 0 ∨ i ∉ ak ++ bk) :
    ∃ d, (mk (npchain c) n ak av bk mv).combine = some d ∧
      combiName c d (BF.Dynamic.pos (npchain c) (ak ++ bk) j i : ℕ) = (chainName c i).map fun s =>
        if i ∈ ak ++ bk then s else s ++ "_" ++ toString j := by
  have hd := BF.Combi.combine_eq (npchain c) n hn ak bk av mv ha hb
  obtain ⟨d, hd', -, hsel, -⟩ := BF.Combi.C26_result (npchain c) n hn ak bk av mv ha hb han hbn (fun _ => none) (fun _ => 0)
  rw [hd] at hd'
  have hdd := Option.some.inj hd'
  refine ⟨d, hd.trans (by rw [hdd]), ?_⟩
  have hs := hsel j i hj hi hf
  have hm : ∀ l : List ℕ, i ∈ (BF.Combi.pairs n l).map (fun x => x.1 + x.2 * npchain c) ↔ i ∈ l := by
    intro l
    simp only [List.mem_map, BF.Combi.mem_pairs]
    constructor
    · rintro ⟨x, ⟨h1, h2⟩, h3⟩
      have h4 : x.2 = 0 := by
        by_contra h0
        have := Nat.le_mul_of_pos_left (npchain c) (Nat.pos_of_ne_zero h0)
        omega
      rw [h4] at h3
      have : x.1 = i := by omega
      rw [← this]
      exact h1
    · intro h
      exact ⟨(i, 0), ⟨h, by omega⟩, by simp⟩
  unfold combiName
  rw [pyGet_nat, hs, Option.bind_some, if_neg (by omega),
    show (j * npchain c + i) % npchain c = i by rw [Nat.mul_comm, Nat.mul_add_mod, Nat.mod_eq_of_lt hi],
    show (j * npchain c + i) / npchain c = j by
      rw [Nat.mul_comm, Nat.mul_add_div (by omega), Nat.div_eq_of_lt hi, Nat.add_zero]]
  have h1 : i ∈ d.addindex ↔ i ∈ ak := by rw [← hdd]; exact hm ak
  have h2 : i ∈ d.mulindex ↔ i ∈ bk := by rw [← hdd]; exact hm bk
  simp only [h1, h2, List.mem_append]

/-- C113, repeating models of which the parameters in `sm` are the same in all components: parameter `i` of component
`0` has number `i`, and the `t`-th of the others of component `j + 1` comes behind those of the components before it.
They have the name of the model, with the number of the component behind it unless it is the same in all. -/
theorem C113_repeat (c : List Link) (sm : List ℕ) :
    (∀ i : ℕ, i < npchain c → repeatName c (some sm) (repeatIndex (npchain c) (some sm)) i
      = (chainName c i).map fun s => if i ∈ sm then s else s ++ "_0") ∧
    ∀ (j t i : ℕ), (repeatIndex (npchain c) (some sm))[t]? = some i →
      i ∉ sm ∧ repeatName c (some sm) (repeatIndex (npchain c) (some sm))
        (npchain c + j * (repeatIndex (npchain c) (some sm)).length + t : ℕ)
          = (chainName c i).map fun s => s ++ "_" ++ toString (j + 1) := by
  constructor
  · intro i hi
    unfold repeatName par2model
    rw [if_neg (by simp; omega), Option.bind_some]
    cases chainName c i with
    | none => rfl
    | some s =>
      by_cases h : i ∈ sm
      · simp [h]
      · simp [h]
        rfl
  · intro j t i ht
    set ix := repeatIndex (npchain c) (some sm) with hix
    have hlt : t < ix.length := (List.getElem?_eq_some_iff.1 ht).1
    have hi : i ∉ sm := by
      have : i ∈ ix := List.mem_of_getElem? ht
      rw [hix] at this
      simp only [repeatIndex, List.mem_filter, decide_eq_true_eq] at this
      exact this.2
    refine ⟨hi, ?_⟩
    unfold repeatName par2model
    rw [if_pos (by push_cast; nlinarith), if_neg (by omega)]
    have e : ((npchain c + j * ix.length + t : ℕ) : ℤ) - (npchain c : ℕ) = ((j * ix.length + t : ℕ) : ℤ) := by
      push_cast; ring
    rw [e, ← Int.natCast_mod, ← Int.natCast_div, pyGet_nat,
      show (j * ix.length + t) % ix.length = t by rw [Nat.mul_comm, Nat.mul_add_mod, Nat.mod_eq_of_lt hlt],
      show (j * ix.length + t) / ix.length = j by
        rw [Nat.mul_comm, Nat.mul_add_div (by omega), Nat.div_eq_of_lt hlt, Nat.add_zero], ht]
    simp only [Option.map_some, Option.bind_some]
    cases chainName c i with
    | none => rfl
    | some s =>
      have h1 : (1 : ℤ) + (j : ℤ) = ((j + 1 : ℕ) : ℤ) := by push_cast; ring
      rw [h1, int_num]
      simp [hi, String.append_assoc]

/-! ## Models that grow and shrink -/

/-- C113, dynamic models: after any history of births and deaths there are as many names as parameters, all different,
when the model started with the numbered names. -/
theorem C113_dynamic (n : ℕ) (ds : List ℤ) (l : Link) (h : alters ⟨n, numbered n, none⟩ ds = some l) :
    l.parNames = numbered l.npbase ∧ l.parNames.Nodup ∧
      ∀ j : ℕ, j < l.npbase → l.baseName j = some ("parameter_" ++ toString j) := by
  have key : ∀ (ds : List ℤ) (n : ℕ) (l : Link), alters ⟨n, numbered n, none⟩ ds = some l →
      l.parNames = numbered l.npbase ∧ l.own = none := by
    intro ds
    induction ds with
    | nil =>
      intro n l h
      simp only [alters, Option.some.injEq] at h
      subst h
      exact ⟨rfl, rfl⟩
    | cons d ds ih =>
      intro n l h
      rw [alters, alter] at h
      by_cases hd : (n : ℤ) + d < 0
      · simp [hd] at h
      · dsimp only at h
        rw [if_neg hd, Option.bind_some] at h
        have e : (if 0 < d then numbered ((n : ℤ) + d).toNat else (numbered n).take ((n : ℤ) + d).toNat)
            = numbered ((n : ℤ) + d).toNat := by
          by_cases hp : 0 < d
          · rw [if_pos hp]
          · rw [if_neg hp]
            unfold numbered
            rw [← List.map_take, List.take_range, Nat.min_eq_left (by omega)]
        rw [e] at h
        exact ih _ _ h
  obtain ⟨h1, h2⟩ := key ds n l h
  obtain ⟨l', hl', -, hnd, hb⟩ := C113_numbered l.npbase none
  have h3 : l' = l := by
    have : (some (⟨l.npbase, numbered l.npbase, none⟩ : Link)) = some l' := hl'
    rw [← Option.some.inj this]
    cases l
    simp only at h1 h2 ⊢
    rw [← h1, h2]
  rw [h3] at hnd hb
  exact ⟨h1, hnd, hb⟩

/-! ## Reading a parameter under its name -/

/-- C113, attributes: when the names of a model are different each parameter of it can be read under its name; other
names are an AttributeError. (For names that are not those of other attributes of the model.) -/
theorem C113_attribute {α : Type*} (names : List String) (pars : List α) (hl : names.length ≤ pars.length) :
    (names.Nodup → ∀ (k : ℕ) (s : String), names[k]? = some s → readName names pars s = pars[k]?) ∧
      ∀ s, s ∉ names → readName names pars s = none := by
  induction names generalizing pars with
  | nil => simp [readName]
  | cons n ns ih =>
    cases pars with
    | nil => simp at hl
    | cons p ps =>
      obtain ⟨h1, h2⟩ := ih ps (by simpa using hl)
      constructor
      · intro hnd k s hk
        rw [List.nodup_cons] at hnd
        cases k with
        | zero =>
          simp only [List.getElem?_cons_zero, Option.some.injEq] at hk
          simp [readName, hk]
        | succ k =>
          simp only [List.getElem?_cons_succ] at hk ⊢
          have : s ≠ n := fun h => hnd.1 (h ▸ List.mem_of_getElem? hk)
          rw [readName, if_neg this]
          exact h1 hnd.2 k s hk
      · intro s hs
        simp only [List.mem_cons, not_or] at hs
        rw [readName, if_neg hs.1]
        exact h2 s hs.2

/-! ## Where it is not so -/

/-- A polynomial of degree 2 with its constant fixed at 1: its first parameter, which is the coefficient of x, is called
that of the constant, "polycoeff_0", because the class makes its names without looking at what is fixed. -/
theorem C113_counterexample_polynomial :
    ∃ l, construct 3 none (some (dict [0] fun _ => none)) (some polyName) = some l ∧
      l.baseName 0 = some "polycoeff_0" ∧
      ∀ (x : ℚ) (p : ℕ → ℚ), BF.Fixed.full 3 [0] (fun _ => .val 1) x p = [1, p 0, p 1] := by
  refine ⟨_, rfl, rfl, ?_⟩
  intro x p
  rfl

/-- A model between brackets has no list of names. When a parameter is replaced by it there are parameters without a
name: asking for it is an IndexError. -/
theorem C113_counterexample_brackets :
    ∃ l, construct 3 (some ["amplitude", "center", "width"])
        (some (dict [1] fun _ => some [brackets [⟨2, ["a", "b"], none⟩]])) = some l ∧
      l.npbase = 4 ∧ l.baseName 1 = some "width" ∧ l.baseName 2 = none ∧ l.baseName 3 = none := by
  refine ⟨_, construct_eq 3 _ rfl [1] _ (by decide) none, by decide, by decide, by decide, by decide⟩

/-- A repeating model made in the default way, without parameters that are the same, has no names: asking for one is a
TypeError. -/
theorem C113_counterexample_repeat (c : List Link) (k : ℤ) :
    repeatName c none (repeatIndex (npchain c) none) k = none := by
  unfold repeatName
  cases par2model (npchain c) (repeatIndex (npchain c) none) k with
  | none => rfl
  | some ij =>
    rw [Option.bind_some]
    cases chainName c ij.1 <;> rfl

/-- The names that polynomials (and others) make are not those under which the values can be read: `polycoeff_1` is an
AttributeError, `parameter_1` is the value. -/
theorem C113_counterexample_attribute :
    ∃ l, construct 3 none none (some polyName) = some l ∧ l.baseName 1 = some "polycoeff_1" ∧
      readName l.parNames [10, 11, 12] "polycoeff_1" = none ∧
      readName l.parNames [10, 11, 12] "parameter_1" = some 11 := by
  refine ⟨_, rfl, rfl, by decide, by decide⟩

/-- Two gaussians in a chain have the same names; the values of the second cannot be read under them. And when a
parameter is replaced by a gaussian, the second "amplitude" cannot be read. -/
theorem C113_counterexample_same :
    (∃ g, construct 3 (some ["amplitude", "center", "width"]) none = some g ∧
      chainName [g, g] 0 = some "amplitude" ∧ chainName [g, g] 3 = some "amplitude" ∧
      readName g.parNames [0, 1, 2, 3, 4, 5] "amplitude" = some 0) ∧
    ∃ l, construct 3 (some ["amplitude", "center", "width"])
        (some (dict [1] fun _ => some [⟨3, ["amplitude", "center", "width"], none⟩])) = some l ∧
      l.parNames = ["amplitude", "width", "amplitude", "center", "width"] ∧
      readName l.parNames [0, 1, 2, 3, 4] "amplitude" = some 0 := by
  refine ⟨⟨_, rfl, by decide, by decide, by decide⟩, _, construct_eq 3 _ rfl [1] _ (by decide) none, by decide, by decide⟩

/-- Negative numbers do not count from the end of the chain, but from the end of the first model. -/
theorem C113_counterexample_negative :
    chainName [⟨2, ["a", "b"], none⟩, ⟨1, ["c"], none⟩] (-1) = some "b" := by decide

/-! ## Concrete cases -/

/-- A gaussian of which the center is a line, with own names. -/
example : ∃ l, construct 3 (some ["amplitude", "center", "width"])
    (some (dict [1] fun _ => some [⟨2, numbered 2, none⟩])) = some l ∧
    l.parNames = ["amplitude", "width", "parameter_0", "parameter_1"] :=
  ⟨_, construct_eq 3 _ rfl [1] _ (by decide) none, by decide⟩

/-- Two gaussians with their widths tied. -/
example : ∃ d, (mk 3 2 [2] (fun _ _ => (0 : ℚ)) [] (fun _ _ => 1)).combine = some d ∧
    (List.range 5).map (fun k => combiName [⟨3, ["amplitude", "center", "width"], none⟩] d (k : ℕ))
      = [some "amplitude_0", some "center_0", some "width", some "amplitude_1", some "center_1"] :=
  ⟨_, BF.Combi.combine_eq 3 2 (by omega) [2] [] _ _ (by simp) (by simp), by decide⟩

/-- A repeated gaussian with equal widths. -/
example : (List.range 5).map (fun k : ℕ => repeatName [⟨3, ["amplitude", "center", "width"], none⟩] (some [2]) [0, 1] k)
      = [some "amplitude_0", some "center_0", some "width", some "amplitude_1", some "center_1"] := by decide

/-- A history. -/
example : alters ⟨1, numbered 1, none⟩ [2, -1, 3] = some ⟨5, numbered 5, none⟩ := rfl

end BF.Names
