import Verif.Orders
import Mathlib.Data.List.Perm.Basic
import Mathlib.Tactic.Linarith
import Mathlib.Tactic.NormNum
import Mathlib.Tactic.FieldSimp
import Mathlib.Tactic.Ring
import Mathlib.Tactic.LinearCombination
import Mathlib.Algebra.Order.Ring.Rat

/-!
# C01, C47, C48: ordering engines
-/

namespace BF
namespace Orders

variable {α β K : Type*}

/-! ### list lemmas -/

theorem roll_perm (l : List α) (k : ℕ) : (roll l k).Perm l := by
  unfold roll
  exact List.perm_append_comm.trans (by rw [List.take_append_drop])

theorem rollBack_perm (l : List α) (k : ℕ) : (rollBack l k).Perm l := by
  unfold rollBack
  exact List.perm_append_comm.trans (by rw [List.take_append_drop])

theorem revHead_perm (l : List α) (t : ℕ) : (revHead l t).Perm l := by
  unfold revHead
  refine ((List.reverse_perm _).append_right _).trans ?_
  rw [List.take_append_drop]

theorem reverseTry_perm (l : List α) (src t : ℕ) : (reverseTry l src t).Perm l := by
  unfold reverseTry
  exact (revHead_perm _ _).trans (rollBack_perm l src)

theorem slice_append_slice (l : List α) {a b c : ℕ} (h1 : a ≤ b) (h2 : b ≤ c) :
    slice l a b ++ slice l b c = slice l a c := by
  unfold slice
  have : l.take b = (l.take c).take b := by rw [List.take_take, min_eq_left h2]
  rw [this]
  generalize l.take c = m
  rw [List.drop_take]
  conv_rhs => rw [← List.take_append_drop (b - a) (m.drop a)]
  rw [List.drop_drop]
  congr 2
  omega

theorem moveTry_perm (l : List α) (src des t : ℕ) (h : src < des → src + t ≤ des)
    (h' : ¬ src < des → des ≤ src) : (moveTry l src des t).Perm l := by
  unfold moveTry
  simp only
  split
  · rename_i hsd
    have hk := h hsd
    have e : l = l.take src ++ (slice l src (src + t) ++ slice l (src + t) des) ++ l.drop des := by
      rw [slice_append_slice l (by omega) hk]
      unfold slice
      have : l.take src = (l.take des).take src := by
        rw [List.take_take, min_eq_left (by omega)]
      rw [this, List.take_append_drop, List.take_append_drop]
    conv_rhs => rw [e]
    generalize slice l src (src + t) = B
    generalize slice l (src + t) des = C
    generalize l.take src = A
    generalize l.drop des = D
    have h1 : (C ++ B ++ D ++ A).Perm (A ++ (C ++ B ++ D)) := List.perm_append_comm
    refine h1.trans ?_
    rw [List.append_assoc A]
    refine List.Perm.append_left A (List.Perm.append_right D List.perm_append_comm)
  · rename_i hsd
    have hk := h' hsd
    have e : l = l.take des ++ slice l des src ++ slice l src (src + t) ++ l.drop (src + t) := by
      rw [List.append_assoc (l.take des), slice_append_slice l hk (by omega)]
      unfold slice
      have : l.take des = (l.take (src + t)).take des := by
        rw [List.take_take, min_eq_left (by omega)]
      rw [this, List.take_append_drop, List.take_append_drop]
    conv_rhs => rw [e]
    generalize slice l src (src + t) = B
    generalize slice l des src = C
    generalize l.take des = A
    generalize l.drop (src + t) = D
    have h1 : (D ++ A ++ B ++ C).Perm (A ++ C ++ B ++ D) := by
      have h2 : (D ++ (A ++ B ++ C)).Perm ((A ++ B ++ C) ++ D) := List.perm_append_comm
      rw [← List.append_assoc, ← List.append_assoc] at h2
      refine h2.trans (List.Perm.append_right D ?_)
      rw [List.append_assoc, List.append_assoc]
      exact List.Perm.append_left A List.perm_append_comm
    exact h1

theorem switchTry_perm (l : List α) (i j : ℕ) (hij : i ≠ j) : (switchTry l i j).Perm l := by
  unfold switchTry
  cases hi : l[i]? with
  | none => simp
  | some a =>
    cases hj : l[j]? with
    | none => simp
    | some b =>
      simp only
      obtain ⟨hi', rfl⟩ := List.getElem?_eq_some_iff.1 hi
      obtain ⟨hj', rfl⟩ := List.getElem?_eq_some_iff.1 hj
      classical
      rw [List.perm_iff_count]
      intro x
      have hj'' : j < (l.set i l[j]).length := by simpa using hj'
      rw [List.count_set hj'', List.count_set hi', List.getElem_set_ne hij]
      have c1 : l[i] = x → 0 < l.count x := by
        rintro rfl; exact List.count_pos_iff.2 (List.getElem_mem _)
      have c2 : l[j] = x → 0 < l.count x := by
        rintro rfl; exact List.count_pos_iff.2 (List.getElem_mem _)
      by_cases h1 : l[i] = x <;> by_cases h2 : l[j] = x <;> simp [h1, h2] <;>
        (try have := c1 h1) <;> (try have := c2 h2) <;> omega

theorem shuffleTry_perm (σ : List α → List α) (hσ : ∀ l, (σ l).Perm l) (l : List α)
    (src t : ℕ) : (shuffleTry σ l src t).Perm l := by
  unfold shuffleTry
  simp only
  refine ((hσ _).append_right _).trans ?_
  rw [List.take_append_drop]
  exact roll_perm l src

theorem toEnd_perm (l : List α) (k : ℕ) : (toEnd l k).Perm l := by
  unfold toEnd
  cases h : l[k]? with
  | none => simp
  | some c =>
    obtain ⟨h', rfl⟩ := List.getElem?_eq_some_iff.1 h
    simp only
    have e : l.take k ++ l[k] :: l.drop (k + 1) = l := by
      rw [← List.drop_eq_getElem_cons h', List.take_append_drop]
    conv_rhs => rw [← e]
    rw [List.append_assoc]
    exact List.Perm.append_left _ List.perm_append_comm

theorem otherThan_ne {src np r : ℕ} (h : 1 < np) (hs : src < np) : otherThan src np r ≠ src := by
  unfold otherThan
  have h1 : r % (np - 1) < np - 1 := Nat.mod_lt _ (by omega)
  intro e
  rcases lt_or_ge (src + 1 + r % (np - 1)) np with h2 | h2
  · rw [Nat.mod_eq_of_lt h2] at e; omega
  · rw [Nat.mod_eq_sub_mod h2, Nat.mod_eq_of_lt (by omega)] at e; omega

theorem otherThan_lt {src np r : ℕ} (h : 1 < np) : otherThan src np r < np :=
  Nat.mod_lt _ (by omega)

/-! ### specification -/

/-- A trial ordering is acceptable for an engine: same items, each as often as before, its
likelihood is the likelihood of that ordering, and it satisfies the constraint. -/
def Legal [LE β] (L : List α → β) (low : β) (param : List α) (p : List α) (l : β) : Prop :=
  p.Perm param ∧ l = L p ∧ low ≤ l

section
variable [LinearOrder β] (L : List α → β) (low : β) (param : List α) (draw : ℕ → ℕ)

theorem C01_reverse (t : ℕ) (p : List α) (l : β)
    (h : reverseOnce L low param draw = some (.accept t p l)) : Legal L low param p l := by
  have key : ∀ (src n k : ℕ), reverseLoop L low param src draw n k = .accept t p l →
      Legal L low param p l := by
    intro src n
    induction n using Nat.strong_induction_on with
    | _ n ih =>
      intro k hk
      rw [reverseLoop] at hk
      split at hk
      · rename_i hn
        simp only at hk
        split at hk
        · rename_i hl
          injection hk with _ h2 h3
          subst h2 h3
          exact ⟨reverseTry_perm _ _ _, rfl, hl⟩
        · exact ih _ (Nat.mod_lt _ (by omega)) _ hk
      · cases hk
  unfold reverseOnce at h
  simp only at h
  split at h
  · cases h
  · exact key _ _ _ (Option.some.inj h)

theorem C01_move (t : ℕ) (p : List α) (l : β)
    (h : moveOnce L low param draw = some (.accept t p l)) : Legal L low param p l := by
  have key : ∀ (src des n k : ℕ), (src < des → src + n ≤ des) → (¬ src < des → des ≤ src) →
      moveLoop L low param src des draw n k = .accept t p l → Legal L low param p l := by
    intro src des n
    induction n using Nat.strong_induction_on with
    | _ n ih =>
      intro k h1 h2 hk
      rw [moveLoop] at hk
      split at hk
      · rename_i hn
        simp only at hk
        split at hk
        · rename_i hl
          injection hk with _ h3 h4
          subst h3 h4
          exact ⟨moveTry_perm _ _ _ _ h1 h2, rfl, hl⟩
        · have hlt : draw k % n < n := Nat.mod_lt _ (by omega)
          exact ih _ hlt _ (fun hh => by have := h1 hh; omega) h2 hk
      · cases hk
  unfold moveOnce at h
  simp only at h
  split at h
  · cases h
  · rename_i hnp
    refine key _ _ _ _ (fun hh => ?_) (fun hh => not_lt.1 hh) (Option.some.inj h)
    simp only [hh, if_true]
    omega

theorem C01_switch (t : ℕ) (p : List α) (l : β)
    (h : switchOnce L low param draw = some (.accept t p l)) : Legal L low param p l := by
  unfold switchOnce at h
  simp only at h
  split at h
  · cases h
  · rename_i hnp
    split at h
    · rename_i hl
      injection h with h
      injection h with _ h3 h4
      subst h3 h4
      have hn : 1 < param.length := by omega
      exact ⟨switchTry_perm _ _ _ (otherThan_ne hn (Nat.mod_lt _ (by omega))).symm, rfl, hl⟩
    · simp at h

theorem C01_shuffle (σ : ℕ → List α → List α) (hσ : ∀ k l, (σ k l).Perm l)
    (t : ℕ) (p : List α) (l : β)
    (h : shuffleOnce L low param draw σ = some (.accept t p l)) : Legal L low param p l := by
  have key : ∀ (src n k : ℕ), shuffleLoop L low param src draw σ n k = .accept t p l →
      Legal L low param p l := by
    intro src n
    induction n using Nat.strong_induction_on with
    | _ n ih =>
      intro k hk
      rw [shuffleLoop] at hk
      split at hk
      · rename_i hn
        simp only at hk
        split at hk
        · rename_i hl
          injection hk with _ h2 h3
          subst h2 h3
          exact ⟨shuffleTry_perm _ (hσ k) _ _ _, rfl, hl⟩
        · exact ih _ (Nat.mod_lt _ (by omega)) _ hk
      · cases hk
  unfold shuffleOnce at h
  simp only at h
  split at h
  · cases h
  · exact key _ _ _ (Option.some.inj h)

variable [Field K] [LinearOrder K]

theorem C01_loop (xy : α → K × K) (t : ℕ) (p : List α) (l : β)
    (h : loopOnce xy L low param draw = some (.accept t p l)) : Legal L low param p l := by
  unfold loopOnce at h
  simp only at h
  split at h
  · cases h
  · split at h
    · rename_i k2 k4 rest hr
      split at h
      · simp at h
      · split at h
        · rename_i hl
          injection h with h
          injection h with _ h3 h4
          subst h3 h4
          refine ⟨?_, rfl, hl⟩
          refine (rollBack_perm _ _).trans ((revHead_perm _ _).trans ?_)
          rw [← hr]
          exact roll_perm _ _
        · simp at h
    · cases h

omit [Field K] in
theorem C01_near [DecidableEq α] (dist : α → α → K) (nearest nearest' : α → Option α)
    (t : ℕ) (p : List α) (l : β)
    (h : nearOnce dist nearest L low param draw = some (.accept t p l, nearest')) :
    Legal L low param p l := by
  unfold nearOnce at h
  simp only at h
  split at h
  · cases h
  · split at h
    · rename_i k2 k4 rest hr
      split at h
      · simp at h
      · split at h
        · simp at h
        · split at h
          · rename_i hl
            injection h with h
            injection h with h _
            injection h with _ h3 h4
            subst h3 h4
            refine ⟨?_, rfl, hl⟩
            refine (rollBack_perm _ _).trans ((toEnd_perm _ _).trans ?_)
            rw [← hr]
            exact roll_perm _ _
          · simp at h
    · cases h

/-! ### C57: the nearest neighbour -/

/-- Specification: `c` is a nearest neighbour of `n0` among the cities. -/
def NearestIn (dist : α → α → K) (items : List α) (n0 c : α) : Prop :=
  c ∈ items ∧ c ≠ n0 ∧ ∀ d ∈ items, d ≠ n0 → dist n0 c ≤ dist n0 d

omit [Field K] in
theorem nearestPos_spec (dist : α → K) (cs pre : List α) (dmin : K) (kmin : ℕ)
    (hmin : ∃ c, pre[kmin]? = some c ∧ dist c = dmin) (h0 : 1 ≤ kmin)
    (hall : ∀ d ∈ pre.tail, dmin ≤ dist d) :
    1 ≤ nearestPos dist cs dmin kmin pre.length ∧
    ∃ c, (pre ++ cs)[nearestPos dist cs dmin kmin pre.length]? = some c ∧
      ∀ d ∈ (pre ++ cs).tail, dist c ≤ dist d := by
  induction cs generalizing pre dmin kmin with
  | nil =>
    obtain ⟨c, hc, hd⟩ := hmin
    simp only [nearestPos, List.append_nil]
    exact ⟨h0, c, hc, fun d h => hd ▸ hall d h⟩
  | cons x cs ih =>
    obtain ⟨c, hc, hd⟩ := hmin
    have hlt := (List.getElem?_eq_some_iff.1 hc).1
    have hne : pre ≠ [] := by rintro rfl; simp at hlt
    have happ : pre ++ x :: cs = (pre ++ [x]) ++ cs := by simp
    have htail : (pre ++ [x]).tail = pre.tail ++ [x] := by
      rw [List.tail_append_of_ne_nil hne]
    simp only [nearestPos]
    rw [happ]
    split
    · rename_i hx
      have := ih (pre ++ [x]) (dist x) pre.length ⟨x, by simp, rfl⟩ (by omega) (by
        intro d h
        rw [htail] at h
        rcases List.mem_append.1 h with h | h
        · exact hx.le.trans (hall d h)
        · rw [List.mem_singleton.1 h])
      simpa using this
    · rename_i hx
      have := ih (pre ++ [x]) dmin kmin ⟨c, by rw [List.getElem?_append_left hlt]; exact hc, hd⟩ h0 (by
        intro d h
        rw [htail] at h
        rcases List.mem_append.1 h with h | h
        · exact hall d h
        · rw [List.mem_singleton.1 h]; exact not_lt.1 hx)
      simpa using this

theorem roll_isRotated (l : List α) (k : ℕ) : (roll l k) ~r l :=
  List.IsRotated.symm ⟨l.length - k, by
    unfold roll
    rw [List.rotate_eq_drop_append_take (Nat.sub_le _ _)]⟩

theorem rollBack_isRotated (l : List α) (k : ℕ) (h : k ≤ l.length) : (rollBack l k) ~r l :=
  List.IsRotated.symm ⟨k, by unfold rollBack; rw [List.rotate_eq_drop_append_take h]⟩

omit [Field K] in
/-- C57: the near engine keeps a table of nearest neighbours. If the table is right it stays right; and the
new tour, when one is accepted, has some city right after its nearest neighbour. -/
theorem C57_near [DecidableEq α] (dist : α → α → K) (nearest nearest' : α → Option α) (o : Outcome α β)
    (hnd : param.Nodup) (htab : ∀ n c, nearest n = some c → NearestIn dist param n c)
    (h : nearOnce dist nearest L low param draw = some (o, nearest')) :
    (∀ n c, nearest' n = some c → NearestIn dist param n c) ∧
    ∀ t p l, o = .accept t p l →
      ∃ n0 c rest, p ~r (c :: n0 :: rest) ∧ NearestIn dist param n0 c := by
  unfold nearOnce at h
  simp only at h
  split at h
  · cases h
  · rename_i hnp
    split at h
    · rename_i n0 c1 rest hr
      have hperm : (n0 :: c1 :: rest).Perm param := hr ▸ roll_perm _ _
      have hnd' : (n0 :: c1 :: rest).Nodup := hperm.nodup_iff.2 hnd
      have hn0 : n0 ∉ c1 :: rest := (List.nodup_cons.1 hnd').1
      -- what is found is a nearest neighbour
      have key : ∀ kmin tab, (match nearest n0 with
          | none => some (nearestPos (dist n0) rest (dist n0 c1) 1 2,
              Function.update nearest n0 (n0 :: c1 :: rest)[nearestPos (dist n0) rest (dist n0 c1) 1 2]?)
          | some c => if c ∈ n0 :: c1 :: rest then some ((n0 :: c1 :: rest).idxOf c, nearest) else none)
          = some (kmin, tab) →
          (∀ n c, tab n = some c → NearestIn dist param n c) ∧
          ∃ c, (n0 :: c1 :: rest)[kmin]? = some c ∧ 1 ≤ kmin ∧ NearestIn dist param n0 c := by
        intro kmin tab hk
        split at hk
        · simp only [Option.some.injEq, Prod.mk.injEq] at hk
          obtain ⟨h1, c, hc, hall⟩ := nearestPos_spec (dist n0) rest [n0, c1] (dist n0 c1) 1
            ⟨c1, rfl, rfl⟩ le_rfl (by simp)
          have hlen : [n0, c1].length = 2 := rfl
          rw [hlen] at h1 hc
          rw [hk.1] at h1 hc hk
          have hmem : c ∈ c1 :: rest := by
            obtain ⟨j, rfl⟩ : ∃ j, kmin = j + 1 := ⟨kmin - 1, by omega⟩
            exact List.mem_of_getElem? (by simpa using hc)
          have hN : NearestIn dist param n0 c := by
            refine ⟨hperm.mem_iff.1 (List.mem_cons_of_mem _ hmem), ?_, ?_⟩
            · rintro rfl; exact hn0 hmem
            · intro d hd hdn
              rcases List.mem_cons.1 (hperm.mem_iff.2 hd) with rfl | hd
              · exact absurd rfl hdn
              · exact hall d hd
          refine ⟨?_, c, hc, h1, hN⟩
          intro n d hd
          rw [← hk.2] at hd
          by_cases hn : n = n0
          · subst hn
            rw [Function.update_self] at hd
            have : (n :: c1 :: rest)[kmin]? = some c := hc
            rw [this] at hd
            rw [← Option.some.inj hd]
            exact hN
          · rw [Function.update_of_ne hn] at hd
            exact htab n d hd
        · rename_i c hc
          split at hk
          · rename_i hmem
            simp only [Option.some.injEq, Prod.mk.injEq] at hk
            obtain ⟨rfl, rfl⟩ := hk
            have hN := htab n0 c hc
            refine ⟨htab, c, List.getElem?_idxOf hmem, ?_, hN⟩
            rw [List.idxOf_cons_ne _ (Ne.symm hN.2.1)]
            omega
          · cases hk
      split at h
      · cases h
      · rename_i kmin tab hk
        obtain ⟨ht, c, hc, h1, hN⟩ := key kmin tab hk
        split at h
        · simp only [Option.some.injEq, Prod.mk.injEq] at h
          rw [← h.2, ← h.1]
          exact ⟨ht, fun t p l hh => by cases hh⟩
        · split at h
          · simp only [Option.some.injEq, Prod.mk.injEq] at h
            rw [← h.2, ← h.1]
            refine ⟨ht, fun t p l hh => ?_⟩
            injection hh with _ hp _
            refine ⟨n0, c, ((n0 :: c1 :: rest).take kmin ++ (n0 :: c1 :: rest).drop (kmin + 1)).tail, ?_, hN⟩
            rw [← hp]
            have hte : toEnd (n0 :: c1 :: rest) kmin = n0 :: (((n0 :: c1 :: rest).take kmin ++
                (n0 :: c1 :: rest).drop (kmin + 1)).tail ++ [c]) := by
              simp only [toEnd, hc]
              obtain ⟨j, rfl⟩ : ∃ j, kmin = j + 1 := ⟨kmin - 1, by omega⟩
              simp [List.take_succ_cons]
            have hks : draw 0 % param.length ≤ (toEnd (n0 :: c1 :: rest) kmin).length := by
              rw [(toEnd_perm _ _).length_eq, hperm.length_eq]
              exact (Nat.mod_lt _ (by omega)).le
            refine (rollBack_isRotated _ _ hks).trans ?_
            rw [hte, ← List.cons_append]
            exact (⟨_, List.rotate_append_length_eq _ _⟩ : _ ~r [c] ++ _)
          · simp only [Option.some.injEq, Prod.mk.injEq] at h
            rw [← h.2, ← h.1]
            exact ⟨ht, fun t p l hh => by cases hh⟩
    · cases h

/-- Four cities on a line at 0, 10, 1 and 5: city 2 is moved before city 0. -/
example : (nearOnce (fun a b => |([0, 10, 1, 5].getD a 0 : ℚ) - [0, 10, 1, 5].getD b 0|) (fun _ : ℕ => none)
    (fun _ => (0 : ℤ)) 0 [0, 1, 2, 3] (fun _ => 0)).map (fun r => (match r.1 with
      | .accept _ p _ => p
      | .reject _ => [], r.2 0)) = some ([0, 1, 3, 2], some 2) := by decide +kernel

end

/-! ### Histories -/

/-- `rng.permutation`: any function on lists that returns a rearrangement. -/
abbrev Shuffler (α : Type*) := {f : List α → List α // ∀ l, (f l).Perm l}

/-- The choice of an ordering engine, with the data it uses beyond the tour. The table of nearest
neighbours of the NearEngine is whatever it may be at that moment. -/
inductive Choice (α K : Type*) where
  | reverse | move | switch
  | shuffle (σ : ℕ → Shuffler α)
  | loop (xy : α → K × K)
  | near (dist : α → α → K) (nearest : α → Option α)

variable [LinearOrder β] [Field K] [LinearOrder K] [DecidableEq α]

/-- `executeOnce` of the chosen engine. -/
def Choice.once (c : Choice α K) (L : List α → β) (low : β) (draw : ℕ → ℕ) (param : List α) :
    Option (Outcome α β) :=
  match c with
  | .reverse => reverseOnce L low param draw
  | .move => moveOnce L low param draw
  | .switch => switchOnce L low param draw
  | .shuffle σ => shuffleOnce L low param draw (fun k => (σ k).1)
  | .loop xy => loopOnce xy L low param draw
  | .near dist nearest => (nearOnce dist nearest L low param draw).map (·.1)

/-- One call on an engine: start, or explore walker `kw` at level `low` with at most `maxtrials`
tries, where try `i` uses the draws `draws i`. -/
inductive Call (α β K : Type*) where
  | start (σ : Shuffler α) (kw : ℕ)
  | explore (c : Choice α K) (kw : ℕ) (low : β) (maxtrials : ℕ) (draws : ℕ → ℕ → ℕ)

/-- The ensemble after one call; `none` when python raises. -/
def Call.run (L : List α → β) (wl : WalkerList α β) : Call α β K → Option (WalkerList α β × ℕ)
  | .start σ kw => startOrder L σ.1 wl kw
  | .explore c kw low maxtrials draws =>
      execute (fun i => c.once L low (draws i)) kw maxtrials 0 wl

/-- The ensemble after a history of calls. -/
def runAll (L : List α → β) : List (Call α β K) → WalkerList α β → Option (WalkerList α β)
  | [], wl => some wl
  | c :: cs, wl => (c.run L wl).bind (fun r => runAll L cs r.1)

theorem Choice.once_legal (c : Choice α K) (L : List α → β) (low : β) (draw : ℕ → ℕ)
    (param : List α) (t : ℕ) (p : List α) (l : β)
    (h : c.once L low draw param = some (.accept t p l)) : Legal L low param p l := by
  cases c with
  | reverse => exact C01_reverse L low param draw t p l h
  | move => exact C01_move L low param draw t p l h
  | switch => exact C01_switch L low param draw t p l h
  | shuffle σ => exact C01_shuffle L low param draw _ (fun k => (σ k).2) t p l h
  | loop xy => exact C01_loop L low param draw xy t p l h
  | near dist nearest =>
    simp only [Choice.once, Option.map_eq_some_iff] at h
    obtain ⟨⟨o, n'⟩, h1, rfl⟩ := h
    exact C01_near L low param draw dist nearest n' t p l h1

/-- Specification of a sound ensemble for a set of items: every walker holds each item exactly as
often as `items` does, with the right likelihood. -/
def Sound (L : List α → β) (items : List α) (wl : WalkerList α β) : Prop :=
  ∀ w ∈ wl.items, w.allpars.Perm items ∧ w.logL = L w.allpars

omit [Field K] [LinearOrder K] [DecidableEq α] [LinearOrder β] in
theorem engineSetWalker_sound (L : List α → β) (items : List α) (wl : WalkerList α β)
    (h : Sound L items wl) (kw : ℕ) (p : List α) (hp : p.Perm items) :
    Sound L items (engineSetWalker wl kw p (L p)) := by
  intro w hw
  unfold engineSetWalker WalkerList.setWalker at hw
  simp only at hw
  split at hw
  · rcases List.mem_or_eq_of_mem_set hw with hw | hw
    · exact h w hw
    · subst hw; exact ⟨hp, rfl⟩
  · rcases List.mem_append.1 hw with hw | hw
    · exact h w hw
    · simp only [List.mem_singleton] at hw; subst hw; exact ⟨hp, rfl⟩

/-- Whatever the engines do, in any order, with any draws, on any walkers: no ordering in the
ensemble ever loses or duplicates an item, and its likelihood is that of the ordering. -/
theorem C01_history (L : List α → β) (items : List α) (cs : List (Call α β K))
    (wl wl' : WalkerList α β) (h : Sound L items wl) (hr : runAll L cs wl = some wl') :
    Sound L items wl' := by
  have hex : ∀ (c : Choice α K) (kw : ℕ) (low : β) (draws : ℕ → ℕ → ℕ) (n i : ℕ)
      (wl : WalkerList α β) r, Sound L items wl →
      execute (fun i => c.once L low (draws i)) kw n i wl = some r → Sound L items r.1 := by
    intro c kw low draws n
    induction n with
    | zero =>
      intro i wl r h hr
      simp only [execute, Option.some.injEq] at hr
      subst hr; exact h
    | succ n ih =>
      intro i wl r h hr
      simp only [execute] at hr
      cases hw : wl.items[kw]? with
      | none => simp [hw] at hr
      | some w =>
        simp only [hw] at hr
        cases ho : c.once L low (draws i) w.allpars with
        | none => simp [ho] at hr
        | some o =>
          simp only [ho] at hr
          have hst : ∀ r', store wl kw o = some r' → Sound L items r'.1 := by
            intro r' hr'
            cases o with
            | reject t => simp only [store, Option.some.injEq] at hr'; subst hr'; exact h
            | accept t p l =>
              simp only [store, hw, Option.some.injEq] at hr'
              subst hr'
              obtain ⟨h1, h2, -⟩ := c.once_legal L low _ _ t p l ho
              subst h2
              exact engineSetWalker_sound L items wl h _ p
                (h1.trans (h w (List.mem_of_getElem? hw)).1)
          cases hs : store wl kw o with
          | none => simp [hs] at hr
          | some r' =>
            simp only [hs] at hr
            split at hr
            · exact ih _ _ _ (hst r' hs) hr
            · simp only [Option.some.injEq] at hr; subst hr; exact hst r' hs
  induction cs generalizing wl with
  | nil => simp only [runAll, Option.some.injEq] at hr; subst hr; exact h
  | cons c cs ih =>
    simp only [runAll, Option.bind_eq_some_iff] at hr
    obtain ⟨r, h1, h2⟩ := hr
    refine ih r.1 ?_ h2
    cases c with
    | start σ kw =>
      simp only [Call.run, startOrder] at h1
      cases hw : wl.items[kw]? with
      | none => simp [hw] at h1
      | some w =>
        simp only [hw, Option.some.injEq] at h1
        subst h1
        exact engineSetWalker_sound L items wl h _ _
          ((σ.2 _).trans (h w (List.mem_of_getElem? hw)).1)
    | explore c kw low m draws => exact hex c kw low draws m 0 wl r h h1

/-! ### C47: only the walker that was asked for is changed -/

/-- Positions agree with ids, as in a freshly made ensemble. -/
def IdsAreIndices (wl : WalkerList α β) : Prop :=
  ∀ (i : ℕ) (w : Walker α β), wl.items[i]? = some w → w.id = i

omit [LinearOrder β] [DecidableEq α] in
/-- As long as ids agree with positions, exploring walker `kw` leaves all other walkers alone and
keeps the ids. (The code replaces the walker at *index* `walker.id`; without the hypothesis the
claim fails, see `C47_counterexample`.) -/
theorem C47_only_kw_changes_partial (once : ℕ → List α → Option (Outcome α β)) (kw n i : ℕ)
    (wl : WalkerList α β) (r : WalkerList α β × ℕ) (hid : IdsAreIndices wl)
    (h : execute once kw n i wl = some r) :
    r.1.items.length = wl.items.length ∧ IdsAreIndices r.1 ∧
    ∀ j, j ≠ kw → r.1.items[j]? = wl.items[j]? := by
  induction n generalizing i wl with
  | zero =>
    simp only [execute, Option.some.injEq] at h
    subst h; exact ⟨rfl, hid, fun _ _ => rfl⟩
  | succ n ih =>
    simp only [execute] at h
    cases hw : wl.items[kw]? with
    | none => simp [hw] at h
    | some w =>
      simp only [hw] at h
      have hkl : kw < wl.items.length := (List.getElem?_eq_some_iff.1 hw).1
      have hwid := hid kw w hw
      cases ho : once i w.allpars with
      | none => simp [ho] at h
      | some o =>
        simp only [ho] at h
        have hst : ∀ r', store wl kw o = some r' → r'.1.items.length = wl.items.length ∧
            IdsAreIndices r'.1 ∧ ∀ j, j ≠ kw → r'.1.items[j]? = wl.items[j]? := by
          intro r' hr'
          cases o with
          | reject t =>
            simp only [store, Option.some.injEq] at hr'; subst hr'
            exact ⟨rfl, hid, fun _ _ => rfl⟩
          | accept t p l =>
            simp only [store, hw, hwid, engineSetWalker, WalkerList.setWalker, hkl, if_true,
              Option.some.injEq] at hr'
            subst hr'
            refine ⟨by simp, ?_, fun j hj => by simp [List.getElem?_set_ne hj.symm]⟩
            intro j v hv
            by_cases hj : j = kw
            · subst hj
              simp only [List.getElem?_set_self hkl, Option.some.injEq] at hv
              subst hv; rfl
            · simp only [List.getElem?_set_ne (Ne.symm hj)] at hv
              exact hid j v hv
        cases hs : store wl kw o with
        | none => simp [hs] at h
        | some r' =>
          simp only [hs] at h
          obtain ⟨a, b, c⟩ := hst r' hs
          split at h
          · obtain ⟨a', b', c'⟩ := ih _ _ b h
            exact ⟨a'.trans a, b', fun j hj => (c' j hj).trans (c j hj)⟩
          · simp only [Option.some.injEq] at h; subst h; exact ⟨a, b, c⟩

/-- An ensemble of two walkers in which the positions were exchanged (as happens after sorting on
likelihood). -/
def swappedPair : WalkerList ℕ ℤ :=
  ⟨[⟨1, -1, 0, 0, [0, 1, 2, 3], 0⟩, ⟨0, -1, 0, 0, [3, 2, 1, 0], 0⟩], 2⟩

/-- The full claim is false of the code: after sorting, the switch engine asked to explore walker 0
reports success, leaves walker 0 as it was and overwrites walker 1. -/
theorem C47_counterexample :
    ∃ r, execute (fun _ p => switchOnce (fun _ => (0 : ℤ)) 0 p (fun _ => 0)) 0 1 0 swappedPair
      = some r ∧ r.2 = 2 ∧ r.1.items[0]? = swappedPair.items[0]? ∧
      (r.1.items[1]?.map (·.allpars)) = some [1, 0, 2, 3] := by
  refine ⟨_, rfl, ?_⟩
  decide

/-! ### C48: the loop engine and crossings -/

/-- Specification: the closed segments `a`-`b` and `c`-`d` have a point in common. -/
def SegmentsMeet (a b c d : K × K) : Prop :=
  ∃ s t : K, 0 ≤ s ∧ s ≤ 1 ∧ 0 ≤ t ∧ t ≤ 1 ∧
    a.1 + s * (b.1 - a.1) = c.1 + t * (d.1 - c.1) ∧
    a.2 + s * (b.2 - a.2) = c.2 + t * (d.2 - c.2)

theorem isBetween_iff [IsStrictOrderedRing K] {a x b : K} (hab : a ≠ b) :
    isBetween a x b = true ↔ ∃ s, 0 ≤ s ∧ s ≤ 1 ∧ a + s * (b - a) = x := by
  have hne : b - a ≠ 0 := sub_ne_zero.2 hab.symm
  unfold isBetween
  simp only [decide_eq_true_eq]
  constructor
  · intro h
    refine ⟨(x - a) / (b - a), ?_, ?_, by field_simp; ring⟩
    · rcases h with ⟨h1, h2⟩ | ⟨h1, h2⟩
      · exact div_nonneg (by linarith) (by linarith)
      · exact div_nonneg_of_nonpos (by linarith) (by linarith)
    · rcases h with ⟨h1, h2⟩ | ⟨h1, h2⟩
      · have : 0 < b - a := lt_of_le_of_ne (by linarith) hne.symm
        rw [div_le_one this]; linarith
      · have : b - a < 0 := lt_of_le_of_ne (by linarith) hne
        rw [div_le_one_of_neg this]; linarith
  · rintro ⟨s, h0, h1, rfl⟩
    rcases lt_or_gt_of_ne hab with h | h
    · left; constructor
      · have := mul_nonneg h0 (sub_nonneg.2 h.le); linarith
      · have := mul_nonneg (sub_nonneg.2 h1) (sub_nonneg.2 h.le); linarith
    · right; constructor
      · have := mul_nonneg (sub_nonneg.2 h1) (sub_nonneg.2 h.le); linarith
      · have := mul_nonneg h0 (sub_nonneg.2 h.le); linarith

/-- The crossing test of the loop engine is right for stretches that are neither vertical nor
parallel and start at the same height (`y1 = y3`). In general it is not: see
`C48_counterexample_missed` and `C48_counterexample_false_alarm`. -/
theorem C48_crosses_partial [IsStrictOrderedRing K] (xy : α → K × K) (k1 k2 k3 k4 : α)
    (h12 : (xy k1).1 ≠ (xy k2).1) (h34 : (xy k3).1 ≠ (xy k4).1)
    (hpar : ((xy k2).2 - (xy k1).2) * ((xy k4).1 - (xy k3).1) ≠
            ((xy k4).2 - (xy k3).2) * ((xy k2).1 - (xy k1).1))
    (hy : (xy k1).2 = (xy k3).2) :
    crosses xy (closing xy k1 k2) k3 k4 = true ↔
      SegmentsMeet (xy k1) (xy k2) (xy k3) (xy k4) := by
  obtain ⟨x1, y1, e1⟩ : ∃ x y, xy k1 = (x, y) := ⟨_, _, rfl⟩
  obtain ⟨x2, y2, e2⟩ : ∃ x y, xy k2 = (x, y) := ⟨_, _, rfl⟩
  obtain ⟨x3, y3, e3⟩ : ∃ x y, xy k3 = (x, y) := ⟨_, _, rfl⟩
  obtain ⟨x4, y4, e4⟩ : ∃ x y, xy k4 = (x, y) := ⟨_, _, rfl⟩
  simp only [e1, e2, e3, e4] at h12 h34 hpar hy
  subst hy
  have n12 : x2 - x1 ≠ 0 := sub_ne_zero.2 h12.symm
  have n34 : x4 - x3 ≠ 0 := sub_ne_zero.2 h34.symm
  have hm : (y4 - y1) / (x4 - x3) ≠ (y2 - y1) / (x2 - x1) := by
    intro e
    rw [div_eq_div_iff n34 n12] at e
    exact hpar e.symm
  have hc : crosses xy (closing xy k1 k2) k3 k4 =
      (isBetween x1 ((((y4 - y1) / (x4 - x3)) * x3 - ((y2 - y1) / (x2 - x1)) * x1) /
          ((y4 - y1) / (x4 - x3) - (y2 - y1) / (x2 - x1))) x2 &&
       isBetween x3 ((((y4 - y1) / (x4 - x3)) * x3 - ((y2 - y1) / (x2 - x1)) * x1) /
          ((y4 - y1) / (x4 - x3) - (y2 - y1) / (x2 - x1))) x4) := by
    simp only [crosses, closing, e1, e2, e3, e4, h12, h34, hm, if_false, Bool.false_eq_true,
      sub_self, zero_add]
  set m1 := (y2 - y1) / (x2 - x1) with hm1
  set m3 := (y4 - y1) / (x4 - x3) with hm3
  have e1' : m1 * (x2 - x1) = y2 - y1 := by rw [hm1]; field_simp
  have e3' : m3 * (x4 - x3) = y4 - y1 := by rw [hm3]; field_simp
  have nm : m3 - m1 ≠ 0 := sub_ne_zero.2 hm
  set xc := (m3 * x3 - m1 * x1) / (m3 - m1) with hxc
  have exc : m1 * (xc - x1) = m3 * (xc - x3) := by
    have : xc * (m3 - m1) = m3 * x3 - m1 * x1 := by rw [hxc]; field_simp
    linear_combination -this
  rw [hc, Bool.and_eq_true, isBetween_iff h12, isBetween_iff h34, e1, e2, e3, e4]
  unfold SegmentsMeet
  simp only
  constructor
  · rintro ⟨⟨s, s0, s1, hs⟩, ⟨t, t0, t1, ht⟩⟩
    refine ⟨s, t, s0, s1, t0, t1, by rw [hs, ht], ?_⟩
    have a1 : s * (y2 - y1) = m1 * (xc - x1) := by rw [← e1', ← hs]; ring
    have a2 : t * (y4 - y1) = m3 * (xc - x3) := by rw [← e3', ← ht]; ring
    linarith
  · rintro ⟨s, t, s0, s1, t0, t1, hx, hyy⟩
    have key : x1 + s * (x2 - x1) = xc := by
      have a1 : s * (y2 - y1) = m1 * (s * (x2 - x1)) := by rw [← e1']; ring
      have a2 : t * (y4 - y1) = m3 * (t * (x4 - x3)) := by rw [← e3']; ring
      have : (x1 + s * (x2 - x1) - xc) * (m3 - m1) = 0 := by
        have h5 : m1 * (s * (x2 - x1)) = m3 * (t * (x4 - x3)) := by
          rw [← a1, ← a2]; simpa using hyy
        have h6 : t * (x4 - x3) = x1 + s * (x2 - x1) - x3 := by linarith
        rw [h6] at h5
        have : xc * (m3 - m1) = m3 * x3 - m1 * x1 := by rw [hxc]; field_simp
        linear_combination -h5 - this
      rcases mul_eq_zero.1 this with h | h
      · linarith
      · exact absurd h nm
    exact ⟨⟨s, s0, s1, key⟩, ⟨t, t0, t1, by rw [← hx, key]⟩⟩

/-- Four cities, `ex i` the i-th. -/
def ex : ℕ → ℚ × ℚ
  | 0 => (0, 0)
  | 1 => (2, 4)
  | 2 => (0, 3)
  | _ => (2, 1)

/-- Two stretches that really cross are not recognised by the loop engine. -/
theorem C48_counterexample_missed :
    SegmentsMeet (ex 0) (ex 1) (ex 2) (ex 3) ∧ crosses ex (closing ex 0 1) 2 3 = false := by
  refine ⟨⟨1 / 2, 1 / 2, by norm_num, by norm_num, by norm_num, by norm_num, ?_, ?_⟩, ?_⟩
  · norm_num [ex]
  · norm_num [ex]
  · norm_num [crosses, closing, ex, isBetween]

/-- Four cities, second example. -/
def ex' : ℕ → ℚ × ℚ
  | 0 => (0, 0)
  | 1 => (2, 4)
  | 2 => (0, -3)
  | _ => (2, -5)

/-- Two stretches that do not cross are taken for crossing. -/
theorem C48_counterexample_false_alarm :
    ¬ SegmentsMeet (ex' 0) (ex' 1) (ex' 2) (ex' 3) ∧
      crosses ex' (closing ex' 0 1) 2 3 = true := by
  refine ⟨?_, ?_⟩
  · rintro ⟨s, t, s0, s1, t0, t1, h1, h2⟩
    norm_num [ex'] at h1 h2
    linarith
  · norm_num [crosses, closing, ex', isBetween]

/-! ### Non-vacuity -/

example : reverseOnce (fun _ : List ℕ => (0 : ℤ)) 0 [0, 1, 2, 3, 4] (fun k => 3 - k)
    = some (.accept 4 [1, 0, 4, 3, 2] 0) := by
  simp [reverseOnce]; rw [reverseLoop]; simp [reverseTry, revHead]

example : moveOnce (fun _ : List ℕ => (0 : ℤ)) 0 [0, 1, 2, 3, 4] (fun k => 3 - k)
    = some (.accept 2 [0, 3, 4, 1, 2] 0) := by
  simp [moveOnce, otherThan]; rw [moveLoop]; simp [moveTry, slice]

/-- Two tries inside one call, the first one rejected. -/
example : moveOnce (fun p : List ℕ => if p.head? = some 1 then (0 : ℤ) else 5) 1
    [0, 1, 2, 3, 4] (fun k => if k = 0 then 1 else if k = 1 then 1 else if k = 2 then 1 else 1)
    = some (.accept 1 [2, 1, 3, 4, 0] 5) := by
  simp [moveOnce, otherThan]
  rw [moveLoop]; simp [moveTry, slice]
  rw [moveLoop]; simp [moveTry, slice]

example : IdsAreIndices (⟨[⟨0, -1, 0, 0, [0, 1, 2], 0⟩, ⟨1, -1, 0, 0, [2, 1, 0], 0⟩], 2⟩ :
    WalkerList ℕ ℤ) := by
  unfold IdsAreIndices
  intro i w h
  match i with
  | 0 => simp at h; subst h; rfl
  | 1 => simp at h; subst h; rfl
  | n + 2 => simp at h

end Orders
end BF
