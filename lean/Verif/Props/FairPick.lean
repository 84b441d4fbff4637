import Verif.Boost
import Mathlib.Data.Fintype.Pi
import Mathlib.Data.Fintype.BigOperators
import Mathlib.Logic.Equiv.Basic

/-!
# Fair copies from the phantoms

C148: a dead walker is replaced by a phantom above the level, each of them with the same chance.
-/

namespace BF
namespace Boost

variable {α β : Type*} [LinearOrder β]

/-! ## Specification -/

/-- The stream of random numbers that starts with a given sequence. -/
def stream {fuel len : ℕ} (f : Fin fuel → Fin len) (k : ℕ) : ℕ := if h : k < fuel then (f ⟨k, h⟩ : ℕ) else 0

/-- The result, when there is one. -/
def Res.value? {γ : Type*} : Res γ → Option γ
  | .ok v _ => some v
  | _ => none

/-- The number of sequences of `fuel` draws, out of as many numbers as there are phantoms, by which phantom `i` is
chosen. -/
def chosen (phantoms : List (Walker α β)) (low : β) (fuel i : ℕ) : ℕ :=
  (Finset.univ.filter fun f : Fin fuel → Fin phantoms.length =>
    (pick (stream f) phantoms low fuel 0).value? = some i).card

/-- Walker `i` of a list is above the level. -/
def Above (phantoms : List (Walker α β)) (low : β) (i : ℕ) : Prop := ∃ p, phantoms[i]? = some p ∧ p.logL > low

/-! ## One phantom -/

theorem pick_succ (rnd : ℕ → ℕ) (phantoms : List (Walker α β)) (low : β) (fuel n : ℕ) (p : Walker α β)
    (hp : phantoms[rnd n % phantoms.length]? = some p) :
    pick rnd phantoms low (fuel + 1) n
      = if p.logL > low then .ok (rnd n % phantoms.length) (n + 1) else pick rnd phantoms low fuel (n + 1) := by
  have hne : ¬ phantoms.length = 0 := by
    intro h
    rw [List.length_eq_zero_iff.1 h] at hp
    simp at hp
  simp only [pick, if_neg hne, hp]

theorem pick_above (rnd : ℕ → ℕ) (phantoms : List (Walker α β)) (low : β) (fuel n i : ℕ)
    (h : (pick rnd phantoms low fuel n).value? = some i) : Above phantoms low i := by
  induction fuel generalizing n with
  | zero => simp [pick, Res.value?] at h
  | succ fuel ih =>
    rcases hp : phantoms[rnd n % phantoms.length]? with _ | p
    · by_cases hne : phantoms.length = 0
      · simp [pick, hne, Res.value?] at h
      · simp [pick, hne, hp, Res.value?] at h
    · rw [pick_succ rnd phantoms low fuel n p hp] at h
      by_cases hl : p.logL > low
      · rw [if_pos hl] at h
        simp only [Res.value?, Option.some.injEq] at h
        exact ⟨p, h ▸ hp, hl⟩
      · rw [if_neg hl] at h
        exact ih (n + 1) h

theorem pick_map (rnd rnd' : ℕ → ℕ) (phantoms : List (Walker α β)) (low : β) (σ : Equiv.Perm (Fin phantoms.length))
    (hσ : ∀ a : Fin phantoms.length, phantoms[a].logL > low ↔ phantoms[σ a].logL > low)
    (fuel n : ℕ)
    (hr : ∀ k, n ≤ k → k < n + fuel → ∃ a : Fin phantoms.length,
      rnd k % phantoms.length = a ∧ rnd' k % phantoms.length = σ a)
    (i : Fin phantoms.length) (h : (pick rnd phantoms low fuel n).value? = some (i : ℕ)) :
    (pick rnd' phantoms low fuel n).value? = some ((σ i : Fin phantoms.length) : ℕ) := by
  induction fuel generalizing n with
  | zero => simp [pick, Res.value?] at h
  | succ fuel ih =>
    obtain ⟨a, ha, ha'⟩ := hr n le_rfl (by omega)
    have hp : phantoms[rnd n % phantoms.length]? = some phantoms[a] := by
      rw [ha]; simp
    have hp' : phantoms[rnd' n % phantoms.length]? = some phantoms[σ a] := by
      rw [ha']; simp
    rw [pick_succ rnd phantoms low fuel n _ hp] at h
    rw [pick_succ rnd' phantoms low fuel n _ hp']
    by_cases hl : phantoms[a].logL > low
    · rw [if_pos hl] at h
      rw [if_pos ((hσ a).1 hl)]
      simp only [Res.value?, Option.some.injEq, ha] at h
      simp only [Res.value?, ha', Fin.ext h]
    · rw [if_neg hl] at h
      rw [if_neg (mt (hσ a).2 hl)]
      exact ih (n + 1) (fun k h1 h2 => hr k (by omega) (by omega)) h

theorem chosen_le (phantoms : List (Walker α β)) (low : β) (fuel : ℕ) (i j : Fin phantoms.length)
    (hi : phantoms[i].logL > low) (hj : phantoms[j].logL > low) :
    chosen phantoms low fuel i ≤ chosen phantoms low fuel j := by
  unfold chosen
  apply Finset.card_le_card_of_injOn fun f k => Equiv.swap i j (f k)
  · intro f hf
    simp only [Finset.coe_filter, Finset.mem_univ, true_and, Set.mem_setOf_eq] at hf ⊢
    have key := pick_map (stream f) (stream fun k => Equiv.swap i j (f k)) phantoms low (Equiv.swap i j) ?_ fuel 0 ?_ i hf
    · rwa [Equiv.swap_apply_left] at key
    · intro a
      by_cases h1 : a = i
      · subst h1
        simp only [Equiv.swap_apply_left, hi, hj]
      · by_cases h2 : a = j
        · subst h2
          simp only [Equiv.swap_apply_right, hi, hj]
        · simp only [Equiv.swap_apply_of_ne_of_ne h1 h2]
    · intro k _ hk
      have hk' : k < fuel := by omega
      refine ⟨f ⟨k, hk'⟩, ?_, ?_⟩
      · simp only [stream, dif_pos hk']
        exact Nat.mod_eq_of_lt (f ⟨k, hk'⟩).isLt
      · simp only [stream, dif_pos hk']
        exact Nat.mod_eq_of_lt (Fin.isLt _)
  · intro f _ g _ h
    funext k
    exact (Equiv.swap i j).injective (congrFun h k)

theorem above_fin (phantoms : List (Walker α β)) (low : β) (i : ℕ) (h : Above phantoms low i) :
    ∃ hi : i < phantoms.length, phantoms[(⟨i, hi⟩ : Fin phantoms.length)].logL > low := by
  obtain ⟨p, hp, hl⟩ := h
  obtain ⟨hi, rfl⟩ := List.getElem?_eq_some_iff.1 hp
  exact ⟨hi, hl⟩

/-- All phantoms above the level have the same chance to be copied, whatever their likelihoods. -/
theorem C148_fair (phantoms : List (Walker α β)) (low : β) (fuel i j : ℕ) (hi : Above phantoms low i)
    (hj : Above phantoms low j) : chosen phantoms low fuel i = chosen phantoms low fuel j := by
  obtain ⟨h1, hi⟩ := above_fin phantoms low i hi
  obtain ⟨h2, hj⟩ := above_fin phantoms low j hj
  exact le_antisymm (chosen_le phantoms low fuel ⟨i, h1⟩ ⟨j, h2⟩ hi hj) (chosen_le phantoms low fuel ⟨j, h2⟩ ⟨i, h1⟩ hj hi)

/-- The others are never copied. -/
theorem C148_never (phantoms : List (Walker α β)) (low : β) (fuel i : ℕ) (hi : ¬ Above phantoms low i) :
    chosen phantoms low fuel i = 0 := by
  unfold chosen
  rw [Finset.card_eq_zero, Finset.filter_eq_empty_iff]
  intro f _ h
  exact hi (pick_above _ _ _ _ _ _ h)

/-- Each of those above the level can be copied. -/
theorem C148_every (phantoms : List (Walker α β)) (low : β) (fuel i : ℕ) (hi : Above phantoms low i) (hf : 0 < fuel) :
    0 < chosen phantoms low fuel i := by
  obtain ⟨h1, hl⟩ := above_fin phantoms low i hi
  unfold chosen
  rw [Finset.card_pos]
  refine ⟨fun _ => ⟨i, h1⟩, ?_⟩
  obtain ⟨m, rfl⟩ : ∃ m, fuel = m + 1 := ⟨fuel - 1, by omega⟩
  simp only [Finset.mem_filter, Finset.mem_univ, true_and]
  have hs : stream (fun _ : Fin (m + 1) => (⟨i, h1⟩ : Fin phantoms.length)) 0 % phantoms.length = i := by
    simp [stream, Nat.mod_eq_of_lt h1]
  rw [pick_succ _ _ _ _ _ phantoms[i] (by rw [hs]; simp [h1]), if_pos (show phantoms[i].logL > low from hl), hs]
  rfl

/-! ## Groups of phantoms -/

/-- The draws between 0 and the number of all phantoms are one for each phantom of each group: different numbers are
different phantoms. -/
theorem C148_groups (groups : List (ℕ × List (Walker α β))) (hk : (groups.map Prod.fst).Nodup) (m n : ℕ)
    (hm : m < total groups) (hn : n < total groups) (r : ℕ × List (Walker α β) × ℕ) (h1 : locate groups m = some r)
    (h2 : locate groups n = some r) : m = n := by
  induction groups generalizing m n with
  | nil => simp [locate] at h1
  | cons g gs ih =>
    cases gs with
    | nil =>
      have hm' : m < g.2.length := by simpa [total] using hm
      have hn' : n < g.2.length := by simpa [total] using hn
      simp only [locate, if_pos hm', if_pos hn', Option.some.injEq] at h1 h2
      have := h1.trans h2.symm
      simpa using this
    | cons g' gs =>
      have key : ∀ (k : ℕ) (l : List (ℕ × List (Walker α β))) (q : ℕ × List (Walker α β) × ℕ),
          locate l k = some q → q.1 ∈ l.map Prod.fst := by
        intro k l
        induction l generalizing k with
        | nil => intro q h; simp [locate] at h
        | cons a l ihl =>
          intro q h
          cases l with
          | nil =>
            simp only [locate] at h
            split at h <;> (simp only [Option.some.injEq] at h; subst h; simp)
          | cons b l =>
            simp only [locate] at h
            split at h
            · simp only [Option.some.injEq] at h
              subst h
              simp
            · exact List.mem_cons_of_mem _ (ihl _ q h)
      have hg : g.1 ∉ (g' :: gs).map Prod.fst := (List.nodup_cons.1 hk).1
      have ht : total (g :: g' :: gs) = g.2.length + total (g' :: gs) := by simp [total]
      simp only [locate] at h1 h2
      by_cases c1 : m < g.2.length
      · rw [if_pos c1, Option.some.injEq] at h1
        by_cases c2 : n < g.2.length
        · rw [if_pos c2, Option.some.injEq] at h2
          have := h1.trans h2.symm
          simpa using this
        · rw [if_neg c2] at h2
          exact absurd (by have := key _ _ _ h2; rwa [← h1] at this) hg
      · rw [if_neg c1] at h1
        by_cases c2 : n < g.2.length
        · rw [if_pos c2, Option.some.injEq] at h2
          exact absurd (by have := key _ _ _ h1; rwa [← h2] at this) hg
        · rw [if_neg c2] at h2
          have := ih (List.nodup_cons.1 hk).2 (m - g.2.length) (n - g.2.length) (by omega) (by omega) h1 h2
          omega

/-! ## A concrete case -/

/-- Three phantoms with log likelihoods 5, 1 and 7, and a level of 2. -/
def trio : List (Walker Unit ℤ) :=
  [⟨0, -1, 0, 0, [], 5⟩, ⟨1, -1, 0, 0, [], 1⟩, ⟨2, -1, 0, 0, [], 7⟩]

/-- In two draws the first and the last are chosen by four of the nine sequences each, the other one by none. -/
example : chosen trio 2 2 0 = 4 ∧ chosen trio 2 2 2 = 4 ∧ chosen trio 2 2 1 = 0 := by decide

example : chosen trio 2 10 0 = chosen trio 2 10 2 :=
  C148_fair trio 2 10 0 2 ⟨_, rfl, by decide⟩ ⟨_, rfl, by decide⟩

end Boost
end BF
