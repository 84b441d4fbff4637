import Verif.Orders
import Verif.Props.Orders
import Mathlib.Data.List.Permutation
import Mathlib.Data.Real.Basic
import Mathlib.Algebra.Field.Rat
import Mathlib.Algebra.Order.Ring.Rat
import Mathlib.Algebra.BigOperators.Group.Finset.Basic
import Mathlib.Tactic.Ring
import Mathlib.Tactic.Linarith

/-!
# Which ordering engines keep orders evenly spread

When the walkers are spread evenly over all orders that are good enough, one move of an engine should
keep them so. A move that starts from each of these orders once must then end in each of them once, on
the average over the random numbers.
-/

namespace BF.Props.OrderSpread
open BF.Orders

variable {α β : Type*}

/-! ## Specification -/

/-- The order after a move: the new one when the engine took it, else the old one. -/
def after (p : List α) : Option (Outcome α β) → List α
  | some (.accept _ q _) => q
  | _ => p

/-- `R` has exactly the orders of `base` that are good enough. -/
def GoodOrders [LE β] (L : List α → β) (low : β) (base : List α) (R : Finset (List α)) : Prop :=
  ∀ p, p ∈ R ↔ p.Perm base ∧ low ≤ L p

/-- A move (with given random numbers) takes an even spread over `R` to an even spread: whatever
is counted, it has the same sum before and after. -/
def KeepsEven (R : Finset (List α)) (move : List α → List α) : Prop :=
  ∀ f : List α → ℝ, ∑ p ∈ R, f (move p) = ∑ p ∈ R, f p

/-! ## Switching two -/

theorem keeps_of_involution (R : Finset (List α)) (move : List α → List α)
    (hR : ∀ p ∈ R, move p ∈ R) (hi : ∀ p ∈ R, move (move p) = p) : KeepsEven R move := fun _ =>
  Finset.sum_nbij' move move hR hR hi hi fun _ _ => rfl

theorem keeps_of_injective (R : Finset (List α)) (move : List α → List α)
    (hR : ∀ p ∈ R, move p ∈ R) (hi : ∀ p ∈ R, ∀ q ∈ R, move p = move q → p = q) : KeepsEven R move := by
  intro f
  refine Finset.sum_nbij move hR (fun p hp q hq h => hi p hp q hq h) ?_ fun _ _ => rfl
  exact Finset.surjOn_of_injOn_of_card_le move hR (fun p hp q hq h => hi p hp q hq h) le_rfl

theorem switchTry_length (p : List α) (i j : ℕ) : (switchTry p i j).length = p.length := by
  unfold switchTry
  split <;> simp

theorem switchTry_invol (p : List α) (i j : ℕ) (hij : i ≠ j) : switchTry (switchTry p i j) i j = p := by
  unfold switchTry
  cases hi : p[i]? with
  | none => simp [hi]
  | some a =>
    cases hj : p[j]? with
    | none => simp [hi, hj]
    | some b =>
      have h1 : i < p.length := (List.getElem?_eq_some_iff.1 hi).1
      have h2 : j < p.length := (List.getElem?_eq_some_iff.1 hj).1
      have e1 : ((p.set i b).set j a)[i]? = some b := by
        rw [List.getElem?_set_ne hij.symm, List.getElem?_set_self (by simpa using h1)]
      have e2 : ((p.set i b).set j a)[j]? = some a := by
        rw [List.getElem?_set_self (by simpa using h2)]
      simp only [e1, e2]
      apply List.ext_getElem?
      intro k
      by_cases hk : k = j
      · subst hk
        rw [List.getElem?_set_self (by simpa using h2), hj]
      · rw [List.getElem?_set_ne (Ne.symm hk)]
        by_cases hk' : k = i
        · subst hk'
          rw [List.getElem?_set_self (by simpa using h1), hi]
        · rw [List.getElem?_set_ne (Ne.symm hk'), List.getElem?_set_ne (Ne.symm hk),
            List.getElem?_set_ne (Ne.symm hk')]

theorem otherThan_ne (src np r : ℕ) (hs : src < np) (hn : 1 < np) : src ≠ otherThan src np r := by
  unfold otherThan
  have h1 : r % (np - 1) < np - 1 := Nat.mod_lt _ (by omega)
  intro h
  rcases lt_or_ge (src + 1 + r % (np - 1)) np with h2 | h2
  · rw [Nat.mod_eq_of_lt h2] at h; omega
  · rw [Nat.mod_eq_sub_mod h2, Nat.mod_eq_of_lt (by omega)] at h; omega

section
variable [LinearOrder β]

/-- **One try of the switch engine keeps orders evenly spread**, for every likelihood, every threshold
and every draw of the two places: the try is its own inverse, and it is refused from the one side just
when it is refused from the other. -/
theorem C122_switch_once_partial (L : List α → β) (low : β) (base : List α) (R : Finset (List α))
    (hR : GoodOrders L low base R) (draw : ℕ → ℕ) :
    KeepsEven R fun p => after p (switchOnce L low p draw) := by
  have hval : ∀ p : List α, after p (switchOnce L low p draw) =
      if 1 < p.length ∧ low ≤ L (switchTry p (draw 0 % p.length)
        (otherThan (draw 0 % p.length) p.length (draw 1)))
      then switchTry p (draw 0 % p.length) (otherThan (draw 0 % p.length) p.length (draw 1)) else p := by
    intro p
    unfold switchOnce
    by_cases h : p.length ≤ 1
    · simp [h, after]
    · dsimp only
      rw [if_neg h]
      by_cases hl : low ≤ L (switchTry p (draw 0 % p.length)
        (otherThan (draw 0 % p.length) p.length (draw 1)))
      · rw [if_pos hl, if_pos ⟨by omega, hl⟩]; rfl
      · rw [if_neg hl, if_neg (fun h => hl h.2)]; rfl
  apply keeps_of_involution
  · intro p hp
    rw [hval]
    split_ifs with h
    · rw [hR]
      refine ⟨?_, h.2⟩
      have hne := otherThan_ne (draw 0 % p.length) p.length (draw 1) (Nat.mod_lt _ (by omega)) h.1
      exact (switchTry_perm p _ _ hne).trans ((hR p).1 hp).1
    · exact hp
  · intro p hp
    rw [hval p]
    split_ifs with h
    · rw [hval, switchTry_length]
      have hne := otherThan_ne (draw 0 % p.length) p.length (draw 1) (Nat.mod_lt _ (by omega)) h.1
      rw [switchTry_invol _ _ _ hne, if_pos ⟨h.1, ((hR p).1 hp).2⟩]
    · rw [hval, if_neg h]

/-! ## When every order is good enough -/

/-- A move that is a legal reordering, and that takes different orders to different orders. -/
theorem keeps_flat (L : List α → β) (low : β) (base : List α) (R : Finset (List α))
    (hR : GoodOrders L low base R) (move : List α → Option (Outcome α β))
    (hl : ∀ p t q l, move p = some (.accept t q l) → Legal L low p q l)
    (hi : ∀ p q : List α, p.length = q.length → after p (move p) = after q (move q) → p = q) :
    KeepsEven R fun p => after p (move p) := by
  apply keeps_of_injective
  · intro p hp
    rcases h : move p with _ | ⟨t | ⟨t, q, l⟩⟩
    · exact hp
    · exact hp
    · obtain ⟨h1, h2, h3⟩ := hl p t q l h
      exact (hR q).2 ⟨h1.trans ((hR p).1 hp).1, h2 ▸ h3⟩
  · intro p hp q hq h
    exact hi p q ((((hR p).1 hp).1.length_eq).trans (((hR q).1 hq).1.length_eq).symm) h

theorem revHead_invol (l : List α) (t : ℕ) : revHead (revHead l t) t = l := by
  unfold revHead
  rcases le_or_gt t l.length with h | h
  · have hl : (l.take t).reverse.length = t := by simp [h]
    rw [List.take_append_of_le_length (by omega), List.take_of_length_le (by omega),
      List.drop_append_of_le_length (by omega), List.drop_of_length_le (by omega), List.reverse_reverse,
      List.nil_append, List.take_append_drop]
  · rw [List.take_of_length_le h.le, List.drop_of_length_le h.le, List.append_nil,
      List.take_of_length_le (by simpa using h.le), List.drop_of_length_le (by simpa using h.le),
      List.reverse_reverse, List.append_nil]

/-- Equal heads and tails, of the same lengths. -/
theorem split_inj {a b c d : List α} (h : a ++ b = c ++ d) (hl : a.length = c.length) : a = c ∧ b = d :=
  List.append_inj h hl

theorem turn_inj (p q : List α) (n : ℕ) (h : p.length = q.length)
    (he : p.drop n ++ p.take n = q.drop n ++ q.take n) : p = q := by
  obtain ⟨h1, h2⟩ := split_inj he (by simp [h])
  rw [← List.take_append_drop n p, ← List.take_append_drop n q, h1, h2]

/-- **Where every order is good enough, the reverse engine keeps orders evenly spread**, with every
sequence of random numbers. -/
theorem C122_reverse_flat_partial (L : List α → β) (low : β) (base : List α) (R : Finset (List α))
    (hR : GoodOrders L low base R) (hflat : ∀ p, low ≤ L p) (draw : ℕ → ℕ) :
    KeepsEven R fun p => after p (reverseOnce L low p draw) := by
  refine keeps_flat L low base R hR (fun p => reverseOnce L low p draw)
    (fun p t q l => C01_reverse L low p draw t q l) fun p q h he => ?_
  have hv : ∀ p : List α, p.length ≠ 0 → after p (reverseOnce L low p draw)
      = reverseTry p (draw 0 % p.length) (2 + min (1 + draw 1) (p.length / 2)) := by
    intro p hp
    unfold reverseOnce
    dsimp only
    rw [if_neg hp, reverseLoop, dif_pos (by omega), if_pos (hflat _)]
    rfl
  by_cases h0 : p.length = 0
  · rw [List.length_eq_zero_iff.1 h0, List.length_eq_zero_iff.1 (h.symm.trans h0)]
  · rw [hv p h0, hv q (h ▸ h0), h] at he
    unfold reverseTry at he
    have := congrArg (revHead · (2 + min (1 + draw 1) (q.length / 2))) he
    rw [revHead_invol, revHead_invol] at this
    exact turn_inj p q _ h this

theorem moveTry_inj (p q : List α) (src des t : ℕ) (h : p.length = q.length)
    (h1 : src < des → src + t ≤ des) (h2 : ¬ src < des → des ≤ src)
    (he : moveTry p src des t = moveTry q src des t) : p = q := by
  have key : ∀ l : List α, ∀ a b c : ℕ, a ≤ b → b ≤ c →
      l = l.take a ++ (slice l a b ++ (slice l b c ++ l.drop c)) := by
    intro l a b c hab hbc
    have e1 : slice l a b ++ slice l b c = slice l a c := slice_append_slice l hab hbc
    have e2 : l.take a ++ slice l a c = l.take c := by
      unfold slice
      conv_rhs => rw [← List.take_append_drop a (l.take c)]
      rw [List.take_take, min_eq_left (hab.trans hbc)]
    rw [← List.append_assoc (slice l a b), e1, ← List.append_assoc, e2, List.take_append_drop]
  have hs : ∀ a b, (slice p a b).length = (slice q a b).length := by
    intro a b; simp [slice, h]
  unfold moveTry at he
  dsimp only at he
  by_cases hc : src < des
  · rw [if_pos hc, if_pos hc, List.append_assoc, List.append_assoc, List.append_assoc,
      List.append_assoc] at he
    obtain ⟨e1, he⟩ := split_inj he (hs _ _)
    obtain ⟨e2, he⟩ := split_inj he (hs _ _)
    obtain ⟨e3, e4⟩ := split_inj he (by simp [h])
    rw [key p src (src + t) des (by omega) (h1 hc), key q src (src + t) des (by omega) (h1 hc), e1, e2,
      e3, e4]
  · rw [if_neg hc, if_neg hc, List.append_assoc, List.append_assoc, List.append_assoc,
      List.append_assoc] at he
    obtain ⟨e1, he⟩ := split_inj he (by simp [h])
    obtain ⟨e2, he⟩ := split_inj he (by simp [h])
    obtain ⟨e3, e4⟩ := split_inj he (hs _ _)
    rw [key p des src (src + t) (h2 hc) (by omega), key q des src (src + t) (h2 hc) (by omega), e1, e2,
      e3, e4]

/-- **Where every order is good enough, the move engine keeps orders evenly spread.** -/
theorem C122_move_flat_partial (L : List α → β) (low : β) (base : List α) (R : Finset (List α))
    (hR : GoodOrders L low base R) (hflat : ∀ p, low ≤ L p) (draw : ℕ → ℕ) :
    KeepsEven R fun p => after p (moveOnce L low p draw) := by
  refine keeps_flat L low base R hR (fun p => moveOnce L low p draw)
    (fun p t q l => C01_move L low p draw t q l) fun p q h he => ?_
  by_cases h0 : p.length ≤ 1
  · unfold moveOnce at he
    dsimp only at he
    rw [if_pos h0, if_pos (h ▸ h0)] at he
    exact he
  · set n := p.length with hn
    set src := draw 0 % n with hsrc
    set des := otherThan src n (draw 1) with hdes
    set t := min (1 + draw 2) (if src < des then des - src else n - src) with ht
    have hs : src < n := Nat.mod_lt _ (by omega)
    have ht0 : t > 0 := by
      rw [ht]
      apply lt_min (by omega)
      split_ifs <;> omega
    have hv : ∀ p : List α, p.length = n → after p (moveOnce L low p draw) = moveTry p src des t := by
      intro p hp
      unfold moveOnce
      dsimp only
      rw [hp, if_neg h0, moveLoop, dif_pos ht0, if_pos (hflat _)]
      rfl
    rw [hv p hn.symm, hv q h.symm] at he
    refine moveTry_inj p q src des t (hn ▸ h) (fun hh => ?_) (fun hh => not_lt.1 hh) he
    rw [ht, if_pos hh]
    omega

/-- **Where every order is good enough, the shuffle engine keeps orders evenly spread**, when each
permutation that is drawn is a fixed reordering of the places. -/
theorem C122_shuffle_flat_partial (L : List α → β) (low : β) (base : List α) (R : Finset (List α))
    (hR : GoodOrders L low base R) (hflat : ∀ p, low ≤ L p) (draw : ℕ → ℕ)
    (σ : ℕ → List α → List α) (hσ : ∀ k l, (σ k l).Perm l)
    (hσi : ∀ k (l l' : List α), σ k l = σ k l' → l = l') :
    KeepsEven R fun p => after p (shuffleOnce L low p draw σ) := by
  refine keeps_flat L low base R hR (fun p => shuffleOnce L low p draw σ)
    (fun p t q l => C01_shuffle L low p draw σ hσ t q l) fun p q h he => ?_
  have hv : ∀ p : List α, p.length ≠ 0 → after p (shuffleOnce L low p draw σ)
      = shuffleTry (σ 2) p (draw 0 % p.length) (2 + min (1 + draw 1) (p.length / 2)) := by
    intro p hp
    unfold shuffleOnce
    dsimp only
    rw [if_neg hp, shuffleLoop, dif_pos (by omega), if_pos (hflat _)]
    rfl
  by_cases h0 : p.length = 0
  · rw [List.length_eq_zero_iff.1 h0, List.length_eq_zero_iff.1 (h.symm.trans h0)]
  · rw [hv p h0, hv q (h ▸ h0), h] at he
    unfold shuffleTry at he
    dsimp only at he
    have hlen : ∀ n, (roll p n).length = (roll q n).length := fun n =>
      (roll_perm p n).length_eq.trans (h.trans (roll_perm q n).length_eq.symm)
    obtain ⟨e1, e2⟩ := split_inj he (by
      rw [(hσ 2 _).length_eq, (hσ 2 _).length_eq]; simp [hlen])
    have e3 := hσi 2 _ _ e1
    have e4 : roll p (draw 0 % q.length) = roll q (draw 0 % q.length) := by
      rw [← List.take_append_drop (draw 0 % q.length + (2 + min (1 + draw 1) (q.length / 2)))
        (roll p (draw 0 % q.length)), e3, e2, List.take_append_drop]
    unfold roll at e4
    rw [h] at e4
    exact turn_inj p q _ h e4

end

/-! ## When some orders are refused

The counterexamples are about salesmen: the likelihood is minus the length of the closed tour. -/

/-- The length of the closed tour. -/
def tour (dist : ℕ → ℕ → ℤ) (p : List ℕ) : ℤ := (List.zipWith dist p (p.rotate 1)).sum

/-- The random numbers of one call. -/
def draws (l : List ℕ) (k : ℕ) : ℕ := l.getD k 0

/-- Is it the same round trip, be it from another start or the other way around. -/
def sameTour (p q : List ℕ) : Bool :=
  (List.range p.length).any fun i => p.rotate i = q ∨ p.rotate i = q.reverse

section decidable

/-- `reverseLoop` with a counter, which the kernel can run. -/
def reverseRun [LinearOrder β] (L : List α → β) (low : β) (param : List α) (src : ℕ) (draw : ℕ → ℕ) :
    ℕ → ℕ → ℕ → Outcome α β
  | 0, t, _ => .reject t
  | fuel + 1, t, k =>
    if t > 1 then
      if low ≤ L (reverseTry param src t) then .accept t (reverseTry param src t) (L (reverseTry param src t))
      else reverseRun L low param src draw fuel (draw k % t) (k + 1)
    else .reject t

theorem reverseRun_eq [LinearOrder β] (L : List α → β) (low : β) (param : List α) (src : ℕ) (draw : ℕ → ℕ) :
    ∀ fuel t k, t ≤ fuel → reverseLoop L low param src draw t k = reverseRun L low param src draw fuel t k := by
  intro fuel
  induction fuel with
  | zero => intro t k h; rw [reverseLoop, dif_neg (by omega)]; rfl
  | succ fuel ih =>
    intro t k h
    rw [reverseLoop, reverseRun]
    by_cases ht : t > 1
    · rw [dif_pos ht, if_pos ht]
      dsimp only
      by_cases hl : low ≤ L (reverseTry param src t)
      · rw [if_pos hl, if_pos hl]
      · rw [if_neg hl, if_neg hl]
        exact ih _ _ (by have := Nat.mod_lt (draw k) (show 0 < t by omega); omega)
    · rw [dif_neg ht, if_neg ht]

/-- `moveLoop` with a counter. -/
def moveRun [LinearOrder β] (L : List α → β) (low : β) (param : List α) (src des : ℕ) (draw : ℕ → ℕ) :
    ℕ → ℕ → ℕ → Outcome α β
  | 0, t, _ => .reject t
  | fuel + 1, t, k =>
    if t > 0 then
      if low ≤ L (moveTry param src des t) then
        .accept t (moveTry param src des t) (L (moveTry param src des t))
      else moveRun L low param src des draw fuel (draw k % t) (k + 1)
    else .reject t

theorem moveRun_eq [LinearOrder β] (L : List α → β) (low : β) (param : List α) (src des : ℕ)
    (draw : ℕ → ℕ) :
    ∀ fuel t k, t ≤ fuel → moveLoop L low param src des draw t k = moveRun L low param src des draw fuel t k := by
  intro fuel
  induction fuel with
  | zero => intro t k h; rw [moveLoop, dif_neg (by omega)]; rfl
  | succ fuel ih =>
    intro t k h
    rw [moveLoop, moveRun]
    by_cases ht : t > 0
    · rw [dif_pos ht, if_pos ht]
      dsimp only
      by_cases hl : low ≤ L (moveTry param src des t)
      · rw [if_pos hl, if_pos hl]
      · rw [if_neg hl, if_neg hl]
        exact ih _ _ (by have := Nat.mod_lt (draw k) (show 0 < t by omega); omega)
    · rw [dif_neg ht, if_neg ht]

theorem reverseOnce_run [LinearOrder β] (L : List α → β) (low : β) (p : List α) (draw : ℕ → ℕ) (fuel : ℕ)
    (hf : 2 + p.length / 2 ≤ fuel) : reverseOnce L low p draw = if p.length = 0 then none else
      some (reverseRun L low p (draw 0 % p.length) draw fuel (2 + min (1 + draw 1) (p.length / 2)) 2) := by
  unfold reverseOnce
  dsimp only
  rw [reverseRun_eq L low p _ draw fuel _ _ (by have := min_le_right (1 + draw 1) (p.length / 2); omega)]

theorem moveOnce_run [LinearOrder β] (L : List α → β) (low : β) (p : List α) (draw : ℕ → ℕ) (fuel : ℕ)
    (hf : 1 + draw 2 ≤ fuel) : moveOnce L low p draw = if p.length ≤ 1 then none else
      some (moveRun L low p (draw 0 % p.length) (otherThan (draw 0 % p.length) p.length (draw 1)) draw fuel
        (min (1 + draw 2) (if draw 0 % p.length < otherThan (draw 0 % p.length) p.length (draw 1)
          then otherThan (draw 0 % p.length) p.length (draw 1) - draw 0 % p.length
          else p.length - draw 0 % p.length)) 3) := by
  unfold moveOnce
  dsimp only
  rw [moveRun_eq L low p _ _ draw fuel _ _ (le_trans (min_le_left _ _) hf)]

end decidable

/-- One walker starts in each of the orders of `R` with each of the random numbers of `D`, which have
weights. `arrivals` is the weight of those that are, after the move, in an order that we look for. -/
def arrivals (R : List (List ℕ)) (D : List (ℕ × List ℕ)) (move : List ℕ → List ℕ → List ℕ)
    (target : List ℕ → Bool) : ℕ :=
  (R.map fun p => (D.map fun d => if target (move d.2 p) then d.1 else 0).sum).sum

theorem arrivals_congr (R : List (List ℕ)) (D : List (ℕ × List ℕ)) (m m' : List ℕ → List ℕ → List ℕ)
    (target : List ℕ → Bool) (h : ∀ p ∈ R, ∀ d ∈ D, m d.2 p = m' d.2 p) :
    arrivals R D m target = arrivals R D m' target := by
  unfold arrivals
  congr 1
  refine List.map_congr_left fun p hp => ?_
  congr 1
  exact List.map_congr_left fun d hd => by rw [h p hp d hd]

/-- `starts` is the weight of those that are there before the move. -/
def starts (R : List (List ℕ)) (D : List (ℕ × List ℕ)) (target : List ℕ → Bool) : ℕ :=
  (R.map fun p => (D.map fun d => if target p then d.1 else 0).sum).sum

/-- `arrivals` and `starts` are the two sides of `KeepsEven`, added over the random numbers. -/
theorem even_arrivals (R : List (List ℕ)) (hR : R.Nodup) (D : List (ℕ × List ℕ))
    (move : List ℕ → List ℕ → List ℕ) (h : ∀ d ∈ D, KeepsEven R.toFinset (move d.2))
    (target : List ℕ → Bool) : arrivals R D move target = starts R D target := by
  unfold arrivals starts
  have swap : ∀ g : List ℕ → ℕ × List ℕ → ℕ, (R.map fun p => (D.map fun d => g p d).sum).sum
      = (D.map fun d => (R.map fun p => g p d).sum).sum := by
    intro g
    clear h hR
    induction R with
    | nil => simp
    | cons p R ih => simp [ih, List.sum_map_add]
  rw [swap, swap]
  congr 1
  refine List.map_congr_left fun d hd => ?_
  have := h d hd fun p => if target p then (d.1 : ℝ) else 0
  rw [List.sum_toFinset _ hR, List.sum_toFinset _ hR] at this
  have cast : ∀ (l : List (List ℕ)) (b : List ℕ → Bool),
      (((l.map fun p => if b p then d.1 else 0).sum : ℕ) : ℝ)
        = (l.map fun p => if b p then (d.1 : ℝ) else 0).sum := by
    intro l b
    induction l with
    | nil => simp
    | cons p l ih => simp [ih]
  have h1 := cast R target
  have h2 := cast R fun p => target (move d.2 p)
  rw [← Nat.cast_inj (R := ℝ), h1, h2]
  exact this

/-- Five cities, with distances that obey the triangle inequality. -/
def dist5 (a b : ℕ) : ℤ :=
  (([[0, 3, 3, 1, 2], [3, 0, 2, 2, 2], [3, 2, 0, 3, 2], [1, 2, 3, 0, 1], [2, 2, 2, 1, 0]] :
    List (List ℤ)).getD a []).getD b 0

example : ∀ a ∈ List.range 5, ∀ b ∈ List.range 5, dist5 a b = dist5 b a ∧
    ∀ c ∈ List.range 5, dist5 a c ≤ dist5 a b + dist5 b c := by decide +kernel

/-- The 30 orders of the three tours of at most 9. -/
def good5 : List (List ℕ) := (List.permutations' [0, 1, 2, 3, 4]).filter fun p => tour dist5 p ≤ 9

example : good5.length = 30 := by decide +kernel

theorem good5_length {p : List ℕ} (hp : p ∈ good5) : p.length = 5 := by
  have h := List.mem_permutations'.1 (List.mem_filter.1 hp).1
  simpa using h.length_eq

/-- What is left of a walker after `execute`, on an ensemble with this walker only. -/
def walk (once : ℕ → List ℕ → Option (Outcome ℕ ℤ)) (n : ℕ) (p : List ℕ) : List ℕ :=
  match execute once 0 n 0 ⟨[⟨0, -1, 0, 0, p, 0⟩], 1⟩ with
  | some (⟨w :: _, _⟩, _) => w.allpars
  | _ => p

/-- Three jobs, of which only three orders are good enough. -/
def good3 : List (List ℕ) := [[1, 0, 2], [0, 1, 2], [2, 1, 0]]

/-- The two pairs of random numbers of two tries of the switch engine. -/
def drawsSwitch : List (ℕ × List ℕ) :=
  (List.range 3).flatMap fun a => (List.range 2).flatMap fun b => (List.range 3).flatMap fun c =>
    (List.range 2).map fun d => (1, [a, b, c, d])

/-- **Trying again until it succeeds is not even.** `OrderEngine.execute` repeats a try that failed. With
two tries of the switch engine, more walkers end in the order 0 1 2 than started there: 44 against 36. One
switch leads from each of the other two good orders to this one, but not from the one to the other. -/
theorem C122_counterexample_switch :
    arrivals good3 drawsSwitch
      (fun d => walk (fun i p => switchOnce (fun p => if p ∈ good3 then (1 : ℤ) else 0) 1 p
        (draws (d.drop (2 * i)))) 2)
      (fun p => p = [0, 1, 2]) = 44 ∧
    starts good3 drawsSwitch (fun p => p = [0, 1, 2]) = 36 := by
  constructor <;> decide +kernel

/-- The random numbers of the reverse engine with five cities: the start, the geometric number (1 with
weight 1, more with weight 4, as `np // 2` is 2) and the first retry. -/
def drawsReverse : List (ℕ × List ℕ) :=
  (List.range 5).flatMap fun a => [(1, 0), (4, 1)].flatMap fun g => (List.range 3).map fun c =>
    (g.1, [a, g.2, c])

set_option maxHeartbeats 2000000 in
/-- **The retries of the reverse engine are not even.** It retries with a shorter stretch when the first
one is refused, and whether it is refused depends on where the walker is. -/
theorem C122_counterexample_reverse :
    arrivals good5 drawsReverse
      (fun d p => after p (reverseOnce (fun p => -tour dist5 p) (-9) p (draws d)))
      (fun p => sameTour p [0, 1, 2, 4, 3]) = 760 ∧
    starts good5 drawsReverse (fun p => sameTour p [0, 1, 2, 4, 3]) = 750 := by
  constructor
  · have : arrivals good5 drawsReverse
        (fun d p => after p (reverseOnce (fun p => -tour dist5 p) (-9) p (draws d)))
        (fun p => sameTour p [0, 1, 2, 4, 3])
      = arrivals good5 drawsReverse
        (fun d p => after p (some (reverseRun (fun p => -tour dist5 p) (-9) p (draws d 0 % 5) (draws d) 4
          (2 + min (1 + draws d 1) 2) 2)))
        (fun p => sameTour p [0, 1, 2, 4, 3]) := by
      refine arrivals_congr _ _ _ _ _ fun p hp d hd => ?_
      have hl := good5_length hp
      rw [reverseOnce_run _ _ _ _ 4 (by rw [hl]), hl, if_neg (by norm_num)]
    rw [this]
    decide +kernel
  · decide +kernel

/-- Four cities. -/
def dist4 (a b : ℕ) : ℤ :=
  (([[0, 3, 3, 3], [3, 0, 1, 3], [3, 1, 0, 3], [3, 3, 3, 0]] : List (List ℤ)).getD a []).getD b 0

/-- The 16 orders of the two tours of at most 10. -/
def good4 : List (List ℕ) := (List.permutations' [0, 1, 2, 3]).filter fun p => tour dist4 p ≤ 10

theorem good4_length {p : List ℕ} (hp : p ∈ good4) : p.length = 4 := by
  have h := List.mem_permutations'.1 (List.mem_filter.1 hp).1
  simpa using h.length_eq

/-- The random numbers of the move engine with four cities: the start, the destination, the geometric
number (1, 2, or more with the weights 5, 4 and 16) and the two retries. -/
def drawsMove : List (ℕ × List ℕ) :=
  (List.range 4).flatMap fun a => (List.range 3).flatMap fun b => [(5, 0), (4, 1), (16, 2)].flatMap fun g =>
    (List.range 6).flatMap fun c => (List.range 2).map fun d => (g.1, [a, b, g.2, c, d])

theorem drawsMove_le {d : ℕ × List ℕ} (hd : d ∈ drawsMove) : 1 + draws d.2 2 ≤ 3 := by
  have : ∀ d ∈ drawsMove, 1 + draws d.2 2 ≤ 3 := by decide +kernel
  exact this d hd

/-- **The retries of the move engine are not even**: from an even spread over the orders of at most 10,
the order 0 1 2 3 gets 3264 instead of 3600. -/
theorem C122_counterexample_move :
    arrivals good4 drawsMove
      (fun d p => after p (moveOnce (fun p => -tour dist4 p) (-10) p (draws d)))
      (fun p => p = [0, 1, 2, 3]) = 3264 ∧
    starts good4 drawsMove (fun p => p = [0, 1, 2, 3]) = 3600 := by
  constructor
  · have : arrivals good4 drawsMove
        (fun d p => after p (moveOnce (fun p => -tour dist4 p) (-10) p (draws d)))
        (fun p => p = [0, 1, 2, 3])
      = arrivals good4 drawsMove
        (fun d p => after p (some (moveRun (fun p => -tour dist4 p) (-10) p (draws d 0 % 4)
          (otherThan (draws d 0 % 4) 4 (draws d 1)) (draws d) 3
          (min (1 + draws d 2) (if draws d 0 % 4 < otherThan (draws d 0 % 4) 4 (draws d 1)
            then otherThan (draws d 0 % 4) 4 (draws d 1) - draws d 0 % 4 else 4 - draws d 0 % 4)) 3)))
        (fun p => p = [0, 1, 2, 3]) := by
      refine arrivals_congr _ _ _ _ _ fun p hp d hd => ?_
      have hl := good4_length hp
      rw [moveOnce_run _ _ _ _ 3 (drawsMove_le hd), hl, if_neg (by norm_num)]
    rw [this]
    decide +kernel
  · decide +kernel

/-- The corners of a square. -/
def square : ℕ → ℚ × ℚ
  | 0 => (0, 0)
  | 1 => (1, 0)
  | 2 => (1, 1)
  | _ => (0, 1)

/-- **The loop engine is not even.** Where every order of the corners of a square is good enough, the tour
around the square gets 48 walkers of the 32 that started there. The other engines keep the even spread
there (`C122_reverse_flat_partial`, `C122_move_flat_partial`), so that a mix with them does not restore
it, as the documentation of NestedSolver has it. -/
theorem C122_counterexample_loop :
    arrivals (List.permutations' [0, 1, 2, 3]) ((List.range 4).map fun a => (1, [a]))
      (fun d p => after p (loopOnce square (fun _ => (0 : ℤ)) 0 p (draws d)))
      (fun p => sameTour p [0, 1, 2, 3]) = 48 ∧
    starts (List.permutations' [0, 1, 2, 3]) ((List.range 4).map fun a => (1, [a]))
      (fun p => sameTour p [0, 1, 2, 3]) = 32 := by
  constructor <;> decide +kernel

/-- **The near engine is not even.** Four cities on a line: the tour 0 1 2 3 gets 40 of the 32 that
started there. -/
theorem C122_counterexample_near :
    arrivals (List.permutations' [0, 1, 2, 3]) ((List.range 4).map fun a => (1, [a]))
      (fun d p => after p ((nearOnce (fun a b : ℕ => |(a : ℚ) - b|) (fun _ => none) (fun _ => (0 : ℤ)) 0 p
        (draws d)).map (·.1)))
      (fun p => sameTour p [0, 1, 2, 3]) = 40 ∧
    starts (List.permutations' [0, 1, 2, 3]) ((List.range 4).map fun a => (1, [a]))
      (fun p => sameTour p [0, 1, 2, 3]) = 32 := by
  constructor <;> decide +kernel

/-- The hypotheses of the theorems are met by the good orders of five cities. -/
example : GoodOrders (fun p => -tour dist5 p) (-9) [0, 1, 2, 3, 4] good5.toFinset := by
  intro p
  rw [List.mem_toFinset, good5, List.mem_filter, List.mem_permutations', decide_eq_true_eq, neg_le_neg_iff]

end BF.Props.OrderSpread
