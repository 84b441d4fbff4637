import Verif.StartDyn
import Verif.Props.Growth
import Mathlib.Probability.ProductMeasure

/-!
# C97: the first walkers of a dynamic model
-/

noncomputable section

namespace BF.StartDyn

open Dynamic Growth Priors

variable {β : Type*}

/-! ## Lemmas -/

/-- The chain is as long as it says, and the dynamic model is inside; fitted parameters exist. -/
structure Ok (off : ℕ) (s : Dyn ℝ) (pos : List ℤ) : Prop where
  len : s.npchain = s.params.length
  room : off + s.npbase ≤ s.npchain
  bound : ∀ j ∈ pos, j < s.npchain

theorem grow_inv (s s' : Dyn ℝ) (off : ℕ) (value : List ℝ) (hroom : off + s.npbase ≤ s.params.length)
    (h : grow s off value = some (s', true)) :
    s'.ncomp = s.ncomp + 1 ∧ s'.npbase = s.npbase + value.length ∧ s'.npchain = s.npchain + value.length ∧
    s'.params.length = s.params.length + value.length ∧ s'.maxComp = s.maxComp ∧
    ∀ m, s.maxComp = some m → s.ncomp < m := by
  unfold grow at h
  split at h
  · simp at h
  · rename_i hm
    split at h
    · simp at h
    · rename_i p hp
      have h := (Prod.mk.inj (Option.some.inj h)).1
      subst h
      unfold insertPars at hp
      split at hp
      · obtain rfl := Option.some.inj hp
        refine ⟨rfl, rfl, rfl, ?_, rfl, ?_⟩
        · simp only [List.length_append, List.length_take, List.length_drop]
          omega
        · intro m hmm
          simp only [hmm, Option.elim_some, decide_eq_true_eq, not_le] at hm
          exact hm
      · exact absurd hroom ‹_›

theorem birth_inv (q : Prior) (s s' : Dyn ℝ) (off : ℕ) (value : List ℝ) (u : ℝ)
    (h : birth q s off value u = some (s', true)) :
    ∃ d, q.unit2Domain u = some d ∧ (s.ncomp : ℝ) < d ∧ grow s off value = some (s', true) := by
  unfold birth at h
  split at h
  · simp at h
  · rename_i d hd
    split_ifs at h with hc
    · exact ⟨d, hd, hc, h⟩
    · simp at h

/-- One turn of the growing: which parameters are fitted. -/
theorem step (q : Prior) (s s' : Dyn ℝ) (off : ℕ) (value : List ℝ) (u : ℝ) (pos neg : List ℤ)
    (hok : Ok off s pos) (hf : FitForm pos neg) (h : birth q s off value u = some (s', true)) :
    ∃ pos', fitBirth (pos ++ neg) s.npbase (s'.npchain - s.npchain) off = pos' ++ neg ∧ FitForm pos' neg ∧
      Ok off s' pos' ∧ s'.ncomp = s.ncomp + 1 ∧ s'.npbase = s.npbase + value.length ∧
      s'.npchain = s.npchain + value.length ∧ s'.maxComp = s.maxComp ∧
      (∀ m, s.maxComp = some m → s.ncomp < m) ∧
      ∀ j : ℤ, j ∈ pos' ↔ (∃ i ∈ pos, j = up ((off : ℤ) + s.npbase) value.length i) ∨
        ((off : ℤ) + s.npbase ≤ j ∧ j < off + s.npbase + value.length) := by
  obtain ⟨d, -, -, hg⟩ := birth_inv q s s' off value u h
  obtain ⟨g1, g2, g3, g4, g5, g6⟩ := grow_inv s s' off value (hok.len ▸ hok.room) hg
  have hn : s'.npchain - s.npchain = value.length := by omega
  obtain ⟨c1, ⟨pos', c2, c3⟩, -⟩ := C24_birth pos neg hf s.npbase value.length off s.params value rfl
    (hok.len ▸ hok.room)
  have hmem : ∀ j : ℤ, j ∈ pos' ↔ (∃ i ∈ pos, j = up ((off : ℤ) + s.npbase) value.length i) ∨
        ((off : ℤ) + s.npbase ≤ j ∧ j < off + s.npbase + value.length) := by
    intro j
    have h1 := c1 j
    rw [c2, List.mem_append] at h1
    constructor
    · intro hj
      rcases h1.1 (Or.inl hj) with ⟨i, hi, e⟩ | h2
      · rcases List.mem_append.1 hi with hi | hi
        · exact Or.inl ⟨i, hi, e⟩
        · have : j < 0 := by
            rw [e, up]
            have := hf.2.2 i hi
            split_ifs <;> omega
          have := c3.2.1 j hj
          omega
      · exact Or.inr h2
    · intro hj
      have hj0 : 0 ≤ j := by
        rcases hj with ⟨i, hi, e⟩ | h2
        · rw [e, up]
          have := hf.2.1 i hi
          split_ifs <;> omega
        · omega
      rcases h1.2 (by
        rcases hj with ⟨i, hi, e⟩ | h2
        · exact Or.inl ⟨i, List.mem_append.2 (Or.inl hi), e⟩
        · exact Or.inr h2) with h3 | h3
      · exact h3
      · have := c3.2.2 j h3
        omega
  refine ⟨pos', by rw [hn]; exact c2, c3, ⟨by rw [g3, g4, hok.len], by have := hok.room; omega, ?_⟩, g1, g2, g3, g5, g6,
    hmem⟩
  intro j hj
  have hr := hok.room
  rcases (hmem j).1 hj with ⟨i, hi, e⟩ | h2
  · have := hok.bound i hi
    rw [e, up]
    split_ifs <;> omega
  · omega

theorem up_up (k n m i : ℤ) (hn : 0 ≤ n) : up (k + n) m (up k n i) = up k (n + m) i := by
  unfold up
  split_ifs <;> omega

/-- From `s` to `s'` the dynamic model got more components, not more than its maximum; its new parameters are behind its
own, they are all fitted, and what was fitted before is so at its new place; nothing else is. -/
structure Grew (off : ℕ) (s s' : Dyn ℝ) (pos pos' : List ℤ) : Prop where
  ncomp : s.ncomp ≤ s'.ncomp
  max : s'.maxComp = s.maxComp
  upto : ∀ m, s.maxComp = some m → s.ncomp ≤ m → s'.ncomp ≤ m
  size : (s'.npbase : ℤ) - s.npbase = s'.npchain - s.npchain
  chain : s.npchain ≤ s'.npchain
  fitted : ∀ j : ℤ, j ∈ pos' ↔ (∃ i ∈ pos, j = up ((off : ℤ) + s.npbase) (s'.npchain - s.npchain) i) ∨
    ((off : ℤ) + s.npbase ≤ j ∧ j < off + s.npbase + (s'.npchain - s.npchain))

theorem Grew.refl (off : ℕ) (s : Dyn ℝ) (pos : List ℤ) : Grew off s s pos pos := by
  refine ⟨le_rfl, rfl, fun _ _ h => h, by omega, le_rfl, fun j => ?_⟩
  constructor
  · intro hj
    exact Or.inl ⟨j, hj, by simp [up]⟩
  · rintro (⟨i, hi, rfl⟩ | ⟨h1, h2⟩)
    · simpa [up] using hi
    · omega

theorem Grew.trans {off : ℕ} {s s1 s' : Dyn ℝ} {pos pos1 pos' : List ℤ} (h : Grew off s s1 pos pos1)
    (h' : Grew off s1 s' pos1 pos') : Grew off s s' pos pos' := by
  refine ⟨h.ncomp.trans h'.ncomp, h'.max.trans h.max, fun m hm hn => h'.upto m (h.max.trans hm) (h.upto m hm hn),
    by have := h.size; have := h'.size; omega, h.chain.trans h'.chain, fun j => ?_⟩
  rw [h'.fitted]
  have hc := h.chain
  have hc' := h'.chain
  have hs := h.size
  have e1 : (s'.npchain : ℤ) - s.npchain = (s1.npchain - s.npchain) + (s'.npchain - s1.npchain) := by omega
  have e2 : (off : ℤ) + s1.npbase = off + s.npbase + (s1.npchain - s.npchain) := by omega
  constructor
  · rintro (⟨i, hi, rfl⟩ | ⟨h1, h2⟩)
    · rcases (h.fitted i).1 hi with ⟨i0, hi0, rfl⟩ | ⟨h3, h4⟩
      · exact Or.inl ⟨i0, hi0, by rw [e2, up_up _ _ _ _ (by omega), e1]⟩
      · refine Or.inr ?_
        unfold up
        rw [if_pos (by omega)]
        omega
    · exact Or.inr (by omega)
  · rintro (⟨i, hi, rfl⟩ | ⟨h1, h2⟩)
    · refine Or.inl ⟨_, (h.fitted _).2 (Or.inl ⟨i, hi, rfl⟩), ?_⟩
      rw [e2, up_up _ _ _ _ (by omega), e1]
    · by_cases hj : j < off + s.npbase + (s1.npchain - s.npchain)
      · refine Or.inl ⟨j, (h.fitted j).2 (Or.inr ⟨h1, hj⟩), ?_⟩
        unfold up
        rw [if_pos (by omega)]
      · exact Or.inr (by omega)

/-- One turn. -/
theorem step_grew (q : Prior) (s s' : Dyn ℝ) (off : ℕ) (value : List ℝ) (u : ℝ) (pos neg : List ℤ)
    (hok : Ok off s pos) (hf : FitForm pos neg) (h : birth q s off value u = some (s', true)) :
    ∃ pos', fitBirth (pos ++ neg) s.npbase (s'.npchain - s.npchain) off = pos' ++ neg ∧ FitForm pos' neg ∧
      Ok off s' pos' ∧ s'.ncomp = s.ncomp + 1 ∧ Grew off s s' pos pos' ∧
      (∀ m, s.maxComp = some m → s.ncomp < m) := by
  obtain ⟨pos1, p1, p2, p3, p4, p5, p6, p7, p8, p9⟩ := step q s s' off value u pos neg hok hf h
  have e : (s'.npchain : ℤ) - s.npchain = value.length := by omega
  exact ⟨pos1, p1, p2, p3, p4, ⟨by omega, p7, fun m hm _ => by have := p8 m hm; omega, by omega, by omega, by
    rw [e]; exact p9⟩, p8⟩

/-- All turns of the growing. -/
theorem grown (e : Env β) (off : ℕ) (neg : List ℤ) (fuel : ℕ) : ∀ (s : Dyn ℝ) (pos : List ℤ) (k : ℕ),
    Ok off s pos → FitForm pos neg → ∀ s' fi' k', growLoop e off fuel s (pos ++ neg) k = some (s', fi', k') →
    ∃ pos', fi' = pos' ++ neg ∧ FitForm pos' neg ∧ Ok off s' pos' ∧ Grew off s s' pos pos' := by
  induction fuel with
  | zero => intro s pos k _ _ s' fi' k' h; simp [growLoop] at h
  | succ n ih =>
    intro s pos k hok hf s' fi' k' h
    unfold growLoop at h
    dsimp only at h
    split at h
    · simp at h
    · simp only [Option.some.injEq, Prod.mk.injEq] at h
      obtain ⟨rfl, rfl, rfl⟩ := h
      exact ⟨pos, rfl, hf, hok, Grew.refl _ _ _⟩
    · rename_i s1 hb
      obtain ⟨pos1, p1, p2, p3, p4, p5, p6⟩ := step_grew e.q s s1 off _ _ pos neg hok hf hb
      rw [p1] at h
      obtain ⟨pos', q1, q2, q3, q4⟩ := ih s1 pos1 _ p3 p2 s' fi' k' h
      exact ⟨pos', q1, q2, q3, p5.trans q4⟩

theorem puts_inv (fi : List ℤ) : ∀ (a vs b : List ℝ), Engines.puts a fi vs = some b →
    b.length = a.length ∧ ∀ i : ℕ, (∀ c ∈ fi, c ≠ i ∧ c ≠ (i : ℤ) - a.length) → b[i]? = a[i]? := by
  induction fi with
  | nil =>
    intro a vs b h
    cases vs with
    | nil => simp only [Engines.puts, Option.some.injEq] at h; subst h; exact ⟨rfl, fun _ _ => rfl⟩
    | cons v vs => simp [Engines.puts] at h
  | cons c cs ih =>
    intro a vs b h
    cases vs with
    | nil => simp [Engines.puts] at h
    | cons v vs =>
      simp only [Engines.puts] at h
      split at h
      · rename_i a1 ha1
        unfold Engines.put at ha1
        obtain ⟨p, hp, rfl⟩ := Option.map_eq_some_iff.1 ha1
        obtain ⟨h1, h2⟩ := ih _ vs b h
        rw [List.length_set] at h1 h2
        refine ⟨h1, fun i hi => ?_⟩
        rw [h2 i fun c hc => hi c (by simp [hc]), List.getElem?_set_ne]
        have hc := hi c (by simp)
        unfold Engines.place at hp
        split_ifs at hp <;> simp only [Option.some.injEq, reduceCtorEq] at hp <;> omega
      · simp at h

theorem puts_some (fi : List ℤ) : ∀ (a vs : List ℝ), vs.length = fi.length →
    (∀ c ∈ fi, c < a.length ∧ -(a.length : ℤ) ≤ c) → ∃ b, Engines.puts a fi vs = some b := by
  induction fi with
  | nil =>
    intro a vs h _
    obtain rfl := List.length_eq_zero_iff.1 h
    exact ⟨a, rfl⟩
  | cons c cs ih =>
    intro a vs h hc
    cases vs with
    | nil => simp at h
    | cons v vs =>
      have h0 := hc c (by simp)
      obtain ⟨p, hp⟩ : ∃ p, Engines.place a.length c = some p := by
        unfold Engines.place
        split_ifs <;> first | exact ⟨_, rfl⟩ | omega
      obtain ⟨b, hb⟩ := ih (a.set p v) vs (by simpa using h) (by
        intro d hd
        rw [List.length_set]
        exact hc d (by simp [hd]))
      exact ⟨b, by simp only [Engines.puts, Engines.put, hp, Option.map_some]; exact hb⟩

/-- Values that go to different places are found there. -/
theorem puts_get (n : ℕ) (fi : List ℤ) : ∀ (a vs b : List ℝ), a.length = n → Engines.puts a fi vs = some b →
    (fi.Pairwise fun c d => Engines.place n c ≠ Engines.place n d) →
    ∀ (i : ℕ) (c : ℤ), fi[i]? = some c → Engines.get b c = vs[i]? := by
  induction fi with
  | nil => intro a vs b _ _ _ i c hc; simp at hc
  | cons c0 cs ih =>
    intro a vs b ha h hd i c hc
    cases vs with
    | nil => simp [Engines.puts] at h
    | cons v vs =>
      simp only [Engines.puts] at h
      split at h
      · rename_i a1 ha1
        unfold Engines.put at ha1
        obtain ⟨p, hp, rfl⟩ := Option.map_eq_some_iff.1 ha1
        rw [List.pairwise_cons] at hd
        have hl : (a.set p v).length = n := by rw [List.length_set, ha]
        cases i with
        | succ i => exact ih _ vs b hl h hd.2 i c hc
        | zero =>
          simp only [List.getElem?_cons_zero, Option.some.injEq] at hc
          subst hc
          obtain ⟨h1, h2⟩ := puts_inv cs _ vs b h
          have hb : b.length = n := h1.trans hl
          have hpn : p < n := by
            rw [ha] at hp
            unfold Engines.place at hp
            split_ifs at hp <;> simp only [Option.some.injEq, reduceCtorEq] at hp <;> omega
          have hbp : b[p]? = (a.set p v)[p]? := by
            refine h2 p fun d hdc => ?_
            have h3 := hd.1 d hdc
            rw [ha] at hp
            rw [hp] at h3
            rw [hl]
            constructor
            · rintro rfl
              apply h3
              simp [Engines.place, hpn]
            · rintro rfl
              apply h3
              have : (0 : ℤ) ≤ (p : ℤ) - n + n := by omega
              simp only [Engines.place]
              rw [if_neg (by omega), if_pos this]
              simp
          unfold Engines.get
          rw [hb, ← ha, hp, Option.bind_some, hbp, List.getElem?_set_self (by omega)]
          rfl
      · simp at h

theorem grow_some (e : Env β) (off : ℕ) (neg : List ℤ) (hq : ∀ u, (e.q.unit2Domain u).isSome) (M fuel : ℕ) :
    ∀ (s : Dyn ℝ) (pos : List ℤ) (k : ℕ), Ok off s pos → FitForm pos neg → s.maxComp = some M → s.ncomp ≤ M →
    M < s.ncomp + fuel → ∃ r, growLoop e off fuel s (pos ++ neg) k = some r := by
  induction fuel with
  | zero =>
    intro s pos k hok hf hm hM
    omega
  | succ n ih =>
    intro s pos k hok hf hm hM hM'
    unfold growLoop
    dsimp only
    generalize hv : (List.range (compSize e.first e.delta s.ncomp)).map _ = value
    obtain ⟨d, hd⟩ := Option.isSome_iff_exists.1 (hq (e.rand k))
    have hb : ∃ r, birth e.q s off value (e.rand k) = some r := by
      unfold birth
      simp only [hd]
      split_ifs with hc
      · unfold grow
        split
        · exact ⟨_, rfl⟩
        · unfold insertPars
          rw [if_pos (hok.len ▸ hok.room)]
          exact ⟨_, rfl⟩
      · exact ⟨_, rfl⟩
    obtain ⟨⟨s1, b⟩, hb⟩ := hb
    rw [hb]
    cases b with
    | false => exact ⟨_, rfl⟩
    | true =>
      obtain ⟨pos1, p1, p2, p3, p4, p5, p6⟩ := step_grew e.q s s1 off _ _ pos neg hok hf hb
      have := p6 M hm
      dsimp only
      rw [p1]
      exact ih s1 pos1 _ p3 p2 (p5.max.trans hm) (by omega) (by omega)

/-- The places of parameters of the model and of hyperparameters are different. -/
theorem places (n m : ℕ) (hm : m ≤ n) (pos neg : List ℤ) (hf : FitForm pos neg) (hb : ∀ j ∈ pos, j < m)
    (hn : neg.Nodup) (hneg : ∀ c ∈ neg, -((n : ℤ) - m) ≤ c) :
    (pos ++ neg).Pairwise fun c d => Engines.place n c ≠ Engines.place n d := by
  have hp : ∀ j ∈ pos, Engines.place n j = some j.toNat := by
    intro j hj
    have := hf.2.1 j hj
    have := hb j hj
    unfold Engines.place
    rw [if_pos (by omega), if_pos (by omega)]
  have hq : ∀ j ∈ neg, Engines.place n j = some (j + n).toNat := by
    intro j hj
    have := hf.2.2 j hj
    have := hneg j hj
    unfold Engines.place
    rw [if_neg (by omega), if_pos (by omega)]
  rw [List.pairwise_append]
  refine ⟨?_, ?_, ?_⟩
  · refine hf.1.imp_of_mem fun {c d} hc hd hcd => ?_
    rw [hp c hc, hp d hd]
    have := hf.2.1 c hc
    simp only [ne_eq, Option.some.injEq]
    omega
  · refine hn.imp_of_mem fun {c d} hc hd hcd => ?_
    rw [hq c hc, hq d hd]
    have := hneg c hc
    have := hneg d hd
    simp only [ne_eq, Option.some.injEq]
    omega
  · intro c hc d hd
    rw [hp c hc, hq d hd]
    have := hneg d hd
    have := hb c hc
    have := hf.2.1 c hc
    simp only [ne_eq, Option.some.injEq]
    omega

theorem grow_draws (e : Env β) (off : ℕ) (fuel : ℕ) : ∀ (s : Dyn ℝ) (fi : List ℤ) (k : ℕ) (s' : Dyn ℝ) (fi' : List ℤ)
    (k' : ℕ), growLoop e off fuel s fi k = some (s', fi', k') → k < k' := by
  induction fuel with
  | zero => intro s fi k s' fi' k' h; simp [growLoop] at h
  | succ n ih =>
    intro s fi k s' fi' k' h
    unfold growLoop at h
    dsimp only at h
    split at h
    · simp at h
    · simp only [Option.some.injEq, Prod.mk.injEq] at h
      omega
    · have := ih _ _ _ _ _ _ h
      omega

/-! ## The walker -/

/-- All turns of the trials. -/
theorem tried (e : Env β) (finite : β → Prop) [DecidablePred finite] (fuel npar onp : ℕ) (neg : List ℤ)
    (hn : neg.Nodup) (hall : onp ≤ npar) (hneg : ∀ c ∈ neg, -((npar : ℤ) - onp) ≤ c) (n : ℕ) :
    ∀ (off : ℕ) (s : Dyn ℝ) (pos : List ℤ) (k : ℕ), (off = 0 ∨ ∀ s a, finite (e.L s a)) → Ok off s pos →
    FitForm pos neg → onp ≤ s.npchain → ∀ s' a fi' k',
    tryLoop e finite fuel npar onp n off s (pos ++ neg) k = some (s', a, fi', k') →
    ∃ (pos' : List ℤ) (k0 : ℕ), fi' = pos' ++ neg ∧ FitForm pos' neg ∧ Ok off s' pos' ∧ Grew off s s' pos pos' ∧
      (a.length : ℤ) = npar + (s'.npchain - onp) ∧ finite (e.L s' a) ∧ k < k0 ∧
      (∀ (i : ℕ) (c : ℤ), fi'[i]? = some c → Engines.get a c = some (e.u2d c (e.rand (k0 + i)))) ∧
      ∀ i < a.length, (∀ c ∈ fi', Engines.place a.length c ≠ some i) → a[i]? = some 0 := by
  induction n with
  | zero => intro off s pos k _ _ _ _ s' a fi' k' h; simp [tryLoop] at h
  | succ n ih =>
    intro off s pos k hoff hok hf hs s' a fi' k' h
    unfold tryLoop at h
    split at h
    · simp at h
    · rename_i s1 fi1 k1 hg
      obtain ⟨pos1, rfl, q2, q3, q4⟩ := grown e off neg fuel s pos k hok hf _ _ _ hg
      dsimp only at h
      split at h
      · simp at h
      · rename_i b hb
        have hc := q4.chain
        by_cases hfin : finite (e.L s1 b)
        · rw [if_pos hfin] at h
          simp only [Option.some.injEq, Prod.mk.injEq] at h
          obtain ⟨rfl, rfl, rfl, rfl⟩ := h
          obtain ⟨b1, b2⟩ := puts_inv _ _ _ _ hb
          rw [List.length_replicate] at b1 b2
          have hk := grow_draws e _ _ _ _ _ _ _ _ hg
          refine ⟨pos1, k1, rfl, q2, q3, q4, by omega, hfin, hk, ?_, ?_⟩
          · intro i c hic
            rw [puts_get (npar + s1.npchain - onp) _ _ _ _ (by simp) hb (places _ s1.npchain (by omega) _ _ q2 q3.bound hn
              (fun c hc => by have := hneg c hc; omega)) i c hic]
            have hi : i < (pos1 ++ neg).length := (List.getElem?_eq_some_iff.1 hic).1
            have hr : ((List.range (pos1 ++ neg).length).map fun i => e.rand (k1 + i))[i]? = some (e.rand (k1 + i)) := by
              rw [List.getElem?_map, List.getElem?_range hi]
              rfl
            rw [List.getElem?_zipWith, hic, hr]
          · intro i hi hno
            rw [b2 i, List.getElem?_replicate, if_pos (by omega)]
            intro c hcf
            have h3 := hno c hcf
            rw [b1] at h3 hi
            constructor
            · rintro rfl
              exact h3 (by simp [Engines.place, hi])
            · intro e1
              apply h3
              unfold Engines.place
              rw [if_neg (by omega), if_pos (by omega)]
              congr 1
              omega
        · rw [if_neg hfin] at h
          rcases hoff with rfl | hoff
          · obtain ⟨pos', k0, r1, r2, r3, r4, r5, r6, r7, r8⟩ := ih 0 s1 pos1 _ (Or.inl rfl) q3 q2 (by omega) _ _ _ _ h
            have hk := grow_draws e _ _ _ _ _ _ _ _ hg
            exact ⟨pos', k0, r1, r2, r3, q4.trans r4, r5, r6, by omega, r8⟩
          · exact absurd (hoff _ _) hfin

/-- C97: what the first walker of a dynamic model is. The model has grown (`Grew`), `allpars` has grown with it, its
likelihood is finite, and every fitted parameter or hyperparameter is mapped by its own prior from a draw of its
own. Missing: a dynamic model that is not at the head of its chain, when a trial fails
(`C97_counterexample_retry`); what becomes of parameters that are not fitted (`C97_counterexample_fixed`). -/
theorem C97_start_partial (e : Env β) (finite : β → Prop) [DecidablePred finite] (fuel maxtrials id off : ℕ) (s : Dyn ℝ)
    (allpars : List ℝ) (pos neg : List ℤ) (k : ℕ)
    (hoff : off = 0 ∨ ∀ s a, finite (e.L s a)) (hok : Ok off s pos) (hf : FitForm pos neg) (hn : neg.Nodup)
    (hall : s.npchain ≤ allpars.length) (hneg : ∀ c ∈ neg, -((allpars.length : ℤ) - s.npchain) ≤ c)
    (s' : Dyn ℝ) (a : List ℝ) (fi' : List ℤ) (k' : ℕ)
    (h : execute e finite fuel maxtrials id off s allpars (pos ++ neg) k = some (s', a, fi', k')) :
    ∃ (pos' : List ℤ) (k0 : ℕ), fi' = pos' ++ neg ∧ FitForm pos' neg ∧ Ok off s' pos' ∧ Grew off s s' pos pos' ∧
      (a.length : ℤ) = allpars.length + (s'.npchain - s.npchain) ∧ finite (e.L s' a) ∧ k < k0 ∧
      ∀ (i : ℕ) (c : ℤ), fi'[i]? = some c → Engines.get a c = some (e.u2d c (e.rand (k0 + i))) := by
  obtain ⟨pos', k0, h1, h2, h3, h4, h5, h6, h7, h8, -⟩ := tried e finite fuel allpars.length s.npchain neg hn hall hneg _ off
    s pos k hoff hok hf le_rfl s' a fi' k' h
  exact ⟨pos', k0, h1, h2, h3, h4, h5, h6, h7, h8⟩

/-- C97: there is such a walker when the likelihood is finite everywhere. -/
theorem C97_found (e : Env β) (finite : β → Prop) [DecidablePred finite] (fuel maxtrials id off : ℕ) (s : Dyn ℝ)
    (allpars : List ℝ) (pos neg : List ℤ) (k M : ℕ) (hfin : ∀ s a, finite (e.L s a)) (hok : Ok off s pos)
    (hf : FitForm pos neg) (hall : s.npchain ≤ allpars.length)
    (hneg : ∀ c ∈ neg, -((allpars.length : ℤ) - s.npchain) ≤ c) (hq : ∀ u, (e.q.unit2Domain u).isSome)
    (hM : s.maxComp = some M) (hs : s.ncomp ≤ M) (hfuel : M < s.ncomp + fuel) :
    (execute e finite fuel maxtrials id off s allpars (pos ++ neg) k).isSome := by
  obtain ⟨⟨s1, fi1, k1⟩, hg⟩ := grow_some e off neg hq M fuel s pos k hok hf hM hs hfuel
  obtain ⟨pos1, rfl, q2, q3, q4⟩ := grown e off neg fuel s pos k hok hf _ _ _ hg
  have hc := q4.chain
  unfold execute tryLoop
  rw [hg]
  dsimp only
  obtain ⟨b, hb⟩ := puts_some (pos1 ++ neg) (List.replicate (allpars.length + s1.npchain - s.npchain) (0 : ℝ))
    (List.zipWith e.u2d (pos1 ++ neg) ((List.range (pos1 ++ neg).length).map fun i => e.rand (k1 + i))) (by simp) (by
      intro c hcm
      rw [List.length_replicate]
      rcases List.mem_append.1 hcm with h | h
      · have := q3.bound c h
        have := q2.2.1 c h
        omega
      · have := hneg c h
        have := q2.2.2 c h
        omega)
  rw [hb]
  simp [hfin]

/-- C97, where the code fails: a parameter that is not fitted, because it is kept at a value, is 0 in the first walkers,
whatever that value. -/
theorem C97_counterexample_fixed (e : Env β) (finite : β → Prop) [DecidablePred finite] (fuel maxtrials id off : ℕ)
    (s : Dyn ℝ) (allpars : List ℝ) (pos neg : List ℤ) (k : ℕ)
    (hoff : off = 0 ∨ ∀ s a, finite (e.L s a)) (hok : Ok off s pos) (hf : FitForm pos neg) (hn : neg.Nodup)
    (hall : s.npchain ≤ allpars.length) (hneg : ∀ c ∈ neg, -((allpars.length : ℤ) - s.npchain) ≤ c)
    (s' : Dyn ℝ) (a : List ℝ) (fi' : List ℤ) (k' : ℕ)
    (h : execute e finite fuel maxtrials id off s allpars (pos ++ neg) k = some (s', a, fi', k'))
    (i : ℕ) (hi : i < off + s.npbase) (hfix : (i : ℤ) ∉ pos) : a[i]? = some 0 := by
  obtain ⟨pos', k0, h1, h2, h3, h4, h5, h6, h7, h8, h9⟩ := tried e finite fuel allpars.length s.npchain neg hn hall hneg _ off
    s pos k hoff hok hf le_rfl s' a fi' k' h
  have hr := hok.room
  have hc := h4.chain
  refine h9 i (by omega) fun c hc' => ?_
  subst h1
  rcases List.mem_append.1 hc' with hp | hp
  · have hc0 := h2.2.1 c hp
    have hcl := h3.bound c hp
    unfold Engines.place
    rw [if_pos hc0, if_pos (by omega)]
    intro e1
    have e2 : c = i := by
      have := Option.some.inj e1
      omega
    subst e2
    rcases (h4.fitted (i : ℤ)).1 hp with ⟨j, hj, e3⟩ | h'
    · unfold up at e3
      split_ifs at e3 with hlt
      · exact hfix (e3 ▸ hj)
      · omega
    · omega
  · have hc0 := h2.2.2 c hp
    have := hneg c hp
    unfold Engines.place
    rw [if_neg (by omega), if_pos (by omega)]
    intro e1
    have := Option.some.inj e1
    omega

/-- C97, where the code fails: with a noise scale that is fixed (it is the last of `allpars` and it is not fitted), the
first walkers are never found, when the likelihood needs a scale that is not 0. -/
theorem C97_counterexample_scale (e : Env β) (finite : β → Prop) [DecidablePred finite] (fuel maxtrials id off : ℕ)
    (s : Dyn ℝ) (allpars : List ℝ) (pos : List ℤ) (k : ℕ) (hoff : off = 0) (hok : Ok off s pos)
    (hf : FitForm pos []) (hall : allpars.length = s.npchain + 1)
    (hL : ∀ s a, finite (e.L s a) → a.getLast? ≠ some 0) :
    execute e finite fuel maxtrials id off s allpars pos k = none := by
  cases h : execute e finite fuel maxtrials id off s allpars pos k with
  | none => rfl
  | some r =>
    exfalso
    obtain ⟨s', a, fi', k'⟩ := r
    rw [← List.append_nil pos] at h
    obtain ⟨pos', k0, h1, h2, h3, h4, h5, h6, h7, h8, h9⟩ := tried e finite fuel allpars.length s.npchain [] (by simp)
      (by omega) (by simp) _ off s pos k (Or.inl hoff) hok hf le_rfl s' a fi' k' h
    have hc := h4.chain
    apply hL _ _ h6
    rw [List.getLast?_eq_getElem?]
    refine h9 _ (by omega) fun c hc' => ?_
    rw [h1, List.append_nil] at hc'
    have hc0 := h2.2.1 c hc'
    have hcl := h3.bound c hc'
    unfold Engines.place
    rw [if_pos hc0, if_pos (by omega)]
    intro e1
    have := Option.some.inj e1
    omega

/-! ## How many components -/

open MeasureTheory

/-- One draw of `rng.rand()`: uniform between 0 and 1. -/
def uni : Measure ℝ := volume.restrict (Set.Ico 0 1)

instance : IsProbabilityMeasure uni := ⟨by simp [uni]⟩

/-- All draws, independent. -/
def draws : Measure (ℕ → ℝ) := Measure.infinitePi fun _ => uni

/-- When there are `j` or more new components. -/
theorem count_iff (e : Env β) (off : ℕ) (neg : List ℤ) (δ M : ℕ) (h1 : e.first = δ) (h2 : e.delta = δ) (D : ℝ → ℝ)
    (hq : ∀ u, e.q.unit2Domain u = some (D u)) (fuel : ℕ) : ∀ (s : Dyn ℝ) (pos : List ℤ) (k j : ℕ), Ok off s pos →
    FitForm pos neg → s.maxComp = some M → s.ncomp + j ≤ M → M < s.ncomp + fuel →
    ((∃ r, growLoop e off fuel s (pos ++ neg) k = some r ∧ s.ncomp + j ≤ r.1.ncomp) ↔
      ∀ i < j, ((s.ncomp + i : ℕ) : ℝ) < D (e.rand (k + i * (1 + δ)))) := by
  induction fuel with
  | zero => intro s pos k j _ _ _ _ _; omega
  | succ n ih =>
    intro s pos k j hok hf hm hj hM
    cases j with
    | zero =>
      simp only [not_lt_zero', false_imp_iff, implies_true, iff_true]
      obtain ⟨⟨s', fi', k'⟩, hr⟩ := grow_some e off neg (fun u => by rw [hq]; rfl) M (n + 1) s pos k hok hf hm (by omega) hM
      obtain ⟨pos', -, -, -, h4⟩ := grown e off neg _ s pos k hok hf _ _ _ hr
      exact ⟨_, hr, by have := h4.ncomp; simpa using this⟩
    | succ j =>
      have hsize : compSize e.first e.delta s.ncomp = δ := by
        unfold compSize
        split_ifs <;> assumption
      unfold growLoop
      dsimp only
      rw [hsize]
      generalize hv : (List.range δ).map _ = value
      by_cases hD : (s.ncomp : ℝ) < D (e.rand k)
      · have hb : ∃ s1, birth e.q s off value (e.rand k) = some (s1, true) := by
          unfold birth
          rw [hq]
          dsimp only
          rw [if_pos hD]
          unfold grow insertPars
          rw [if_neg (by simp [hm]; omega), if_pos (hok.len ▸ hok.room)]
          exact ⟨_, rfl⟩
        obtain ⟨s1, hb⟩ := hb
        obtain ⟨pos1, p1, p2, p3, p4, p5, p6⟩ := step_grew e.q s s1 off _ _ pos neg hok hf hb
        rw [hb]
        dsimp only
        rw [p1]
        have := ih s1 pos1 (k + 1 + δ) j p3 p2 (p5.max.trans hm) (by omega) (by omega)
        rw [p4] at this
        rw [show s.ncomp + (j + 1) = s.ncomp + 1 + j by omega, this]
        constructor
        · intro h i hi
          cases i with
          | zero => simpa using hD
          | succ i =>
            have := h i (by omega)
            rw [show k + (i + 1) * (1 + δ) = k + 1 + δ + i * (1 + δ) by ring,
              show s.ncomp + (i + 1) = s.ncomp + 1 + i by omega]
            exact this
        · intro h i hi
          have := h (i + 1) (by omega)
          rwa [show k + (i + 1) * (1 + δ) = k + 1 + δ + i * (1 + δ) by ring,
              show s.ncomp + (i + 1) = s.ncomp + 1 + i by omega] at this
      · have hb : birth e.q s off value (e.rand k) = some (s, false) := by
          unfold birth
          rw [hq]
          dsimp only
          rw [if_neg hD]
        rw [hb]
        dsimp only
        constructor
        · rintro ⟨r, hr, hle⟩
          have := Option.some.inj hr
          subst this
          simp at hle
        · intro h
          exact absurd (by simpa using h 0 (by omega)) hD

theorem uni_above (c W lo : ℝ) (hlo : lo ≤ c) (hc : c ≤ lo + W) (hW : 0 < W) :
    uni {u | c < u * W + lo} = ENNReal.ofReal ((lo + W - c) / W) := by
  have e1 : {u : ℝ | c < u * W + lo} ∩ Set.Ico 0 1 = Set.Ioo ((c - lo) / W) 1 := by
    ext u
    simp only [Set.mem_inter_iff, Set.mem_setOf_eq, Set.mem_Ico, Set.mem_Ioo, div_lt_iff₀ hW]
    constructor
    · rintro ⟨h1, h2, h3⟩
      exact ⟨by linarith, h3⟩
    · rintro ⟨h1, h3⟩
      refine ⟨by linarith, ?_, h3⟩
      by_contra h
      push Not at h
      nlinarith
  have hm : MeasurableSet {u : ℝ | c < u * W + lo} := measurableSet_lt measurable_const (by fun_prop)
  rw [uni, Measure.restrict_apply hm, e1, Real.volume_Ioo]
  congr 1
  field_simp
  ring

/-- C97: how many components there are. The grow prior is uniform between the minimum `lo` and the maximum `M`, all
components have the same size. The chance of `j` or more components above those at the start is a product, as
there is a new draw for each of them. -/
theorem C97_count (e : Env β) (off lo M j δ fuel k : ℕ) (q : Prior) (hq : growPrior lo (some M) = some q) (s : Dyn ℝ)
    (pos neg : List ℤ) (h1 : e.first = δ) (h2 : e.delta = δ) (heq : e.q = q) (hok : Ok off s pos)
    (hf : FitForm pos neg) (hm : s.maxComp = some M) (hlo : lo ≤ s.ncomp) (hj : s.ncomp + j ≤ M)
    (hM : M < s.ncomp + fuel) :
    draws {r | ∃ w, growLoop { e with rand := r } off fuel s (pos ++ neg) k = some w ∧ s.ncomp + j ≤ w.1.ncomp}
      = ENNReal.ofReal (∏ i ∈ Finset.range j, ((M : ℝ) + 1 - (s.ncomp + i)) / (M + 1 - lo)) := by
  obtain ⟨q', hq', hmap⟩ := uniform_map lo M (by omega)
  obtain rfl : q' = q := Option.some.inj (hq'.symm.trans hq)
  have hW : (0 : ℝ) < (M : ℝ) + 1 - lo := by
    have : (lo : ℝ) ≤ M := by exact_mod_cast (by omega : lo ≤ M)
    linarith
  have hset : {r : ℕ → ℝ | ∃ w, growLoop { e with rand := r } off fuel s (pos ++ neg) k = some w ∧ s.ncomp + j ≤ w.1.ncomp}
      = Set.pi ((Finset.range j).image fun i => k + i * (1 + δ) : Finset ℕ)
        fun m => {u : ℝ | ((s.ncomp + (m - k) / (1 + δ) : ℕ) : ℝ) < u * ((M : ℝ) + 1 - lo) + lo} := by
    ext r
    have := count_iff { e with rand := r } off neg δ M h1 h2 (fun u => u * ((M : ℝ) + 1 - lo) + lo)
      (by intro u; rw [← hmap u, ← heq]) fuel s pos k j hok hf hm hj hM
    rw [Set.mem_setOf_eq, this]
    simp only [Set.mem_pi, Finset.coe_image, Finset.coe_range, Set.mem_image, Set.mem_Iio, forall_exists_index, and_imp,
      forall_apply_eq_imp_iff₂, Set.mem_setOf_eq]
    refine forall₂_congr fun i hi => ?_
    rw [Nat.add_sub_cancel_left, Nat.mul_div_cancel _ (by omega)]
  rw [hset, draws, Measure.infinitePi_pi _ (fun m _ => measurableSet_lt measurable_const (by fun_prop)),
    Finset.prod_image (by
      intro a _ b _ hab
      have : a * (1 + δ) = b * (1 + δ) := by simpa using hab
      exact Nat.eq_of_mul_eq_mul_right (by omega) this),
    ENNReal.ofReal_prod_of_nonneg]
  · refine Finset.prod_congr rfl fun i hi => ?_
    rw [Nat.add_sub_cancel_left, Nat.mul_div_cancel _ (by omega)]
    have hi := Finset.mem_range.1 hi
    have hc1 : (lo : ℝ) ≤ ((s.ncomp + i : ℕ) : ℝ) := by exact_mod_cast (by omega : lo ≤ s.ncomp + i)
    have hc2 : ((s.ncomp + i : ℕ) : ℝ) ≤ M := by exact_mod_cast (by omega : s.ncomp + i ≤ M)
    rw [uni_above _ _ _ hc1 (by linarith) hW]
    congr 2
    push_cast
    ring
  · intro i hi
    have hi := Finset.mem_range.1 hi
    have hc2 : ((s.ncomp + i : ℕ) : ℝ) ≤ M := by exact_mod_cast (by omega : s.ncomp + i ≤ M)
    push_cast at hc2
    exact div_nonneg (by linarith) hW.le

/-- C97, where the code differs from its comment, "Grow the dynamic model a number of times according to growPrior": from
the minimum, with at least three more allowed, the model always grows, although the prior gives one part in
`M + 1 - lo` to its first interval; and three or more new components are rarer than that one draw of the prior
exceeds the number they start from. -/
theorem C97_counterexample_count (e : Env β) (off lo M δ fuel k : ℕ) (q : Prior) (hq : growPrior lo (some M) = some q)
    (s : Dyn ℝ) (pos neg : List ℤ) (h1 : e.first = δ) (h2 : e.delta = δ) (heq : e.q = q) (hok : Ok off s pos)
    (hf : FitForm pos neg) (hm : s.maxComp = some M) (hlo : s.ncomp = lo) (hj : lo + 3 ≤ M) (hM : M < lo + fuel) :
    draws {r | ∃ w, growLoop { e with rand := r } off fuel s (pos ++ neg) k = some w ∧ lo + 1 ≤ w.1.ncomp} = 1 ∧
    uni {u | ∃ d, q.unit2Domain u = some d ∧ (lo : ℝ) + 1 < d} < 1 ∧
    draws {r | ∃ w, growLoop { e with rand := r } off fuel s (pos ++ neg) k = some w ∧ lo + 3 ≤ w.1.ncomp}
      < uni {u | ∃ d, q.unit2Domain u = some d ∧ (lo : ℝ) + 2 < d} := by
  have c1 := C97_count e off lo M 1 δ fuel k q hq s pos neg h1 h2 heq hok hf hm hlo.ge (by omega) (by omega)
  have c3 := C97_count e off lo M 3 δ fuel k q hq s pos neg h1 h2 heq hok hf hm hlo.ge (by omega) (by omega)
  rw [hlo] at c1 c3
  obtain ⟨q', hq', hmap⟩ := uniform_map lo M (by omega)
  obtain rfl : q' = q := Option.some.inj (hq'.symm.trans hq)
  have hM3 : (lo : ℝ) + 3 ≤ M := by exact_mod_cast hj
  have hW : (0 : ℝ) < (M : ℝ) + 1 - lo := by linarith
  have hu : ∀ t : ℝ, {u | ∃ d, q'.unit2Domain u = some d ∧ (lo : ℝ) + t < d}
      = {u | (lo : ℝ) + t < u * ((M : ℝ) + 1 - lo) + lo} := by
    intro t
    ext u
    simp [hmap]
  have hv : ∀ t : ℝ, 0 ≤ t → t ≤ 3 → uni {u | ∃ d, q'.unit2Domain u = some d ∧ (lo : ℝ) + t < d}
      = ENNReal.ofReal (((M : ℝ) + 1 - lo - t) / (M + 1 - lo)) := by
    intro t ht ht3
    rw [hu, uni_above _ _ _ (by linarith) (by linarith) hW]
    congr 2
    ring
  refine ⟨?_, ?_, ?_⟩
  · rw [c1]
    simp [hW.ne']
  · rw [hv 1 (by norm_num) (by norm_num), ← ENNReal.ofReal_one, ENNReal.ofReal_lt_ofReal_iff one_pos, div_lt_one hW]
    linarith
  · rw [c3, hv 2 (by norm_num) (by norm_num), ENNReal.ofReal_lt_ofReal_iff (div_pos (by linarith) hW)]
    simp only [Finset.prod_range_succ, Finset.prod_range_zero, Nat.cast_zero, Nat.cast_one, Nat.cast_ofNat, add_zero, one_mul]
    rw [div_self hW.ne', one_mul]
    have hp : 0 < ((M : ℝ) + 1 - lo - 2) / (M + 1 - lo) := div_pos (by linarith) hW
    have hl : ((M : ℝ) + 1 - (lo + 1)) / (M + 1 - lo) < 1 := by rw [div_lt_one hW]; linarith
    have e2 : (M : ℝ) + 1 - (lo + 2) = M + 1 - lo - 2 := by ring
    rw [e2]
    nlinarith

/-! ## A second trial, and examples -/

/-- One parameter of another model, then one component of one parameter; the parameter of the component is kept, the
other is fitted. -/
def pair : Dyn ℝ := { ncomp := 1, minComp := 1, maxComp := some 2, npbase := 1, npchain := 2, params := [0, 3] }

/-- The grow prior between 1 and 2 components; all draws are 0, except number `n`; the priors of the parameters are uniform;
the condition `ok` is that the likelihood is finite. -/
def env (q : Prior) (n : ℕ) (ok : Dyn ℝ → List ℝ → Bool) : Env Bool :=
  { q := q, first := 1, delta := 1, rand := fun k => if k = n then 1 / 2 else 0, newpar := fun _ u => u,
    u2d := fun _ u => u, L := ok }

theorem pair_ok : Ok 1 pair [0] ∧ FitForm [0] [] := by
  refine ⟨⟨rfl, le_rfl, ?_⟩, ?_⟩
  · simp [pair]
  · simp [FitForm]

theorem turn (q : Prior) (hq : growPrior 1 (some 2) = some q) (u : ℝ) : q.unit2Domain u = some (u * 2 + 1) := by
  obtain ⟨q', hq', hmap⟩ := uniform_map 1 2 (by norm_num)
  obtain rfl : q' = q := Option.some.inj (hq'.symm.trans hq)
  rw [hmap]
  norm_num

/-- C97, where the code fails: when the first trial fails the dynamic model is taken to be at the head of its chain. Here
a fitted parameter of another model comes first; that of the only component is kept. When the second trial adds a
component, the kept parameter is fitted and the new one is not. -/
theorem C97_counterexample_retry (q : Prior) (hq : growPrior 1 (some 2) = some q) :
    ∃ s' a k', execute (env q 2 fun s _ => s.ncomp == 2) (· = true) 3 5 0 1 pair [0, 3] [0] 0 = some (s', a, [0, 1], k') ∧
      s'.ncomp = 2 ∧ s'.npchain = 3 ∧ ¬ Grew 1 pair s' [0] [0, 1] := by
  refine ⟨{ pair with ncomp := 2, npbase := 2, npchain := 3, params := [0, 0, 3] }, [0, 0, 0], 7, ?_, rfl, rfl, ?_⟩
  · norm_num [execute, tryLoop, growLoop, env, birth, turn q hq, pair, grow, insertPars, compSize, List.range_succ, fitBirth,
      Engines.puts, Engines.put, Engines.place, List.replicate]
  · intro h
    have := (h.fitted 1).1 (by simp)
    simp [pair, up] at this

/-- With a likelihood that is finite at once, the first draw adds the component. -/
example (q : Prior) (hq : growPrior 1 (some 2) = some q) :
    ∃ s' a k', execute (env q 0 fun _ _ => true) (· = true) 3 5 0 1 pair [0, 3] [0] 0 = some (s', a, [0, 2], k') ∧
      s'.ncomp = 2 ∧ a = [0, 0, 0] := by
  refine ⟨{ pair with ncomp := 2, npbase := 2, npchain := 3, params := [0, 3, 0] }, [0, 0, 0], 5, ?_, rfl, rfl⟩
  norm_num [execute, tryLoop, growLoop, env, birth, turn q hq, pair, grow, insertPars, compSize, List.range_succ, fitBirth,
      Engines.puts, Engines.put, Engines.place, List.replicate]
  rfl

/-- The hypotheses of the theorems are met. -/
example (q : Prior) (hq : growPrior 1 (some 2) = some q) :
    (execute (env q 0 fun _ _ => true) (· = true) 3 5 0 1 pair [0, 3] ([0] ++ []) 0).isSome :=
  C97_found _ _ _ _ _ _ _ _ _ _ _ 2 (by simp [env]) pair_ok.1 pair_ok.2 (by simp [pair]) (by simp)
    (fun u => by simp [env, turn q hq]) rfl (by simp [pair]) (by simp [pair])

/-- A dynamic model at the head of its chain, with one component that is fitted, and a noise scale. -/
example (q : Prior) (L : List ℝ → Bool) (hL : ∀ a, L a = true → a.getLast? ≠ some 0) :
    execute (env q 0 fun _ a => L a) (· = true) 3 5 0 0
      { ncomp := 1, minComp := 1, maxComp := some 2, npbase := 1, npchain := 1, params := [0] } [0, 1] [0] 0 = none :=
  C97_counterexample_scale _ _ _ _ _ _ _ _ _ _ rfl ⟨rfl, le_rfl, by simp⟩ (by simp [FitForm]) rfl
    (fun _ a h => hL a h)

/-- From 1 to at most 4 components: three new ones have chance 3/4 · 2/4, not 2/4. -/
example (q : Prior) (hq : growPrior 1 (some 4) = some q) :
    draws {r | ∃ w, growLoop { env q 0 (fun _ _ => true) with rand := r } 0 4
      { ncomp := 1, minComp := 1, maxComp := some 4, npbase := 1, npchain := 1, params := [0] } ([0] ++ []) 0 = some w ∧
      1 + 3 ≤ w.1.ncomp} = ENNReal.ofReal (3 / 8) := by
  have := C97_count (env q 0 fun _ _ => true) 0 1 4 3 1 4 0 q hq
    { ncomp := 1, minComp := 1, maxComp := some 4, npbase := 1, npchain := 1, params := [0] } [0] [] rfl rfl rfl
    ⟨rfl, le_rfl, by simp⟩ (by simp [FitForm]) rfl le_rfl (by norm_num) (by norm_num)
  rw [this]
  norm_num [Finset.prod_range_succ]

end BF.StartDyn
