import Verif.Engines
import Mathlib.Tactic.NormNum
import Mathlib.Tactic.Linarith

/-!
# C09: engines never leave a walker below the likelihood constraint
-/

namespace BF.Engines

variable {π β : Type*}

/-! ## Specification -/

/-- Parameter number `i` of the walker is among those that are fitted; a negative index counts from
the end, as in python. -/
def Fitted (w : Wk π β) (i : ℕ) : Prop :=
  (i : ℤ) ∈ w.fitIndex ∨ (i : ℤ) - w.allpars.length ∈ w.fitIndex

/-- `w` is an acceptable successor of `w0`: the stored likelihood is that of the stored parameters, it
is not below the level, and only fitted parameters have moved. -/
structure Successor [LinearOrder β] (L : π → List ℝ → β) (lowL : β) (w0 w : Wk π β) : Prop where
  stored : w.logL = L w.problem w.allpars
  level : lowL ≤ w.logL
  problem : w.problem = w0.problem
  fitIndex : w.fitIndex = w0.fitIndex
  length : w.allpars.length = w0.allpars.length
  kept : ∀ i : ℕ, ¬ Fitted w0 i → w.allpars[i]? = w0.allpars[i]?

/-- What a call of an engine has done to the walkers: it stored the walkers `new`, one after the
other. With `append` they are behind the old ones, otherwise the last one of them has taken the place
of walker `kw`, under the same id. Nothing else has changed. All of them are kept as phantoms. -/
structure Stored (st st' : St π β) (kw : ℕ) (append : Bool) (new : List (Wk π β)) : Prop where
  phantoms : st'.phantoms = st.phantoms ++ new
  appended : append = true → st'.walkers = st.walkers ++ new
  replaced : append = false →
    st'.walkers = (match new.getLast? with | none => st.walkers | some w => st.walkers.set kw w)
  ids : append = false → ∀ w ∈ new, ∀ o, st.walkers[kw]? = some o → w.id = o.id

/-! ## Lemmas -/

/-- `q` is the parameter list of `w0` with only fitted parameters changed. -/
def Moved (w0 : Wk π β) (q : List ℝ) : Prop :=
  q.length = w0.allpars.length ∧ ∀ i : ℕ, ¬ Fitted w0 i → q[i]? = w0.allpars[i]?

theorem moved_refl (w0 : Wk π β) : Moved w0 w0.allpars := ⟨rfl, fun _ _ => rfl⟩

theorem place_fitted (w0 : Wk π β) (c : ℤ) (i : ℕ) (hc : c ∈ w0.fitIndex)
    (h : place w0.allpars.length c = some i) : Fitted w0 i := by
  unfold place at h
  unfold Fitted
  split at h
  · split at h
    · left
      have : i = c.toNat := (Option.some.inj h).symm
      have h2 : (i : ℤ) = c := by omega
      rw [h2]; exact hc
    · exact absurd h (by simp)
  · split at h
    · right
      have : i = (c + w0.allpars.length).toNat := (Option.some.inj h).symm
      have h2 : (i : ℤ) - w0.allpars.length = c := by omega
      rw [h2]; exact hc
    · exact absurd h (by simp)

theorem moved_put (w0 : Wk π β) (q q' : List ℝ) (c : ℤ) (v : ℝ) (hq : Moved w0 q)
    (hc : c ∈ w0.fitIndex) (h : put q c v = some q') : Moved w0 q' := by
  unfold put at h
  rcases hp : place q.length c with _ | j
  · rw [hp] at h; exact absurd h (by simp)
  · rw [hp] at h
    obtain rfl : q.set j v = q' := by simpa using h
    rw [hq.1] at hp
    have hj := place_fitted w0 c j hc hp
    refine ⟨by simpa using hq.1, ?_⟩
    intro i hi
    have hne : j ≠ i := fun hh => hi (hh ▸ hj)
    rw [List.getElem?_set_ne hne]
    exact hq.2 i hi

theorem moved_puts (w0 : Wk π β) (idx : List ℤ) (vals q q' : List ℝ) (hq : Moved w0 q)
    (hidx : ∀ c ∈ idx, c ∈ w0.fitIndex) (h : puts q idx vals = some q') : Moved w0 q' := by
  induction idx generalizing q vals with
  | nil =>
    cases vals with
    | nil => simp only [puts, Option.some.injEq] at h; exact h ▸ hq
    | cons => simp [puts] at h
  | cons c cs ih =>
    cases vals with
    | nil => simp [puts] at h
    | cons v vs =>
      simp only [puts] at h
      split at h
      · rename_i b hb
        exact ih _ _ (moved_put w0 q b c v hq (hidx c (by simp)) hb)
          (fun x hx => hidx x (by simp [hx])) h
      · exact absurd h (by simp)

theorem Stored.refl (st : St π β) (kw : ℕ) (append : Bool) (k : ℕ) :
    Stored st { st with k := k } kw append [] :=
  ⟨by simp, by simp, by simp, by simp⟩

theorem Stored.trans {st st1 st2 : St π β} {kw : ℕ} {append : Bool} {n1 n2 : List (Wk π β)}
    (h1 : Stored st st1 kw append n1) (h2 : Stored st1 st2 kw append n2) :
    Stored st st2 kw append (n1 ++ n2) := by
  refine ⟨by rw [h2.phantoms, h1.phantoms, List.append_assoc],
    fun h => by rw [h2.appended h, h1.appended h, List.append_assoc], ?_, ?_⟩
  · intro h
    rw [h2.replaced h, h1.replaced h]
    rcases hn2 : n2.getLast? with _ | w2
    · have : n2 = [] := by simpa using hn2
      simp [this]
    · have hl : (n1 ++ n2).getLast? = some w2 := by
        rw [List.getLast?_append, hn2]; rfl
      rw [hl]
      rcases hn1 : n1.getLast? with _ | w1
      · simp
      · simp
  · intro h w hw o ho
    rcases List.mem_append.1 hw with hw | hw
    · exact h1.ids h w hw o ho
    · have := h1.replaced h
      rcases hn1 : n1.getLast? with _ | w1
      · rw [hn1] at this
        exact h2.ids h w hw o (by rw [this]; exact ho)
      · rw [hn1] at this
        have hlt : kw < st.walkers.length := (List.getElem?_eq_some_iff.1 ho).1
        have hw1 := h1.ids h w1 (List.mem_of_getLast? hn1) o ho
        rw [← hw1]
        exact h2.ids h w hw w1 (by rw [this]; simp [hlt])

theorem Stored.of_k {st st' : St π β} {kw : ℕ} {append : Bool} {n : List (Wk π β)} {k : ℕ}
    (h : Stored { st with k := k } st' kw append n) : Stored st st' kw append n :=
  ⟨h.phantoms, h.appended, h.replaced, h.ids⟩

/-- One call of `setWalker`. -/
theorem Stored.setWalker (st : St π β) (kw : ℕ) (append : Bool) (p : π) (q : List ℝ) (l : β)
    (fi : List ℤ) (hkw : kw < st.walkers.length) :
    ∃ w : Wk π β, w.problem = p ∧ w.allpars = q ∧ w.logL = l ∧ w.fitIndex = fi ∧
      Stored st (st.setWalker (st.target append kw) p q l none fi) kw append [w] := by
  cases append with
  | true =>
    refine ⟨⟨st.count, -1, 0, p, q, fi, l⟩, rfl, rfl, rfl, rfl, ?_⟩
    constructor <;> simp [St.setWalker, St.target]
  | false =>
    obtain ⟨o, ho⟩ : ∃ o, st.walkers[kw]? = some o := ⟨_, List.getElem?_eq_getElem hkw⟩
    refine ⟨⟨o.id, -1, 0, p, q, fi, l⟩, rfl, rfl, rfl, rfl, ?_⟩
    constructor
    · simp [St.setWalker, St.target, hkw, (List.getElem?_eq_some_iff.1 ho).2]
    · simp
    · simp [St.setWalker, St.target, hkw, (List.getElem?_eq_some_iff.1 ho).2]
    · intro _ w hw o' ho'
      rw [ho] at ho'
      obtain rfl := Option.some.inj ho'
      rw [List.mem_singleton.1 hw]

theorem Stored.setWalker' (st : St π β) (kw : ℕ) (append : Bool) (w0 : Wk π β) (p : π) (q : List ℝ)
    (l : β) (fi : List ℤ) (hkw : kw < st.walkers.length)
    (hid : ∀ o, st.walkers[kw]? = some o → w0.id = o.id) :
    ∃ w : Wk π β, w.problem = w0.problem ∧ w.allpars = q ∧ w.logL = l ∧ w.fitIndex = w0.fitIndex ∧
      Stored st (st.setWalker (st.target append kw) p q l (some w0) fi) kw append [w] := by
  cases append with
  | true =>
    refine ⟨⟨st.count, w0.parent, w0.start, w0.problem, q, w0.fitIndex, l⟩, rfl, rfl, rfl, rfl, ?_⟩
    constructor <;> simp [St.setWalker, St.target]
  | false =>
    refine ⟨⟨w0.id, w0.parent, w0.start, w0.problem, q, w0.fitIndex, l⟩, rfl, rfl, rfl, rfl, ?_⟩
    constructor
    · simp [St.setWalker, St.target, hkw]
    · simp
    · simp [St.setWalker, St.target, hkw]
    · intro _ w hw o' ho'
      rw [List.mem_singleton.1 hw]
      exact hid o' ho'

theorem Stored.length_le {st st' : St π β} {kw : ℕ} {append : Bool} {n : List (Wk π β)}
    (h : Stored st st' kw append n) : st.walkers.length ≤ st'.walkers.length := by
  cases append with
  | true => rw [h.appended rfl]; simp
  | false =>
    rw [h.replaced rfl]
    rcases n.getLast? with _ | w <;> simp

variable [LinearOrder β]

/-- The result of an engine call that started at walker `w0`: all stored walkers are successors of it
and the returned number counts them, `m` for each. -/
def Run (L : π → List ℝ → β) (lowL : β) (w0 : Wk π β) (st st' : St π β) (kw : ℕ) (append : Bool)
    (n m : ℕ) : Prop :=
  ∃ new : List (Wk π β), Stored st st' kw append new ∧ (∀ w ∈ new, Successor L lowL w0 w) ∧
    n = new.length * m

theorem successor_of (L : π → List ℝ → β) (lowL : β) (w0 w : Wk π β) (q : List ℝ)
    (hq : Moved w0 q) (h1 : w.problem = w0.problem) (h2 : w.allpars = q)
    (h3 : w.logL = L w0.problem q) (h4 : w.fitIndex = w0.fitIndex) (h5 : lowL ≤ L w0.problem q) :
    Successor L lowL w0 w :=
  ⟨by rw [h3, h1, h2], h3 ▸ h5, h1, h4, by rw [h2]; exact hq.1, by rw [h2]; exact hq.2⟩

theorem Run.refl (L : π → List ℝ → β) (lowL : β) (w0 : Wk π β) (st : St π β) (kw : ℕ)
    (append : Bool) (k m : ℕ) : Run L lowL w0 st { st with k := k } kw append 0 m :=
  ⟨[], Stored.refl st kw append k, by simp, by simp⟩

theorem Run.trans {L : π → List ℝ → β} {lowL : β} {w0 : Wk π β} {st st1 st2 : St π β} {kw : ℕ}
    {append : Bool} {n1 n2 m : ℕ} (h1 : Run L lowL w0 st st1 kw append n1 m)
    (h2 : Run L lowL w0 st1 st2 kw append n2 m) : Run L lowL w0 st st2 kw append (n1 + n2) m := by
  obtain ⟨a, ha, hb, hc⟩ := h1
  obtain ⟨a', ha', hb', hc'⟩ := h2
  refine ⟨a ++ a', ha.trans ha', ?_, by rw [hc, hc', List.length_append, Nat.add_mul]⟩
  intro w hw
  rcases List.mem_append.1 hw with h | h
  · exact hb w h
  · exact hb' w h

theorem Run.of_k {L : π → List ℝ → β} {lowL : β} {w0 : Wk π β} {st st' : St π β} {kw : ℕ}
    {append : Bool} {n m k : ℕ} (h : Run L lowL w0 { st with k := k } st' kw append n m) :
    Run L lowL w0 st st' kw append n m := by
  obtain ⟨a, ha, hb, hc⟩ := h
  exact ⟨a, ha.of_k, hb, hc⟩

theorem Run.to_k {L : π → List ℝ → β} {lowL : β} {w0 : Wk π β} {st st' : St π β} {kw : ℕ}
    {append : Bool} {n m k : ℕ} (h : Run L lowL w0 st st' kw append n m) :
    Run L lowL w0 st { st' with k := k } kw append n m := by
  obtain ⟨a, ha, hb, hc⟩ := h
  exact ⟨a, ⟨ha.phantoms, ha.appended, ha.replaced, ha.ids⟩, hb, hc⟩

theorem Run.set (L : π → List ℝ → β) (lowL : β) (w0 : Wk π β) (st : St π β) (kw : ℕ) (append : Bool)
    (q : List ℝ) (m : ℕ) (hkw : kw < st.walkers.length) (hq : Moved w0 q)
    (hL : lowL ≤ L w0.problem q) :
    Run L lowL w0 st
      (st.setWalker (st.target append kw) w0.problem q (L w0.problem q) none w0.fitIndex)
      kw append m m := by
  obtain ⟨w, h1, h2, h3, h4, h5⟩ :=
    Stored.setWalker st kw append w0.problem q (L w0.problem q) w0.fitIndex hkw
  refine ⟨[w], h5, ?_, by simp⟩
  intro x hx
  rw [List.mem_singleton.1 hx]
  exact successor_of L lowL w0 w q hq h1 h2 h3 h4 hL

theorem Run.length_le {L : π → List ℝ → β} {lowL : β} {w0 : Wk π β} {st st' : St π β} {kw : ℕ}
    {append : Bool} {n m : ℕ} (h : Run L lowL w0 st st' kw append n m) :
    st.walkers.length ≤ st'.walkers.length := by
  obtain ⟨a, ha, _, _⟩ := h
  exact ha.length_le

/-! ## The engines -/

theorem startLoop_spec (e : Env π β) (finite : β → Prop) [DecidablePred finite] (w : Wk π β)
    (n k : ℕ) (q q' : List ℝ) (l : β) (k' : ℕ) (hq : Moved w q)
    (h : startLoop e finite w n k q = some (q', l, k')) :
    Moved w q' ∧ l = e.L w.problem q' ∧ finite l := by
  induction n generalizing k q with
  | zero => simp [startLoop] at h
  | succ n ih =>
    simp only [startLoop] at h
    split at h
    · exact absurd h (by simp)
    · rename_i q1 h1
      have hq1 := moved_puts w _ _ _ _ hq (fun _ hc => hc) h1
      split at h
      · rename_i hf
        simp only [Option.some.injEq, Prod.mk.injEq] at h
        obtain ⟨rfl, rfl, _⟩ := h
        exact ⟨hq1, rfl, hf⟩
      · exact ih _ _ hq1 h

/-- The start engine, for a model that is not dynamic and a walker at the place of its id: the walker
gets a likelihood that is finite and belongs to its parameters; all other walkers stay. -/
theorem C09_start (e : Env π β) (finite : β → Prop) [DecidablePred finite] (st st' : St π β) (kw : ℕ)
    (n : ℕ) (w0 : Wk π β) (hw : st.walkers[kw]? = some w0) (hid : w0.id = kw)
    (h : startExecute e finite st kw = some (st', n)) :
    ∃ w, st'.walkers = st.walkers.set kw w ∧ w.logL = e.L w.problem w.allpars ∧ finite w.logL ∧
      w.id = kw ∧ w.problem = w0.problem ∧ w.fitIndex = w0.fitIndex ∧
      ∀ i : ℕ, ¬ Fitted w0 i → w.allpars[i]? = w0.allpars[i]? := by
  simp only [startExecute, hw] at h
  split at h
  · exact absurd h (by simp)
  · rename_i q l k hl
    obtain ⟨h1, h2, h3⟩ := startLoop_spec e finite w0 _ _ _ _ _ _ (moved_refl w0) hl
    simp only [Option.some.injEq, Prod.mk.injEq] at h
    obtain ⟨h, -⟩ := h
    have hlt : kw < st.walkers.length := (List.getElem?_eq_some_iff.1 hw).1
    have hkw : w0.id < st.walkers.length := by rw [hid]; exact hlt
    refine ⟨⟨w0.id, -1, 0, w0.problem, q, w0.fitIndex, l⟩, ?_, h2, h3, hid, rfl, rfl, h1.2⟩
    rw [← h]
    subst hid
    simp [St.setWalker, hkw, (List.getElem?_eq_some_iff.1 hw).2]

theorem randomLoop_spec (e : Env π β) (w0 : Wk π β) (lowL : β) (kw : ℕ) (append : Bool)
    (um ux : List ℝ) (n : ℕ) (st st' : St π β) (r : ℕ) (hkw : kw < st.walkers.length)
    (h : randomLoop e w0 lowL kw append um ux n st = some (st', r)) :
    Run e.L lowL w0 st st' kw append r w0.fitIndex.length := by
  induction n generalizing st with
  | zero =>
    simp only [randomLoop, Option.some.injEq, Prod.mk.injEq] at h
    obtain ⟨rfl, rfl⟩ := h
    exact Run.refl e.L lowL w0 st kw append st.k _
  | succ n ih =>
    simp only [randomLoop] at h
    split at h
    · exact absurd h (by simp)
    · rename_i q hq
      have hq1 := moved_puts w0 _ _ _ _ (moved_refl w0) (fun _ hc => hc) hq
      split at h
      · rename_i hL
        simp only [Option.some.injEq, Prod.mk.injEq] at h
        obtain ⟨rfl, rfl⟩ := h
        exact Run.of_k (Run.set e.L lowL w0 _ kw append q _ hkw hq1 hL)
      · exact Run.of_k (ih _ (by exact hkw) h)

/-- The random engine. -/
theorem C09_random (e : Env π β) (st st' : St π β) (kw : ℕ) (lowL : β) (append : Bool) (n : ℕ)
    (w0 : Wk π β) (hw : st.walkers[kw]? = some w0)
    (h : randomExecute e st kw lowL append = some (st', n)) :
    Run e.L lowL w0 st st' kw append n w0.fitIndex.length := by
  simp only [randomExecute, hw] at h
  exact randomLoop_spec e w0 lowL kw append _ _ _ st st' n (List.getElem?_eq_some_iff.1 hw).1 h

theorem gibbsTry_spec (e : Env π β) (w0 : Wk π β) (lowL : β) (kw : ℕ) (append : Bool)
    (param : List ℝ) (c : ℤ) (save usav step : ℝ) (fuel kk : ℕ) (utry : ℝ) (st st' : St π β)
    (param' : List ℝ) (r : ℕ) (hkw : kw < st.walkers.length) (hc : c ∈ w0.fitIndex)
    (hq : Moved w0 param)
    (h : gibbsTry e w0.problem w0.fitIndex lowL kw append param c save usav step fuel kk utry st
      = some (st', param', r)) :
    Run e.L lowL w0 st st' kw append r 1 ∧ Moved w0 param' := by
  induction fuel generalizing kk utry st with
  | zero => simp [gibbsTry] at h
  | succ fuel ih =>
    simp only [gibbsTry] at h
    split at h
    · exact absurd h (by simp)
    · rename_i q hput
      have hq1 := moved_put w0 _ _ _ _ hq hc hput
      split at h
      · rename_i hL
        simp only [Option.some.injEq, Prod.mk.injEq] at h
        obtain ⟨rfl, rfl, rfl⟩ := h
        exact ⟨Run.set e.L lowL w0 _ kw append q _ hkw hq1 hL, hq1⟩
      · split at h
        · split at h
          · exact absurd h (by simp)
          · obtain ⟨a, b⟩ := ih _ _ _ (by exact hkw) h
            exact ⟨Run.of_k a, b⟩
        · split at h
          · exact absurd h (by simp)
          · rename_i q2 hput2
            simp only [Option.some.injEq, Prod.mk.injEq] at h
            obtain ⟨rfl, rfl, rfl⟩ := h
            exact ⟨Run.refl e.L lowL w0 st kw append st.k 1,
              moved_put w0 _ _ _ _ hq hc hput2⟩

theorem gibbsLoop_spec (e : Env π β) (w0 : Wk π β) (lowL : β) (kw : ℕ) (append : Bool)
    (ur : List ℝ) (fuel : ℕ) (cs : List ℤ) (param : List ℝ) (st st' : St π β) (steps r : ℕ)
    (hkw : kw < st.walkers.length) (hcs : ∀ c ∈ cs, c ∈ w0.fitIndex) (hq : Moved w0 param)
    (h : gibbsLoop e w0.problem w0.fitIndex lowL kw append ur fuel cs param st steps
      = some (st', r)) :
    ∃ n, r = steps + n ∧ Run e.L lowL w0 st st' kw append n 1 := by
  induction cs generalizing param st steps with
  | nil =>
    simp only [gibbsLoop, Option.some.injEq, Prod.mk.injEq] at h
    obtain ⟨rfl, rfl⟩ := h
    exact ⟨0, rfl, Run.refl e.L lowL w0 st kw append st.k 1⟩
  | cons c cs ih =>
    simp only [gibbsLoop] at h
    split at h
    · split at h
      · exact absurd h (by simp)
      · split at h
        · exact absurd h (by simp)
        · rename_i st1 param1 n1 ht
          obtain ⟨a, b⟩ := gibbsTry_spec e w0 lowL kw append _ _ _ _ _ _ _ _ _ _ _ _ (by exact hkw)
            (hcs c (by simp)) hq ht
          have a' := Run.of_k a
          obtain ⟨n2, h2, h3⟩ := ih _ _ _ (lt_of_lt_of_le hkw a'.length_le)
            (fun x hx => hcs x (by simp [hx])) b h
          exact ⟨n1 + n2, by omega, a'.trans h3⟩
    · exact absurd h (by simp)

/-- The Gibbs engine, for every permutation of the fitted parameters. -/
theorem C09_gibbs (e : Env π β) (fuel : ℕ) (perm : List ℤ) (st st' : St π β) (kw : ℕ) (lowL : β)
    (append : Bool) (n : ℕ) (w0 : Wk π β) (hw : st.walkers[kw]? = some w0)
    (hperm : perm.Perm w0.fitIndex)
    (h : gibbsExecute e fuel perm st kw lowL append = some (st', n)) :
    Run e.L lowL w0 st st' kw append n 1 := by
  simp only [gibbsExecute, hw] at h
  obtain ⟨m, h1, h2⟩ := gibbsLoop_spec e w0 lowL kw append _ fuel _ _ st st' 0 n
    (List.getElem?_eq_some_iff.1 hw).1 (by
      intro c hc
      simp only [List.mem_flatten, List.mem_replicate] at hc
      obtain ⟨l, ⟨_, rfl⟩, hc⟩ := hc
      exact hperm.mem_iff.1 hc) (moved_refl w0) h
  rw [h1, Nat.zero_add]; exact h2

theorem stepLoop_spec (e : Env π β) (w0 : Wk π β) (lowL : β) (kw : ℕ) (append : Bool)
    (urange : List ℝ) (fuel : ℕ) (st st' : St π β) (ks kt : ℕ) (sz : ℝ) (step usav param : List ℝ)
    (r : ℕ) (hkw : kw < st.walkers.length) (hq : Moved w0 param)
    (h : stepLoop e w0.problem w0.fitIndex lowL kw append urange fuel st ks kt sz step usav param
      = some (st', r)) :
    ∃ n, r = w0.fitIndex.length * ks + n ∧
      Run e.L lowL w0 st st' kw append n w0.fitIndex.length := by
  induction fuel generalizing st ks kt sz step usav param with
  | zero => simp [stepLoop] at h
  | succ fuel ih =>
    simp only [stepLoop] at h
    split at h
    · split at h
      · exact absurd h (by simp)
      · split at h
        · exact absurd h (by simp)
        · rename_i step1 utry k _ _ q hput
          have hq1 := moved_puts w0 _ _ _ _ hq (fun _ hc => hc) hput
          split at h
          · rename_i hL
            have a := Run.set e.L lowL w0 { st with k := k } kw append q w0.fitIndex.length hkw hq1 hL
            obtain ⟨n2, h2, h3⟩ := ih _ _ _ _ _ _ _ (by exact lt_of_lt_of_le hkw a.length_le) hq1 h
            refine ⟨w0.fitIndex.length + n2, ?_, (Run.of_k a).trans (Run.of_k h3)⟩
            rw [h2, Nat.mul_add]; omega
          · split at h
            · obtain ⟨n2, h2, h3⟩ := ih _ _ _ _ _ _ _ (by exact hkw) hq h
              exact ⟨n2, h2, Run.of_k (Run.of_k h3)⟩
            · simp only [Option.some.injEq, Prod.mk.injEq] at h
              obtain ⟨rfl, rfl⟩ := h
              exact ⟨0, rfl, Run.refl e.L lowL w0 st kw append k _⟩
    · simp only [Option.some.injEq, Prod.mk.injEq] at h
      obtain ⟨rfl, rfl⟩ := h
      exact ⟨0, rfl, Run.refl e.L lowL w0 st kw append st.k _⟩

/-- The step engine. -/
theorem C09_step (e : Env π β) (fuel : ℕ) (st st' : St π β) (kw : ℕ) (lowL : β) (append : Bool)
    (n : ℕ) (w0 : Wk π β) (hw : st.walkers[kw]? = some w0)
    (h : stepExecute e fuel st kw lowL append = some (st', n)) :
    Run e.L lowL w0 st st' kw append n w0.fitIndex.length := by
  simp only [stepExecute, hw] at h
  split at h
  · obtain ⟨m, h1, h2⟩ := stepLoop_spec e w0 lowL kw append _ fuel _ st' 0 0 1 _ _ _ n
      (by exact (List.getElem?_eq_some_iff.1 hw).1) (moved_refl w0) h
    rw [h1, Nat.mul_zero, Nat.zero_add]
    exact Run.of_k h2
  · exact absurd h (by simp)

theorem chordTry_spec (e : Env π β) (w0 : Wk π β) (lowL : β) (usav vel : List ℝ)
    (fuel kk k : ℕ) (t0 t1 : ℝ) (ptry : List ℝ) (u q : List ℝ) (l : β) (k' : ℕ)
    (tr : List (List ℝ)) (hq : Moved w0 ptry)
    (h : chordTry e w0.problem w0.fitIndex lowL usav vel fuel kk k t0 t1 ptry
      = some (.accept u q l, k', tr)) :
    Moved w0 q ∧ l = e.L w0.problem q ∧ lowL ≤ l := by
  induction fuel generalizing kk k t0 t1 ptry k' tr with
  | zero => simp [chordTry] at h
  | succ fuel ih =>
    simp only [chordTry] at h
    split at h
    · split at h
      · exact absurd h (by simp)
      · rename_i q1 hput
        have hq1 := moved_puts w0 _ _ _ _ hq (fun _ hc => hc) hput
        split at h
        · rename_i hL
          simp only [Option.some.injEq, Prod.mk.injEq, ChordEnd.accept.injEq] at h
          obtain ⟨⟨rfl, rfl, rfl⟩, _, _⟩ := h
          exact ⟨hq1, rfl, hL⟩
        · split at h
          · simp at h
          · split at h
            · exact absurd h (by simp)
            · rename_i r k2 tr2 hrec
              simp only [Option.some.injEq, Prod.mk.injEq] at h
              obtain ⟨rfl, _, _⟩ := h
              split at hrec
              · exact ih _ _ _ _ _ _ _ hq1 hrec
              · exact ih _ _ _ _ _ _ _ hq1 hrec
    · simp at h

theorem chordLoop_spec (e : Env π β) (w0 : Wk π β) (fuel : ℕ) (lowL : β) (kw : ℕ) (append : Bool)
    (n : ℕ) (st st' : St π β) (onb : Basis) (reset : Bool) (vel usav umin umax ptry : List ℝ)
    (step r : ℕ) (tr : List (List ℝ)) (hkw : kw < st.walkers.length) (hq : Moved w0 ptry)
    (h : chordLoop e fuel w0.problem w0.fitIndex lowL kw append n st onb reset vel usav umin umax ptry
      step = some (st', r, tr)) :
    ∃ m, r = step * w0.fitIndex.length + m ∧
      Run e.L lowL w0 st st' kw append m w0.fitIndex.length := by
  induction n generalizing st onb reset vel usav umin umax ptry step tr with
  | zero =>
    simp only [chordLoop, Option.some.injEq, Prod.mk.injEq] at h
    obtain ⟨rfl, rfl, _⟩ := h
    exact ⟨0, rfl, Run.refl e.L lowL w0 st kw append st.k _⟩
  | succ n ih =>
    simp only [chordLoop] at h
    split at h
    · split at h
      · exact absurd h (by simp)
      · rename_i u q l k tr1 ht
        obtain ⟨h1, h2, h3⟩ := chordTry_spec e w0 lowL _ _ _ _ _ _ _ _ _ _ _ _ _ hq ht
        simp only [Option.map_eq_some_iff] at h
        obtain ⟨⟨s2, r2, tr2⟩, hrec, heq⟩ := h
        simp only [Prod.mk.injEq] at heq
        obtain ⟨rfl, rfl, _⟩ := heq
        subst h2
        have a := Run.set e.L lowL w0 { st with k := k + w0.fitIndex.length } kw append q
          w0.fitIndex.length hkw h1 h3
        obtain ⟨m, hm, h4⟩ := ih _ _ _ _ _ _ _ _ _ _ (lt_of_lt_of_le hkw a.length_le) h1 hrec
        exact ⟨w0.fitIndex.length + m, by rw [hm, Nat.add_mul]; omega, (Run.of_k a).trans h4⟩
      · simp only [Option.map_eq_some_iff] at h
        obtain ⟨⟨s2, r2, tr2⟩, hrec, heq⟩ := h
        simp only [Prod.mk.injEq] at heq
        obtain ⟨rfl, rfl, _⟩ := heq
        obtain ⟨m, hm, h4⟩ := ih _ _ _ _ _ _ _ _ _ _ (by exact hkw) hq hrec
        exact ⟨m, hm, Run.of_k h4⟩
      · simp only [Option.map_eq_some_iff] at h
        obtain ⟨⟨s2, r2, tr2⟩, hrec, heq⟩ := h
        simp only [Prod.mk.injEq] at heq
        obtain ⟨rfl, rfl, _⟩ := heq
        obtain ⟨m, hm, h4⟩ := ih _ _ _ _ _ _ _ _ _ _ (by exact hkw) hq hrec
        exact ⟨m, hm, Run.of_k h4⟩
    · exact ih _ _ _ _ _ _ _ _ _ _ hkw hq h

/-- The chord engine, with any number of steps. -/
theorem C09_chord (e : Env π β) (fuel nstep : ℕ) (st st' : St π β) (kw : ℕ) (lowL : β)
    (append : Bool) (n : ℕ) (tr : List (List ℝ)) (w0 : Wk π β) (hw : st.walkers[kw]? = some w0)
    (h : chordExecute e fuel nstep st kw lowL append = some (st', n, tr)) :
    Run e.L lowL w0 st st' kw append n w0.fitIndex.length := by
  simp only [chordExecute, hw] at h
  split at h
  · obtain ⟨m, h1, h2⟩ := chordLoop_spec e w0 fuel lowL kw append _ _ st' _ _ _ _ _ _ _ _ n tr
      (by exact (List.getElem?_eq_some_iff.1 hw).1) (moved_refl w0) h
    rw [h1, Nat.zero_mul, Nat.zero_add]
    exact Run.of_k h2
  · exact absurd h (by simp)

theorem galileanLoop_spec (e : Env π ℝ) (dL : π → List ℝ → List ℤ → List ℝ) (w0 : Wk π ℝ)
    (lowL : ℝ) (kw : ℕ) (append : Bool) (nstep : ℕ) (size0 : ℝ) (fuel : ℕ) (st st' : St π ℝ)
    (um : UM) (allpars : List ℝ) (Lhood Ltry : ℝ) (inside : ℕ) (size : ℝ) (step trial r : ℕ)
    (hkw : kw < st.walkers.length) (hq : Moved w0 allpars)
    (hid : ∀ o, st.walkers[kw]? = some o → w0.id = o.id)
    (h : galileanLoop e dL w0 lowL kw append nstep size0 fuel st um allpars Lhood Ltry inside size
      step trial = some (st', r)) :
    ∃ m, r = step * w0.fitIndex.length + m ∧
      Run e.L lowL w0 st st' kw append m w0.fitIndex.length := by
  induction fuel generalizing st um allpars Lhood Ltry inside size step trial with
  | zero => simp [galileanLoop] at h
  | succ fuel ih =>
    simp only [galileanLoop] at h
    split at h
    · exact absurd h (by simp)
    · split at h
      · exact absurd h (by simp)
      · rename_i um1 q size1 k hnext
        -- the trial parameters differ from the present ones at fitted places only
        have hq1 : Moved w0 q := by
          split at hnext
          · simp only [Option.map_eq_some_iff] at hnext
            obtain ⟨q', hp, heq⟩ := hnext
            simp only [Prod.mk.injEq] at heq
            obtain ⟨_, rfl, _⟩ := heq
            exact moved_puts w0 _ _ _ _ hq (fun _ hc => hc) hp
          · split at hnext
            · split at hnext
              · exact absurd hnext (by simp)
              · split at hnext
                · exact absurd hnext (by simp)
                · simp only [Option.map_eq_some_iff] at hnext
                  obtain ⟨q', hp, heq⟩ := hnext
                  simp only [Prod.mk.injEq] at heq
                  obtain ⟨_, rfl, _⟩ := heq
                  exact moved_puts w0 _ _ _ _ hq (fun _ hc => hc) hp
            · simp only [Option.map_eq_some_iff] at hnext
              obtain ⟨q', hp, heq⟩ := hnext
              simp only [Prod.mk.injEq] at heq
              obtain ⟨_, rfl, _⟩ := heq
              exact moved_puts w0 _ _ _ _ hq (fun _ hc => hc) hp
        split at h
        · rename_i hL
          obtain ⟨w, h1, h2, h3, h4, h5⟩ := Stored.setWalker' { st with k := k } kw append w0
            w0.problem q (e.L w0.problem q) w0.fitIndex hkw hid
          have a : Run e.L lowL w0 st _ kw append w0.fitIndex.length w0.fitIndex.length :=
            ⟨[w], h5.of_k, by
              intro x hx
              rw [List.mem_singleton.1 hx]
              exact successor_of e.L lowL w0 w q hq1 h1 h2 h3 h4 hL, by simp⟩
          split at h
          · have hid' : ∀ o, (St.setWalker { st with k := k }
                (St.target { st with k := k } append kw) w0.problem q (e.L w0.problem q) (some w0)
                w0.fitIndex).walkers[kw]? = some o → w0.id = o.id := by
              intro o ho
              obtain ⟨o1, ho1⟩ : ∃ o, st.walkers[kw]? = some o := ⟨_, List.getElem?_eq_getElem hkw⟩
              cases append with
              | true =>
                rw [h5.appended rfl] at ho
                rw [List.getElem?_append_left (by exact hkw)] at ho
                exact hid o ho
              | false =>
                rw [h5.replaced rfl] at ho
                have ho' : (st.walkers.set kw w)[kw]? = some o := ho
                rw [List.getElem?_set_self hkw] at ho'
                obtain rfl := Option.some.inj ho'
                rw [hid o1 ho1]
                exact (h5.ids rfl w (by simp) o1 ho1).symm
            obtain ⟨m, hm, h6⟩ := ih _ _ _ _ _ _ _ _ _ (lt_of_lt_of_le hkw a.length_le) hq1 hid' h
            exact ⟨w0.fitIndex.length + m, by rw [hm, Nat.add_mul]; omega, a.trans h6⟩
          · simp only [Option.some.injEq, Prod.mk.injEq] at h
            obtain ⟨rfl, rfl⟩ := h
            exact ⟨w0.fitIndex.length, by rw [Nat.add_mul]; omega, a⟩
        · split at h
          · obtain ⟨m, hm, h6⟩ := ih _ _ _ _ _ _ _ _ _ (by exact hkw) hq (by exact hid) h
            exact ⟨m, hm, Run.of_k h6⟩
          · simp only [Option.some.injEq, Prod.mk.injEq] at h
            obtain ⟨rfl, rfl⟩ := h
            exact ⟨0, rfl, Run.refl e.L lowL w0 st kw append k _⟩

/-- The Galilean engine, whatever is taken for the gradient of the likelihood. -/
theorem C09_galilean (e : Env π ℝ) (dL : π → List ℝ → List ℤ → List ℝ) (fuel nstep : ℕ) (size : ℝ)
    (st st' : St π ℝ) (kw : ℕ) (lowL : ℝ) (append : Bool) (n : ℕ) (w0 : Wk π ℝ)
    (hw : st.walkers[kw]? = some w0)
    (h : galileanExecute e dL fuel nstep size st kw lowL append = some (st', n)) :
    Run e.L lowL w0 st st' kw append n w0.fitIndex.length := by
  simp only [galileanExecute, hw] at h
  split at h
  · obtain ⟨m, h1, h2⟩ := galileanLoop_spec e dL w0 lowL kw append nstep size fuel _ st' _ _ _ _ _ _ _
      _ n (by exact (List.getElem?_eq_some_iff.1 hw).1) (moved_refl w0)
      (by intro o ho; rw [hw] at ho; rw [Option.some.inj ho]) h
    rw [h1, Nat.zero_mul, Nat.zero_add]
    exact Run.of_k h2
  · exact absurd h (by simp)

/-! ## Engines that change the model -/

/-- The result of an engine call that may store at most one new walker, with property `P`; `n` counts
the parameters of the change and is zero when nothing is stored. -/
def RunOne (P : Wk π β → Prop) (st st' : St π β) (kw : ℕ) (append : Bool) (n m : ℕ) : Prop :=
  ∃ new : List (Wk π β), Stored st st' kw append new ∧ (∀ w ∈ new, P w) ∧ new.length ≤ 1 ∧
    n = new.length * m

theorem birthLoop_spec (e : Env π β) (p : π) (ftry : List ℤ) (lowL : β) (kw : ℕ) (append : Bool)
    (loc dnp : ℕ) (n : ℕ) (ptry q0 : List ℝ) (st st' : St π β) (r : ℕ)
    (hkw : kw < st.walkers.length)
    (hq : ptry.length = q0.length ∧ ∀ i : ℕ, i < loc ∨ loc + dnp ≤ i → ptry[i]? = q0[i]?)
    (h : birthLoop e p ftry lowL kw append ((List.range dnp).map fun i => ((loc + i : ℕ) : ℤ)) n ptry
      st = some (st', r)) :
    RunOne (fun w => w.logL = e.L w.problem w.allpars ∧ lowL ≤ w.logL ∧ w.problem = p ∧
      w.fitIndex = ftry ∧ w.allpars.length = q0.length ∧
      ∀ i : ℕ, i < loc ∨ loc + dnp ≤ i → w.allpars[i]? = q0[i]?) st st' kw append r dnp := by
  induction n generalizing ptry st with
  | zero =>
    simp only [birthLoop, Option.some.injEq, Prod.mk.injEq] at h
    obtain ⟨rfl, rfl⟩ := h
    exact ⟨[], Stored.refl st kw append st.k, by simp, by simp, by simp⟩
  | succ n ih =>
    simp only [birthLoop] at h
    split at h
    · rename_i hL
      simp only [Option.some.injEq, Prod.mk.injEq] at h
      obtain ⟨rfl, rfl⟩ := h
      obtain ⟨w, h1, h2, h3, h4, h5⟩ := Stored.setWalker st kw append p ptry (e.L p ptry) ftry hkw
      refine ⟨[w], h5, ?_, by simp, by simp⟩
      intro x hx
      rw [List.mem_singleton.1 hx]
      refine ⟨by rw [h3, h1, h2], by rw [h3]; exact hL, h1, h4, by rw [h2]; exact hq.1, ?_⟩
      rw [h2]; exact hq.2
    · split at h
      · exact absurd h (by simp)
      · rename_i q1 hput
        -- the new parameters only
        let w0 : Wk π β := ⟨0, 0, 0, p, ptry, (List.range dnp).map fun i => ((loc + i : ℕ) : ℤ),
          e.L p ptry⟩
        have hm : Moved w0 q1 := moved_puts w0 _ _ _ _ (moved_refl w0) (fun _ hc => hc) hput
        have hq1 : q1.length = q0.length ∧
            ∀ i : ℕ, i < loc ∨ loc + dnp ≤ i → q1[i]? = q0[i]? := by
          refine ⟨hm.1.trans hq.1, ?_⟩
          intro i hi
          by_cases hlen : ptry.length ≤ i
          · rw [List.getElem?_eq_none (by rw [hm.1]; exact hlen),
              List.getElem?_eq_none (by rw [← hq.1]; exact hlen)]
          rw [← hq.2 i hi]
          refine hm.2 i ?_
          unfold Fitted
          simp only [w0, List.mem_map, List.mem_range]
          rintro (⟨j, hj, hji⟩ | ⟨j, hj, hji⟩) <;> omega
        obtain ⟨new, a, b, c, d⟩ := ih q1 _ (by exact hkw) hq1 h
        exact ⟨new, a.of_k, b, c, d⟩

/-- The birth engine: at most one walker is stored. Its likelihood belongs to the grown model and its
parameters and satisfies the constraint; the parameters outside the new component are those that
`grow` gave. The returned number is the number of new parameters, or zero when nothing is stored. -/
theorem C09_birth (e : Env π β) (grow : Wk π β → ℕ → Option (π × List ℝ × List ℤ × ℕ × ℕ) × ℕ)
    (st st' : St π β) (kw : ℕ) (lowL : β) (append : Bool) (n : ℕ) (w0 : Wk π β)
    (hw : st.walkers[kw]? = some w0) (p : π) (q0 : List ℝ) (fi : List ℤ) (loc dnp k : ℕ)
    (hg : grow w0 st.k = (some (p, q0, fi, loc, dnp), k))
    (h : birthExecute e grow st kw lowL append = some (st', n)) :
    RunOne (fun w => w.logL = e.L w.problem w.allpars ∧ lowL ≤ w.logL ∧ w.problem = p ∧
      w.fitIndex = fi ∧ w.allpars.length = q0.length ∧
      ∀ i : ℕ, i < loc ∨ loc + dnp ≤ i → w.allpars[i]? = q0[i]?) st st' kw append n dnp := by
  simp only [birthExecute, hw, hg] at h
  obtain ⟨new, a, b, c, d⟩ := birthLoop_spec e p fi lowL kw append loc dnp _ q0 q0 _ st' n
    (by exact (List.getElem?_eq_some_iff.1 hw).1) ⟨rfl, fun _ _ => rfl⟩ h
  exact ⟨new, a.of_k, b, c, d⟩

/-- A birth that is not possible changes nothing. -/
theorem C09_birth_none (e : Env π β)
    (grow : Wk π β → ℕ → Option (π × List ℝ × List ℤ × ℕ × ℕ) × ℕ)
    (st st' : St π β) (kw : ℕ) (lowL : β) (append : Bool) (n : ℕ) (w0 : Wk π β)
    (hw : st.walkers[kw]? = some w0) (k : ℕ) (hg : grow w0 st.k = (none, k))
    (h : birthExecute e grow st kw lowL append = some (st', n)) :
    st'.walkers = st.walkers ∧ st'.phantoms = st.phantoms ∧ n = 0 := by
  simp only [birthExecute, hw, hg, Option.some.injEq, Prod.mk.injEq] at h
  obtain ⟨rfl, rfl⟩ := h
  exact ⟨rfl, rfl, rfl⟩

/-- The death engine: at most one walker is stored, with the parameters that `shrink` left, a
likelihood that belongs to them and to the shrunken model, and that satisfies the constraint. -/
theorem C09_death (e : Env π β) (shrink : Wk π β → ℕ → Option (π × List ℝ × List ℤ × ℕ) × ℕ)
    (st st' : St π β) (kw : ℕ) (lowL : β) (append : Bool) (n : ℕ) (w0 : Wk π β)
    (hw : st.walkers[kw]? = some w0)
    (h : deathExecute e shrink st kw lowL append = some (st', n)) :
    RunOne (fun w => w.logL = e.L w.problem w.allpars ∧ lowL ≤ w.logL ∧
        ∃ d, (shrink w0 st.k).1 = some (w.problem, w.allpars, w.fitIndex, d) ∧ d = n)
      st st' kw append n n := by
  simp only [deathExecute, hw] at h
  split at h
  · simp only [Option.some.injEq, Prod.mk.injEq] at h
    obtain ⟨rfl, rfl⟩ := h
    exact ⟨[], Stored.refl st kw append _, by simp, by simp, by simp⟩
  · rename_i p q fi dnp k hs
    split at h
    · rename_i hL
      simp only [Option.some.injEq, Prod.mk.injEq] at h
      obtain ⟨rfl, rfl⟩ := h
      obtain ⟨w, h1, h2, h3, h4, h5⟩ := Stored.setWalker { st with k := k } kw append p q (e.L p q) fi
        (by exact (List.getElem?_eq_some_iff.1 hw).1)
      refine ⟨[w], h5.of_k, ?_, by simp, by simp⟩
      intro x hx
      rw [List.mem_singleton.1 hx]
      exact ⟨by rw [h3, h1, h2], by rw [h3]; exact hL, dnp, by rw [hs, h1, h2, h4], rfl⟩
    · simp only [Option.some.injEq, Prod.mk.injEq] at h
      obtain ⟨rfl, rfl⟩ := h
      exact ⟨[], Stored.refl st kw append _, by simp, by simp, by simp⟩

/-- The structure engine never touches the first and the last knot of a model with `nc` knots: the outcome
is the same for two ways to vary a model that differ only there. -/
theorem C09_structure_ends (e : Env π β) (vary vary' : π → ℕ → ℕ → Option π × ℕ) (nc : ℕ)
    (hv : ∀ p loc k, 0 < loc → loc < nc - 1 → vary p loc k = vary' p loc k) (lowL : β) (append : Bool)
    (perm : List ℕ) (hperm : perm.Perm (List.range (nc - 2))) (st : St π β) (kw t : ℕ) :
    structureExecute e vary lowL append perm st kw t = structureExecute e vary' lowL append perm st kw t := by
  have hp : ∀ p ∈ perm, p < nc - 2 := fun p h => List.mem_range.1 (hperm.mem_iff.1 h)
  clear hperm
  induction perm generalizing st kw t with
  | nil => rfl
  | cons p ps ih =>
    have h1 := hp p (by simp)
    have ho : structureOnce e vary st kw lowL (st.target append kw) (p + 1)
        = structureOnce e vary' st kw lowL (st.target append kw) (p + 1) := by
      unfold structureOnce
      rcases st.walkers[kw]? with _ | w
      · rfl
      · simp only [hv w.problem (p + 1) st.k (by omega) (by omega)]
    simp only [structureExecute, ho]
    split
    · rfl
    · exact ih _ _ _ (fun q hq => hp q (by simp [hq]))

example : [2, 0, 1].Perm (List.range (5 - 2)) := by decide

/-- The structure engine, for every order in which the components are tried. All walkers it stores
have the parameters of the first one, and a likelihood that belongs to these parameters in a varied
model and satisfies the constraint; walkers other than `kw` do not change; the returned number counts
them. -/
theorem C09_structure (e : Env π β) (vary : π → ℕ → ℕ → Option π × ℕ) (lowL : β) (append : Bool)
    (perm : List ℕ) (st st' : St π β) (kw0 kw t n : ℕ) (w0 : Wk π β)
    (hkw0 : kw0 < st.walkers.length)
    (hw : ∃ w, st.walkers[kw]? = some w ∧ w.allpars = w0.allpars ∧ w.fitIndex = w0.fitIndex)
    (hk : append = false → kw = kw0)
    (h : structureExecute e vary lowL append perm st kw t = some (st', n)) :
    ∃ new : List (Wk π β), Stored st st' kw0 append new ∧
      (∀ w ∈ new, w.logL = e.L w.problem w.allpars ∧ lowL ≤ w.logL ∧ w.allpars = w0.allpars ∧
        w.fitIndex = w0.fitIndex) ∧ n = t + new.length := by
  induction perm generalizing st kw t with
  | nil =>
    simp only [structureExecute, Option.some.injEq, Prod.mk.injEq] at h
    obtain ⟨rfl, rfl⟩ := h
    exact ⟨[], Stored.refl st kw0 append st.k, by simp, by simp⟩
  | cons p ps ih =>
    simp only [structureExecute] at h
    obtain ⟨w, hw1, hw2, hw3⟩ := hw
    split at h
    · exact absurd h (by simp)
    · rename_i st1 dt ho
      simp only [structureOnce, hw1] at ho
      split at ho
      · simp only [Option.some.injEq, Prod.mk.injEq] at ho
        obtain ⟨rfl, rfl⟩ := ho
        obtain ⟨new, a, b, c⟩ := ih _ _ _ (by exact hkw0) ⟨w, by simpa using hw1, hw2, hw3⟩
          (by simpa using hk) h
        exact ⟨new, a.of_k, b, by simpa using c⟩
      · rename_i pr k hv
        split at ho
        · rename_i hL
          simp only [Option.some.injEq, Prod.mk.injEq] at ho
          obtain ⟨rfl, rfl⟩ := ho
          have htar : st.target append kw = St.target { st with k := k } append kw0 := by
            cases append with
            | true => rfl
            | false => simp [St.target, hk rfl]
          rw [htar] at h
          obtain ⟨w', h1, h2, h3, h4, h5⟩ := Stored.setWalker { st with k := k } kw0 append pr
            w.allpars (e.L pr w.allpars) w.fitIndex hkw0
          have hgood : w'.logL = e.L w'.problem w'.allpars ∧ lowL ≤ w'.logL ∧
              w'.allpars = w0.allpars ∧ w'.fitIndex = w0.fitIndex :=
            ⟨by rw [h3, h1, h2], by rw [h3]; exact hL, by rw [h2, hw2], by rw [h4, hw3]⟩
          obtain ⟨new, a, b, c⟩ := ih _ _ _ (lt_of_lt_of_le hkw0 h5.length_le)
            ⟨w', by
              cases append with
              | true =>
                rw [h5.appended rfl]
                simp [St.target]
              | false =>
                rw [h5.replaced rfl]
                simp [St.target, hkw0], hgood.2.2⟩
            (by
              intro hf
              subst hf
              simp [St.target]) h
          refine ⟨w' :: new, h5.of_k.trans a, ?_, by simp only [List.length_cons]; omega⟩
          intro x hx
          rcases List.mem_cons.1 hx with rfl | hx
          · exact hgood
          · exact b x hx
        · simp only [Option.some.injEq, Prod.mk.injEq] at ho
          obtain ⟨rfl, rfl⟩ := ho
          obtain ⟨new, a, b, c⟩ := ih _ _ _ (by exact hkw0) ⟨w, by simpa using hw1, hw2, hw3⟩
            (by simpa using hk) h
          exact ⟨new, a.of_k, b, by simpa using c⟩

/-! ## The hypotheses can be met

Two parameters of which the first one is fitted; the likelihood is minus its distance to 1. -/

/-- The surroundings of the examples. -/
noncomputable def exEnv : Env Unit ℝ where
  L := fun _ q => match q with | x :: _ => x - 1 | [] => 0
  u2d := fun _ _ u => u
  d2u := fun _ _ d => d
  box := fun _ _ _ => ([0, 0], [1, 1])
  rand := fun _ => 5 / 8
  maxtrials := 3
  nstep := 1

/-- The walkers of the examples. -/
noncomputable def exSt : St Unit ℝ := ⟨[⟨0, -1, 0, (), [1 / 2, 7], [0], -(1 / 2)⟩], 1, [], 0⟩

example : ∃ st', randomExecute exEnv exSt 0 (-(1 / 2)) false = some (st', 1) ∧
    st'.walkers = [⟨0, -1, 0, (), [5 / 8, 7], [0], -(3 / 8)⟩] := by
  refine ⟨_, by
    simp [randomExecute, exEnv, exSt, randomLoop, List.range_succ, Env.unit2Domain, puts, put, place,
      St.setWalker, St.target]
    norm_num
    rfl, ?_⟩
  simp

example : ∃ st', gibbsExecute exEnv 2 [0] exSt 0 (-(1 / 2)) false = some (st', 1) ∧
    st'.walkers = [⟨0, -1, 0, (), [31 / 40, 7], [0], -(9 / 40)⟩] := by
  refine ⟨_, by
    simp [gibbsExecute, exEnv, exSt, gibbsLoop, drawInside, gibbsTry, get, put, place,
      Env.getUnitRange, St.setWalker, St.target]
    norm_num
    rfl, ?_⟩
  simp

example : ∃ st', stepExecute exEnv 3 exSt 0 (-(1 / 2)) true = some (st', 1) ∧
    st'.walkers = exSt.walkers ++ [⟨1, -1, 0, (), [7 / 8, 7], [0], -(1 / 8)⟩] := by
  refine ⟨_, by
    simp [stepExecute, exEnv, exSt, stepLoop, stepInside, newStep, gets, get, puts, put, place,
      Env.getUnitRange, Env.unit2Domain, Env.domain2Unit, St.setWalker, St.target]
    norm_num [puts, put, place]
    rfl, ?_⟩
  simp [exSt]

example : ∃ st', galileanExecute exEnv (fun _ _ _ => [1]) 3 2 (1 / 2) exSt 0 (-(1 / 2)) true
      = some (st', 2) ∧
    st'.walkers = exSt.walkers ++ [⟨1, -1, 0, (), [9 / 16, 7], [0], -(7 / 16)⟩,
      ⟨2, -1, 0, (), [5 / 8, 7], [0], -(3 / 8)⟩] := by
  refine ⟨_, by
    simp [galileanExecute, exEnv, exSt, galileanLoop, getVelocity, UM.trialStep, bounce,
      UM.acceptTrial, maxOf, gets, get, puts, put, place, List.range_succ,
      Env.getUnitRange, Env.unit2Domain, Env.domain2Unit, St.setWalker, St.target]
    norm_num [puts, put, place]
    norm_num
    rfl, ?_⟩
  simp [exSt]

theorem sqrt_ex : Real.sqrt (1 / 64) = 1 / 8 := by
  rw [show (1 / 64 : ℝ) = (1 / 8) * (1 / 8) by norm_num]
  exact Real.sqrt_mul_self (by norm_num)

example : ∃ st' tr, chordExecute exEnv 3 1 exSt 0 (-(1 / 2)) true = some (st', 1, tr) ∧
    st'.walkers = exSt.walkers ++ [⟨1, -1, 0, (), [5 / 8, 7], [0], -(3 / 8)⟩] := by
  have hs : Real.sqrt (1 / 64) = 1 / 8 := sqrt_ex
  refine ⟨_, _, by
    simp [chordExecute, exEnv, exSt, chordLoop, chordTry, newVel, Basis.normalise, projSum, dot,
      edgeTimes, minPos, maxNeg, fitBox,
      maxOf, gets, get, puts, put, place, List.range_succ,
      Env.getUnitRange, Env.unit2Domain, Env.domain2Unit, St.setWalker, St.target]
    norm_num [hs]
    exact ⟨rfl, rfl⟩, ?_⟩
  simp [exSt]

end BF.Engines
