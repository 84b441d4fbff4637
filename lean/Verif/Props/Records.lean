import Verif.Records
import Verif.Props.Attributes

/-!
# Attributes of walkers, samples and error distributions (C150)
-/

namespace BF.Attributes

/-! ## Specification -/

section

variable (sub : ℕ → ℕ → Bool)

/-- One value of the type. -/
def One (t : Ty) (v : Val) : Prop := ∃ a, v = .sc a ∧ Single sub t a

/-- An array of whole numbers. -/
def Ints (v : Val) : Prop := IsArray v ∧ ∀ a ∈ scalars v, ∃ z, a = .npint z

/-- An array of floats. -/
def Floats (v : Val) : Prop := IsArray v ∧ ∀ a ∈ scalars v, ∃ x, a = .flt x

/-- A list of objects of a class. -/
def Objs (c : ℕ) (v : Val) : Prop := IsMany v ∧ ∀ a ∈ scalars v, Single sub (.cls c) a

/-- What may be found in an attribute of a walker. -/
def WalkerHolds (n : String) (v : Val) : Prop :=
  n ∈ ["allpars", "fitIndex"] ∨ (n ∈ ["id", "parent", "start"] ∧ One sub .int v) ∨
  (n = "problem" ∧ One sub (.cls clsProblem) v) ∨ (n ∈ ["logL", "logPrior"] ∧ One sub .float v)

/-- What may be found in an attribute of a sample. -/
def SampleHolds (n : String) (v : Val) : Prop :=
  n = "parameters" ∨ (n ∈ ["id", "parent", "start"] ∧ One sub .int v) ∨
  (n = "model" ∧ (v = .sc .none ∨ One sub (.cls clsModel) v)) ∨ (n ∈ ["logL", "logW"] ∧ One sub .float v) ∨
  (n = "fitIndex" ∧ (v = .sc .none ∨ Ints v)) ∨ (n ∈ ["nuisance", "hyper"] ∧ Floats v)

/-- What may be found in an attribute of an error distribution. -/
def ErrdisHolds (callable : Val → Bool) (n : String) (v : Val) : Prop :=
  (n = "hyperpar" ∧ (v = .sc .none ∨ Objs sub clsHyper v)) ∨ (n = "fixed" ∧ (v = .sc .none ∨ One sub .dict v)) ∨
  (n ∈ ["deltaP", "lowLhood"] ∧ One sub .float v) ∨ (n ∈ ["ncalls", "nparts"] ∧ One sub .int v) ∨
  (n = "constrain" ∧ (v = .sc .none ∨ callable v = true)) ∨ (n = "logLikelihood" ∧ (v = logLhood ∨ v = logCLhood))

/-- What may be found in an attribute. -/
def Rec.Holds (callable : Val → Bool) : Rec → String → Val → Prop
  | .walker => WalkerHolds sub
  | .sample => SampleHolds sub
  | .errdis => ErrdisHolds sub callable
  | .mixed => fun n v => (n ∈ ["errdis1", "errdis2"] ∧ One sub (.cls clsErrdis) v) ∨ ErrdisHolds sub callable n v

/-! ## The three functions -/

theorem asarray_wrap (t : Ty) (fresh : ℕ) (v : Val) : asarray t fresh (wrap v) = asarray t fresh v := by
  cases v <;> rfl

theorem setSingle_some (d : List (String × Ty)) (name : String) (v w : Val)
    (h : setSingle sub d name v = .ok (some w)) (hl : ∀ t, d.lookup name = some t → t ≠ .list) :
    ∃ t, d.lookup name = some t ∧ One sub t w ∧ w = v := by
  unfold setSingle at h
  cases hd : d.lookup name with
  | none => simp [hd] at h
  | some t =>
    simp only [hd] at h
    by_cases hi : isInstVal sub t v = true
    · rw [if_pos hi] at h
      have : w = v := by simpa using h.symm
      subst this
      rcases (isInstVal_iff sub t w).1 hi with hi | hi
      · exact ⟨t, rfl, hi, rfl⟩
      · exact absurd hi.1 (hl t hd)
    · rw [if_neg hi] at h
      simp at h

theorem setListOf_some (fresh : ℕ) (d : List (String × Ty)) (name : String) (v w : Val)
    (h : setListOf sub fresh d name v = .ok (some w)) (hl : ∀ t, d.lookup name = some t → t ≠ .list ∧ t ≠ .str) :
    ∃ t, d.lookup name = some t ∧ IsMany w ∧ (∀ a ∈ scalars w, Kept sub t a) ∧ (t = .int ∨ t = .float → IsArray w) := by
  unfold setListOf at h
  cases hd : d.lookup name with
  | none => simp [hd] at h
  | some t =>
    have hs : store sub 0 fresh { ty := some t, islist := true } v = .ok w := by
      simp only [hd, asarray_wrap] at h
      simp only [store, setatt]
      rw [if_neg (by simp), if_neg (by simp)]
      simp only [if_true]
      cases hi : isList sub t v with
      | error e => simp [hi] at h
      | ok isl =>
        simp only [hi] at h ⊢
        by_cases h1 : isl.1 = true
        · rw [if_pos h1] at h ⊢
          by_cases h2 : t ≠ .int ∧ t ≠ .float
          · rw [if_pos h2] at h ⊢
            simpa using h
          · rw [if_neg h2] at h ⊢
            simpa using h
        · rw [if_neg h1] at h
          simp at h
    have hc := store_conforms sub 0 fresh _ v w (by simp) (by simpa using (hl t hd).1) hs
    rcases hc with ⟨_, hc | hc⟩ | ⟨_, hc⟩
    · simp at hc
    · simp at hc
    · have := hc t rfl
      simp only [if_true] at this
      exact ⟨t, rfl, this.1, this.2.1 (hl t hd).2, this.2.2⟩

theorem done_ok (s : Step) (w : Val) (h : s.done = .ok w) : s = .ok (some w) := by
  match s, h with
  | .ok (some x), h => simpa [Step.done] using h
  | .ok none, h => simp [Step.done] at h
  | .error e, h => simp [Step.done] at h

theorem or_some (a b : Step) (w : Val) (h : a.or b = .ok (some w)) : a = .ok (some w) ∨ (a = .ok none ∧ b = .ok (some w)) := by
  match a, h with
  | .ok (some x), h => exact .inl h
  | .ok none, h => exact .inr ⟨rfl, h⟩
  | .error e, h => simp [Step.or] at h

theorem setNone_some (l : List String) (name : String) (v w : Val) (h : setNone l name v = .ok (some w)) :
    name ∈ l ∧ w = .sc .none := by
  unfold setNone at h
  by_cases hc : name ∈ l ∧ v = .sc .none
  · rw [if_pos hc] at h
    exact ⟨hc.1, by rw [← hc.2]; simpa using h.symm⟩
  · rw [if_neg hc] at h
    simp at h

theorem lookup_cases (k : String) (x : Ty) (d : List (String × Ty)) (name : String) (t : Ty)
    (h : List.lookup name ((k, x) :: d) = some t) : (name = k ∧ t = x) ∨ List.lookup name d = some t := by
  rw [List.lookup_cons] at h
  by_cases hk : name = k
  · subst hk
    simp only [beq_self_eq_true] at h
    exact .inl ⟨rfl, by simpa using h.symm⟩
  · simp only [beq_false_of_ne hk] at h
    exact .inr h

theorem lookup_elems (d : List (String × Ty)) (name : String) (t : Ty) (h : d.lookup name = some t) : (name, t) ∈ d := by
  induction d with
  | nil => simp at h
  | cons a d ih =>
    rcases lookup_cases a.1 a.2 d name t h with ⟨h1, h2⟩ | h'
    · exact List.mem_cons.2 (.inl (Prod.ext h1 h2))
    · exact List.mem_cons_of_mem _ (ih h')

/-! ## What the classes store -/

theorem walkerSet_holds (name : String) (v w : Val) (h : walkerSet sub name v = .ok w) : WalkerHolds sub name w := by
  unfold walkerSet at h
  by_cases hc : name = "allpars" ∨ name = "fitIndex"
  · exact .inl (by simpa using hc)
  · rw [if_neg hc] at h
    obtain ⟨t, ht, ho, _⟩ := setSingle_some sub _ _ _ _ (done_ok _ _ h) (by
      intro t ht; have := lookup_elems _ _ _ ht; simp at this; rcases this with h | h | h | h | h | h <;> simp [h.2])
    have := lookup_elems _ _ _ ht
    simp only [List.mem_cons, Prod.mk.injEq, List.not_mem_nil, or_false] at this
    unfold WalkerHolds
    rcases this with ⟨rfl, rfl⟩ | ⟨rfl, rfl⟩ | ⟨rfl, rfl⟩ | ⟨rfl, rfl⟩ | ⟨rfl, rfl⟩ | ⟨rfl, rfl⟩ <;> simp [ho]

theorem sampleSet_holds (fresh : ℕ) (name : String) (v w : Val) (h : sampleSet sub fresh name v = .ok w) :
    SampleHolds sub name w := by
  unfold sampleSet at h
  by_cases hc : name = "parameters"
  · exact .inl hc
  · rw [if_neg hc] at h
    unfold SampleHolds
    rcases or_some _ _ _ (done_ok _ _ h) with h | ⟨_, h⟩
    · obtain ⟨h1, h2⟩ := setNone_some _ _ _ _ h
      simp only [List.mem_cons, List.not_mem_nil, or_false] at h1
      rcases h1 with rfl | rfl <;> simp [h2]
    · rcases or_some _ _ _ h with h | ⟨_, h⟩
      · obtain ⟨t, ht, ho, _⟩ := setSingle_some sub _ _ _ _ h (by
          intro t ht; have := lookup_elems _ _ _ ht; simp at this; rcases this with h | h | h | h | h | h <;> simp [h.2])
        have := lookup_elems _ _ _ ht
        simp only [List.mem_cons, Prod.mk.injEq, List.not_mem_nil, or_false] at this
        rcases this with ⟨rfl, rfl⟩ | ⟨rfl, rfl⟩ | ⟨rfl, rfl⟩ | ⟨rfl, rfl⟩ | ⟨rfl, rfl⟩ | ⟨rfl, rfl⟩ <;> simp [ho]
      · obtain ⟨t, ht, _, ho, ha⟩ := setListOf_some sub _ _ _ _ _ h (by
          intro t ht; have := lookup_elems _ _ _ ht; simp at this; rcases this with h | h | h <;> simp [h.2])
        have := lookup_elems _ _ _ ht
        simp only [List.mem_cons, Prod.mk.injEq, List.not_mem_nil, or_false] at this
        rcases this with ⟨rfl, rfl⟩ | ⟨rfl, rfl⟩ | ⟨rfl, rfl⟩
        · have : Ints w := ⟨ha (.inl rfl), ho⟩
          simp [this]
        · have : Floats w := ⟨ha (.inr rfl), ho⟩
          simp [this]
        · have : Floats w := ⟨ha (.inr rfl), ho⟩
          simp [this]

theorem errdisSet_holds (callable : Val → Bool) (fresh : ℕ) (name : String) (v w : Val)
    (h : errdisSet sub fresh name v = .ok w) :
    ErrdisHolds sub callable name w ∧ name ≠ "logLikelihood" ∧ name ≠ "constrain" := by
  unfold errdisSet at h
  unfold ErrdisHolds
  rcases or_some _ _ _ (done_ok _ _ h) with h | ⟨_, h⟩
  · obtain ⟨h1, h2⟩ := setNone_some _ _ _ _ h
    simp only [List.mem_cons, List.not_mem_nil, or_false] at h1
    rcases h1 with rfl | rfl <;> simp [h2]
  · rcases or_some _ _ _ h with h | ⟨_, h⟩
    · obtain ⟨t, ht, hm, ho, _⟩ := setListOf_some sub _ _ _ _ _ h (by
        intro t ht; have := lookup_elems _ _ _ ht; simp at this; simp [this.2])
      have := lookup_elems _ _ _ ht
      simp only [List.mem_cons, Prod.mk.injEq, List.not_mem_nil, or_false] at this
      obtain ⟨rfl, rfl⟩ := this
      have : Objs sub clsHyper w := ⟨hm, ho⟩
      simp [this]
    · obtain ⟨t, ht, ho, _⟩ := setSingle_some sub _ _ _ _ h (by
        intro t ht; have := lookup_elems _ _ _ ht; simp at this; rcases this with h | h | h | h | h <;> simp [h.2])
      have := lookup_elems _ _ _ ht
      simp only [List.mem_cons, Prod.mk.injEq, List.not_mem_nil, or_false] at this
      rcases this with ⟨rfl, rfl⟩ | ⟨rfl, rfl⟩ | ⟨rfl, rfl⟩ | ⟨rfl, rfl⟩ | ⟨rfl, rfl⟩ <;> simp [ho]

theorem mixedSet_holds (callable : Val → Bool) (fresh : ℕ) (name : String) (v w : Val)
    (h : mixedSet sub fresh name v = .ok w) :
    Rec.Holds sub callable .mixed name w ∧ name ≠ "logLikelihood" ∧ name ≠ "constrain" := by
  unfold mixedSet at h
  split at h
  · simp at h
  · rename_i x hx
    obtain rfl : x = w := by simpa using h
    obtain ⟨t, ht, ho, _⟩ := setSingle_some sub _ _ _ _ hx (by
      intro t ht; have := lookup_elems _ _ _ ht; simp at this; rcases this with h | h <;> simp [h.2])
    have := lookup_elems _ _ _ ht
    simp only [List.mem_cons, Prod.mk.injEq, List.not_mem_nil, or_false] at this
    rcases this with ⟨rfl, rfl⟩ | ⟨rfl, rfl⟩ <;> simp [Rec.Holds, ho]
  · have := errdisSet_holds sub callable fresh name v w h
    exact ⟨.inr this.1, this.2⟩

theorem set_holds (callable : Val → Bool) (c : Rec) (fresh : ℕ) (name : String) (v w : Val)
    (h : c.set sub fresh name v = .ok w) :
    c.Holds sub callable name w ∧ (c.isErrdis = true → name ≠ "logLikelihood" ∧ name ≠ "constrain") := by
  cases c with
  | walker => exact ⟨walkerSet_holds sub _ _ _ h, by simp [Rec.isErrdis]⟩
  | sample => exact ⟨sampleSet_holds sub _ _ _ _ h, by simp [Rec.isErrdis]⟩
  | errdis => have := errdisSet_holds sub callable _ _ _ _ h; exact ⟨this.1, fun _ => this.2⟩
  | mixed => have := mixedSet_holds sub callable _ _ _ _ h; exact ⟨this.1, fun _ => this.2⟩

/-! ## C150 -/

/-- C150. After any number of assignments to a walker, a sample or an error distribution, of any values, with or without
exceptions, it has only the attributes of its class and each holds a value of its type. -/
theorem C150_types (callable : Val → Bool) (c : Rec) : ∀ (h : List (String × Val × ℕ)) (o : Obj),
    (∀ n v, o n = some v → c.Holds sub callable n v) →
    ∀ n v, c.assigns sub callable o h n = some v → c.Holds sub callable n v
  | [], _, ho => ho
  | (name, val, fresh) :: h, o, ho => by
      refine C150_types callable c h _ ?_
      intro n v hv
      unfold Rec.assign at hv
      by_cases hc : c.isErrdis = true ∧ name = "constrain"
      · rw [if_pos hc] at hv
        have herr : ∀ n v, ErrdisHolds sub callable n v → c.Holds sub callable n v := by
          intro n v he
          cases c with
          | errdis => exact he
          | mixed => exact .inr he
          | walker => simp [Rec.isErrdis] at hc
          | sample => simp [Rec.isErrdis] at hc
        have key : ∀ m : Val, (m = logLhood ∨ m = logCLhood) → (val = .sc .none ∨ callable val = true) →
            ((o.put "logLikelihood" m).put "constrain" val) n = some v → c.Holds sub callable n v := by
          intro m hm hv' he
          unfold Obj.put at he
          by_cases h1 : n = "constrain"
          · rw [if_pos h1] at he
            obtain rfl : val = v := by simpa using he
            exact herr _ _ (by unfold ErrdisHolds; simp [h1, hv'])
          · rw [if_neg h1] at he
            by_cases h2 : n = "logLikelihood"
            · rw [if_pos h2] at he
              obtain rfl : m = v := by simpa using he
              exact herr _ _ (by unfold ErrdisHolds; simp [h2, hm])
            · rw [if_neg h2] at he
              exact ho n v he
        unfold constrainSet at hv
        by_cases h1 : val = .sc .none
        · rw [if_pos h1] at hv
          exact key _ (.inl rfl) (.inl h1) hv
        · rw [if_neg h1] at hv
          by_cases h2 : callable val = true
          · rw [if_pos h2] at hv
            exact key _ (.inr rfl) (.inr h2) hv
          · rw [if_neg h2] at hv
            exact ho n v hv
      · rw [if_neg hc] at hv
        cases hs : c.set sub fresh name val with
        | error e => simp only [hs] at hv; exact ho n v hv
        | ok w =>
          simp only [hs, Obj.put] at hv
          by_cases hn : n = name
          · rw [if_pos hn] at hv
            obtain rfl : w = v := by simpa using hv
            subst hn
            exact (set_holds sub callable c fresh n val w hs).1
          · rw [if_neg hn] at hv
            exact ho n v hv

/-- C150. An assignment that raises an exception leaves the object as it was. -/
theorem C150_fail (callable : Val → Bool) (c : Rec) (fresh : ℕ) (o : Obj) (name : String) (v : Val)
    (h : (c.assign sub callable fresh o name v).1 ≠ none) : (c.assign sub callable fresh o name v).2 = o := by
  unfold Rec.assign at h ⊢
  by_cases hc : c.isErrdis = true ∧ name = "constrain"
  · rw [if_pos hc] at h ⊢
    unfold constrainSet at h ⊢
    by_cases h1 : v = .sc .none
    · rw [if_pos h1] at h; simp at h
    · rw [if_neg h1] at h ⊢
      by_cases h2 : callable v = true
      · rw [if_pos h2] at h; simp at h
      · rw [if_neg h2]
  · rw [if_neg hc] at h ⊢
    cases hs : c.set sub fresh name v with
    | error e => rfl
    | ok w => simp [hs] at h

/-- C150. The numbers of a walker and of a sample are stored as they are given. -/
theorem C150_stored (callable : Val → Bool) (fresh : ℕ) (o : Obj) (a : Sc) :
    (Single sub .float a → ∀ n ∈ ["logL", "logPrior"],
      Rec.assign sub callable .walker fresh o n (.sc a) = (none, o.put n (.sc a))) ∧
    (Single sub .float a → ∀ n ∈ ["logL", "logW"],
      Rec.assign sub callable .sample fresh o n (.sc a) = (none, o.put n (.sc a))) ∧
    (Whole a → ∀ n ∈ ["id", "parent", "start"],
      Rec.assign sub callable .walker fresh o n (.sc a) = (none, o.put n (.sc a)) ∧
      Rec.assign sub callable .sample fresh o n (.sc a) = (none, o.put n (.sc a))) := by
  have hf : Single sub .float a → isInstVal sub .float (.sc a) = true := fun h => (isInst_iff sub _ _).2 h
  have hi : Whole a → isInstVal sub .int (.sc a) = true := fun h => (isInst_iff sub .int _).2 h
  refine ⟨fun h n hn => ?_, fun h n hn => ?_, fun h n hn => ?_⟩
  · simp only [List.mem_cons, List.not_mem_nil, or_false] at hn
    rcases hn with rfl | rfl <;>
      simp [Rec.assign, Rec.isErrdis, Rec.set, walkerSet, setSingle, List.lookup, Step.done, hf h]
  · simp only [List.mem_cons, List.not_mem_nil, or_false] at hn
    rcases hn with rfl | rfl <;>
      simp [Rec.assign, Rec.isErrdis, Rec.set, sampleSet, setNone, Step.or, setSingle, List.lookup, Step.done, hf h]
  · simp only [List.mem_cons, List.not_mem_nil, or_false] at hn
    rcases hn with rfl | rfl | rfl <;>
      simp [Rec.assign, Rec.isErrdis, Rec.set, walkerSet, sampleSet, setNone, Step.or, setSingle, List.lookup, Step.done,
        hi h]

/-- C150. Whatever is assigned to an error distribution after its constraint was first set, by the constructor: the
likelihood in use is the constrained one if and only if there is a constraint, which then can be called. -/
theorem C150_constrain (callable : Val → Bool) (c : Rec) (hc : c.isErrdis = true) (fresh : ℕ) (o : Obj) (v0 : Val)
    (h0 : (c.assign sub callable fresh o "constrain" v0).1 = none) (h : List (String × Val × ℕ)) :
    let o' := c.assigns sub callable (c.assign sub callable fresh o "constrain" v0).2 h
    (o' "constrain" = some (.sc .none) ∧ o' "logLikelihood" = some logLhood) ∨
    ∃ f, f ≠ .sc .none ∧ callable f = true ∧ o' "constrain" = some f ∧ o' "logLikelihood" = some logCLhood := by
  have key : ∀ (o : Obj) (v : Val), (constrainSet callable o v).1 = none →
      ((constrainSet callable o v).2 "constrain" = some (.sc .none) ∧
        (constrainSet callable o v).2 "logLikelihood" = some logLhood) ∨
      ∃ f, f ≠ .sc .none ∧ callable f = true ∧ (constrainSet callable o v).2 "constrain" = some f ∧
        (constrainSet callable o v).2 "logLikelihood" = some logCLhood := by
    intro o v hn
    unfold constrainSet at hn ⊢
    by_cases h1 : v = .sc .none
    · rw [if_pos h1]
      left
      simp [Obj.put, h1]
    · rw [if_neg h1] at hn ⊢
      by_cases h2 : callable v = true
      · rw [if_pos h2]
        exact .inr ⟨v, h1, h2, by simp [Obj.put], by simp [Obj.put]⟩
      · rw [if_neg h2] at hn
        simp at hn
  have first : c.assign sub callable fresh o "constrain" v0 = constrainSet callable o v0 := by
    unfold Rec.assign
    rw [if_pos ⟨hc, rfl⟩]
  intro o'
  rw [first] at h0
  have hs := key o v0 h0
  rw [← first] at hs
  clear h0 first
  revert o'
  generalize (c.assign sub callable fresh o "constrain" v0).2 = p at hs
  induction h generalizing p with
  | nil => exact hs
  | cons x h ih =>
    obtain ⟨name, v, fr⟩ := x
    refine ih _ ?_
    by_cases hr : (c.assign sub callable fr p name v).1 = none
    · by_cases hn : name = "constrain"
      · subst hn
        have e : c.assign sub callable fr p "constrain" v = constrainSet callable p v := by
          unfold Rec.assign
          rw [if_pos ⟨hc, rfl⟩]
        rw [e] at hr ⊢
        exact key p v hr
      · unfold Rec.assign
        rw [if_neg (by simp [hn])]
        cases hset : c.set sub fr name v with
        | error e => exact hs
        | ok w =>
          have hne := (set_holds sub callable c fr name v w hset).2 hc
          simp only [Obj.put]
          rw [if_neg (Ne.symm hne.2), if_neg (Ne.symm hne.1)]
          exact hs
    · rw [C150_fail sub callable c fr p name v hr]
      exact hs

end

/-! Non-vacuity: a constraint is set, something that cannot be called is refused, other attributes change. -/
example : ∃ o : Obj, o = (Rec.assigns (fun a b => a == b) (fun v => v == Val.sc (.obj 7 0)) Rec.errdis (fun _ => none)
      [("constrain", Val.sc (.obj 7 0), 0), ("ncalls", Val.sc (.int 3), 0), ("constrain", Val.sc (.int 1), 0)]) ∧
    o "constrain" = some (Val.sc (.obj 7 0)) ∧ o "logLikelihood" = some logCLhood ∧
    o "ncalls" = some (Val.sc (.int 3)) := by
  refine ⟨_, rfl, ?_, ?_, ?_⟩ <;>
    simp [Rec.assigns, Rec.assign, Rec.isErrdis, constrainSet, Rec.set, errdisSet, setNone, setListOf, setSingle,
      Step.or, Step.done, List.lookup, isInstVal, isInst, Obj.put]

end BF.Attributes
