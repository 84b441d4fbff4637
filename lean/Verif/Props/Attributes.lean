import Verif.Attributes
import Mathlib.Tactic.Tauto
import Mathlib.Tactic.SplitIfs
import Mathlib.Tactic.NormNum
import Mathlib.Data.Rat.Cast.Order

/-!
# C116: attributes keep their types
-/

namespace BF.Attributes

variable (sub : ℕ → ℕ → Bool)

/-! ## Specification -/

/-- All scalars in a value. -/
def scalars : Val → List Sc
  | .sc a => [a]
  | .list l => l
  | .grid l => l.flatten
  | .arr _ l => l
  | .arr2 _ l => l.flatten

/-- A whole number of python or numpy; a bool is one. -/
def Whole (a : Sc) : Prop := (∃ b, a = .bool b) ∨ (∃ z, a = .int z) ∨ ∃ z, a = .npint z

/-- A scalar of a type, as it may be given for a single attribute. -/
def Single : Ty → Sc → Prop
  | .int, a => Whole a
  | .float, a => Whole a ∨ ∃ x, a = .flt x
  | .bool, a => ∃ b, a = .bool b
  | .str, a => ∃ s, a = .str s
  | .list, _ => False
  | .dict, a => ∃ i n, a = .dict i n
  | .cls c, a => ∃ d i, a = .obj d i ∧ sub d c = true

/-- A scalar of a type, as it is kept in a list or array. -/
def Kept : Ty → Sc → Prop
  | .int, a => ∃ z, a = .npint z
  | .float, a => ∃ x, a = .flt x
  | t, a => Single sub t a

/-- The value is a list or an array. -/
def IsMany (v : Val) : Prop := ∀ a, v ≠ .sc a

/-- The value is an array. -/
def IsArray (v : Val) : Prop := (∃ ref l, v = .arr ref l) ∨ ∃ ref l, v = .arr2 ref l

/-- What may be found in an attribute with a rule, in a model with `np` parameters. -/
def Conforms (np : ℕ) (r : Rule) (v : Val) : Prop :=
  (v = .sc .none ∧ (r.isnone = true ∨ r.ty = none)) ∨
  ((r.sized = true → length v = np) ∧
   ∀ t, r.ty = some t →
    if r.islist then IsMany v ∧ (t ≠ .str → ∀ a ∈ scalars v, Kept sub t a) ∧ (t = .int ∨ t = .float → IsArray v)
    else (∃ a, v = .sc a ∧ Single sub t a) ∨ (t = .list ∧ IsMany v))

/-! ## Lemmas -/

theorem isInst_iff (t : Ty) (a : Sc) : isInst sub t a = true ↔ Single sub t a := by
  cases t <;> cases a <;> simp [isInst, Single, Whole]

theorem conv_kept_int (a : Sc) : Kept sub .int (conv .int a) := ⟨integer a, by simp [conv]⟩

theorem conv_kept_float (a : Sc) : Kept sub .float (conv .float a) := ⟨number a, by simp [conv]⟩

/-- Objects in a list are not converted. -/
theorem promote_cls (c : ℕ) (l : List Sc) (h : (promote l).all (isInst sub (.cls c)) = true) :
    ∀ a ∈ l, Single sub (.cls c) a := by
  intro a ha
  unfold promote at h
  have key : ∀ f : Sc → Sc, (∀ b, isInst sub (.cls c) (f b) = false) → (l.map f).all (isInst sub (.cls c)) = true → False := by
    intro f hf hall
    have := List.all_eq_true.1 hall (f a) (List.mem_map_of_mem ha)
    rw [hf] at this
    exact absurd this (by simp)
  split_ifs at h
  · exact (isInst_iff sub _ _).1 (List.all_eq_true.1 h a ha)
  · exact (key _ (fun b => by cases b <;> rfl) h).elim
  · exact (key _ (fun b => rfl) h).elim
  · exact (key _ (fun b => rfl) h).elim
  · exact (key _ (fun b => rfl) h).elim
  · exact (key _ (fun b => rfl) h).elim
  · exact (key _ (fun b => rfl) h).elim

/-- The same for bools and dictionaries. -/
theorem promote_other (t : Ty) (ht : t = .bool ∨ t = .dict) (l : List Sc)
    (h : (promote l).all (isInst sub t) = true) : ∀ a ∈ l, Single sub t a := by
  intro a ha
  unfold promote at h
  have key : ∀ f : Sc → Sc, (∀ b, isInst sub t (f b) = false) → (l.map f).all (isInst sub t) = true → False := by
    intro f hf hall
    have := List.all_eq_true.1 hall (f a) (List.mem_map_of_mem ha)
    rw [hf] at this
    exact absurd this (by simp)
  rcases ht with rfl | rfl
  all_goals
    split_ifs at h
    · exact (isInst_iff sub _ _).1 (List.all_eq_true.1 h a ha)
    · exact (key _ (fun b => by cases b <;> rfl) h).elim
    · exact (key _ (fun b => rfl) h).elim
    · exact (key _ (fun b => rfl) h).elim
    · exact (key _ (fun b => rfl) h).elim
    · exact (key _ (fun b => rfl) h).elim
    · exact (key _ (fun b => rfl) h).elim

theorem promote_single (t : Ty) (ht : t ≠ .str ∧ t ≠ .int ∧ t ≠ .float) (l : List Sc)
    (h : (promote l).all (isInst sub t) = true) : ∀ a ∈ l, Single sub t a := by
  cases t with
  | int => exact absurd rfl ht.2.1
  | float => exact absurd rfl ht.2.2
  | str => exact absurd rfl ht.1
  | bool => exact promote_other sub _ (.inl rfl) l h
  | dict => exact promote_other sub _ (.inr rfl) l h
  | cls c => exact promote_cls sub c l h
  | list =>
      intro a ha
      cases hp : promote l with
      | nil =>
          exfalso
          have hlen : (promote l).length = l.length := by unfold promote; split_ifs <;> simp
          rw [hp] at hlen
          rw [List.length_eq_zero_iff.1 hlen.symm] at ha
          simp at ha
      | cons b t => rw [hp] at h; cases b <;> simp [isInst] at h

theorem asarray_array (t : Ty) (fresh : ℕ) (v : Val) : IsArray (asarray t fresh v) := by
  cases v <;> simp only [asarray] <;> first
    | exact .inl ⟨_, _, rfl⟩
    | exact .inr ⟨_, _, rfl⟩
    | (split_ifs <;> first | exact .inl ⟨_, _, rfl⟩ | exact .inr ⟨_, _, rfl⟩)

theorem isArray_many (v : Val) (h : IsArray v) : IsMany v := by
  intro a ha
  rcases h with ⟨r, l, rfl⟩ | ⟨r, l, rfl⟩ <;> simp at ha

theorem asarray_scalars (t : Ty) (fresh : ℕ) (v : Val) : scalars (asarray t fresh v) = (scalars v).map (conv t) := by
  cases v with
  | sc a => rfl
  | list l => rfl
  | grid l => simp [asarray, scalars, List.map_flatten]
  | arr ref l =>
      simp only [asarray]
      split_ifs with h
      · simp only [scalars]
        exact (List.map_id'' (f := conv t) (l := l) |> fun _ => by
          conv_lhs => rw [← List.map_id l]
          exact List.map_congr_left fun a ha => (h a ha).symm)
      · rfl
  | arr2 ref l =>
      simp only [asarray]
      split_ifs with h
      · simp only [scalars]
        conv_lhs => rw [← List.map_id l.flatten]
        refine List.map_congr_left fun a ha => ?_
        obtain ⟨r, hr, ha⟩ := List.mem_flatten.1 ha
        exact (h r hr a ha).symm
      · simp [scalars, List.map_flatten]

theorem asarray_length (t : Ty) (fresh : ℕ) (v : Val) (h : IsMany v ∨ ∃ a, v = .sc a ∧ Single sub t a)
    (ht : t = .int ∨ t = .float) : length (asarray t fresh v) = length v := by
  cases v with
  | sc a =>
      rcases h with h | ⟨b, hb, hs⟩
      · exact absurd rfl (h a)
      · cases hb
        rcases ht with rfl | rfl
        · rcases hs with ⟨b, rfl⟩ | ⟨b, rfl⟩ | ⟨b, rfl⟩ <;> rfl
        · rcases hs with (⟨b, rfl⟩ | ⟨b, rfl⟩ | ⟨b, rfl⟩) | ⟨b, rfl⟩ <;> rfl
  | list l => simp [asarray, length]
  | grid l => simp [asarray, length]
  | arr ref l => simp only [asarray]; split_ifs <;> simp [length]
  | arr2 ref l => simp only [asarray]; split_ifs <;> simp [length]


theorem items_aux (x : Except Err (List Sc)) (p : Sc → Bool) (b : Bool)
    (h : (match x with
      | .error e => (.error e : Except Err (Bool × Bool))
      | .ok l => .ok (l.all p, l.all p)) = .ok (true, b)) : b = true ∧ ∃ l, x = .ok l ∧ l.all p = true := by
  cases x with
  | error e => simp at h
  | ok l =>
      simp only [Except.ok.injEq, Prod.mk.injEq] at h
      exact ⟨h.2.symm.trans h.1, l, rfl, h.1⟩

/-- What is accepted as a list. -/
theorem isList_true (t : Ty) (v : Val) (b : Bool) (h : isList sub t v = .ok (true, b)) :
    (isInstVal sub t v = true ∧ b = false) ∨
      (IsMany v ∧ b = true ∧ ∃ l, items v = .ok l ∧ l.all (isInst sub t) = true) := by
  unfold isList at h
  split_ifs at h with hi
  · left; simp at h; exact ⟨hi, h⟩
  · right
    cases v with
    | sc a => simp at h
    | list l => exact ⟨by simp [IsMany], items_aux _ _ _ h⟩
    | grid l => exact ⟨by simp [IsMany], items_aux _ _ _ h⟩
    | arr r l => exact ⟨by simp [IsMany], items_aux _ _ _ h⟩
    | arr2 r l => exact ⟨by simp [IsMany], items_aux _ _ _ h⟩

theorem isInstVal_iff (t : Ty) (v : Val) :
    isInstVal sub t v = true ↔ (∃ a, v = .sc a ∧ Single sub t a) ∨ (t = .list ∧ ((∃ l, v = .list l) ∨ ∃ l, v = .grid l)) := by
  cases v with
  | sc a =>
      simp only [isInstVal, isInst_iff]
      constructor
      · exact fun h => .inl ⟨a, rfl, h⟩
      · rintro (⟨b, hb, h⟩ | ⟨-, ⟨l, h⟩ | ⟨l, h⟩⟩)
        · cases hb; exact h
        · simp at h
        · simp at h
  | list l => cases t <;> simp [isInstVal]
  | grid l => cases t <;> simp [isInstVal]
  | arr r l => cases t <;> simp [isInstVal]
  | arr2 r l => cases t <;> simp [isInstVal]

/-- The items that are looked at tell the type of the scalars in the value. -/
theorem items_single (t : Ty) (ht : t ≠ .str ∧ t ≠ .int ∧ t ≠ .float) (v : Val) (l : List Sc) (h : items v = .ok l)
    (hl : l.all (isInst sub t) = true) : ∀ a ∈ scalars v, Single sub t a := by
  cases v with
  | sc a =>
      simp only [items, Except.ok.injEq] at h; subst h
      intro b hb
      exact (isInst_iff sub _ _).1 (List.all_eq_true.1 hl b hb)
  | list l' =>
      simp only [items, Except.ok.injEq] at h; subst h
      exact promote_single sub t ht l' hl
  | grid l' =>
      simp only [items] at h
      split_ifs at h
      simp only [Except.ok.injEq] at h; subst h
      exact promote_single sub t ht _ hl
  | arr r l' =>
      simp only [items, Except.ok.injEq] at h; subst h
      intro b hb
      exact (isInst_iff sub _ _).1 (List.all_eq_true.1 hl b hb)
  | arr2 r l' =>
      simp only [items, Except.ok.injEq] at h; subst h
      intro b hb
      exact (isInst_iff sub _ _).1 (List.all_eq_true.1 hl b hb)

/-- What is stored conforms to the rule. -/
theorem store_conforms (np fresh : ℕ) (r : Rule) (v w : Val)
    (hr : r.sized = true → r.ty = some .float ∧ r.islist = true) (hlist : r.islist = true → r.ty ≠ some .list)
    (h : store sub np fresh r v = .ok w) : Conforms sub np r w := by
  unfold store at h
  split_ifs at h with hs
  unfold setatt at h
  cases hty : r.ty with
  | none =>
      simp only [hty, Except.ok.injEq] at h
      subst h
      by_cases hz : r.sized = true
      · rw [(hr hz).1] at hty; simp at hty
      · exact .inr ⟨fun h => absurd h hz, fun t ht => by simp [hty] at ht⟩
  | some t =>
      simp only [hty] at h
      by_cases hn : r.isnone = true ∧ v = .sc .none
      · rw [if_pos hn] at h
        simp only [Except.ok.injEq] at h
        subst h
        exact .inl ⟨hn.2, .inl hn.1⟩
      · rw [if_neg hn] at h
        have hlen : r.sized = true → v ≠ .sc .none → length v = np := by
          intro hz h0
          by_contra hc
          exact hs ⟨hz, h0, hc⟩
        right
        by_cases hl : r.islist = true
        · rw [if_pos hl] at h
          cases hi : isList sub t v with
          | error e => simp [hi] at h
          | ok isl =>
              obtain ⟨b1, b2⟩ := isl
              simp only [hi] at h
              cases b1 with
              | false => simp at h
              | true =>
                  simp only [if_true] at h
                  have hacc := isList_true sub t v b2 hi
                  by_cases hnum : t = .int ∨ t = .float
                  · rw [if_neg (by tauto)] at h
                    simp only [Except.ok.injEq] at h
                    subst h
                    have harr := asarray_array t fresh v
                    have hv : IsMany v ∨ ∃ a, v = .sc a ∧ Single sub t a := by
                      rcases hacc with ⟨h1, -⟩ | ⟨h1, -⟩
                      · rcases (isInstVal_iff sub t v).1 h1 with h | ⟨h, -⟩
                        · exact .inr h
                        · rcases hnum with rfl | rfl <;> simp at h
                      · exact .inl h1
                    have hv0 : v ≠ .sc .none := by
                      rintro rfl
                      rcases hv with h | ⟨a, ha, hs⟩
                      · exact h _ rfl
                      · cases ha
                        rcases hnum with rfl | rfl <;> simp [Single, Whole] at hs
                    refine ⟨fun hz => ?_, fun t' ht' => ?_⟩
                    · rw [asarray_length sub t fresh v hv hnum]
                      exact hlen hz hv0
                    · rw [hty, Option.some.injEq] at ht'
                      subst ht'
                      rw [if_pos hl]
                      refine ⟨isArray_many _ harr, fun _ a ha => ?_, fun _ => harr⟩
                      rw [asarray_scalars, List.mem_map] at ha
                      obtain ⟨b, -, rfl⟩ := ha
                      rcases hnum with rfl | rfl
                      · exact conv_kept_int sub b
                      · exact conv_kept_float sub b
                  · rw [if_pos (by tauto)] at h
                    simp only [Except.ok.injEq] at h
                    have hz : ¬ r.sized = true := by
                      intro hz
                      have := (hr hz).1
                      rw [hty, Option.some.injEq] at this
                      exact hnum (.inr this)
                    refine ⟨fun h => absurd h hz, fun t' ht' => ?_⟩
                    rw [hty, Option.some.injEq] at ht'
                    subst ht'
                    rw [if_pos hl]
                    have hkept : ∀ a, Single sub t a → Kept sub t a := by
                      intro a ha
                      cases t <;> first | exact ha | exact absurd (by simp) hnum
                    rcases hacc with ⟨h1, rfl⟩ | ⟨h1, rfl, l, h2, h3⟩
                    · rcases (isInstVal_iff sub t v).1 h1 with ⟨a, rfl, ha⟩ | ⟨rfl, -⟩
                      · simp only [Bool.false_eq_true, if_false, wrap] at h
                        subst h
                        refine ⟨by simp [IsMany], fun _ b hb => ?_, fun h => absurd h hnum⟩
                        simp only [scalars, List.mem_singleton] at hb
                        subst hb
                        exact hkept _ ha
                      · exact absurd hty (hlist hl)
                    · simp only [if_true] at h
                      subst h
                      refine ⟨h1, fun hstr a ha => ?_, fun h => absurd h hnum⟩
                      exact hkept a (items_single sub t ⟨hstr, by tauto, by tauto⟩ v l h2 h3 a ha)
        · rw [if_neg hl] at h
          have hz : ¬ r.sized = true := fun hz => hl (hr hz).2
          split_ifs at h with hi
          simp only [Except.ok.injEq] at h
          subst h
          refine ⟨fun h => absurd h hz, fun t' ht' => ?_⟩
          rw [hty, Option.some.injEq] at ht'
          subst ht'
          rw [if_neg hl]
          rcases (isInstVal_iff sub t v).1 hi with ha | ⟨rfl, ⟨l, rfl⟩ | ⟨l, rfl⟩⟩
          · exact .inl ha
          · exact .inr ⟨rfl, by simp [IsMany]⟩
          · exact .inr ⟨rfl, by simp [IsMany]⟩

theorem lookup_mem (t : Table) (n : String) (r : Option Rule) (h : t.lookup n = some r) : r ∈ t.map Prod.snd := by
  induction t with
  | nil => simp at h
  | cons a t ih =>
      rw [List.lookup_cons] at h
      split at h
      · simp at h; simp [h]
      · simp [ih h]

/-- All rules of the tables are as `store_conforms` needs them. -/
theorem rules_fine (c : Cls) (ndim : ℕ) (n : String) (r : Rule) (h : ruleOf c ndim n = some r) :
    (r.sized = true → r.ty = some .float ∧ r.islist = true) ∧ (r.islist = true → r.ty ≠ some .list) := by
  unfold ruleOf at h
  cases hl : (ownTable c ++ modelTable ndim).lookup n with
  | none => simp [hl] at h
  | some r' =>
      simp only [hl, Option.join_some] at h
      subst h
      have hm := lookup_mem _ _ _ hl
      rw [List.map_append, List.mem_append] at hm
      rcases hm with hm | hm
      · have hall : ∀ c : Cls, ((ownTable c).map Prod.snd).all (fun e => match e with
            | none => true
            | some r => decide ((r.sized = true → r.ty = some .float ∧ r.islist = true) ∧
                (r.islist = true → r.ty ≠ some .list))) = true := by
          intro c; cases c <;> decide
        have := List.all_eq_true.1 (hall c) _ hm
        exact of_decide_eq_true this
      · simp only [modelTable, List.map_cons, List.map_nil, List.mem_cons, Option.some.injEq, List.not_mem_nil, or_false,
          reduceCtorEq, false_or] at hm
        rcases hm with rfl | rfl | rfl | rfl | rfl | rfl | rfl | rfl | rfl | rfl | rfl | rfl <;> simp

/-! ## C116 -/

/-- After any number of assignments, of any values, with or without exceptions, each attribute of the object holds a
value of its type. -/
theorem C116_types_partial (c : Cls) (ndim np : ℕ) : ∀ (h : List (String × Val × ℕ)) (o : Obj),
    (∀ n v r, o n = some v → ruleOf c ndim n = some r → Conforms sub np r v) →
    ∀ n v r, assigns sub c ndim np o h n = some v → ruleOf c ndim n = some r → Conforms sub np r v
  | [], _, ho => ho
  | (name, val, fresh) :: h, o, ho => by
      refine C116_types_partial c ndim np h _ ?_
      intro n v r hv hr
      unfold assign at hv
      cases hrule : ruleOf c ndim name with
      | none => simp only [hrule] at hv; exact ho n v r hv hr
      | some r' =>
          simp only [hrule] at hv
          cases hst : store sub np fresh r' val with
          | error e => simp only [hst] at hv; exact ho n v r hv hr
          | ok w =>
              simp only [hst, Obj.put] at hv
              split_ifs at hv with hn
              · subst hn
                simp only [Option.some.injEq] at hv
                subst hv
                rw [hrule, Option.some.injEq] at hr
                subst hr
                exact store_conforms sub np fresh r' val w (rules_fine c ndim n r' hrule).1 (rules_fine c ndim n r' hrule).2 hst
              · exact ho n v r hv hr

/-- An assignment that raises an exception leaves the object as it was. -/
theorem C116_fail (c : Cls) (ndim np fresh : ℕ) (o : Obj) (name : String) (v : Val)
    (h : (assign sub c ndim np fresh o name v).1 ≠ none) : (assign sub c ndim np fresh o name v).2 = o := by
  unfold assign at h ⊢
  split
  · rfl
  · rename_i r hr
    simp only [hr] at h
    split
    · rfl
    · rename_i w hw
      simp [hw] at h

/-- An assignment changes the attribute with the name only. -/
theorem C116_only (c : Cls) (ndim np fresh : ℕ) (o : Obj) (name n : String) (v : Val) (hn : n ≠ name) :
    (assign sub c ndim np fresh o name v).2 n = o n := by
  unfold assign
  split
  · rfl
  · split
    · rfl
    · simp [Obj.put, hn]

/-- The parameters of a model are always none, or an array with as many numbers (or rows) as there are parameters. -/
theorem C116_parameters (c : Cls) (hc : ruleOf c 1 "parameters" = ruleOf .model 1 "parameters") (np : ℕ)
    (h : List (String × Val × ℕ)) (o : Obj) (ho : o = fun _ => none) (v : Val)
    (hv : assigns sub c 1 np o h "parameters" = some v) :
    v = .sc .none ∨ (IsArray v ∧ length v = np ∧ ∀ a ∈ scalars v, ∃ x, a = .flt x) := by
  have hr : ruleOf c 1 "parameters" = some { ty := some .float, islist := true, isnone := true, sized := true } := by
    rw [hc]; decide
  have := C116_types_partial sub c 1 np h o (by intro n v r hv; simp [ho] at hv) "parameters" v _ hv hr
  rcases this with ⟨h, -⟩ | ⟨h1, h2⟩
  · exact .inl h
  · have := h2 _ rfl
    rw [if_pos rfl] at this
    exact .inr ⟨this.2.2 (.inr rfl), h1 rfl, this.2.1 (by simp)⟩

/-- This holds for all classes of the table. -/
example : ∀ c : Cls, ruleOf c 1 "parameters" = ruleOf .model 1 "parameters" := by
  intro c; cases c <;> decide

/-! ### The numbers stay the same -/

theorem number_conv_int (a : Sc) (h : integer a = number a) : number (conv .int a) = number a := by
  simp [conv, number, h]

theorem isInst_int_number (a : Sc) (h : isInst sub .int a = true) : integer a = number a := by
  cases a <;> simp_all [isInst, integer, number]

theorem promote_int (l : List Sc) (h : (promote l).all (isInst sub .int) = true) :
    ∀ a ∈ l, (integer a : ℚ) = number a := by
  intro a ha
  unfold promote at h
  have key : ∀ f : Sc → Sc, (∀ b, isInst sub .int (f b) = false) → (l.map f).all (isInst sub .int) = true → False := by
    intro f hf hall
    have := List.all_eq_true.1 hall (f a) (List.mem_map_of_mem ha)
    rw [hf] at this
    exact absurd this (by simp)
  split_ifs at h with h1 h2 h3 h4 h5 h6
  · exact isInst_int_number sub a (List.all_eq_true.1 h a ha)
  · exact (key _ (fun b => by cases b <;> rfl) h).elim
  · exact (key _ (fun b => rfl) h).elim
  · exact (key _ (fun b => rfl) h).elim
  · exact (key _ (fun b => rfl) h).elim
  · simp only [List.any_eq_true, not_exists, not_and] at h1 h2 h3 h4
    have k1 := h1 a ha
    have k2 := h2 a ha
    have k3 := h3 a ha
    have k4 := h4 a ha
    cases a <;> simp_all [isObj, isStr, isFlt, isNpflt, integer, number] <;> split_ifs <;> simp
  · exact (key _ (fun b => rfl) h).elim

theorem items_int (v : Val) (l : List Sc) (h : items v = .ok l) (hl : l.all (isInst sub .int) = true) :
    ∀ a ∈ scalars v, (integer a : ℚ) = number a := by
  cases v with
  | list l' =>
      simp only [items, Except.ok.injEq] at h; subst h
      exact promote_int sub l' hl
  | grid l' =>
      simp only [items] at h
      split_ifs at h
      simp only [Except.ok.injEq] at h; subst h
      exact promote_int sub _ hl
  | _ =>
      simp only [items, Except.ok.injEq] at h; subst h
      intro b hb
      exact isInst_int_number sub b (List.all_eq_true.1 hl b hb)

/-- The numbers that are found in an attribute are those that were assigned, in the same order: nothing is rounded or
cut off. -/
theorem C116_numbers (c : Cls) (ndim np fresh : ℕ) (o : Obj) (name : String) (v : Val)
    (h : (assign sub c ndim np fresh o name v).1 = none) :
    ∃ w, (assign sub c ndim np fresh o name v).2 name = some w ∧ (scalars w).map number = (scalars v).map number := by
  unfold assign at h ⊢
  cases hr : ruleOf c ndim name with
  | none => simp [hr] at h
  | some r =>
      simp only [hr] at h ⊢
      cases hs : store sub np fresh r v with
      | error e => simp [hs] at h
      | ok w =>
          refine ⟨w, by simp [Obj.put], ?_⟩
          unfold store at hs
          split_ifs at hs
          unfold setatt at hs
          cases hty : r.ty with
          | none => simp only [hty, Except.ok.injEq] at hs; rw [hs]
          | some t =>
              simp only [hty] at hs
              by_cases h1 : r.isnone = true ∧ v = .sc .none
              · rw [if_pos h1, Except.ok.injEq] at hs; rw [hs]
              rw [if_neg h1] at hs
              by_cases h2 : r.islist = true
              · rw [if_pos h2] at hs
                cases hi : isList sub t v with
                | error e => simp [hi] at hs
                | ok isl =>
                    obtain ⟨b1, b2⟩ := isl
                    simp only [hi] at hs
                    cases b1 with
                    | false => simp at hs
                    | true =>
                        simp only [if_true] at hs
                        have hacc := isList_true sub t v b2 hi
                        by_cases hnum : t = .int ∨ t = .float
                        · rw [if_neg (by tauto)] at hs
                          simp only [Except.ok.injEq] at hs
                          subst hs
                          rw [asarray_scalars, List.map_map]
                          apply List.map_congr_left
                          intro a ha
                          rcases hnum with rfl | rfl
                          · rw [Function.comp, number_conv_int]
                            rcases hacc with ⟨h1, -⟩ | ⟨-, -, l, h2, h3⟩
                            · rcases (isInstVal_iff sub .int v).1 h1 with ⟨b, rfl, hb⟩ | ⟨h, -⟩
                              · simp only [scalars, List.mem_singleton] at ha
                                subst ha
                                exact isInst_int_number sub a ((isInst_iff sub _ _).2 hb)
                              · simp at h
                            · exact items_int sub v l h2 h3 a ha
                          · simp [conv, number]
                        · rw [if_pos (by tauto)] at hs
                          simp only [Except.ok.injEq] at hs
                          subst hs
                          split_ifs
                          · rfl
                          · cases v <;> rfl
              · rw [if_neg h2] at hs
                split_ifs at hs
                rw [Except.ok.injEq] at hs; rw [hs]

/-- Whole numbers and floats, alone or in a list, are accepted where a list of floats is wanted. -/
theorem C116_accepts (fresh : ℕ) (l : List Sc) (h : ∀ a ∈ l, (∃ z, a = .int z) ∨ (∃ z, a = .npint z) ∨ ∃ x, a = .flt x) :
    setatt sub (some .float) true false fresh (.list l) = .ok (.arr fresh (l.map fun a => .flt (number a))) := by
  have h1 : l.any isObj = false := by
    rw [List.any_eq_false]; intro a ha
    rcases h a ha with ⟨z, rfl⟩ | ⟨z, rfl⟩ | ⟨z, rfl⟩ <;> simp [isObj]
  have h2 : l.any isStr = false := by
    rw [List.any_eq_false]; intro a ha
    rcases h a ha with ⟨z, rfl⟩ | ⟨z, rfl⟩ | ⟨z, rfl⟩ <;> simp [isStr]
  have h3 : l.any isNpflt = false := by
    rw [List.any_eq_false]; intro a ha
    rcases h a ha with ⟨z, rfl⟩ | ⟨z, rfl⟩ | ⟨z, rfl⟩ <;> simp [isNpflt]
  have hall : (promote l).all (isInst sub .float) = true := by
    unfold promote
    rw [h1, h2, h3]
    simp only [Bool.false_eq_true, if_false]
    split_ifs with h4 h5
    · simp [isInst]
    · simp [isInst]
    · have : l = [] := by
        cases l with
        | nil => rfl
        | cons a l =>
            exfalso
            simp only [List.any_cons, Bool.or_eq_true, not_or] at h4 h5
            rcases h a (by simp) with ⟨z, rfl⟩ | ⟨z, rfl⟩ | ⟨z, rfl⟩
            · exact h5.1 rfl
            · exact h5.1 rfl
            · exact h4.1 rfl
      simp [this]
  simp only [setatt, isList, isInstVal, items, hall]
  simp [asarray, conv]

/-- A list in which is something else than a number is refused where a list of numbers is wanted. -/
theorem C116_refuses (fresh : ℕ) (t : Ty) (ht : t = .int ∨ t = .float) (isnone : Bool) (l : List Sc) (a : Sc) (ha : a ∈ l)
    (hs : isObj a = true ∨ isStr a = true) : setatt sub (some t) true isnone fresh (.list l) = .error .type := by
  have hall : (promote l).all (isInst sub t) = false := by
    rw [Bool.eq_false_iff]
    intro hc
    rw [List.all_eq_true] at hc
    unfold promote at hc
    have hmem : ∀ b : Sc, b ∈ l → ∀ f : Sc → Sc, f b ∈ l.map f := fun b hb f => List.mem_map_of_mem hb
    by_cases h1 : l.any isObj = true
    · rw [if_pos h1] at hc
      obtain ⟨b, hb, hb'⟩ := List.any_eq_true.1 h1
      have := hc b hb
      rcases ht with rfl | rfl <;> cases b <;> simp [isObj] at hb' <;> simp [isInst] at this
    · have h2 : l.any isStr = true := by
        rw [List.any_eq_true]
        rcases hs with hs | hs
        · exact absurd (List.any_eq_true.2 ⟨a, ha, hs⟩) h1
        · exact ⟨a, ha, hs⟩
      rw [if_neg h1, if_pos h2] at hc
      have := hc _ (List.mem_map_of_mem ha)
      rcases ht with rfl | rfl <;> cases a <;> simp [isInst] at this
  simp only [setatt, isList, isInstVal, items, hall]
  rcases ht with rfl | rfl <;> simp [isInstVal]

/-- A model has no other attributes than those of its table. -/
theorem C116_unknown (ndim np fresh : ℕ) (o : Obj) (name : String) (v : Val)
    (h : name ∉ ["parameters", "stdevs", "xUnit", "yUnit", "pipePartial", "pipeDeriv", "priors", "parNames", "deltaP",
      "tiny", "posIndex", "nonZero"]) : assign sub .model ndim np fresh o name v = (some .attr, o) := by
  have : ruleOf .model ndim name = none := by
    simp only [List.mem_cons, List.not_mem_nil, or_false, not_or] at h
    obtain ⟨h1, h2, h3, h4, h5, h6, h7, h8, h9, h10, h11, h12⟩ := h
    unfold ruleOf
    simp only [ownTable, modelTable, List.nil_append, List.lookup_cons, List.lookup_nil]
    simp only [beq_iff_eq, beq_eq_false_iff_ne.2 h1, beq_eq_false_iff_ne.2 h2, beq_eq_false_iff_ne.2 h3,
      beq_eq_false_iff_ne.2 h4, beq_eq_false_iff_ne.2 h5, beq_eq_false_iff_ne.2 h6, beq_eq_false_iff_ne.2 h7,
      beq_eq_false_iff_ne.2 h8, beq_eq_false_iff_ne.2 h9, beq_eq_false_iff_ne.2 h10, beq_eq_false_iff_ne.2 h11,
      beq_eq_false_iff_ne.2 h12]
    cases (name == "fixed") <;> rfl
  simp [assign, this]

/-- An ordinary history: two assignments that succeed and two that fail. -/
example : assigns (fun _ _ => true) .polynomial 1 2 (fun _ => none)
    [("parameters", .list [.int 1, .flt (1/2)], 7), ("parameters", .list [.int 1], 8), ("degree", .sc (.flt 2), 9),
     ("degree", .sc (.int 2), 10)] "parameters" = some (.arr 7 [.flt 1, .flt (1/2)]) := by decide +kernel

/-! ## Counterexamples -/

/-- A list of strings may have numbers in it: for numpy it is an array of strings. The list is kept as it is. -/
theorem C116_counterexample_strings (fresh : ℕ) (s : String) (z : ℤ) :
    setatt sub (some .str) true false fresh (.list [.str s, .int z]) = .ok (.list [.str s, .int z]) := by
  simp [setatt, isList, isInstVal, items, promote, isObj, isStr, isInst]

/-- A bool is accepted as a number, a list of bools is not. -/
theorem C116_counterexample_bools (fresh : ℕ) (b : Bool) :
    setatt sub (some .int) true false fresh (.sc (.bool b)) = .ok (.arr fresh [.npint (if b then 1 else 0)]) ∧
      setatt sub (some .int) true false fresh (.list [.bool b]) = .error .type := by
  constructor
  · simp [setatt, isList, isInstVal, isInst, asarray, conv, integer]
  · simp [setatt, isList, isInstVal, items, promote, isObj, isStr, isFlt, isNpflt, isIntg, isInst]

/-- A float of numpy in less than 64 bits is refused, alone or in a list of such, but in a list with a whole number it
is accepted. -/
theorem C116_counterexample_float32 (fresh : ℕ) (x : ℚ) (z : ℤ) :
    setatt sub (some .float) true false fresh (.sc (.npflt x)) = .error .type ∧
      setatt sub (some .float) true false fresh (.list [.npflt x]) = .error .type ∧
      setatt sub (some .float) true false fresh (.list [.npflt x, .int z]) = .ok (.arr fresh [.flt x, .flt z]) := by
  refine ⟨?_, ?_, ?_⟩
  · simp [setatt, isList, isInstVal, isInst]
  · simp [setatt, isList, isInstVal, items, promote, isObj, isStr, isFlt, isNpflt, isIntg, isInst]
  · simp [setatt, isList, isInstVal, items, promote, isObj, isStr, isFlt, isNpflt, isIntg, isInst, asarray, conv, number]

/-- A square of numbers is accepted for the parameters: only the number of rows is checked. -/
theorem C116_counterexample_square (c : Cls) (hc : ruleOf c 1 "parameters" = ruleOf .model 1 "parameters") (fresh : ℕ)
    (o : Obj) (a b d e : ℚ) :
    assign sub c 1 2 fresh o "parameters" (.grid [[.flt a, .flt b], [.flt d, .flt e]]) =
      (none, o.put "parameters" (.arr2 fresh [[.flt a, .flt b], [.flt d, .flt e]])) := by
  have hr : ruleOf c 1 "parameters" = some { ty := some .float, islist := true, isnone := true, sized := true } := by
    rw [hc]; decide
  unfold assign
  rw [hr]
  simp [store, length, setatt, isList, isInstVal, items, promote, isObj, isStr, isFlt, isInst, asarray, conv, number]

/-- An array of floats is not copied: the model keeps the array of the caller. -/
theorem C116_counterexample_shared (c : Cls) (hc : ruleOf c 1 "parameters" = ruleOf .model 1 "parameters")
    (ref fresh : ℕ) (o : Obj) (l : List ℚ) :
    assign sub c 1 l.length fresh o "parameters" (.arr ref (l.map .flt)) =
      (none, o.put "parameters" (.arr ref (l.map .flt))) := by
  have hr : ruleOf c 1 "parameters" = some { ty := some .float, islist := true, isnone := true, sized := true } := by
    rw [hc]; decide
  unfold assign
  rw [hr]
  have h1 : List.all (List.map Sc.flt l) (isInst sub .float) = true := by simp [isInst]
  simp [store, length, setatt, isList, isInstVal, items, isInst, asarray, conv, number]

/-- Lists, and arrays of whole numbers, are copied. -/
theorem C116_copied (fresh : ℕ) (v w : Val) (hv : (∃ l, v = .list l) ∨ ∃ ref z l, v = .arr ref (.npint z :: l))
    (h : setatt sub (some .float) true true fresh v = .ok w) : ∃ l, w = .arr fresh l := by
  unfold setatt at h
  have hn : v ≠ .sc .none := by rcases hv with ⟨l, rfl⟩ | ⟨r, z, l, rfl⟩ <;> simp
  simp only [hn, and_false, if_false, if_true] at h
  cases hi : isList sub .float v with
  | error e => simp [hi] at h
  | ok isl =>
      simp only [hi] at h
      by_cases hi1 : isl.1 = true
      · rw [if_pos hi1, if_neg (by simp)] at h
        simp only [Except.ok.injEq] at h
        subst h
        rcases hv with ⟨l, rfl⟩ | ⟨r, z, l, rfl⟩
        · exact ⟨_, rfl⟩
        · exact ⟨(.npint z :: l).map (conv .float), by simp [asarray, conv]⟩
      · rw [if_neg hi1] at h; simp at h

/-- The degree of a polynomial can be set without a change in the number of parameters. -/
theorem C116_counterexample_degree (ndim np fresh : ℕ) (o : Obj) (z : ℤ) :
    assign sub .polynomial ndim np fresh o "degree" (.sc (.int z)) = (none, o.put "degree" (.sc (.int z))) := by
  have hr : ruleOf .polynomial ndim "degree" = some { ty := some .int } := by
    unfold ruleOf
    simp [ownTable]
  unfold assign
  rw [hr]
  simp [store, setatt, isInstVal, isInst]

/-! ## The football model -/

/-- Assigning a whole number to the complexity: the functions that are used are those of the complexity, or the object
is as before and there is an exception. -/
theorem C116_football (o : Obj) (a : Sc) (ha : Whole a) :
    (∃ k, 1 ≤ k ∧ k ≤ 5 ∧ integer a = (k : ℕ) ∧ (footballSet o (.sc a)).1 = none ∧
      (footballSet o (.sc a)).2 = ((o.put "goals" (goals k)).put "parts" (parts k)).put "complexity" (.sc a)) ∨
    (¬ (1 ≤ integer a ∧ integer a ≤ 5) ∧ footballSet o (.sc a) = (some .value, o)) := by
  have heq : ∀ k : ℕ, equals k (.sc a) = some (decide (integer a = k)) := by
    intro k
    rcases ha with ⟨b, rfl⟩ | ⟨z, rfl⟩ | ⟨z, rfl⟩
    · cases b <;> simp [equals, integer, number] <;> norm_cast
    · rfl
    · rfl
  have hset : setatt (fun _ _ => false) (some .int) false false 0 (.sc a) = .ok (.sc a) := by
    have : isInst (fun _ _ => false) .int a = true := (isInst_iff _ _ _).2 ha
    simp [setatt, isInstVal, this]
  have key : ∀ n : ℕ, (∃ k, 1 ≤ k ∧ k ≤ n ∧ integer a = (k : ℕ) ∧
      football o (.sc a) n = (none, (o.put "goals" (goals k)).put "parts" (parts k))) ∨
      (¬ (1 ≤ integer a ∧ integer a ≤ n) ∧ football o (.sc a) n = (some .value, o)) := by
    intro n
    induction n with
    | zero => right; exact ⟨by intro h; have := h.1; have := h.2; simp at *; omega, rfl⟩
    | succ n ih =>
        simp only [football, heq]
        by_cases h : integer a = ((n + 1 : ℕ) : ℤ)
        · left
          refine ⟨n + 1, by omega, le_refl _, h, ?_⟩
          simp [h]
        · simp only [h, decide_false]
          rcases ih with ⟨k, h1, h2, h3, h4⟩ | ⟨h1, h2⟩
          · exact .inl ⟨k, h1, by omega, h3, h4⟩
          · refine .inr ⟨?_, h2⟩
            push_cast at h ⊢
            omega
  unfold footballSet
  rcases key 5 with ⟨k, h1, h2, h3, h4⟩ | ⟨h1, h2⟩
  · left
    refine ⟨k, h1, h2, h3, ?_⟩
    rw [h4]
    simp [hset]
  · right
    refine ⟨h1, ?_⟩
    rw [h2]

/-- Assigning a float, like 3.0, is refused with an exception, but the functions have been changed by then: they are
those of complexity 3 and the complexity is what it was. -/
theorem C116_counterexample_football (o : Obj) (k : ℕ) (h1 : 1 ≤ k) (h2 : k ≤ 5) :
    footballSet o (.sc (.flt k)) = (some .type, (o.put "goals" (goals k)).put "parts" (parts k)) := by
  have hk : k = 1 ∨ k = 2 ∨ k = 3 ∨ k = 4 ∨ k = 5 := by omega
  rcases hk with rfl | rfl | rfl | rfl | rfl <;>
    simp [footballSet, football, equals, setatt, isInstVal, isInst] <;> norm_num

/-! ## The constant model -/

/-- The value of a constant model can be set to any number of numbers, whatever the number of parameters of the model
within. -/
theorem C116_counterexample_constant (fresh : ℕ) (l : List ℚ) :
    constantValue fresh (.list (l.map .flt)) = .ok (.arr fresh (l.map .flt)) := by
  have := C116_accepts (fun _ _ => false) fresh (l.map .flt) (by simp)
  unfold constantValue
  rw [this]
  simp [number]

/-- With `None` for the table a constant model has neither a table nor a model. -/
theorem C116_counterexample_table (fresh : ℕ) (o : Obj) :
    constantTable fresh o (.sc .none) = (none, (o.put "table" (.sc .none)).put "fixedModel" (.sc .none)) := by
  simp [constantTable, setatt]

end BF.Attributes
