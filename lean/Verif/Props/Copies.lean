import Verif.Copies
import Verif.Props.Fixed
import Mathlib.Tactic.IntervalCases

/-!
# C114: copies of models
-/

namespace BF.Copies

variable {K P U F M : Type} [Zero K] [One K]

/-! ## Specification -/

/-- The same model, with copies of the models that stand for fixed parameters. -/
def Obj.sameWith (o : Obj K P U F M) (fx : Fixer K M) : Obj K P U F M :=
  { o with com := { o.com with
      fixed := o.com.fixed.map fun nd => (nd.1, nd.2.map fun kv => (kv.1, kv.2.map id fx.copy)) } }

/-- The models with which `copy` goes well: all except a few of some classes. -/
def Copyable (o : Obj K P U F M) : Prop :=
  match o.cls with
  | .bsplines _ _ eps => eps = 0
  | .basicSplines _ order border _ => order ≤ 3 ∨ border ≠ 0 ∨ o.com.fixed = none
  | .harmonicDynamic order _ _ _ _ => 1 ≤ order
  | .splinesDynamic knots order border _ _ _ _ _ _ _ =>
      2 ≤ knots.length ∧ border = 0 ∧ (order ≤ 3 ∨ o.com.fixed = none)
  | .user _ _ _ _ => o.com.fixed = none
  | _ => True

/-! ## Lemmas -/

theorem mapM_isSome {α β : Type} (f : α → Option β) : ∀ l : List α,
    (∃ r, l.mapM f = some r) ↔ ∀ x ∈ l, (f x).isSome
  | [] => by simp
  | a :: l => by
      have ih := mapM_isSome f l
      rw [List.mapM_cons]
      cases h : f a with
      | none => simp [h]
      | some b =>
          simp only [List.mem_cons, forall_eq_or_imp, h, Option.isSome_some, true_and, ← ih]
          cases h2 : l.mapM f <;> simp

theorem gather_isSome (p : List K) (idx : List ℕ) : (∃ r, gather p idx = some r) ↔ ∀ k ∈ idx, k < p.length := by
  unfold gather
  rw [mapM_isSome]
  simp

/-- The parameters that the constructor picks. -/
def picked (c : Common K P U M) : List ℕ :=
  if c.mlist = [] then c.parlist.getD [] else (c.parlist.getD []).filter fun k => k < c.npmax

theorem select_isSome (fx : Fixer K M) (c : Common K P U M) (p : List K) :
    (∃ r, select fx c.npmax c.mlist c.parlist c.fixed p = some r) ↔ c.fixed = none ∨ ∀ k ∈ picked c, k < p.length := by
  unfold select picked
  cases hf : c.fixed with
  | none => simp
  | some nd =>
      by_cases hm : c.mlist = []
      · simp only [hm, if_true, reduceCtorEq, false_or]
        exact gather_isSome p _
      · simp only [hm, if_false, reduceCtorEq, false_or]
        rw [← gather_isSome (K := K)]
        constructor
        · rintro ⟨r, hr⟩
          rw [Option.map_eq_some_iff] at hr
          obtain ⟨q, hq, _⟩ := hr
          exact ⟨q, hq⟩
        · rintro ⟨q, hq⟩
          exact ⟨_, by rw [hq]; rfl⟩

/-- What holds of the common part, with `n` parameters before any are fixed. -/
structure CInv (c : Common K P U M) (n : ℕ) : Prop where
  pars : c.parameters.isSome
  plist : c.parlist = c.fixed.map fun nd => parlistOf nd.1 nd.2
  sel : c.fixed = none ∨ ∀ k ∈ picked c, k < n

theorem make_new (cs : Consts K P U F) (fx : Fixer K M) (s : Spec K) (kw : Kw K M) (c : Common K P U M)
    (hs : ∀ p, s.params = some p → p.length = s.nparams) (h : make cs fx s kw none = some c) :
    CInv c s.nparams ∧ c.ndim = s.ndim ∧ (kw.fixed = none → c.fixed = none) := by
  simp only [make, modelInit, Option.map_eq_some_iff, Option.bind_eq_some_iff] at h
  obtain ⟨c1, ⟨c0, h0, p, hp, rfl⟩, rfl⟩ := h
  have hlen : (s.params.getD (List.replicate s.nparams 0)).length = s.nparams := by
    cases hq : s.params with
    | none => simp
    | some q => simpa using hs q hq
  have hsel := (select_isSome fx c0 _).1 ⟨p, hp⟩
  rw [hlen] at hsel
  simp only [fixedNew, Option.map_eq_some_iff] at h0
  obtain ⟨pn, hpn, rfl⟩ := h0
  refine ⟨⟨rfl, rfl, hsel⟩, rfl, ?_⟩
  intro hk
  simp [hk]

theorem keys_copyFixed (fx : Fixer K M) (d : Dict K M) : (copyFixed fx d).map Prod.fst = d.map Prod.fst := by
  simp [copyFixed]

theorem copyFixed_eq (fx : Fixer K M) (d : Dict K M) :
    copyFixed fx d = d.map fun kv => (kv.1, kv.2.map id fx.copy) := by
  unfold copyFixed
  apply List.map_congr_left
  rintro ⟨k, v⟩ _
  cases v <;> rfl

theorem make_copy (cs : Consts K P U F) (fx : Fixer K M) (s : Spec K) (kw : Kw K M) (o : Common K P U M) (n : ℕ)
    (hi : CInv o n) (hs : o.fixed = none ∨ n ≤ (s.params.getD (List.replicate s.nparams 0)).length) :
    make cs fx s kw (some o) = some { o with
      fixed := o.fixed.map fun nd => (nd.1, nd.2.map fun kv => (kv.1, kv.2.map id fx.copy)) } := by
  have hfx : (o.fixed.map fun nd : ℕ × Dict K M => (nd.1, copyFixed fx nd.2)) =
      o.fixed.map fun nd => (nd.1, nd.2.map fun kv => (kv.1, kv.2.map id fx.copy)) := by
    cases o.fixed <;> simp [copyFixed_eq]
  have hpl : ((o.fixed.map fun nd : ℕ × Dict K M => (nd.1, copyFixed fx nd.2)).map fun nd : ℕ × Dict K M =>
      parlistOf nd.1 nd.2) = o.parlist := by
    rw [hi.plist]
    cases o.fixed <;> simp [parlistOf, keys_copyFixed]
  have hsel : ∃ r, select fx (fixedCopy cs fx o).npmax (fixedCopy cs fx o).mlist (fixedCopy cs fx o).parlist
      (fixedCopy cs fx o).fixed (s.params.getD (List.replicate s.nparams 0)) = some r := by
    rw [select_isSome]
    have hpk : picked (fixedCopy cs fx o) = picked o := by
      simp only [picked, fixedCopy, hpl]
    rw [hpk]
    rcases hs with hs | hs
    · left; simp [fixedCopy, hs]
    · rcases hi.sel with h | h
      · left; simp [fixedCopy, h]
      · right; intro k hk; exact Nat.lt_of_lt_of_le (h k hk) hs
  obtain ⟨r, hr⟩ := hsel
  obtain ⟨q, hq⟩ := Option.isSome_iff_exists.1 hi.pars
  simp only [make, modelInit, Option.bind_some, hr, Option.map_some]
  congr 1
  cases o
  simp only at hq hpl hfx
  subst hq
  simp only [fixedCopy, hpl]
  simp only [hfx]

/-- The number of parameters of a class before any are fixed, for the classes where that can be done. -/
def clsNp (ndim : ℕ) : Cls K P F → Option ℕ
  | .arctan => some 3
  | .basicSplines knots order border _ => some (basicNp knots order border)
  | .chebyshev degree => some (degree + 1)
  | .etalon => some 4
  | .etalonDrift => some 5
  | .exp _ => some 2
  | .football nteams complexity => some (complexity * nteams)
  | .gauss => some 3
  | .harmonic order _ => some (2 * order)
  | .kernel _ => some 3
  | .kernel2d _ shape => some (shape + 3)
  | .logistic => some 3
  | .lorentz => some 3
  | .pade num den => some (num + den + 2)
  | .polynomial degree => some (degree + 1)
  | .polySurface degree => some ((degree + 2) * (degree + 1) / 2)
  | .power _ => some 1
  | .powerLaw => some 3
  | .pseudoVoigt => some 4
  | .radialVelocity => some 5
  | .sinc _ => some 3
  | .sineAmp _ => some 2
  | .sineDrift => some 4
  | .sine _ => some 3
  | .softMax ndout offset _ => some (ndim * ndout + if offset then ndout else 0)
  | .splines knots order => some (order + knots.length - 1)
  | .splinesDynamic knots order border _ _ _ _ _ _ _ => some (basicNp knots order border)
  | .stellarOrbit _ => some 7
  | .voigt => some 4
  | _ => none

/-- More about the settings. -/
def clsInv (cs : Consts K P U F) : Cls K P F → Prop
  | .football _ complexity => 1 ≤ complexity ∧ complexity ≤ 5
  | .kernel2d _ shape => 1 ≤ shape ∧ shape ≤ 3
  | .sinc k => k = cs.sinc
  | _ => True

structure Inv (cs : Consts K P U F) (o : Obj K P U F M) : Prop where
  com : ∃ n, CInv o.com n ∧ (o.com.fixed = none ∨ clsNp o.com.ndim o.cls = some n ∨ ∃ a b c d, o.cls = .user a b c d)
  cls : clsInv cs o.cls

theorem inv_new (cs : Consts K P U F) (fx : Fixer K M) (s : Spec K) (kw : Kw K M) (cls : Cls K P F)
    (o : Obj K P U F M) (h : ((make cs fx s kw none).map fun c => (⟨cls, c⟩ : Obj K P U F M)) = some o)
    (hs : ∀ p, s.params = some p → p.length = s.nparams) (hc : clsInv cs cls)
    (hn : clsNp s.ndim cls = some s.nparams ∨ kw.fixed = none ∨ ∃ a b c d, cls = .user a b c d) : Inv cs o := by
  rw [Option.map_eq_some_iff] at h
  obtain ⟨c, hm, rfl⟩ := h
  obtain ⟨h1, h2, h3⟩ := make_new cs fx s kw c hs hm
  refine ⟨⟨s.nparams, h1, ?_⟩, hc⟩
  rcases hn with hn | hn | hn
  · right; left; simpa only [h2] using hn
  · left; exact h3 hn
  · right; right; exact hn

theorem inv_init (cs : Consts K P U F) (fx : Fixer K M) (call : Call K P F) (kw : Kw K M) (o : Obj K P U F M)
    (h : init cs fx call kw none = some o) : Inv cs o := by
  cases call with
  | bsplines knots order =>
      simp only [init, Option.map_none] at h
      split at h
      · simp at h
      · rename_i hk
        rw [Option.bind_eq_some_iff] at h
        obtain ⟨kn, rfl, h⟩ := h
        exact inv_new cs fx _ kw _ o h (by simp) trivial (.inr (.inl (by simpa using hk)))
  | basicSplines knots order border =>
      simp only [init, Option.map_none, Option.bind_eq_some_iff] at h
      obtain ⟨kn, rfl, h⟩ := h
      exact inv_new cs fx _ kw _ o h (by simp) trivial (.inl rfl)
  | constant ndim content =>
      simp only [init, Option.map_none, Option.bind_eq_some_iff] at h
      obtain ⟨f, rfl, h⟩ := h
      exact inv_new cs fx _ _ _ o h (by simp) trivial (.inr (.inl rfl))
  | football nteams complexity =>
      simp only [init, Option.map_none] at h
      split at h
      · simp at h
      · rename_i hk
        exact inv_new cs fx _ kw _ o h (by simp) ⟨by omega, by omega⟩ (.inl rfl)
  | freeShape npix shape xlo xhi center =>
      simp only [init, Option.map_none, Option.bind_eq_some_iff] at h
      obtain ⟨f, rfl, h⟩ := h
      exact inv_new cs fx _ _ _ o h (by simp) trivial (.inr (.inl rfl))
  | harmonicDynamic order period mn mx g =>
      simp only [init, Option.map_none] at h
      split at h
      · simp at h
      · rename_i hk
        split at h
        · simp at h
        · exact inv_new cs fx _ kw _ o h (by simp) trivial (.inr (.inl (by simpa using hk)))
  | polynomialDynamic degree mn mx g =>
      simp only [init, Option.map_none] at h
      split at h
      · simp at h
      · rename_i hk
        split at h
        · simp at h
        · exact inv_new cs fx _ kw _ o h (by simp) trivial (.inr (.inl (by simpa using hk)))
  | kernel2d kernel shape =>
      simp only [init, Option.map_none] at h
      refine inv_new cs fx _ kw _ o h ?_ ?_ (.inl rfl)
      · intro p hp
        simp only [Option.some.injEq] at hp
        subst hp
        by_cases hs : 1 ≤ shape ∧ shape ≤ 3
        · obtain ⟨h1, h2⟩ := hs
          interval_cases shape <;> simp
        · simp [hs]
      · by_cases hs : 1 ≤ shape ∧ shape ≤ 3
        · simp [clsInv, hs]
        · simp [clsInv, hs]
  | pade num den =>
      simp only [init, Option.map_none] at h
      exact inv_new cs fx _ _ _ o h (by simp; omega) trivial (.inl rfl)
  | polySineAmp degree frequency =>
      simp only [init, Option.map_none] at h
      split at h
      · simp at h
      · rename_i hk
        exact inv_new cs fx _ kw _ o h (by simp) trivial (.inr (.inl (by simpa using hk)))
  | sineSpline frequency knots order =>
      simp only [init, Option.map_none] at h
      split at h
      · simp at h
      · rename_i hk
        exact inv_new cs fx _ kw _ o h (by simp) trivial (.inr (.inl (by simpa using hk)))
  | sineSplineDrift knots order degree =>
      simp only [init, Option.map_none] at h
      split at h
      · simp at h
      · rename_i hk
        exact inv_new cs fx _ kw _ o h (by simp) trivial (.inr (.inl (by simpa using hk)))
  | splines knots order =>
      simp only [init, Option.map_none, Option.bind_eq_some_iff] at h
      obtain ⟨kn, rfl, h⟩ := h
      exact inv_new cs fx _ kw _ o h (by simp) trivial (.inl rfl)
  | splinesDynamic knots order border mn mx md g mo dy =>
      simp only [init, Option.map_none, Option.bind_eq_some_iff] at h
      obtain ⟨kn, rfl, h⟩ := h
      split at h
      · simp at h
      · exact inv_new cs fx _ kw _ o h (by simp) trivial (.inl rfl)
  | surfaceSplines knots orders =>
      simp only [init, Option.map_none] at h
      split at h
      · simp at h
      · exact inv_new cs fx _ _ _ o h (by simp) trivial (.inr (.inl rfl))
  | user npars result ndim pa de name =>
      simp only [init, Option.map_none, Option.bind_eq_some_iff] at h
      obtain ⟨p, rfl, d, rfl, h⟩ := h
      exact inv_new cs fx _ kw _ o h (by simp) trivial (.inr (.inr ⟨_, _, _, _, rfl⟩))
  | sinc =>
      simp only [init, Option.map_none] at h
      exact inv_new cs fx _ kw _ o h (by simp) rfl (.inl rfl)
  | _ =>
      simp only [init, Option.map_none] at h
      exact inv_new cs fx _ kw _ o h (by simp) trivial (.inl rfl)

theorem inv_act (cs : Consts K P U F) (o o' : Obj K P U F M) (a : Act K P U) (hi : Inv cs o) (h : act o a = some o') :
    Inv cs o' := by
  obtain ⟨⟨n, ⟨hp, hl, hs⟩, hc⟩, hcl⟩ := hi
  cases a with
  | parameters p =>
      simp only [act] at h
      split at h
      · injection h with h; subst h; exact ⟨⟨n, ⟨rfl, hl, hs⟩, hc⟩, hcl⟩
      · simp at h
  | stdevs s =>
      simp only [act] at h
      split at h
      · injection h with h; subst h; exact ⟨⟨n, ⟨hp, hl, hs⟩, hc⟩, hcl⟩
      · simp at h
  | eps e =>
      simp only [act] at h
      split at h
      · rename_i k m e0 hk
        injection h with h
        subst h
        refine ⟨⟨n, ⟨hp, hl, hs⟩, ?_⟩, trivial⟩
        rw [hk] at hc
        simpa [clsNp] using hc
      · simp at h
  | number v =>
      simp only [act] at h
      injection h with h
      subst h
      refine ⟨⟨n, ⟨hp, hl, hs⟩, ?_⟩, ?_⟩
      · cases hk : o.cls <;> rw [hk] at hc <;> simpa [setNumber, clsNp, hk] using hc
      · cases hk : o.cls <;> rw [hk] at hcl <;> simpa [setNumber, clsInv, hk] using hcl
  | resize m names p =>
      simp only [act] at h
      split at h
      · rename_i a b c d e hk
        split at h
        · simp at h
        · injection h with h
          subst h
          rw [hk] at hc
          have hf : o.com.fixed = none := by simpa [clsNp] using hc
          refine ⟨⟨0, ⟨rfl, hl, .inl hf⟩, .inl hf⟩, trivial⟩
      · rename_i a b c d hk
        split at h
        · simp at h
        · injection h with h
          subst h
          rw [hk] at hc
          have hf : o.com.fixed = none := by simpa [clsNp] using hc
          refine ⟨⟨0, ⟨rfl, hl, .inl hf⟩, .inl hf⟩, trivial⟩
      · simp at h
  | reknot knots names p =>
      simp only [act] at h
      split at h
      · split at h
        · simp at h
        · rename_i hk
          injection h with h
          subst h
          have hf : o.com.fixed = none := by
            simp only [not_or] at hk
            simpa using hk.2.2
          exact ⟨⟨0, ⟨rfl, hl, .inl hf⟩, .inl hf⟩, trivial⟩
      · simp at h
  | _ =>
      simp only [act] at h
      injection h with h
      subst h
      exact ⟨⟨n, ⟨hp, hl, hs⟩, hc⟩, hcl⟩

theorem inv_acts (cs : Consts K P U F) : ∀ (as : List (Act K P U)) (o o' : Obj K P U F M), Inv cs o →
    acts o as = some o' → Inv cs o'
  | [], o, o', hi, h => by simp only [acts, Option.some.injEq] at h; subst h; exact hi
  | a :: as, o, o', hi, h => by
      simp only [acts, Option.bind_eq_some_iff] at h
      obtain ⟨o1, h1, h2⟩ := h
      exact inv_acts cs as o1 o' (inv_act cs o o1 a hi h1) h2

theorem mk_copy (cs : Consts K P U F) (fx : Fixer K M) (s : Spec K) (kw : Kw K M) (o : Obj K P U F M)
    (hi : Inv cs o) (hu : o.com.fixed = none ∨ ¬ ∃ a b c d, o.cls = .user a b c d)
    (hs : ∀ n, o.com.fixed ≠ none → clsNp o.com.ndim o.cls = some n →
      n ≤ (s.params.getD (List.replicate s.nparams 0)).length) :
    ((make cs fx s kw (some o.com)).map fun c => (⟨o.cls, c⟩ : Obj K P U F M)) = some (o.sameWith fx) := by
  obtain ⟨⟨n, h1, h2⟩, _⟩ := hi
  rw [make_copy cs fx s kw o.com n h1]
  · rfl
  · by_cases hf : o.com.fixed = none
    · exact .inl hf
    · right
      rcases h2 with h2 | h2 | h2
      · exact absurd h2 hf
      · exact hs n hf h2
      · rcases hu with hu | hu
        · exact absurd hu hf
        · exact absurd h2 hu

theorem copy_same (cs : Consts K P U F) (fx : Fixer K M) (o : Obj K P U F M) (hi : Inv cs o) (hc : Copyable o) :
    copy cs fx o = some (o.sameWith fx) := by
  obtain ⟨cls, com⟩ := o
  have hcl := hi.cls
  cases cls with
  | bsplines k n e =>
      simp only [Copyable] at hc
      subst hc
      simp only [copy, copyCall, init, Option.map_some]
      exact mk_copy cs fx _ _ _ hi (.inr (by simp)) (by intro n _ h; simp [clsNp] at h)
  | basicSplines k n b ba =>
      simp only [copy, copyCall, init, Option.map_some, Option.bind_some]
      refine mk_copy cs fx _ _ _ hi (.inr (by simp)) ?_
      intro m hf h
      simp only [clsNp, Option.some.injEq] at h
      simp only [Option.getD_none, List.length_replicate]
      subst h
      simp only [Copyable] at hc
      unfold basicNp
      rcases hc with hc | hc | hc
      · split <;> omega
      · simp [hc]
      · exact absurd hc hf
  | football a b =>
      simp only [clsInv] at hcl
      simp only [copy, copyCall, init, Option.map_some]
      rw [if_neg (by omega)]
      exact mk_copy cs fx _ _ _ hi (.inr (by simp)) (by intro n _ h; simp [clsNp] at h ⊢; omega)
  | harmonicDynamic a b c d e =>
      simp only [Copyable] at hc
      simp only [copy, copyCall, init, Option.map_some]
      rw [if_neg (by simp), if_neg (by simp [outside]; omega)]
      exact mk_copy cs fx _ _ _ hi (.inr (by simp)) (by intro n _ h; simp [clsNp] at h)
  | polynomialDynamic a b c d =>
      simp only [copy, copyCall, init, Option.map_some]
      rw [if_neg (by simp), if_neg (by simp [outside])]
      exact mk_copy cs fx _ _ _ hi (.inr (by simp)) (by intro n _ h; simp [clsNp] at h)
  | kernel2d f s =>
      simp only [clsInv] at hcl
      simp only [copy, copyCall, init, Option.map_some]
      refine mk_copy cs fx _ _ _ hi (.inr (by simp)) ?_
      intro m hf h
      simp only [clsNp, Option.some.injEq] at h
      simp [hcl, h]
  | pade a b =>
      simp only [copy, copyCall, init, Option.map_some]
      refine mk_copy cs fx _ _ _ hi (.inr (by simp)) ?_
      intro m hf h
      simp only [clsNp, Option.some.injEq] at h
      simp; omega
  | sinc k =>
      simp only [clsInv] at hcl
      subst hcl
      simp only [copy, copyCall, init, Option.map_some]
      refine mk_copy cs fx _ _ _ hi (.inr (by simp)) ?_
      intro m hf h
      simp only [clsNp, Option.some.injEq] at h
      simp; omega
  | splinesDynamic k n b ba mn mx md g mo dy =>
      simp only [Copyable] at hc
      obtain ⟨h2, rfl, h3⟩ := hc
      simp only [copy, copyCall, init, Option.map_some, Option.bind_some]
      rw [if_neg (by simp [outside]; omega)]
      refine mk_copy cs fx _ _ _ hi (.inr (by simp)) ?_
      intro m hf h
      simp only [clsNp, Option.some.injEq] at h
      simp only [Option.getD_none, List.length_replicate]
      subst h
      unfold basicNp
      rcases h3 with hc | hc
      · simp; omega
      · exact absurd hc hf
  | exp b =>
      simp only [copy, copyCall, init, Option.map_some]
      refine mk_copy cs fx _ _ _ hi (.inr (by simp)) ?_
      intro m hf h
      simp only [clsNp, Option.some.injEq] at h
      simp; omega
  | sine b =>
      simp only [copy, copyCall, init, Option.map_some]
      refine mk_copy cs fx _ _ _ hi (.inr (by simp)) ?_
      intro m hf h
      simp only [clsNp, Option.some.injEq] at h
      simp; omega
  | softMax a b c =>
      simp only [copy, copyCall, init, Option.map_some]
      refine mk_copy cs fx _ _ _ hi (.inr (by simp)) ?_
      intro m hf h
      simp only [clsNp, Option.some.injEq] at h
      simp; omega
  | user a b c d =>
      simp only [Copyable] at hc
      simp only [copy, copyCall, init, Option.map_some]
      exact mk_copy cs fx _ _ _ hi (.inl hc) (by intro n _ h; simp [clsNp] at h)
  | _ =>
      simp only [copy, copyCall, init, Option.map_some]
      first
      | (rw [if_neg (by simp)]
         exact mk_copy cs fx _ _ _ hi (.inr (by simp)) (by intro n _ h; simp [clsNp] at h))
      | (refine mk_copy cs fx _ _ _ hi (.inr (by simp)) ?_
         intro m hf h
         simp only [clsNp, Option.some.injEq, reduceCtorEq] at h
         try (simp; omega))

/-! ## Copies have everything -/

/-- A copy of a model has everything the model has: its class and settings, its parameters, standard deviations, priors,
names, units, fixed parameters and all the rest; models that stand for fixed parameters are replaced by copies. This is
so for every model that can be made, whatever has been done with it since, except for those that are not `Copyable`. -/
theorem C114_copy_partial (cs : Consts K P U F) (fx : Fixer K M) (call : Call K P F) (kw : Kw K M)
    (o o' : Obj K P U F M) (as : List (Act K P U)) (h : init cs fx call kw none = some o) (ha : acts o as = some o')
    (hc : Copyable o') : copy cs fx o' = some (o'.sameWith fx) :=
  copy_same cs fx o' (inv_acts cs as o o' (inv_init cs fx call kw o h) ha) hc

/-! ### Examples -/

/-- Numbers for the examples. -/
def consts : Consts ℤ ℕ Unit ℕ :=
  { invPi := 3, twoInvPi := 6, minusOne := -1, half := 5, unit := (), deltaP := [1], tiny := 1, kernelAmp := fun _ => 7
    kernelAmp2d := fun _ => 8, two := 2, gauss := 0, sinc := 1, expPrior := 2, uniPrior := fun a b => a + b }

/-- Models with one parameter for the examples: `n` is the value of it, a copy has the same. -/
def fixer : Fixer ℤ ℤ := { np := fun _ => 1, pars := fun n => [n], names := fun _ => ["q"], copy := id }

theorem parlistOf_eq (npb : ℕ) (d : Dict K M) (h : ∀ kv ∈ d, kv.1 < npb) :
    parlistOf npb d = (List.range npb).filter fun k => decide (k ∉ d.map Prod.fst) := by
  unfold parlistOf
  rw [BF.Fixed.setxor_eq]
  intro i hi
  obtain ⟨kv, hkv, rfl⟩ := List.mem_map.1 hi
  exact h kv hkv

/-- A gauss with a fixed center, a prior and other parameters. -/
example : ∃ o o', init (M := ℤ) consts fixer .gauss { fixed := some [(1, .inl 4)] } none = some o ∧
    acts o [.parameters [2, 3], .priors (some [7])] = some o' ∧ Copyable o' ∧
    o'.com.parNames = ["amplitude", "width"] ∧ o'.com.parameters = some [2, 3] ∧ o'.com.parlist = some [0, 2] ∧
    copy consts fixer o' = some (o'.sameWith fixer) := by
  have hp : parlistOf 3 ([(1, .inl 4)] : Dict ℤ ℤ) = [0, 2] := by
    rw [parlistOf_eq _ _ (by simp)]
    decide
  have h1 : ∃ o, init (M := ℤ) consts fixer .gauss { fixed := some [(1, .inl 4)] } none = some o ∧
      o.com.npchain = 2 ∧ o.com.parNames = ["amplitude", "width"] ∧ o.com.parlist = some [0, 2] ∧ o.cls = .gauss := by
    simp [init, make, modelInit, fixedNew, nparOf, selectNames, mlistOf, hp, select, gather]
  obtain ⟨o, ho, hn, hnm, hpl, hcl⟩ := h1
  have h2 : acts o [.parameters [2, 3], .priors (some [7])] =
      some { o with com := { o.com with parameters := some [2, 3], priors := some [7] } } := by
    simp [acts, act, hn]
  refine ⟨o, _, ho, h2, ?_, hnm, rfl, hpl, ?_⟩
  · simp [Copyable, hcl]
  · exact C114_copy_partial consts fixer .gauss _ o _ _ ho h2 (by simp [Copyable, hcl])

/-! ## Copies that are different, or fail -/

/-- The copy of a B-splines model has `eps = 0`, whatever `eps` the model has. -/
theorem C114_counterexample_eps (cs : Consts K P U F) (fx : Fixer K M) (knots : List K) (order : ℕ) (kw : Kw K M)
    (o o' : Obj K P U F M) (e : K) (h : init cs fx (.bsplines (some knots) order) kw none = some o)
    (he : act o (.eps e) = some o') :
    o'.cls = .bsplines knots order e ∧ ∃ c, copy cs fx o' = some c ∧ c.cls = .bsplines knots order 0 := by
  have hi := inv_act cs o o' _ (inv_init cs fx _ kw o h) he
  have ho : o.cls = .bsplines knots order 0 := by
    simp only [init, Option.map_none, Option.bind_some] at h
    split at h
    · simp at h
    · rw [Option.map_eq_some_iff] at h
      obtain ⟨c, _, rfl⟩ := h
      rfl
  simp only [act, ho, Option.some.injEq] at he
  subst he
  refine ⟨rfl, ?_⟩
  have h2 : Inv cs (⟨.bsplines knots order 0, o.com⟩ : Obj K P U F M) := by
    obtain ⟨⟨n, h1, h2⟩, _⟩ := hi
    exact ⟨⟨n, h1, by simpa [clsNp] using h2⟩, trivial⟩
  have h3 := copy_same cs fx _ h2 (by simp [Copyable])
  exact ⟨Obj.sameWith ⟨.bsplines knots order 0, o.com⟩ fx, h3, rfl⟩

/-- A harmonic dynamic model of order 0 (allowed when `minOrder=0`, and reached by shrinking) has no copy: the
constructor takes 1 for the minimum. -/
theorem C114_counterexample_order (cs : Consts K P U F) (fx : Fixer K M) (period : K) (kw : Kw K M)
    (hk : kw.fixed = none) :
    ∃ o : Obj K P U F M, init cs fx (.harmonicDynamic 0 period (minOrder := 0)) kw none = some o ∧
      copy cs fx o = none := by
  have h : ∃ o : Obj K P U F M, init cs fx (.harmonicDynamic 0 period (minOrder := 0)) kw none = some o ∧
      o.cls = .harmonicDynamic 0 period 0 none cs.expPrior := by
    simp [init, make, modelInit, fixedNew, hk, outside, select, growOf]
  obtain ⟨o, ho, hc⟩ := h
  refine ⟨o, ho, ?_⟩
  simp [copy, copyCall, hc, init, outside]

/-- A model with a function of the user and a fixed parameter has no copy, unless the fixed ones are the last: the
constructor is called with the number of free parameters. Here the first one is fixed. -/
theorem C114_counterexample_user (cs : Consts K P U F) (fx : Fixer K M) (n : ℕ) (f p d : F) (v : K) :
    ∃ o : Obj K P U F M, init cs fx (.user (n + 2) f (partials := some p) (derivative := some d))
      { fixed := some [(0, .inl v)] } none = some o ∧ copy cs fx o = none := by
  have hp : parlistOf (n + 2) ([(0, .inl v)] : Dict K M) = (List.range (n + 1)).map (· + 1) := by
    rw [parlistOf_eq _ _ (by simp)]
    simp only [List.map_cons, List.map_nil, List.mem_singleton]
    rw [List.range_succ_eq_map, List.filter_cons]
    simp only [not_true_eq_false, decide_false, Bool.false_eq_true, if_false]
    rw [List.filter_eq_self.2]
    intro a ha
    obtain ⟨b, _, rfl⟩ := List.mem_map.1 ha
    simp
  obtain ⟨r, hr⟩ := (gather_isSome (List.replicate (n + 2) (0 : K)) ((List.range (n + 1)).map (· + 1))).2 (by
    intro k hk
    obtain ⟨b, hb, rfl⟩ := List.mem_map.1 hk
    simp only [List.mem_range] at hb
    simp; omega)
  have h : ∃ o : Obj K P U F M, init cs fx (.user (n + 2) f (partials := some p) (derivative := some d))
      { fixed := some [(0, .inl v)] } none = some o ∧ o.cls = .user f p d "unknown" ∧ o.com.npchain = n + 1 ∧
      o.com.fixed = some (n + 2, [(0, .inl v)]) ∧ o.com.mlist = [] := by
    simp [init, make, modelInit, fixedNew, nparOf, mlistOf, select, hp, hr]
  obtain ⟨o, ho, hc, hn, hf, hm⟩ := h
  refine ⟨o, ho, ?_⟩
  have h1 : gather (List.replicate (n + 1) (0 : K)) ((List.range (n + 1)).map (· + 1)) = none := by
    rw [Option.eq_none_iff_forall_not_mem]
    intro r hr
    have := (gather_isSome (List.replicate (n + 1) (0 : K)) ((List.range (n + 1)).map (· + 1))).1 ⟨r, hr⟩ (n + 1)
      (by simp)
    simp at this
  simp [copy, copyCall, hc, init, make, modelInit, fixedCopy, hf, hm, hn, copyFixed, select, hp, h1]

/-- Basic splines of the fourth order or higher with the first parameter fixed have no copy: the order is not passed on
to the constructor, so that it takes too few parameters. -/
theorem C114_counterexample_basic (cs : Consts K P U F) (fx : Fixer K M) (knots : List K) (hk : knots ≠ []) (order : ℕ)
    (ho : 4 ≤ order) (v : K) :
    ∃ o : Obj K P U F M, init cs fx (.basicSplines (some knots) order) { fixed := some [(0, .inl v)] } none = some o ∧
      copy cs fx o = none := by
  have hl : 1 ≤ knots.length := by
    cases knots with
    | nil => exact absurd rfl hk
    | cons a l => simp
  obtain ⟨n, hn⟩ : ∃ n, basicNp knots order 0 = n + 2 := ⟨basicNp knots order 0 - 2, by simp [basicNp]; omega⟩
  have hn3 : basicNp knots 3 0 < n + 2 := by
    rw [← hn]; simp [basicNp]; omega
  have hp : parlistOf (n + 2) ([(0, .inl v)] : Dict K M) = (List.range (n + 1)).map (· + 1) := by
    rw [parlistOf_eq _ _ (by simp)]
    simp only [List.map_cons, List.map_nil, List.mem_singleton]
    rw [List.range_succ_eq_map, List.filter_cons]
    simp only [not_true_eq_false, decide_false, Bool.false_eq_true, if_false]
    rw [List.filter_eq_self.2]
    intro a ha
    obtain ⟨b, _, rfl⟩ := List.mem_map.1 ha
    simp
  obtain ⟨r, hr⟩ := (gather_isSome (List.replicate (n + 2) (0 : K)) ((List.range (n + 1)).map (· + 1))).2 (by
    intro k hk
    obtain ⟨b, hb, rfl⟩ := List.mem_map.1 hk
    simp only [List.mem_range] at hb
    simp; omega)
  have h : ∃ o : Obj K P U F M, init cs fx (.basicSplines (some knots) order) { fixed := some [(0, .inl v)] } none = some o ∧
      o.cls = .basicSplines knots order 0 (knots, order, 0) ∧
      o.com.fixed = some (n + 2, [(0, .inl v)]) ∧ o.com.mlist = [] := by
    simp [init, make, modelInit, fixedNew, nparOf, mlistOf, select, hn, hp, hr]
  obtain ⟨o, ho, hc, hf, hm⟩ := h
  refine ⟨o, ho, ?_⟩
  have h1 : gather (List.replicate (basicNp knots 3 0) (0 : K)) ((List.range (n + 1)).map (· + 1)) = none := by
    rw [Option.eq_none_iff_forall_not_mem]
    intro r hr
    have := (gather_isSome (List.replicate (basicNp knots 3 0) (0 : K)) ((List.range (n + 1)).map (· + 1))).1 ⟨r, hr⟩ (n + 1)
      (by simp)
    simp only [List.length_replicate] at this
    omega
  simp [copy, copyCall, hc, init, make, modelInit, fixedCopy, hf, hm, copyFixed, select, hp, h1]

/-- The copy of a periodic splines model with variable knots is not periodic any more, while its basis is. -/
theorem C114_counterexample_border (cs : Consts K P U F) (fx : Fixer K M) (knots : List K) (hk : 2 ≤ knots.length)
    (order border : ℕ) (hb : border ≠ 0) :
    ∃ o c : Obj K P U F M, init cs fx (.splinesDynamic (some knots) order border) {} none = some o ∧
      o.cls = .splinesDynamic knots order border (knots, order, border) 2 none 0 cs.expPrior true true ∧
      copy cs fx o = some c ∧
      c.cls = .splinesDynamic knots order 0 (knots, order, border) 2 none 0 cs.expPrior true true := by
  have h : ∃ o : Obj K P U F M, init cs fx (.splinesDynamic (some knots) order border) {} none = some o ∧
      o.cls = .splinesDynamic knots order border (knots, order, border) 2 none 0 cs.expPrior true true ∧
      o.com.fixed = none := by
    have : ¬ outside knots.length 2 none := by simp [outside]; omega
    simp [init, make, modelInit, fixedNew, select, growOf, this]
  obtain ⟨o, ho, hc, hf⟩ := h
  have hout : ¬ outside knots.length 2 none := by simp [outside]; omega
  simp only [ho, Option.some.injEq, copy, copyCall]
  refine ⟨o, ⟨.splinesDynamic knots order 0 (knots, order, border) 2 none 0 cs.expPrior true true,
      (make cs fx { nparams := basicNp knots 3 0 } {} (some o.com)).getD o.com⟩, rfl, hc, ?_, ?_⟩
  · simp [hc, init, hout, make, modelInit, fixedCopy, hf, select]
  · rfl

/-- A model as fixed value in a 2-d kernel: the number of parameters of the model that is handed to the base class is
less than the number of parameters it has, so that it can not be evaluated. -/
theorem C22_counterexample_kernel2d (cs : Consts K P U F) (fx : Fixer K M) (m : M) (hm : 1 ≤ fx.np m)
    (hl : (fx.pars m).length = fx.np m) :
    ∃ o : Obj K P U F M, ∃ p, init cs fx .kernel2d { fixed := some [(0, .inr m)] } none = some o ∧
      o.com.parameters = some p ∧ o.com.npchain = p.length ∧ p.length = 3 + fx.np m ∧ o.com.npbase = 3 := by
  have hp : parlistOf (4 + fx.np m) ([(0, .inr m)] : Dict K M) = (List.range (3 + fx.np m)).map (· + 1) := by
    rw [parlistOf_eq _ _ (by simp)]
    simp only [List.map_cons, List.map_nil, List.mem_singleton]
    rw [show 4 + fx.np m = (3 + fx.np m) + 1 by omega, List.range_succ_eq_map, List.filter_cons]
    simp only [not_true_eq_false, decide_false, Bool.false_eq_true, if_false]
    rw [List.filter_eq_self.2]
    intro a ha
    obtain ⟨b, _, rfl⟩ := List.mem_map.1 ha
    simp
  have hq : ((List.range (3 + fx.np m)).map (· + 1)).filter (fun k => decide (k < 4)) = [1, 2, 3] := by
    rw [List.range_add]
    simp [List.range_succ, List.filter_map, Function.comp_def]
  simp [init, make, modelInit, fixedNew, nparOf, mlistOf, selectNames, select, hp, hq, gather, modelPars, hl]
  omega

example : fixer.np 4 = 1 ∧ (fixer.pars 4).length = fixer.np 4 := ⟨rfl, rfl⟩

/-! ## Repeating models -/

/-- A copy of a dynamic repeating model has everything it has, also after it has grown or shrunk. -/
theorem C114_repeating (cs : Consts K P U F) (ncomp model mn : ℕ) (mx : Option ℕ) (same : Option (List ℕ))
    (grow : Option P) (r : Rep P) (n : ℕ) (h : repInit cs ncomp model mn mx same grow = some r)
    (hm : ∀ m, mx = some m → mn < m) : repCopy cs { r with ncomp := n } = some { r with ncomp := n } := by
  have hd : (mx.all fun m => decide (mn < m)) = true := by
    cases mx with
    | none => rfl
    | some m => simpa using hm m rfl
  simp only [repInit] at h
  split at h
  · simp at h
  · simp only [hd, Bool.and_self, if_true, Option.some.injEq] at h
    subst h
    simp [repCopy, repInit, outside]

example : ∃ r, repInit consts 2 0 1 (some 4) (some [2]) none = some r ∧ (1 < 4) := ⟨_, rfl, by decide⟩

/-- A repeating model that is not dynamic (`dynamic=False`, or `minComp` equal to `maxComp`) can not be copied: the
copy asks for its grow prior, which it does not have. -/
theorem C114_counterexample_static (cs : Consts K P U F) (ncomp model mn : ℕ) (mx : Option ℕ) (same : Option (List ℕ))
    (grow : Option P) (dyn : Bool) (r : Rep P) (h : repInit cs ncomp model mn mx same grow dyn = some r)
    (hs : dyn = false ∨ mx = some mn) : r.isDyna = false ∧ repCopy cs r = none := by
  have hd : (dyn && (mx.all fun m => decide (mn < m))) = false := by
    rcases hs with rfl | rfl
    · rfl
    · simp
  simp only [repInit] at h
  split at h
  · simp at h
  · simp only [hd, Bool.false_eq_true, if_false, Option.some.injEq] at h
    subst h
    refine ⟨rfl, ?_⟩
    simp only [repCopy, repInit]
    split <;> rfl

example : ∃ r, repInit consts 2 0 2 (some 2) none none true = some r := ⟨_, rfl⟩

/-! ## Combined models -/

/-- The copy of a combined model has the connections of the original. The parameters are those with which the model was
made, not the present ones (`p`), and what came behind it in a chain (`rest`) is gone. -/
theorem C114_counterexample_combi (q : List K) (n : ℕ) (d : BF.Combi.Combined K) (c : Comb K)
    (h : combInit [q] n false d = some c) (p : List K) (rest : List String) :
    combCopy none { c with parameters := p, rest := rest } = some c := by
  have h2 := h
  simp only [combInit, Option.map_eq_some_iff] at h2
  obtain ⟨r, hr, rfl⟩ := h2
  simp only [combCopy, List.take]
  rw [← h]
  simp

/-- Two gaussians with a common width. -/
def twoGauss : BF.Combi.Combined ℤ := ⟨[2, 5], [0, 0], [], [], [0, 1, 2, 3, 4, 2], [0, 1, 2, 3, 4]⟩

example : combInit [[1, 0, 1]] 2 false twoGauss = some ⟨[[1, 0, 1]], 2, false, twoGauss, [1, 0, 1, 1, 0], []⟩ := by
  rfl

/-- A combined model of a chain can not be copied: the copy takes the first model of the chain only. -/
theorem C114_counterexample_combi_chain (a b : List K) (hb : b ≠ []) (n : ℕ) (hn : 1 ≤ n) (d : BF.Combi.Combined K)
    (hd : n * (a.length + b.length) - 1 ∈ d.select) (c : Comb K) (h : combInit [a, b] n false d = some c) :
    combCopy (some false) c = none := by
  simp only [combInit, Option.map_eq_some_iff] at h
  obtain ⟨r, hr, rfl⟩ := h
  simp only [combCopy, combInit, List.take]
  rw [Option.map_eq_none_iff, Option.eq_none_iff_forall_not_mem]
  intro r hr
  have := (gather_isSome _ _).1 ⟨r, hr⟩ _ hd
  have hbl : 1 ≤ b.length := by
    cases b with
    | nil => exact absurd rfl hb
    | cons a l => simp
  simp at this
  rw [Nat.mul_add] at this
  have h1 : n * 1 ≤ n * b.length := Nat.mul_le_mul_left n hbl
  omega

/-! ## Priors -/

/-- The list with another prior for parameter `k`, made from the present one: that of `k`, otherwise the last, otherwise
the default. No gaps. -/
def withPrior (dflt : P) (l : List P) (k : ℕ) (f : P → P) : Option (List P) :=
  if k < l.length then some (l.modify k f)
  else if k = l.length then some (l ++ [f (l.getLast?.getD dflt)])
  else none

/-- What the user expects: each model has its own priors. -/
def pstepSpec (dflt : P) (v : List (Option (List P))) : POp P → Option (List (Option (List P)))
  | .new => some (v ++ [none])
  | .copy i => (v[i]?).map fun p => v ++ [p]
  | .set i k f => (v[i]?).bind fun p => (withPrior dflt (p.getD []) k f).map fun l => v.set i (some l)
  | .repeating _ => none

def prunSpec (dflt : P) (v : List (Option (List P))) : List (POp P) → Option (List (Option (List P)))
  | [] => some v
  | a :: as => (pstepSpec dflt v a).bind fun v' => prunSpec dflt v' as

/-- No repeating models. -/
def Plain (ops : List (POp P)) : Prop := ∀ i, POp.repeating i ∉ ops

structure PInv (s : Mem P) (v : List (Option (List P))) : Prop where
  len : v.length = s.objs.length
  plain : ∀ i j : ℕ, s.objs[i]? ≠ some (.repeating j)
  empty : ∀ i : ℕ, s.objs[i]? = some (.model none) → v[i]? = some none
  full : ∀ i a : ℕ, s.objs[i]? = some (.model (some a)) → ∃ l, s.lists[a]? = some l ∧ v[i]? = some (some l)
  own : ∀ i j a : ℕ, s.objs[i]? = some (.model (some a)) → s.objs[j]? = some (.model (some a)) → i = j

theorem PInv.view (s : Mem P) (v : List (Option (List P))) (h : PInv s v) (i : ℕ) (hi : i < v.length) :
    v[i]? = some (s.priors i) := by
  have h1 : i < s.objs.length := h.len ▸ hi
  obtain ⟨o, ho⟩ : ∃ o, s.objs[i]? = some o := ⟨_, List.getElem?_eq_getElem h1⟩
  cases o with
  | repeating j => exact absurd ho (h.plain i j)
  | model p =>
      cases p with
      | none => rw [h.empty i ho]; simp [Mem.priors, ho]
      | some a =>
          obtain ⟨l, hl, hv⟩ := h.full i a ho
          rw [hv]; simp [Mem.priors, ho, hl]

theorem PInv.push (s : Mem P) (v : List (Option (List P))) (h : PInv s v) :
    PInv ⟨s.lists, s.objs ++ [.model none]⟩ (v ++ [none]) := by
  refine ⟨by simp [h.len], ?_, ?_, ?_, ?_⟩
  · intro i j hij
    by_cases hi : i < s.objs.length
    · rw [List.getElem?_append_left hi] at hij; exact h.plain i j hij
    · rw [List.getElem?_append_right (by omega)] at hij
      rcases Nat.eq_zero_or_pos (i - s.objs.length) with h0 | h0
      · rw [h0] at hij; simp at hij
      · rw [List.getElem?_eq_none (by simp only [List.length_singleton]; omega)] at hij; simp at hij
  · intro i hi0
    by_cases hi : i < s.objs.length
    · rw [List.getElem?_append_left hi] at hi0
      rw [List.getElem?_append_left (h.len ▸ hi)]
      exact h.empty i hi0
    · have hlt := (List.getElem?_eq_some_iff.1 hi0).1
      simp only [List.length_append, List.length_singleton] at hlt
      have : i = v.length := by rw [h.len]; omega
      subst this; simp
  · intro i a hi0
    by_cases hi : i < s.objs.length
    · rw [List.getElem?_append_left hi] at hi0
      rw [List.getElem?_append_left (h.len ▸ hi)]
      exact h.full i a hi0
    · have hlt := (List.getElem?_eq_some_iff.1 hi0).1
      simp only [List.length_append, List.length_singleton] at hlt
      have : i = s.objs.length := by omega
      subst this; simp at hi0
  · intro i j a hi0 hj0
    have key : ∀ i : ℕ, (s.objs ++ [PObj.model none])[i]? = some (.model (some a)) → s.objs[i]? = some (.model (some a)) := by
      intro i hi0
      by_cases hi : i < s.objs.length
      · rwa [List.getElem?_append_left hi] at hi0
      · have hlt := (List.getElem?_eq_some_iff.1 hi0).1
        simp only [List.length_append, List.length_singleton] at hlt
        have : i = s.objs.length := by omega
        subst this; simp at hi0
    exact h.own i j a (key i hi0) (key j hj0)

theorem PInv.pushCopy (s : Mem P) (v : List (Option (List P))) (h : PInv s v) (l : List P) :
    PInv ⟨s.lists ++ [l], s.objs ++ [.model (some s.lists.length)]⟩ (v ++ [some l]) := by
  have last : ∀ i : ℕ, ¬ i < s.objs.length → (s.objs ++ [PObj.model (some s.lists.length)])[i]?.isSome →
      i = s.objs.length := by
    intro i hi h0
    obtain ⟨o, ho⟩ := Option.isSome_iff_exists.1 h0
    have hlt := (List.getElem?_eq_some_iff.1 ho).1
    simp only [List.length_append, List.length_singleton] at hlt
    omega
  refine ⟨by simp [h.len], ?_, ?_, ?_, ?_⟩
  · intro i j hij
    by_cases hi : i < s.objs.length
    · rw [List.getElem?_append_left hi] at hij; exact h.plain i j hij
    · have := last i hi (by rw [hij]; rfl)
      subst this; simp at hij
  · intro i hi0
    by_cases hi : i < s.objs.length
    · rw [List.getElem?_append_left hi] at hi0
      rw [List.getElem?_append_left (h.len ▸ hi)]
      exact h.empty i hi0
    · have := last i hi (by rw [hi0]; rfl)
      subst this; simp at hi0
  · intro i a hi0
    by_cases hi : i < s.objs.length
    · rw [List.getElem?_append_left hi] at hi0
      obtain ⟨l', h1, h2⟩ := h.full i a hi0
      have hv : i < v.length := h.len ▸ hi
      refine ⟨l', ?_, by rw [List.getElem?_append_left hv]; exact h2⟩
      dsimp only
      rw [List.getElem?_append_left (List.getElem?_eq_some_iff.1 h1).1]
      exact h1
    · have := last i hi (by rw [hi0]; rfl)
      subst this
      simp only [List.getElem?_concat_length, Option.some.injEq, PObj.model.injEq] at hi0
      subst hi0
      exact ⟨l, by simp, by rw [← h.len]; simp⟩
  · have key : ∀ i a : ℕ, (s.objs ++ [PObj.model (some s.lists.length)])[i]? = some (.model (some a)) →
        (i < s.objs.length ∧ a < s.lists.length ∧ s.objs[i]? = some (.model (some a))) ∨
        (i = s.objs.length ∧ a = s.lists.length) := by
      intro i a hi0
      by_cases hi : i < s.objs.length
      · rw [List.getElem?_append_left hi] at hi0
        obtain ⟨l', h1, h2⟩ := h.full i a hi0
        exact .inl ⟨hi, (List.getElem?_eq_some_iff.1 h1).1, hi0⟩
      · have := last i hi (by rw [hi0]; rfl)
        subst this
        simp only [List.getElem?_concat_length, Option.some.injEq, PObj.model.injEq] at hi0
        exact .inr ⟨rfl, hi0.symm⟩
    intro i j a hi0 hj0
    rcases key i a hi0 with ⟨h1, h2, h3⟩ | ⟨h1, h2⟩ <;> rcases key j a hj0 with ⟨h4, h5, h6⟩ | ⟨h4, h5⟩
    · exact h.own i j a h3 h6
    · omega
    · omega
    · omega

/-- A new list for model `i`. -/
theorem PInv.replace (s : Mem P) (v : List (Option (List P))) (h : PInv s v) (i : ℕ) (hi : i < s.objs.length)
    (l : List P) : PInv ⟨s.lists ++ [l], s.objs.set i (.model (some s.lists.length))⟩ (v.set i (some l)) := by
  have hvi : i < v.length := h.len ▸ hi
  refine ⟨by simp [h.len], ?_, ?_, ?_, ?_⟩
  · intro k j hk
    by_cases hki : i = k
    · subst hki; simp [hi] at hk
    · simp only [List.getElem?_set_ne hki] at hk; exact h.plain k j hk
  · intro k hk
    by_cases hki : i = k
    · subst hki; simp [hi] at hk
    · simp only [List.getElem?_set_ne hki] at hk ⊢; exact h.empty k hk
  · intro k a hk
    by_cases hki : i = k
    · subst hki
      simp only [List.getElem?_set_self hi, Option.some.injEq, PObj.model.injEq] at hk
      subst hk
      exact ⟨l, by simp, by simp [hvi]⟩
    · simp only [List.getElem?_set_ne hki] at hk ⊢
      obtain ⟨l', h1, h2⟩ := h.full k a hk
      refine ⟨l', ?_, h2⟩
      rw [List.getElem?_append_left (List.getElem?_eq_some_iff.1 h1).1]
      exact h1
  · have key : ∀ k a : ℕ, (s.objs.set i (PObj.model (some s.lists.length)))[k]? = some (.model (some a)) →
        (i ≠ k ∧ a < s.lists.length ∧ s.objs[k]? = some (.model (some a))) ∨ (i = k ∧ a = s.lists.length) := by
      intro k a hk
      by_cases hki : i = k
      · subst hki
        simp only [List.getElem?_set_self hi, Option.some.injEq, PObj.model.injEq] at hk
        exact .inr ⟨rfl, hk.symm⟩
      · rw [List.getElem?_set_ne hki] at hk
        obtain ⟨l', h1, h2⟩ := h.full k a hk
        exact .inl ⟨hki, (List.getElem?_eq_some_iff.1 h1).1, hk⟩
    intro k j a hk hj
    rcases key k a hk with ⟨h1, h2, h3⟩ | ⟨h1, h2⟩ <;> rcases key j a hj with ⟨h4, h5, h6⟩ | ⟨h4, h5⟩
    · exact h.own k j a h3 h6
    · omega
    · omega
    · omega

/-- A change in the list of model `i`. -/
theorem PInv.inPlace (s : Mem P) (v : List (Option (List P))) (h : PInv s v) (i a : ℕ)
    (hi : s.objs[i]? = some (.model (some a))) (l : List P) : PInv ⟨s.lists.set a l, s.objs⟩ (v.set i (some l)) := by
  obtain ⟨l0, h1, h2⟩ := h.full i a hi
  have ha := (List.getElem?_eq_some_iff.1 h1).1
  have hv := (List.getElem?_eq_some_iff.1 h2).1
  refine ⟨by simp [h.len], h.plain, ?_, ?_, h.own⟩
  · intro k hk
    by_cases hki : i = k
    · subst hki
      dsimp only at hk
      rw [hi] at hk; simp at hk
    · rw [List.getElem?_set_ne hki]; exact h.empty k hk
  · intro k b hk
    dsimp only at hk
    by_cases hki : i = k
    · subst hki
      rw [hi] at hk
      simp only [Option.some.injEq, PObj.model.injEq] at hk
      subst hk
      exact ⟨l, by simp [ha], by simp [hv]⟩
    · rw [List.getElem?_set_ne hki]
      have hab : a ≠ b := by
        rintro rfl
        exact hki (h.own i k a hi hk)
      dsimp only
      rw [List.getElem?_set_ne hab]
      exact h.full k b hk

/-- `setPrior` against what is expected. -/
theorem setPrior_spec (dflt : P) (s : Mem P) (v : List (Option (List P))) (h : PInv s v) (i k : ℕ) (f : P → P) :
    (∀ s', setPrior dflt s i k f = some s' → ∃ v', pstepSpec dflt v (.set i k f) = some v' ∧ PInv s' v') ∧
    (setPrior dflt s i k f = none → pstepSpec dflt v (.set i k f) = none) := by
  unfold setPrior
  cases ho : s.objs[i]? with
  | none =>
      have hn : v[i]? = none := by
        rw [List.getElem?_eq_none_iff] at ho ⊢
        rw [h.len]; exact ho
      simp [pstepSpec, hn]
  | some o =>
      have hi := (List.getElem?_eq_some_iff.1 ho).1
      cases o with
      | repeating j => exact absurd ho (h.plain i j)
      | model p =>
          cases p with
          | none =>
              have hv := h.empty i ho
              by_cases hk : k > 0
              · simp only [hk, if_true, reduceCtorEq, false_imp_iff, implies_true, true_and]
                have h1 : ¬ k = 0 := by omega
                simp [pstepSpec, hv, withPrior, h1]
              · have h1 : k = 0 := by omega
                subst h1
                simp only [gt_iff_lt, lt_irrefl, if_false, Option.some.injEq, reduceCtorEq, false_imp_iff, and_true]
                rintro s' rfl
                exact ⟨_, by simp [pstepSpec, hv, withPrior], PInv.replace s v h i hi _⟩
          | some a =>
              obtain ⟨l, hl, hv⟩ := h.full i a ho
              simp only [hl, Option.bind_some]
              by_cases hk : k > l.length
              · simp only [hk, if_true, reduceCtorEq, false_imp_iff, implies_true, true_and]
                have h1 : ¬ k < l.length := by omega
                have h2 : ¬ k = l.length := by omega
                simp [pstepSpec, hv, withPrior, h1, h2]
              · rw [if_neg hk]
                by_cases hk2 : k = l.length
                · subst hk2
                  simp only [if_true, Option.some.injEq, reduceCtorEq, false_imp_iff, and_true]
                  rintro s' rfl
                  refine ⟨v.set i (some (l ++ [f (l.getLast?.getD dflt)])), by simp [pstepSpec, hv, withPrior], ?_⟩
                  have : (if l = [] then dflt else (l[l.length]?).getD (l.getLast?.getD dflt)) =
                      l.getLast?.getD dflt := by
                    by_cases hl0 : l = []
                    · subst hl0; rfl
                    · simp [hl0]
                  rw [this]
                  exact PInv.replace s v h i hi _
                · have hlt : k < l.length := by omega
                  simp only [hk2, if_false, Option.some.injEq, reduceCtorEq, false_imp_iff, and_true]
                  rintro s' rfl
                  refine ⟨v.set i (some (l.modify k f)), by simp [pstepSpec, hv, withPrior, hlt], ?_⟩
                  have hl0 : l ≠ [] := by rintro rfl; simp at hlt
                  have : l.set k (f (if l = [] then dflt else (l[k]?).getD (l.getLast?.getD dflt))) = l.modify k f := by
                    rw [if_neg hl0, List.getElem?_eq_getElem hlt, Option.getD_some]
                    apply List.ext_getElem? 
                    intro m
                    rw [List.getElem?_modify]
                    by_cases hm : k = m
                    · subst hm; simp [hlt]
                    · simp [hm, List.getElem?_set_ne hm]
                  rw [this]
                  exact PInv.inPlace s v h i a ho _

theorem pstep_spec (dflt : P) (s : Mem P) (v : List (Option (List P))) (h : PInv s v) (op : POp P)
    (hop : ∀ i, op ≠ .repeating i) :
    (∀ s', pstep dflt s op = some s' → ∃ v', pstepSpec dflt v op = some v' ∧ PInv s' v') ∧
    (pstep dflt s op = none → pstepSpec dflt v op = none) := by
  cases op with
  | new =>
      simp only [pstep, pstepSpec, Option.some.injEq, reduceCtorEq, false_imp_iff, and_true]
      rintro s' rfl
      exact ⟨_, rfl, PInv.push s v h⟩
  | copy i =>
      simp only [pstep, pstepSpec]
      cases ho : s.objs[i]? with
      | none =>
          have hn : v[i]? = none := by
            rw [List.getElem?_eq_none_iff] at ho ⊢
            rw [h.len]; exact ho
          simp [hn]
      | some o =>
          cases o with
          | repeating j => exact absurd ho (h.plain i j)
          | model p =>
              cases p with
              | none =>
                  simp only [h.empty i ho, Option.map_some, Option.some.injEq, reduceCtorEq, false_imp_iff, and_true]
                  rintro s' rfl
                  exact ⟨_, rfl, PInv.push s v h⟩
              | some a =>
                  obtain ⟨l, hl, hv⟩ := h.full i a ho
                  simp only [hl, hv, Option.map_some, Option.some.injEq, reduceCtorEq, false_imp_iff, and_true]
                  rintro s' rfl
                  exact ⟨_, rfl, PInv.pushCopy s v h l⟩
  | set i k f =>
      have h1 : pstep dflt s (.set i k f) = setPrior dflt s i k f := by
        simp only [pstep]
        split
        · rename_i j hj
          exact absurd hj (h.plain i j)
        · rfl
      rw [h1]
      exact setPrior_spec dflt s v h i k f
  | repeating i => exact absurd rfl (hop i)

theorem prun_spec (dflt : P) : ∀ (ops : List (POp P)) (s : Mem P) (v : List (Option (List P))), PInv s v → Plain ops →
    (∀ s', prun dflt s ops = some s' → ∃ v', prunSpec dflt v ops = some v' ∧ PInv s' v') ∧
    (prun dflt s ops = none → prunSpec dflt v ops = none)
  | [], s, v, h, _ => by
      simp only [prun, prunSpec, Option.some.injEq, reduceCtorEq, false_imp_iff, and_true]
      rintro s' rfl
      exact ⟨v, rfl, h⟩
  | op :: ops, s, v, h, hp => by
      have h1 := pstep_spec dflt s v h op (fun i hi => hp i (by simp [hi]))
      have hp2 : Plain ops := fun i hi => hp i (by simp [hi])
      simp only [prun, prunSpec]
      cases hs : pstep dflt s op with
      | none => simp [h1.2 hs]
      | some s1 =>
          obtain ⟨v1, hv1, hi1⟩ := h1.1 s1 hs
          simp only [hv1, Option.bind_some]
          exact prun_spec dflt ops s1 v1 hi1 hp2

/-- Priors of models and copies do not influence each other. Whatever sequence of new models, copies and changes of
priors: each model has the priors that were set on itself, and on what it is a copy of before it was copied. A call
fails exactly when a prior would come beyond the end of the list or the model does not exist. -/
theorem C114_priors (dflt : P) (ops : List (POp P)) (h : Plain ops) :
    (∀ s, prun dflt ⟨[], []⟩ ops = some s → ∃ v, prunSpec dflt [] ops = some v ∧ v.length = s.objs.length ∧
      ∀ i : ℕ, i < v.length → v[i]? = some (s.priors i)) ∧
    (prun dflt ⟨[], []⟩ ops = none → prunSpec dflt [] ops = none) := by
  have h0 : PInv (⟨[], []⟩ : Mem P) [] := ⟨rfl, by simp, by simp, by simp, by simp⟩
  obtain ⟨h1, h2⟩ := prun_spec dflt ops ⟨[], []⟩ [] h0 h
  refine ⟨?_, h2⟩
  intro s hs
  obtain ⟨v, hv, hi⟩ := h1 s hs
  exact ⟨v, hv, hi.len, fun i hi' => PInv.view s v hi i hi'⟩

/-- A model, a copy, and priors for both. -/
example : ∃ s : Mem ℕ, prun 0 ⟨[], []⟩ [.new, .set 0 0 (fun _ => 5), .copy 0, .set 1 0 (· + 1), .set 0 1 (· + 3)] = some s ∧
    s.priors 0 = some [5, 8] ∧ s.priors 1 = some [6] := ⟨_, rfl, rfl, rfl⟩

/-- For repeating models this is not so: the copy has the same model inside, and a prior that is set on the copy is a
prior of the original. -/
theorem C114_counterexample_priors :
    ∃ s t : Mem ℕ, prun 0 ⟨[], []⟩ [.new, .set 0 0 (fun _ => 5), .repeating 0, .copy 1] = some s ∧
      s.priors 1 = some [5] ∧ s.priors 2 = some [5] ∧ pstep 0 s (.set 2 0 fun _ => 6) = some t ∧
      t.priors 1 = some [6] ∧ t.priors 2 = some [6] := ⟨_, _, rfl, rfl, rfl, rfl, rfl, rfl⟩

end BF.Copies
