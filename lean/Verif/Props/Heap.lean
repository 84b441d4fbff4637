import Verif.Heap
import Mathlib.Tactic.Ring
import Mathlib.Data.List.Nodup
import Mathlib.Data.List.Lattice

/-!
# C21: combining models leaves the operands as they were

The specification is that models are values: an operator makes a new value from two others. Programs that make, copy,
combine and assign do with the objects in memory what they would do with values.
-/

namespace BF.Heap

variable {K : Type}

/-! ## Specification -/

mutual
/-- A model in a chain. -/
inductive VNode (K : Type)
  | base (b : Base K)
  | brackets (first : Base K) (rest : VRest K) (pars : List K)
/-- The rest of a chain. -/
inductive VRest (K : Type)
  | nil
  | cons (op : Op) (m : VNode K) (r : VRest K)
end

mutual
def VNode.np : VNode K → ℕ
  | .base b => b.dflt.length
  | .brackets b r _ => b.dflt.length + r.np
def VRest.np : VRest K → ℕ
  | .nil => 0
  | .cons _ m r => m.np + r.np
end

/-- A model as a value: the first base model, what is combined with it, and the parameters. -/
structure Val (K : Type) where
  first : Base K
  rest : VRest K
  pars : List K

def Val.np (v : Val K) : ℕ := v.first.dflt.length + v.rest.np

def VRest.snoc : VRest K → Op → VNode K → VRest K
  | .nil, op, m => .cons op m .nil
  | .cons o n r, op, m => .cons o n (r.snoc op m)

/-- As the operand of an operator: in brackets when it is more than one model. -/
def Val.asNode (v : Val K) : VNode K :=
  match v.rest with
  | .nil => .base v.first
  | .cons _ _ _ => .brackets v.first v.rest v.pars

/-- Combine two values. -/
def Val.combine (v : Val K) (op : Op) (w : Val K) : Val K :=
  ⟨v.first, v.rest.snoc op w.asNode, v.pars ++ w.pars⟩

/-- What a command does with values. A model that has been put into another one in place is no longer available
(`none`). Parameters can only be replaced by as many. -/
def vstep (vs : List (Option (Val K))) : Cmd K → Option (List (Option (Val K)))
  | .new b => some (vs ++ [some ⟨b, .nil, b.dflt⟩])
  | .copy i => (vs[i]?.join).bind fun v => some (vs ++ [some v])
  | .binary i j op => (vs[i]?.join).bind fun v => (vs[j]?.join).bind fun w => some (vs ++ [some (v.combine op w)])
  | .inplace i j op => (vs[i]?.join).bind fun v => (vs[j]?.join).bind fun w =>
      if i = j then none else some ((vs.set i (some (v.combine op w))).set j none)
  | .setPars i p => (vs[i]?.join).bind fun v =>
      if p.length = v.np then some (vs.set i (some { v with pars := p })) else none

def vrun (vs : List (Option (Val K))) : List (Cmd K) → Option (List (Option (Val K)))
  | [] => some vs
  | c :: cs => (vstep vs c).bind fun vs' => vrun vs' cs

mutual
/-- What one sees of a model in a chain, following the links. -/
def seeNode : ℕ → Mem K → ℕ → Option (VNode K)
  | 0, _, _ => none
  | f + 1, h, a => (h[a]?).bind fun o =>
      match o.kind with
      | .base b => some (.base b)
      | .brackets i => (h[i]?).bind fun oi =>
          match oi.kind with
          | .brackets _ => none
          | .base b => (seeRest f h oi.next).bind fun r => oi.pars.bind fun p => some (.brackets b r p)
def seeRest : ℕ → Mem K → Option ℕ → Option (VRest K)
  | 0, _, _ => none
  | _ + 1, _, none => some .nil
  | f + 1, h, some a => (h[a]?).bind fun o =>
      (seeNode f h a).bind fun m => (seeRest f h o.next).bind fun r => some (.cons o.op m r)
end

/-- What one sees of the model at an address: the structure and the parameters. -/
def see (f : ℕ) (h : Mem K) (a : ℕ) : Option (Val K) :=
  (h[a]?).bind fun o =>
    match o.kind with
    | .brackets _ => none
    | .base b => (seeRest f h o.next).bind fun r => o.pars.bind fun p => some ⟨b, r, p⟩

/-- `model.npars`: `Model.py` 249-250. -/
def npars (h : Mem K) (a : ℕ) : Option ℕ := (h[a]?).bind fun o => (h[o.head]?).map fun oh => oh.npchain

/-! ## Representation -/

mutual
/-- The object at `a` is that model; the objects it consists of are `F`. -/
def RepNode (h : Mem K) (a : ℕ) : VNode K → List ℕ → Prop
  | .base b, F => F = [a] ∧ ∃ o, h[a]? = some o ∧ o.kind = .base b ∧ o.np = b.dflt.length
  | .brackets b r p, F => ∃ i F2 o oi, F = a :: i :: F2 ∧ h[a]? = some o ∧ o.kind = .brackets i ∧
      o.np = b.dflt.length + r.np ∧ h[i]? = some oi ∧ oi.kind = .base b ∧ oi.np = b.dflt.length ∧ oi.head = i ∧
      oi.pars = some p ∧ oi.npchain = b.dflt.length + r.np ∧ p.length = b.dflt.length + r.np ∧ RepRest h i oi.next r F2
def RepRest (h : Mem K) (hd : ℕ) (nx : Option ℕ) : VRest K → List ℕ → Prop
  | .nil, F => nx = none ∧ F = []
  | .cons op m r, F => ∃ a o F1 F2, nx = some a ∧ F = F1 ++ F2 ∧ h[a]? = some o ∧ o.op = op ∧ o.head = hd ∧
      o.pars = none ∧ RepNode h a m F1 ∧ RepRest h hd o.next r F2
end

/-- A chain from the head at `a` on, with parameters `p`. -/
def RepChain (h : Mem K) (a : ℕ) (b : Base K) (r : VRest K) (p : List K) (F : List ℕ) : Prop :=
  ∃ o F2, F = a :: F2 ∧ h[a]? = some o ∧ o.kind = .base b ∧ o.np = b.dflt.length ∧ o.head = a ∧ o.pars = some p ∧
    RepRest h a o.next r F2

/-- The model at `a` is that value. -/
def RepVal (h : Mem K) (a : ℕ) (v : Val K) (F : List ℕ) : Prop :=
  RepChain h a v.first v.rest v.pars F ∧ (∀ o, h[a]? = some o → o.npchain = v.np) ∧ v.pars.length = v.np

mutual
theorem RepNode.frame {h h' : Mem K} : (m : VNode K) → ∀ {a F}, RepNode h a m F → (∀ i ∈ F, h'[i]? = h[i]?) →
    RepNode h' a m F
  | .base b, a, F, hr, hf => by
    obtain ⟨rfl, o, h1, h2⟩ := hr
    exact ⟨rfl, o, by rw [hf a (by simp), h1], h2⟩
  | .brackets b r p, a, F, hr, hf => by
    obtain ⟨i, F2, o, oi, rfl, h1, h2, h3, h4, h5, h6, h7, h8, h9, h10, h11⟩ := hr
    exact ⟨i, F2, o, oi, rfl, by rw [hf a (by simp), h1], h2, h3, by rw [hf i (by simp), h4], h5, h6, h7, h8, h9, h10,
      RepRest.frame r h11 (fun j hj => hf j (by simp [hj]))⟩
theorem RepRest.frame {h h' : Mem K} : (r : VRest K) → ∀ {hd nx F}, RepRest h hd nx r F → (∀ i ∈ F, h'[i]? = h[i]?) →
    RepRest h' hd nx r F
  | .nil, hd, nx, F, hr, _ => hr
  | .cons op m r, hd, nx, F, hr, hf => by
    obtain ⟨a, o, F1, F2, h1, rfl, h3, h4, h5, h6, h7, h8⟩ := hr
    have ha : a ∈ F1 := by
      cases m with
      | base b => obtain ⟨rfl, _⟩ := h7; simp
      | brackets b r p => obtain ⟨i, F2, o, oi, rfl, _⟩ := h7; simp
    exact ⟨a, o, F1, F2, h1, rfl, by rw [hf a (by simp [ha]), h3], h4, h5, h6,
      RepNode.frame m h7 (fun j hj => hf j (by simp [hj])), RepRest.frame r h8 (fun j hj => hf j (by simp [hj]))⟩
end

theorem RepNode.self_mem {h : Mem K} {a : ℕ} {m : VNode K} {F : List ℕ} (hr : RepNode h a m F) : a ∈ F := by
  cases m with
  | base b => obtain ⟨rfl, _⟩ := hr; simp
  | brackets b r p => obtain ⟨i, F2, o, oi, rfl, _⟩ := hr; simp

mutual
theorem RepNode.lt {h : Mem K} : (m : VNode K) → ∀ {a F}, RepNode h a m F → ∀ i ∈ F, i < h.length
  | .base b, a, F, hr, j, hj => by
    obtain ⟨rfl, o, h1, h2⟩ := hr
    simp at hj
    subst hj
    exact (List.getElem?_eq_some_iff.1 h1).1
  | .brackets b r p, a, F, hr, j, hj => by
    obtain ⟨i, F2, o, oi, rfl, h1, h2, h3, h4, h5, h6, h7, h8, h9, h10, h11⟩ := hr
    simp at hj
    rcases hj with rfl | rfl | hj
    · exact (List.getElem?_eq_some_iff.1 h1).1
    · exact (List.getElem?_eq_some_iff.1 h4).1
    · exact RepRest.lt r h11 j hj
theorem RepRest.lt {h : Mem K} : (r : VRest K) → ∀ {hd nx F}, RepRest h hd nx r F → ∀ i ∈ F, i < h.length
  | .nil, hd, nx, F, hr, j, hj => by
    obtain ⟨_, rfl⟩ := hr
    simp at hj
  | .cons op m r, hd, nx, F, hr, j, hj => by
    obtain ⟨a, o, F1, F2, h1, rfl, h3, h4, h5, h6, h7, h8⟩ := hr
    rcases List.mem_append.1 hj with hj | hj
    · exact RepNode.lt m h7 j hj
    · exact RepRest.lt r h8 j hj
end

theorem RepChain.lt {h : Mem K} {a : ℕ} {b : Base K} {r : VRest K} {p : List K} {F : List ℕ}
    (hr : RepChain h a b r p F) : ∀ i ∈ F, i < h.length := by
  obtain ⟨o, F2, rfl, h1, _, _, _, _, h6⟩ := hr
  intro i hi
  simp at hi
  rcases hi with rfl | hi
  · exact (List.getElem?_eq_some_iff.1 h1).1
  · exact h6.lt _ i hi

theorem RepChain.frame {h h' : Mem K} {a : ℕ} {b : Base K} {r : VRest K} {p : List K} {F : List ℕ}
    (hr : RepChain h a b r p F) (hf : ∀ i ∈ F, h'[i]? = h[i]?) : RepChain h' a b r p F := by
  obtain ⟨o, F2, rfl, h1, h2, h3, h4, h5, h6⟩ := hr
  exact ⟨o, F2, rfl, by rw [hf a (by simp), h1], h2, h3, h4, h5, h6.frame _ fun j hj => hf j (by simp [hj])⟩

theorem RepChain.self_mem {h : Mem K} {a : ℕ} {b : Base K} {r : VRest K} {p : List K} {F : List ℕ}
    (hr : RepChain h a b r p F) : a ∈ F := by
  obtain ⟨o, F2, rfl, _⟩ := hr
  simp

theorem RepVal.frame {h h' : Mem K} {a : ℕ} {v : Val K} {F : List ℕ} (hr : RepVal h a v F)
    (hf : ∀ i ∈ F, h'[i]? = h[i]?) : RepVal h' a v F :=
  ⟨hr.1.frame hf, fun o ho => hr.2.1 o (by rw [← hf a hr.1.self_mem, ho]), hr.2.2⟩

/-- A model in a chain stays that model when its links, parameters and operation change. -/
theorem RepNode.relink {h h' : Mem K} {m : VNode K} {a : ℕ} {F : List ℕ} (hr : RepNode h a m F) (hn : F.Nodup)
    (hf : ∀ i ∈ F, i ≠ a → h'[i]? = h[i]?) {o o' : Obj K} (ho : h[a]? = some o) (ho' : h'[a]? = some o')
    (hk : o'.kind = o.kind) (hp : o'.np = o.np) : RepNode h' a m F := by
  cases m with
  | base b =>
    obtain ⟨rfl, o1, h1, h2, h3⟩ := hr
    rw [ho] at h1
    obtain rfl := Option.some.inj h1
    exact ⟨rfl, o', ho', by rw [hk, h2], by rw [hp, h3]⟩
  | brackets b r p =>
    obtain ⟨i, F2, o1, oi, rfl, h1, h2, h3, h4, h5, h6, h7, h8, h9, h10, h11⟩ := hr
    rw [ho] at h1
    obtain rfl := Option.some.inj h1
    have hn' := List.nodup_cons.1 hn
    have hne : ∀ j ∈ i :: F2, j ≠ a := fun j hj e => hn'.1 (e ▸ hj)
    exact ⟨i, F2, o', oi, rfl, ho', by rw [hk, h2], by rw [hp, h3],
      by rw [hf i (by simp) (hne i (by simp)), h4], h5, h6, h7, h8, h9, h10,
      h11.frame _ fun j hj => hf j (by simp [hj]) (hne j (by simp [hj]))⟩

/-- The end of the chain, and what comes of putting a model there. -/
theorem rest_snoc {h : Mem K} {hd : ℕ} : (r : VRest K) → ∀ {nx F}, RepRest h hd nx r F → F.Nodup →
    (nx = none ∧ r = .nil ∧ F = []) ∨ ∃ a l ol, nx = some a ∧ l ∈ F ∧ h[l]? = some ol ∧ ol.next = none ∧
      (∃ N, ∀ f ≥ N, walk f h a = some l) ∧
      ∀ (h' : Mem K) (m : ℕ) (op : Op) (nd : VNode K) (Fm : List ℕ), (∀ i ∈ F, i ≠ l → h'[i]? = h[i]?) →
        h'[l]? = some { ol with next := some m } → RepRest h' hd (some m) (.cons op nd .nil) Fm →
        RepRest h' hd nx (r.snoc op nd) (F ++ Fm)
  | .nil, nx, F, hr, _ => Or.inl ⟨hr.1, rfl, hr.2⟩
  | .cons op m r, nx, F, hr, hn => by
    right
    obtain ⟨a, o, F1, F2, rfl, rfl, h3, h4, h5, h6, h7, h8⟩ := hr
    obtain ⟨n1, n2, n3⟩ := List.nodup_append.1 hn
    have hdis : ∀ i ∈ F1, ∀ j ∈ F2, i ≠ j := n3
    rcases rest_snoc r h8 n2 with ⟨e1, e2, e3⟩ | ⟨a', l, ol, e1, e2, e3, e4, ⟨N, e5⟩, e6⟩
    · refine ⟨a, a, o, rfl, by simp [h7.self_mem], h3, e1, ⟨1, ?_⟩, ?_⟩
      · intro f hf
        obtain ⟨f, rfl⟩ := Nat.exists_eq_add_of_le' hf
        rw [walk, h3]
        simp [e1]
      · intro h' mm op' nd Fm g1 g2 g3
        subst e2 e3
        refine ⟨a, _, F1, Fm, rfl, by simp, g2, h4, h5, h6, ?_, g3⟩
        exact h7.relink n1 (fun i hi hne => g1 i (by simp [hi]) hne) h3 g2 rfl rfl
    · refine ⟨a, l, ol, rfl, by simp [e2], e3, e4, ⟨N + 1, ?_⟩, ?_⟩
      · intro f hf
        obtain ⟨f, rfl⟩ : ∃ g, f = g + 1 := ⟨f - 1, by omega⟩
        rw [walk, h3, Option.bind_some, e1]
        exact e5 f (by omega)
      · intro h' mm op' nd Fm g1 g2 g3
        have hl1 : ∀ i ∈ F1, i ≠ l := fun i hi => hdis i hi l e2
        refine ⟨a, o, F1, F2 ++ Fm, rfl, by simp, ?_, h4, h5, h6, ?_, ?_⟩
        · rw [g1 a (by simp [h7.self_mem]) (hl1 a h7.self_mem), h3]
        · exact h7.frame _ fun i hi => g1 i (by simp [hi]) (hl1 i hi)
        · exact e6 h' mm op' nd Fm (fun i hi hne => g1 i (by simp [hi]) hne) g2 g3

theorem modify_ne (h : Mem K) (a i : ℕ) (f : Obj K → Obj K) (hne : i ≠ a) : (h.modify a f)[i]? = h[i]? := by
  rw [List.getElem?_modify]
  simp only [if_neg (fun e : a = i => hne e.symm)]
  cases h[i]? <;> rfl

theorem modify_self (h : Mem K) (a : ℕ) (f : Obj K → Obj K) (o : Obj K) (ho : h[a]? = some o) :
    (h.modify a f)[a]? = some (f o) := by
  rw [List.getElem?_modify, ho]
  simp

/-! ## Linking and appending -/

theorem link_spec {h : Mem K} {a m : ℕ} {b : Base K} {r : VRest K} {ps pm : List K} {F Fm : List ℕ} {nd : VNode K}
    {om : Obj K} (op : Op) (hc : RepChain h a b r ps F) (hF : F.Nodup) (hm : RepNode h m nd Fm) (hFm : Fm.Nodup)
    (hdis : ∀ i ∈ F, ∀ j ∈ Fm, i ≠ j) (hom : h[m]? = some om) (hnext : om.next = none) (hpm : om.pars = some pm) :
    ∃ h' : Mem K, (∃ N, ∀ f ≥ N, link f h a m op = some h') ∧ h'.length = h.length ∧
      (∀ i, i ∉ F → i ∉ Fm → h'[i]? = h[i]?) ∧ RepChain h' a b (r.snoc op nd) (ps ++ pm) (F ++ Fm) ∧
      ∀ o, h'[a]? = some o → o.npchain = ps.length + pm.length := by
  obtain ⟨o, F2, rfl, h1, h2, h3, h4, h5, h6⟩ := hc
  obtain ⟨hna, hnF2⟩ := List.nodup_cons.1 hF
  have ham : a ≠ m := hdis a (by simp) m hm.self_mem
  -- the last model
  have hlast : ∃ l ol, l ∈ a :: F2 ∧ h[l]? = some ol ∧ ol.next = none ∧ (∃ N, ∀ f ≥ N, walk f h a = some l) ∧
      ∀ (h' : Mem K) (o' : Obj K), (∀ i ∈ F2, i ≠ l → h'[i]? = h[i]?) → h'[a]? = some o' →
        (l ≠ a → h'[l]? = some { ol with next := some m } ∧ o'.next = o.next) → (l = a → o'.next = some m) →
        RepRest h' a (some m) (.cons op nd .nil) Fm → RepRest h' a o'.next (r.snoc op nd) (F2 ++ Fm) := by
    rcases rest_snoc r h6 hnF2 with ⟨e1, e2, e3⟩ | ⟨a', l, ol, e1, e2, e3, e4, ⟨N, e5⟩, e6⟩
    · refine ⟨a, o, by simp, h1, e1, ⟨1, ?_⟩, ?_⟩
      · intro f hf
        obtain ⟨f, rfl⟩ := Nat.exists_eq_add_of_le' hf
        rw [walk, h1]
        simp [e1]
      · intro h' o' _ _ _ g4 g5
        subst e2 e3
        rw [g4 rfl]
        exact g5
    · have hla : l ≠ a := fun e => hna (e ▸ e2)
      refine ⟨l, ol, by simp [e2], e3, e4, ⟨N + 1, ?_⟩, ?_⟩
      · intro f hf
        obtain ⟨f, rfl⟩ : ∃ g, f = g + 1 := ⟨f - 1, by omega⟩
        rw [walk, h1, Option.bind_some, e1]
        exact e5 f (by omega)
      · intro h' o' g1 _ g3 _ g5
        rw [(g3 hla).2]
        exact e6 h' m op nd Fm g1 (g3 hla).1 g5
  obtain ⟨l, ol, hl1, hl2, hl3, ⟨N, hl4⟩, hl5⟩ := hlast
  have hlm : l ≠ m := hdis l hl1 m hm.self_mem
  -- the states of memory
  let x1 : Mem K := h.modify l fun o => { o with next := some m }
  let x2 : Mem K := x1.modify m fun o => { o with op := op }
  let x3 : Mem K := x2.modify m fun ob => { ob with head := a }
  let x4 : Mem K := x3.modify a fun o => { o with npchain := ps.length + pm.length, pars := some (ps ++ pm) }
  let x5 : Mem K := x4.modify m fun o => { o with pars := none }
  have q1 : x1[m]? = some om := by rw [modify_ne _ _ _ _ hlm.symm, hom]
  have q2 : x2[m]? = some { om with op := op } := modify_self _ _ _ _ q1
  have q3 : x3[m]? = some { om with op := op, head := a } := modify_self _ _ _ _ q2
  have q4 : x4[m]? = some { om with op := op, head := a } := by rw [modify_ne _ _ _ _ ham.symm, q3]
  have q5 : x5[m]? = some { om with op := op, head := a, pars := none } := modify_self _ _ _ _ q4
  obtain ⟨oa, p1, p1n, p1k, p1p, p1h, p1ps⟩ : ∃ oa, x1[a]? = some oa ∧
      (l ≠ a → oa.next = o.next) ∧ oa.kind = o.kind ∧ oa.np = o.np ∧ oa.head = o.head ∧ oa.pars = o.pars := by
    by_cases hla : l = a
    · subst hla
      have := modify_self h l (fun o => { o with next := some m }) o h1
      exact ⟨_, this, fun e => absurd rfl e, rfl, rfl, rfl, rfl⟩
    · exact ⟨o, by rw [modify_ne _ _ _ _ (Ne.symm hla), h1], fun _ => rfl, rfl, rfl, rfl, rfl⟩
  have p1l : l = a → oa.next = some m := by
    intro e
    subst e
    have := modify_self h l (fun o => { o with next := some m }) o h1
    rw [show x1[l]? = _ from this] at p1
    rw [← Option.some.inj p1]
  have p2 : x2[a]? = some oa := by rw [modify_ne _ _ _ _ ham, p1]
  have p3 : x3[a]? = some oa := by rw [modify_ne _ _ _ _ ham, p2]
  have p4 : x4[a]? = some { oa with npchain := ps.length + pm.length, pars := some (ps ++ pm) } :=
    modify_self _ _ _ _ p3
  have p5 : x5[a]? = some { oa with npchain := ps.length + pm.length, pars := some (ps ++ pm) } := by
    rw [modify_ne _ _ _ _ ham, p4]
  have hother : ∀ i, i ≠ l → i ≠ m → i ≠ a → x5[i]? = h[i]? := by
    intro i i1 i2 i3
    rw [modify_ne _ _ _ _ i2, modify_ne _ _ _ _ i3, modify_ne _ _ _ _ i2, modify_ne _ _ _ _ i2, modify_ne _ _ _ _ i1]
  have r1 : x1[l]? = some { ol with next := some m } := modify_self _ _ _ _ hl2
  have r2 : x2[l]? = some { ol with next := some m } := by rw [modify_ne _ _ _ _ hlm, r1]
  have r5 : l ≠ a → x5[l]? = some { ol with next := some m } := by
    intro hla
    rw [modify_ne _ _ _ _ hlm, modify_ne _ _ _ _ hla, modify_ne _ _ _ _ hlm, r2]
  refine ⟨x5, ⟨N + 2, ?_⟩, ?_, ?_, ?_, ?_⟩
  · intro f hf
    obtain ⟨f, rfl⟩ : ∃ g, f = g + 2 := ⟨f - 2, by omega⟩
    have hset : setHeads (f + 2) x2 l oa.head = some x3 := by
      rw [setHeads, r2]
      simp only [Option.bind_some]
      rw [setHeads]
      have : (x2.modify m fun ob => { ob with head := oa.head })[m]? = some { om with op := op, head := oa.head } :=
        modify_self _ _ _ _ q2
      rw [this]
      simp only [Option.bind_some, hnext]
      rw [p1h, h4]
    rw [link, hl4 (f + 2) (by omega)]
    simp only [Option.bind_some]
    rw [show ((h.modify l fun o => { o with next := some m }).modify m fun o => { o with op := op }) = x2 from rfl, p2]
    simp only [Option.bind_some, hset, p3, q3, p1ps, h5, hpm]
    rfl
  · simp [x5, x4, x3, x2, x1]
  · intro i i1 i2
    exact hother i (fun e => i1 (e ▸ hl1)) (fun e => i2 (e ▸ hm.self_mem)) (fun e => i1 (by simp [e]))
  · refine ⟨_, F2 ++ Fm, by simp, p5, by simp [p1k, h2], by simp [p1p, h3], by simp [p1h, h4], rfl, ?_⟩
    refine hl5 x5 _ ?_ p5 ?_ ?_ ?_
    · intro i hi hne
      refine hother i hne (hdis i (by simp [hi]) m hm.self_mem) (fun e => hna (e ▸ hi))
    · intro hla
      exact ⟨r5 hla, p1n hla⟩
    · intro e; exact p1l e
    · refine ⟨m, _, Fm, [], rfl, by simp, q5, rfl, rfl, rfl, ?_, hnext, rfl⟩
      refine hm.relink hFm ?_ hom q5 rfl rfl
      intro i hi hne
      have hil : i ∉ a :: F2 := fun hc => hdis i hc i hi rfl
      exact hother i (fun e => hil (e ▸ hl1)) hne (fun e => hil (by simp [e]))
  · intro o' ho'
    rw [p5] at ho'
    rw [← Option.some.inj ho']

theorem Val.asNode_np (v : Val K) : v.asNode.np = v.np := by
  unfold Val.asNode Val.np
  cases h : v.rest with
  | nil => simp [VNode.np, VRest.np]
  | cons op m r => simp only [VNode.np]

theorem VRest.snoc_np (r : VRest K) (op : Op) (m : VNode K) : (r.snoc op m).np = r.np + m.np := by
  match r with
  | .nil => simp [VRest.snoc, VRest.np]
  | .cons o n r => rw [VRest.snoc, VRest.np, VRest.np, r.snoc_np op m]; ring

theorem append_spec {h : Mem K} {a b : ℕ} {v w : Val K} {F G : List ℕ} (op : Op) (ha : RepVal h a v F) (hF : F.Nodup)
    (hb : RepVal h b w G) (hG : G.Nodup) (hdis : ∀ i ∈ F, ∀ j ∈ G, i ≠ j) :
    ∃ (h' : Mem K) (H : List ℕ), (∃ N, ∀ f ≥ N, append f h a b op = some h') ∧ h.length ≤ h'.length ∧
      (∀ i, i < h.length → i ∉ F → i ∉ G → h'[i]? = h[i]?) ∧ RepVal h' a (v.combine op w) H ∧ H.Nodup ∧
      ∀ i ∈ H, i ∈ F ∨ i ∈ G ∨ h.length ≤ i := by
  obtain ⟨⟨ob, G2, rfl, b1, b2, b3, b4, b5, b6⟩, b7, b8⟩ := hb
  have b9 := b7 ob b1
  -- with brackets or without
  have hw : ∃ (h1 : Mem K) (m : ℕ) (Fm : List ℕ) (om : Obj K), wrap h b = some (h1, m) ∧ h.length ≤ h1.length ∧
      (∀ i, i < h.length → h1[i]? = h[i]?) ∧ RepNode h1 m w.asNode Fm ∧ Fm.Nodup ∧
      (∀ i ∈ Fm, i ∈ b :: G2 ∨ h.length ≤ i) ∧ h1[m]? = some om ∧ om.next = none ∧ om.pars = some w.pars := by
    cases hr : w.rest with
    | nil =>
      rw [hr] at b6
      obtain ⟨e1, rfl⟩ := b6
      refine ⟨h, b, [b], ob, ?_, le_refl _, fun _ _ => rfl, ?_, by simp, by simp, b1, e1, b5⟩
      · simp [wrap, b1, e1]
      · unfold Val.asNode
        rw [hr]
        exact ⟨rfl, ob, b1, b2, b3⟩
    | cons op' m' r' =>
      have hnext : ob.next.isSome = true := by
        rw [hr] at b6
        obtain ⟨a', o', F1, F2, e1, _⟩ := b6
        simp [e1]
      let obj : Obj K := ⟨.brackets b, ob.npchain, none, h.length, .nop, ob.pars, ob.npchain⟩
      have hext : ∀ i, i < h.length → (h ++ [obj])[i]? = h[i]? := fun i hi => List.getElem?_append_left hi
      have hnew : (h ++ [obj])[h.length]? = some obj := by simp
      have hlt : ∀ i ∈ b :: G2, i < h.length := RepChain.lt ⟨ob, G2, rfl, b1, b2, b3, b4, b5, b6⟩
      refine ⟨h ++ [obj], h.length, h.length :: b :: G2, obj, ?_, by simp, hext, ?_, ?_, ?_, hnew, rfl, b5⟩
      · simp only [wrap, b1, Option.bind_some, hnext, if_true, makeBrackets]
        rw [b4, b1]
        rfl
      · unfold Val.asNode
        rw [hr]
        refine ⟨b, G2, obj, ob, rfl, hnew, rfl, ?_, by rw [hext b (hlt b (by simp)), b1], b2, b3, b4, b5, ?_, ?_, ?_⟩
        · rw [← hr]; exact b9
        · rw [← hr]; exact b9
        · rw [← hr]; exact b8
        · rw [← hr]; exact b6.frame _ fun i hi => hext i (hlt i (by simp [hi]))
      · refine List.nodup_cons.2 ⟨fun hc => ?_, hG⟩
        exact absurd (hlt _ hc) (lt_irrefl _)
      · intro i hi
        rcases List.mem_cons.1 hi with rfl | hi
        · exact Or.inr (le_refl _)
        · exact Or.inl hi
  obtain ⟨h1, m, Fm, om, w1, w2, w3, w4, w5, w6, w7, w8, w9⟩ := hw
  have hFlt : ∀ i ∈ F, i < h.length := ha.1.lt
  have ha1 : RepVal h1 a v F := ha.frame fun i hi => w3 i (hFlt i hi)
  have hdis1 : ∀ i ∈ F, ∀ j ∈ Fm, i ≠ j := by
    intro i hi j hj e
    subst e
    rcases w6 i hj with h' | h'
    · exact hdis i hi i h' rfl
    · exact absurd (hFlt i hi) (by omega)
  obtain ⟨h2, ⟨N, l1⟩, l2, l3, l4, l5⟩ := link_spec op ha1.1 hF w4 w5 hdis1 w7 w8 w9
  refine ⟨h2, F ++ Fm, ⟨N, ?_⟩, by omega, ?_, ⟨l4, ?_, ?_⟩, ?_, ?_⟩
  · intro f hf
    rw [append, w1, Option.bind_some]
    exact l1 f hf
  · intro i i1 i2 i3
    rw [l3 i i2 (fun hc => ?_), w3 i i1]
    rcases w6 i hc with h' | h'
    · exact i3 h'
    · omega
  · intro o ho
    rw [l5 o ho, ha.2.2, b8]
    simp only [Val.combine, Val.np, VRest.snoc_np, Val.asNode_np]
    ring
  · simp only [Val.combine, List.length_append, ha.2.2, b8]
    simp only [Val.np, VRest.snoc_np, Val.asNode_np]
    ring
  · exact List.nodup_append.2 ⟨hF, w5, hdis1⟩
  · intro i hi
    rcases List.mem_append.1 hi with hi | hi
    · exact Or.inl hi
    · rcases w6 i hi with h' | h'
      · exact Or.inr (Or.inl h')
      · exact Or.inr (Or.inr h')

/-! ## Copying -/

def VRest.append : VRest K → VRest K → VRest K
  | .nil, s => s
  | .cons op m r, s => .cons op m (r.append s)

theorem VRest.snoc_append (r : VRest K) (op : Op) (m : VNode K) (s : VRest K) :
    (r.snoc op m).append s = r.append (.cons op m s) := by
  match r with
  | .nil => rfl
  | .cons o n r => rw [VRest.snoc, VRest.append, VRest.append, r.snoc_append]

/-- What copying one model that has been cut loose does. -/
def NodeSpec (zero : K) (m : VNode K) : Prop :=
  ∀ (h : Mem K) (a : ℕ) (F : List ℕ) (o : Obj K), RepNode h a m F → F.Nodup → h[a]? = some o → o.next = none →
    ∃ (h' : Mem K) (n : ℕ) (F' : List ℕ) (on : Obj K), (∃ N, ∀ f ≥ N, copy zero f h a = some (h', n)) ∧
      (∀ i, i < h.length → h'[i]? = h[i]?) ∧ RepNode h' n m F' ∧ F'.Nodup ∧ (∀ i ∈ F', h.length ≤ i) ∧
      h'[n]? = some on ∧ on.next = none

/-- What copying the rest of a chain does. -/
def LoopSpec (zero : K) (r : VRest K) : Prop :=
  ∀ (h : Mem K) (hd : ℕ) (nx : Option ℕ) (F : List ℕ) (oh : Obj K) (hp : List K) (n : ℕ) (b : Base K) (r0 : VRest K)
    (ps : List K) (G : List ℕ) (B : ℕ), RepRest h hd nx r F → F.Nodup → (∀ i ∈ F, i < B) → hd < B →
    h[hd]? = some oh → oh.pars = some hp → B ≤ h.length → RepChain h n b r0 ps G → G.Nodup → (∀ i ∈ G, B ≤ i) →
    ∃ (h' : Mem K) (ps' : List K) (G' : List ℕ), (∃ N, ∀ f ≥ N, copyLoop zero f h n nx = some h') ∧
      (∀ i, i < B → h'[i]? = h[i]?) ∧ h.length ≤ h'.length ∧ RepChain h' n b (r0.append r) ps' G' ∧ G'.Nodup ∧
      ∀ i ∈ G', B ≤ i

theorem lt_of_ext {h h' : Mem K} (hext : ∀ i, i < h.length → h'[i]? = h[i]?) : h.length ≤ h'.length := by
  by_contra hc
  have := hext h'.length (by omega)
  rw [List.getElem?_eq_none (le_refl _), List.getElem?_eq_getElem (by omega)] at this
  simp at this

theorem copyVal_of (zero : K) {v : Val K} (hloop : LoopSpec zero v.rest) {h : Mem K} {a : ℕ} {F : List ℕ}
    (hr : RepVal h a v F) (hF : F.Nodup) :
    ∃ (h' : Mem K) (n : ℕ) (F' : List ℕ), (∃ N, ∀ f ≥ N, copy zero f h a = some (h', n)) ∧
      (∀ i, i < h.length → h'[i]? = h[i]?) ∧ RepVal h' n v F' ∧ F'.Nodup ∧ (∀ i ∈ F', h.length ≤ i) ∧
      n = h.length := by
  obtain ⟨⟨o, F2, rfl, h1, h2, h3, h4, h5, h6⟩, h7, h8⟩ := hr
  let b := v.first
  let x1 : Mem K := fresh h (.base b) o.np b.dflt
  have hext : ∀ i, i < h.length → x1[i]? = h[i]? := fun i hi => List.getElem?_append_left hi
  have hlt : ∀ i ∈ a :: F2, i < h.length := RepChain.lt ⟨o, F2, rfl, h1, h2, h3, h4, h5, h6⟩
  have hnew : x1[h.length]? = some ⟨.base b, o.np, none, h.length, .nop, some b.dflt, o.np⟩ := by simp [x1, fresh]
  obtain ⟨x2, ps', G', ⟨N, c1⟩, c2, c3, c4, c5, c6⟩ := hloop x1 a o.next F2 o v.pars h.length b .nil b.dflt
    [h.length] h.length (h6.frame _ fun i hi => hext i (hlt i (by simp [hi]))) (List.nodup_cons.1 hF).2
    (fun i hi => hlt i (by simp [hi])) (hlt a (by simp)) (by rw [hext a (hlt a (by simp)), h1]) h5 (by simp [x1, fresh])
    ⟨_, [], rfl, hnew, rfl, h3, rfl, rfl, rfl, rfl⟩ (by simp) (by simp)
  obtain ⟨on, G2, rfl, d1, d2, d3, d4, d5, d6⟩ := c4
  let x3 : Mem K := finish x2 h.length o
  have hf : x3[h.length]? = some { on with npchain := o.npchain, pars := some v.pars } := by
    have := modify_self x2 h.length (fun on => { on with
      npchain := o.npchain
      pars := match o.pars with
        | some p => some p
        | none => on.pars }) on d1
    simp only [h5] at this
    simpa [x3, finish, h5] using this
  have hne : ∀ i, i ≠ h.length → x3[i]? = x2[i]? := fun i hi => modify_ne _ _ _ _ hi
  refine ⟨x3, h.length, h.length :: G2, ⟨N + 1, ?_⟩, ?_, ⟨⟨_, G2, rfl, hf, d2, d3, d4, rfl, ?_⟩, ?_, h8⟩, c5, c6, rfl⟩
  · intro f hf'
    obtain ⟨f, rfl⟩ : ∃ g, f = g + 1 := ⟨f - 1, by omega⟩
    rw [copy, h1]
    simp only [Option.bind_some, h2]
    rw [show copyLoop zero f (fresh h (.base v.first) o.np v.first.dflt) h.length o.next = some x2 from c1 f (by omega)]
    rfl
  · intro i hi
    rw [hne i (by omega), c2 i hi, hext i hi]
  · refine d6.frame _ fun i hi => hne i fun e => ?_
    exact (List.nodup_cons.1 c5).1 (e ▸ hi)
  · intro o' ho'
    rw [hf] at ho'
    rw [← Option.some.inj ho']
    exact h7 o h1

theorem isolate_of (zero : K) {m : VNode K} (hm : NodeSpec zero m) {h : Mem K} {l : ℕ} {F : List ℕ} {o oh : Obj K}
    {hp : List K} (hr : RepNode h l m F) (hF : F.Nodup) (ho : h[l]? = some o) (hoh : h[o.head]? = some oh)
    (hpars : oh.pars = some hp) :
    ∃ (h' : Mem K) (n : ℕ) (F' : List ℕ) (on : Obj K) (pn : List K), (∃ N, ∀ f ≥ N, isolate zero f h l = some (h', n)) ∧
      (∀ i, i < h.length → h'[i]? = h[i]?) ∧ RepNode h' n m F' ∧ F'.Nodup ∧ (∀ i ∈ F', h.length ≤ i) ∧
      h'[n]? = some on ∧ on.next = none ∧ on.pars = some pn := by
  let x1 : Mem K := h.modify l fun ol => { ol with next := none, head := l }
  have e1 : x1[l]? = some { o with next := none, head := l } := modify_self _ _ _ _ ho
  have e2 : ∀ i, i ≠ l → x1[i]? = h[i]? := fun i hi => modify_ne _ _ _ _ hi
  have elen : x1.length = h.length := by simp [x1]
  have r1 : RepNode x1 l m F := hr.relink hF (fun i _ hne => e2 i hne) ho e1 rfl rfl
  obtain ⟨x2, n, F', on, ⟨N, c1⟩, c2, c3, c4, c5, c6, c7⟩ := hm x1 l F _ r1 hF e1 rfl
  rw [elen] at c2 c5
  have hl : l < h.length := (List.getElem?_eq_some_iff.1 ho).1
  have hn : h.length ≤ n := c5 n c3.self_mem
  let x3 : Mem K := x2.modify l fun ol => { ol with next := o.next, head := o.head }
  have g1 : ∀ i, i < h.length → x3[i]? = h[i]? := by
    intro i hi
    by_cases hil : i = l
    · subst hil
      have := modify_self x2 i (fun ol => { ol with next := o.next, head := o.head }) _ (by rw [c2 i hi, e1])
      rw [show x3[i]? = _ from this, ho]
    · rw [show x3[i]? = x2[i]? from modify_ne _ _ _ _ hil, c2 i hi, e2 i hil]
  have g2 : ∀ i, h.length ≤ i → x3[i]? = x2[i]? := fun i hi => modify_ne _ _ _ _ (by omega)
  have hohlt : o.head < h.length := (List.getElem?_eq_some_iff.1 hoh).1
  let x4 : Mem K := x3.modify n fun om => { om with op := .nop, pars := some (hp.take o.np), npchain := om.np }
  have k1 : x4[n]? = some { on with op := .nop, pars := some (hp.take o.np), npchain := on.np } :=
    modify_self _ _ _ _ (by rw [g2 n hn, c6])
  have k2 : ∀ i, i ≠ n → x4[i]? = x3[i]? := fun i hi => modify_ne _ _ _ _ hi
  refine ⟨x4, n, F', _, hp.take o.np, ⟨N + 1, ?_⟩, ?_, ?_, c4, c5, k1, c7, rfl⟩
  · intro f hf
    obtain ⟨f, rfl⟩ : ∃ g, f = g + 1 := ⟨f - 1, by omega⟩
    rw [isolate, ho]
    simp only [Option.bind_some]
    rw [show copy zero f (h.modify l fun ol => { ol with next := none, head := l }) l = some (x2, n) from
      c1 f (by omega)]
    simp only [Option.bind_some]
    rw [show (x2.modify l fun ol => { ol with next := o.next, head := o.head })[o.head]? = some oh from by
      rw [show (x2.modify l fun ol => { ol with next := o.next, head := o.head })[o.head]? = x3[o.head]? from rfl,
        g1 _ hohlt, hoh]]
    simp only [Option.bind_some, hpars]
    rfl
  · intro i hi
    rw [k2 i (by omega), g1 i hi]
  · refine c3.relink c4 ?_ c6 k1 rfl rfl
    intro i hi hne
    rw [k2 i hne, g2 i (c5 i hi)]

mutual
theorem nodeSpec (zero : K) : (m : VNode K) → NodeSpec zero m
  | .base b => by
    intro h a F o hr hF ho hnx
    obtain ⟨rfl, o1, h1, h2, h3⟩ := hr
    rw [ho] at h1
    obtain rfl := Option.some.inj h1
    let x1 : Mem K := fresh h (.base b) o.np b.dflt
    have hext : ∀ i, i < h.length → x1[i]? = h[i]? := fun i hi => List.getElem?_append_left hi
    have hnew : x1[h.length]? = some ⟨.base b, o.np, none, h.length, .nop, some b.dflt, o.np⟩ := by simp [x1, fresh]
    let x2 : Mem K := finish x1 h.length o
    have hfin : ∃ on, x2[h.length]? = some on ∧ on.next = none ∧ on.kind = .base b ∧ on.np = o.np :=
      ⟨_, modify_self _ _ _ _ hnew, rfl, rfl, rfl⟩
    obtain ⟨on, f1, f2, f3, f4⟩ := hfin
    refine ⟨x2, h.length, [h.length], on, ⟨2, ?_⟩, ?_, ⟨rfl, on, f1, f3, by rw [f4, h3]⟩, by simp, by simp, f1, f2⟩
    · intro f hf
      obtain ⟨f, rfl⟩ : ∃ g, f = g + 2 := ⟨f - 2, by omega⟩
      rw [copy, ho]
      simp only [Option.bind_some, h2, hnx, copyLoop]
      rfl
    · intro i hi
      rw [show x2[i]? = x1[i]? from modify_ne _ _ _ _ (by omega), hext i hi]
  | .brackets b r p => by
    intro h a F o hr hF ho hnx
    have hloop := loopSpec zero r
    obtain ⟨i, F2, o1, oi, rfl, h1, h2, h3, h4, h5, h6, h7, h8, h9, h10, h11⟩ := hr
    rw [ho] at h1
    obtain rfl := Option.some.inj h1
    have hv : RepVal h i ⟨b, r, p⟩ (i :: F2) := by
      refine ⟨⟨oi, F2, rfl, h4, h5, h6, h7, h8, h11⟩, ?_, h10⟩
      intro o' ho'
      rw [h4] at ho'
      rw [← Option.some.inj ho', h9]
      rfl
    obtain ⟨x1, n, F', ⟨N, c1⟩, c2, c3, c4, c5, c6⟩ := copyVal_of zero (v := ⟨b, r, p⟩) hloop hv (List.nodup_cons.1 hF).2
    have hlen := lt_of_ext c2
    let x2 : Mem K := fresh x1 (.brackets n) o.np (List.replicate o.np zero)
    have hext : ∀ j, j < x1.length → x2[j]? = x1[j]? := fun j hj => List.getElem?_append_left hj
    have hnew : x2[x1.length]? = some ⟨.brackets n, o.np, none, x1.length, .nop, some (List.replicate o.np zero), o.np⟩ := by
      simp [x2, fresh]
    let x3 : Mem K := finish x2 x1.length o
    obtain ⟨on, f1, f2, f3, f4⟩ : ∃ on, x3[x1.length]? = some on ∧ on.next = none ∧ on.kind = .brackets n ∧ on.np = o.np :=
      ⟨_, modify_self _ _ _ _ hnew, rfl, rfl, rfl⟩
    obtain ⟨onn, G2, rfl, d1, d2, d3, d4, d5, d6⟩ := c3.1
    have hnlt : n < x1.length := (List.getElem?_eq_some_iff.1 d1).1
    have hGlt : ∀ j ∈ n :: G2, j < x1.length := c3.1.lt
    let x4 : Mem K := x3.modify x1.length fun on => { on with pars := onn.pars }
    have g1 : x4[x1.length]? = some { on with pars := onn.pars } := modify_self _ _ _ _ f1
    have g2 : ∀ j, j < x1.length → x4[j]? = x1[j]? := by
      intro j hj
      rw [show x4[j]? = x3[j]? from modify_ne _ _ _ _ (by omega), show x3[j]? = x2[j]? from modify_ne _ _ _ _ (by omega),
        hext j hj]
    have hx3n : x3[n]? = some onn := by
      rw [show x3[n]? = x2[n]? from modify_ne _ _ _ _ (by omega), hext n hnlt, d1]
    refine ⟨x4, x1.length, x1.length :: n :: G2, _, ⟨N + 2, ?_⟩, ?_, ?_, ?_, ?_, g1, f2⟩
    · intro f hf
      obtain ⟨f, rfl⟩ : ∃ g, f = g + 2 := ⟨f - 2, by omega⟩
      rw [copy, ho]
      simp only [Option.bind_some, h2]
      rw [c1 (f + 1) (by omega)]
      simp only [Option.bind_some, hnx, copyLoop]
      rw [show (finish (fresh x1 (.brackets n) o.np (List.replicate o.np zero)) x1.length o)[n]? = some onn from hx3n]
      rfl
    · intro j hj
      rw [g2 j (by omega), c2 j hj]
    · refine ⟨n, G2, _, onn, rfl, g1, f3, by simp [f4, h3], by rw [g2 n hnlt, d1], d2, d3, d4, d5, ?_, h10, ?_⟩
      · exact c3.2.1 onn d1
      · exact d6.frame _ fun j hj => g2 j (hGlt j (by simp [hj]))
    · refine List.nodup_cons.2 ⟨fun hc => absurd (hGlt _ hc) (lt_irrefl _), c4⟩
    · intro j hj
      rcases List.mem_cons.1 hj with rfl | hj
      · exact hlen
      · exact c5 j hj
theorem loopSpec (zero : K) : (r : VRest K) → LoopSpec zero r
  | .nil => by
    intro h hd nx F oh hp n b r0 ps G B hr hF hFB hhd hoh hpars hB hc hG hGB
    obtain ⟨rfl, rfl⟩ := hr
    refine ⟨h, ps, G, ⟨1, ?_⟩, fun _ _ => rfl, le_refl _, ?_, hG, hGB⟩
    · intro f hf
      obtain ⟨f, rfl⟩ : ∃ g, f = g + 1 := ⟨f - 1, by omega⟩
      rw [copyLoop]
    · have : ∀ r : VRest K, r.append .nil = r := by
        intro r
        induction r using VRest.rec (motive_1 := fun _ => True) with
        | base => trivial
        | brackets => trivial
        | nil => rfl
        | cons op m r _ ih => rw [VRest.append, ih]
      rw [this]
      exact hc
  | .cons op m r => by
    intro h hd nx F oh hp n b r0 ps G B hr hF hFB hhd hoh hpars hB hc hG hGB
    have hnode := nodeSpec zero m
    have hloop := loopSpec zero r
    obtain ⟨l, o, F1, F2, rfl, rfl, h3, h4, h5, h6, h7, h8⟩ := hr
    obtain ⟨n1, n2, n3⟩ := List.nodup_append.1 hF
    obtain ⟨x1, m', F', on, pn, ⟨N1, c1⟩, c2, c3, c4, c5, c6, c7, c8⟩ :=
      isolate_of zero hnode h7 n1 h3 (by rw [h5, hoh]) hpars
    have hlen1 := lt_of_ext c2
    have hGlt : ∀ i ∈ G, i < h.length := hc.lt
    have hc1 : RepChain x1 n b r0 ps G := hc.frame fun i hi => c2 i (hGlt i hi)
    obtain ⟨x2, ⟨N2, l1⟩, l2, l3, l4, _⟩ := link_spec op hc1 hG c3 c4
      (fun i hi j hj e => by have := hGlt i hi; have := c5 j hj; omega) c6 c7 c8
    have hB1 : ∀ i, i < B → x2[i]? = h[i]? := by
      intro i hi
      rw [l3 i (fun hc' => by have := hGB i hc'; omega) (fun hc' => by have := c5 i hc'; omega), c2 i (by omega)]
    obtain ⟨x3, ps', G', ⟨N3, d1⟩, d2, d3, d4, d5, d6⟩ := hloop x2 hd o.next F2 oh hp n b _ _ (G ++ F') B
      (h8.frame _ fun i hi => hB1 i (hFB i (by simp [hi]))) n2 (fun i hi => hFB i (by simp [hi])) hhd
      (by rw [hB1 hd hhd, hoh]) hpars (by omega) l4
      (List.nodup_append.2 ⟨hG, c4, fun i hi j hj e => by have := hGlt i hi; have := c5 j hj; omega⟩)
      (fun i hi => by
        rcases List.mem_append.1 hi with hi | hi
        · exact hGB i hi
        · have := c5 i hi; omega)
    refine ⟨x3, ps', G', ⟨N1 + N2 + N3 + 1, ?_⟩, ?_, by omega, ?_, d5, d6⟩
    · intro f hf
      obtain ⟨f, rfl⟩ : ∃ g, f = g + 1 := ⟨f - 1, by omega⟩
      rw [copyLoop, h3]
      simp only [Option.bind_some]
      rw [c1 f (by omega)]
      simp only [Option.bind_some, h4]
      rw [append, show wrap x1 m' = some (x1, m') from by simp [wrap, c6, c7]]
      simp only [Option.bind_some]
      rw [l1 f (by omega)]
      simp only [Option.bind_some]
      exact d1 f (by omega)
    · intro i hi
      rw [d2 i hi, hB1 i hi]
    · rw [← VRest.snoc_append]
      exact d4
end

theorem copy_spec (zero : K) {h : Mem K} {a : ℕ} {v : Val K} {F : List ℕ} (hr : RepVal h a v F) (hF : F.Nodup) :
    ∃ (h' : Mem K) (n : ℕ) (F' : List ℕ), (∃ N, ∀ f ≥ N, copy zero f h a = some (h', n)) ∧
      (∀ i, i < h.length → h'[i]? = h[i]?) ∧ RepVal h' n v F' ∧ F'.Nodup ∧ (∀ i ∈ F', h.length ≤ i) ∧ n = h.length :=
  copyVal_of zero (loopSpec zero v.rest) hr hF

theorem binary_spec (zero : K) (op : Op) {h : Mem K} {a b : ℕ} {v w : Val K} {F G : List ℕ} (ha : RepVal h a v F)
    (hF : F.Nodup) (hb : RepVal h b w G) (hG : G.Nodup) :
    ∃ (h' : Mem K) (n : ℕ) (H : List ℕ), (∃ N, ∀ f ≥ N, binary zero f h a b op = some (h', n)) ∧
      (∀ i, i < h.length → h'[i]? = h[i]?) ∧ RepVal h' n (v.combine op w) H ∧ H.Nodup ∧ (∀ i ∈ H, h.length ≤ i) ∧
      n = h.length := by
  obtain ⟨x1, n1, F1, ⟨N1, c1⟩, c2, c3, c4, c5, c6⟩ := copy_spec zero ha hF
  have hlen1 := lt_of_ext c2
  obtain ⟨x2, n2, F2, ⟨N2, d1⟩, d2, d3, d4, d5, d6⟩ := copy_spec zero
    (hb.frame fun i hi => c2 i (hb.1.lt i hi)) hG
  have hlen2 := lt_of_ext d2
  have hF1 : ∀ i ∈ F1, i < x1.length := c3.1.lt
  obtain ⟨x3, H, ⟨N3, e1⟩, e2, e3, e4, e5, e6⟩ := append_spec op (c3.frame fun i hi => d2 i (hF1 i hi)) c4 d3 d4
    (fun i hi j hj e => by have := hF1 i hi; have := d5 j hj; omega)
  refine ⟨x3, n1, H, ⟨N1 + N2 + N3, ?_⟩, ?_, e4, e5, ?_, c6⟩
  · intro f hf
    rw [binary, c1 f (by omega)]
    simp only [Option.bind_some]
    rw [d1 f (by omega)]
    simp only [Option.bind_some]
    rw [e1 f (by omega)]
    rfl
  · intro i hi
    rw [e3 i (by omega) (fun hc => by have := c5 i hc; omega) (fun hc => by have := d5 i hc; omega), d2 i (by omega),
      c2 i hi]
  · intro i hi
    rcases e6 i hi with h' | h' | h'
    · exact c5 i h'
    · have := d5 i h'; omega
    · omega

/-! ## Seeing -/

mutual
theorem see_node {h : Mem K} : (m : VNode K) → ∀ {a F}, RepNode h a m F → ∃ N, ∀ f ≥ N, seeNode f h a = some m
  | .base b, a, F, hr => by
    obtain ⟨rfl, o, h1, h2, h3⟩ := hr
    refine ⟨1, fun f hf => ?_⟩
    obtain ⟨f, rfl⟩ : ∃ g, f = g + 1 := ⟨f - 1, by omega⟩
    rw [seeNode, h1]
    simp only [Option.bind_some, h2]
  | .brackets b r p, a, F, hr => by
    obtain ⟨i, F2, o, oi, rfl, h1, h2, h3, h4, h5, h6, h7, h8, h9, h10, h11⟩ := hr
    obtain ⟨N, hN⟩ := see_rest r h11
    refine ⟨N + 1, fun f hf => ?_⟩
    obtain ⟨f, rfl⟩ : ∃ g, f = g + 1 := ⟨f - 1, by omega⟩
    rw [seeNode, h1]
    simp only [Option.bind_some, h2, h4, h5]
    rw [hN f (by omega), h8]
    rfl
theorem see_rest {h : Mem K} : (r : VRest K) → ∀ {hd nx F}, RepRest h hd nx r F → ∃ N, ∀ f ≥ N, seeRest f h nx = some r
  | .nil, hd, nx, F, hr => by
    obtain ⟨rfl, rfl⟩ := hr
    refine ⟨1, fun f hf => ?_⟩
    obtain ⟨f, rfl⟩ : ∃ g, f = g + 1 := ⟨f - 1, by omega⟩
    rw [seeRest]
  | .cons op m r, hd, nx, F, hr => by
    obtain ⟨a, o, F1, F2, rfl, rfl, h3, h4, h5, h6, h7, h8⟩ := hr
    obtain ⟨N, hN⟩ := see_node m h7
    obtain ⟨M, hM⟩ := see_rest r h8
    refine ⟨N + M + 1, fun f hf => ?_⟩
    obtain ⟨f, rfl⟩ : ∃ g, f = g + 1 := ⟨f - 1, by omega⟩
    rw [seeRest, h3]
    simp only [Option.bind_some]
    rw [hN f (by omega), hM f (by omega), h4]
    rfl
end

theorem see_val {h : Mem K} {a : ℕ} {v : Val K} {F : List ℕ} (hr : RepVal h a v F) :
    (∃ N, ∀ f ≥ N, see f h a = some v) ∧ npars h a = some v.np := by
  obtain ⟨⟨o, F2, rfl, h1, h2, h3, h4, h5, h6⟩, h7, h8⟩ := hr
  obtain ⟨N, hN⟩ := see_rest _ h6
  refine ⟨⟨N, fun f hf => ?_⟩, ?_⟩
  · rw [see, h1]
    simp only [Option.bind_some, h2]
    rw [hN f hf, h5]
    rfl
  · rw [npars, h1]
    simp only [Option.bind_some]
    rw [h4, h1]
    simp [h7 o h1]

/-! ## Histories -/

/-- All models that are available are their values, and no object is part of two of them. -/
def Inv (s : State K) (vs : List (Option (Val K))) : Prop :=
  s.models.length = vs.length ∧ ∃ Fs : ℕ → List ℕ,
    (∀ i v, vs[i]? = some (some v) → ∃ a, s.models[i]? = some a ∧ RepVal s.mem a v (Fs i) ∧ (Fs i).Nodup) ∧
    ∀ i j v w, vs[i]? = some (some v) → vs[j]? = some (some w) → i ≠ j → ∀ x ∈ Fs i, ∀ y ∈ Fs j, x ≠ y

theorem join_some {i : ℕ} {vs : List (Option (Val K))} {v : Val K} (h : vs[i]?.join = some v) :
    vs[i]? = some (some v) := by
  cases h' : vs[i]? with
  | none => rw [h'] at h; simp at h
  | some x => rw [h'] at h; simp at h; rw [h]

/-- Adding a new model that consists of new objects. -/
theorem inv_push {s : State K} {vs : List (Option (Val K))} (hi : Inv s vs) {h' : Mem K} {n : ℕ} {v : Val K}
    {F : List ℕ} (hext : ∀ i, i < s.mem.length → h'[i]? = s.mem[i]?) (hr : RepVal h' n v F) (hF : F.Nodup)
    (hnew : ∀ i ∈ F, s.mem.length ≤ i) : Inv ⟨h', s.models ++ [n]⟩ (vs ++ [some v]) := by
  obtain ⟨hlen, Fs, h1, h2⟩ := hi
  refine ⟨by simp [hlen], fun i => if i = vs.length then F else Fs i, ?_, ?_⟩
  · intro i w hw
    by_cases hi : i = vs.length
    · subst hi
      simp only [List.getElem?_append_right (le_refl _), Nat.sub_self, List.getElem?_cons_zero, Option.some.injEq] at hw
      subst hw
      refine ⟨n, ?_, by simpa using hr, by simpa using hF⟩
      rw [← hlen]
      simp
    · have hlt : i < vs.length := by
        have := (List.getElem?_eq_some_iff.1 hw).1
        simp at this
        omega
      rw [List.getElem?_append_left hlt] at hw
      obtain ⟨a, a1, a2, a3⟩ := h1 i w hw
      refine ⟨a, ?_, ?_, ?_⟩
      · rw [List.getElem?_append_left (by omega), a1]
      · simp only [hi, if_false]
        exact a2.frame fun j hj => hext j (a2.1.lt j hj)
      · simp only [hi, if_false]; exact a3
  · have old : ∀ i w, i ≠ vs.length → (vs ++ [some v])[i]? = some (some w) → vs[i]? = some (some w) := by
      intro i w hi hw
      have hlt : i < vs.length := by
        have := (List.getElem?_eq_some_iff.1 hw).1
        simp at this
        omega
      rwa [List.getElem?_append_left hlt] at hw
    intro i j w z hw hz hij x hx y hy
    by_cases hi : i = vs.length
    · have hj : j ≠ vs.length := fun e => hij (by rw [hi, e])
      simp only [hi, if_true] at hx
      simp only [hj, if_false] at hy
      obtain ⟨a, a1, a2, a3⟩ := h1 j z (old j z hj hz)
      have := a2.1.lt y hy
      have := hnew x hx
      omega
    · simp only [hi, if_false] at hx
      obtain ⟨a, a1, a2, a3⟩ := h1 i w (old i w hi hw)
      by_cases hj : j = vs.length
      · simp only [hj, if_true] at hy
        have := a2.1.lt x hx
        have := hnew y hy
        omega
      · simp only [hj, if_false] at hy
        exact h2 i j w z (old i w hi hw) (old j z hj hz) hij x hx y hy

theorem step_spec (zero : K) {s : State K} {vs vs' : List (Option (Val K))} (hi : Inv s vs) (c : Cmd K)
    (hv : vstep vs c = some vs') : ∃ s', (∃ N, ∀ f ≥ N, step zero f s c = some s') ∧ Inv s' vs' := by
  cases c with
  | new b =>
    simp only [vstep, Option.some.injEq] at hv
    subst hv
    refine ⟨_, ⟨0, fun f _ => rfl⟩, ?_⟩
    have hnew : (fresh s.mem (.base b) b.dflt.length b.dflt)[s.mem.length]? =
        some ⟨.base b, b.dflt.length, none, s.mem.length, .nop, some b.dflt, b.dflt.length⟩ := by simp [fresh]
    refine inv_push hi (fun i hi' => List.getElem?_append_left hi') (F := [s.mem.length]) ?_ (by simp) (by simp)
    refine ⟨⟨_, [], rfl, hnew, rfl, rfl, rfl, rfl, rfl, rfl⟩, ?_, by simp [Val.np, VRest.np]⟩
    intro o ho
    rw [hnew] at ho
    rw [← Option.some.inj ho]
    simp [Val.np, VRest.np]
  | copy i =>
    obtain ⟨v, h1, h2⟩ := Option.bind_eq_some_iff.1 hv
    simp only [Option.some.injEq] at h2
    subst h2
    obtain ⟨hlen, Fs, g1, g2⟩ := id hi
    obtain ⟨a, a1, a2, a3⟩ := g1 i v (join_some h1)
    obtain ⟨h', n, F', ⟨N, c1⟩, c2, c3, c4, c5, _⟩ := copy_spec zero a2 a3
    refine ⟨_, ⟨N, fun f hf => ?_⟩, inv_push hi c2 c3 c4 c5⟩
    rw [step, a1]
    simp only [Option.bind_some]
    rw [c1 f hf]
    rfl
  | binary i j op =>
    obtain ⟨v, h1, h2⟩ := Option.bind_eq_some_iff.1 hv
    obtain ⟨w, h3, h4⟩ := Option.bind_eq_some_iff.1 h2
    simp only [Option.some.injEq] at h4
    subst h4
    obtain ⟨hlen, Fs, g1, g2⟩ := id hi
    obtain ⟨a, a1, a2, a3⟩ := g1 i v (join_some h1)
    obtain ⟨b, b1, b2, b3⟩ := g1 j w (join_some h3)
    obtain ⟨h', n, F', ⟨N, c1⟩, c2, c3, c4, c5, _⟩ := binary_spec zero op a2 a3 b2 b3
    refine ⟨_, ⟨N, fun f hf => ?_⟩, inv_push hi c2 c3 c4 c5⟩
    rw [step, a1, b1]
    simp only [Option.bind_some]
    rw [c1 f hf]
    rfl
  | inplace i j op =>
    obtain ⟨v, h1, h2⟩ := Option.bind_eq_some_iff.1 hv
    obtain ⟨w, h3, h4⟩ := Option.bind_eq_some_iff.1 h2
    by_cases hij : i = j
    · rw [if_pos hij] at h4; simp at h4
    rw [if_neg hij] at h4
    simp only [Option.some.injEq] at h4
    subst h4
    obtain ⟨hlen, Fs, g1, g2⟩ := hi
    have hvi := join_some h1
    have hvj := join_some h3
    obtain ⟨a, a1, a2, a3⟩ := g1 i v hvi
    obtain ⟨b, b1, b2, b3⟩ := g1 j w hvj
    obtain ⟨h', H, ⟨N, c1⟩, c2, c3, c4, c5, c6⟩ := append_spec op a2 a3 b2 b3 (g2 i j v w hvi hvj hij)
    refine ⟨⟨h', s.models⟩, ⟨N, fun f hf => ?_⟩, ?_⟩
    · rw [step, a1, b1]
      simp only [Option.bind_some]
      rw [c1 f hf]
      rfl
    have hil : i < vs.length := (List.getElem?_eq_some_iff.1 hvi).1
    have hjl : j < vs.length := (List.getElem?_eq_some_iff.1 hvj).1
    -- what is left
    have old : ∀ k z, k ≠ i → ((vs.set i (some (v.combine op w))).set j none)[k]? = some (some z) →
        k ≠ j ∧ vs[k]? = some (some z) := by
      intro k z hk hz
      have hkj : k ≠ j := by
        rintro rfl
        rw [List.getElem?_set_self (by simpa using hjl)] at hz
        simp at hz
      rw [List.getElem?_set_ne (Ne.symm hkj), List.getElem?_set_ne (Ne.symm hk)] at hz
      exact ⟨hkj, hz⟩
    have ati : ((vs.set i (some (v.combine op w))).set j none)[i]? = some (some (v.combine op w)) := by
      rw [List.getElem?_set_ne (Ne.symm hij), List.getElem?_set_self hil]
    refine ⟨by simp [hlen], fun k => if k = i then H else Fs k, ?_, ?_⟩
    · intro k z hz
      by_cases hk : k = i
      · subst hk
        rw [ati] at hz
        simp only [Option.some.injEq] at hz
        subst hz
        exact ⟨a, a1, by simpa using c4, by simpa using c5⟩
      · obtain ⟨hkj, hz'⟩ := old k z hk hz
        obtain ⟨e, e1, e2, e3⟩ := g1 k z hz'
        refine ⟨e, e1, ?_, ?_⟩
        · simp only [hk, if_false]
          refine e2.frame fun x hx => c3 x (e2.1.lt x hx) ?_ ?_
          · exact fun hc => g2 k i z v hz' hvi hk x hx x hc rfl
          · exact fun hc => g2 k j z w hz' hvj hkj x hx x hc rfl
        · simp only [hk, if_false]; exact e3
    · have sep : ∀ k z, k ≠ i → ((vs.set i (some (v.combine op w))).set j none)[k]? = some (some z) →
          ∀ x ∈ H, ∀ y ∈ Fs k, x ≠ y := by
        intro k z hk hz x hx y hy e
        subst e
        obtain ⟨hkj, hz'⟩ := old k z hk hz
        obtain ⟨e, e1, e2, e3⟩ := g1 k z hz'
        rcases c6 x hx with h' | h' | h'
        · exact g2 k i z v hz' hvi hk x hy x h' rfl
        · exact g2 k j z w hz' hvj hkj x hy x h' rfl
        · have := e2.1.lt x hy
          omega
      intro k l z y hz hy hkl p hp q hq
      by_cases hk : k = i
      · have hl : l ≠ i := fun e => hkl (by rw [hk, e])
        simp only [hk, if_true] at hp
        simp only [hl, if_false] at hq
        exact sep l y hl hy p hp q hq
      · simp only [hk, if_false] at hp
        by_cases hl : l = i
        · simp only [hl, if_true] at hq
          exact (sep k z hk hz q hq p hp).symm
        · simp only [hl, if_false] at hq
          exact g2 k l z y (old k z hk hz).2 (old l y hl hy).2 hkl p hp q hq
  | setPars i p =>
    obtain ⟨v, h1, h2⟩ := Option.bind_eq_some_iff.1 hv
    by_cases hp : p.length = v.np
    swap
    · rw [if_neg hp] at h2; simp at h2
    rw [if_pos hp] at h2
    simp only [Option.some.injEq] at h2
    subst h2
    obtain ⟨hlen, Fs, g1, g2⟩ := hi
    have hvi := join_some h1
    obtain ⟨a, a1, a2, a3⟩ := g1 i v hvi
    obtain ⟨⟨o, F2, eF, b1, b2, b3, b4, b5, b6⟩, b7, b8⟩ := id a2
    let x1 : Mem K := s.mem.modify a fun o => { o with pars := some p }
    have k1 : x1[a]? = some { o with pars := some p } := modify_self _ _ _ _ b1
    have k2 : ∀ j, j ≠ a → x1[j]? = s.mem[j]? := fun j hj => modify_ne _ _ _ _ hj
    have hil : i < vs.length := (List.getElem?_eq_some_iff.1 hvi).1
    refine ⟨⟨x1, s.models⟩, ⟨0, fun f _ => ?_⟩, by simp [hlen], Fs, ?_, ?_⟩
    · rw [step, a1]
      simp only [Option.bind_some]
      rw [Heap.setPars, b1]
      simp only [Option.bind_some]
      rw [b4, b1]
      simp only [Option.bind_some]
      rw [if_neg (by rw [b7 o b1, hp]; simp)]
      rfl
    · intro k z hz
      by_cases hk : k = i
      · subst hk
        rw [List.getElem?_set_self hil] at hz
        simp only [Option.some.injEq] at hz
        subst hz
        refine ⟨a, a1, ⟨⟨_, F2, eF, k1, b2, b3, b4, rfl, ?_⟩, ?_, hp⟩, a3⟩
        · rw [eF] at a3
          exact b6.frame _ fun j hj => k2 j fun e => (List.nodup_cons.1 a3).1 (e ▸ hj)
        · intro o' ho'
          rw [k1] at ho'
          rw [← Option.some.inj ho']
          exact b7 o b1
      · rw [List.getElem?_set_ne (Ne.symm hk)] at hz
        obtain ⟨e, e1, e2, e3⟩ := g1 k z hz
        refine ⟨e, e1, e2.frame fun x hx => k2 x fun hc => ?_, e3⟩
        exact g2 k i z v hz hvi hk x hx a a2.1.self_mem hc
    · have old : ∀ (k : ℕ) (z : Val K), (vs.set i (some { v with pars := p }))[k]? = some (some z) → ∃ z', vs[k]? = some (some z') := by
        intro k z hz
        by_cases hk : k = i
        · subst hk; exact ⟨v, hvi⟩
        · rw [List.getElem?_set_ne (Ne.symm hk)] at hz; exact ⟨z, hz⟩
      intro k l z y hz hy hkl
      obtain ⟨z', hz'⟩ := old k z hz
      obtain ⟨y', hy'⟩ := old l y hy
      exact g2 k l z' y' hz' hy' hkl

theorem run_spec (zero : K) (cs : List (Cmd K)) : ∀ {s : State K} {vs vs' : List (Option (Val K))}, Inv s vs →
    vrun vs cs = some vs' → ∃ s', (∃ N, ∀ f ≥ N, run zero f s cs = some s') ∧ Inv s' vs' := by
  induction cs with
  | nil =>
    intro s vs vs' hi hv
    simp only [vrun, Option.some.injEq] at hv
    subst hv
    exact ⟨s, ⟨0, fun f _ => rfl⟩, hi⟩
  | cons c cs ih =>
    intro s vs vs' hi hv
    obtain ⟨v1, h1, h2⟩ := Option.bind_eq_some_iff.1 hv
    obtain ⟨s1, ⟨N1, e1⟩, e2⟩ := step_spec zero hi c h1
    obtain ⟨s2, ⟨N2, e3⟩, e4⟩ := ih e2 h2
    refine ⟨s2, ⟨N1 + N2, fun f hf => ?_⟩, e4⟩
    rw [run, e1 f (by omega), Option.bind_some]
    exact e3 f (by omega)

/-- C21: whatever models are made, copied, combined with operators, put into each other in place and given new
parameters: what one sees of each model is what it would be if models were values, so never something that was done
to another one. -/
theorem C21_values (zero : K) (cs : List (Cmd K)) (vs : List (Option (Val K))) (hv : vrun [] cs = some vs) :
    ∃ s : State K, (∃ N, ∀ f ≥ N, run zero f ⟨[], []⟩ cs = some s) ∧ s.models.length = vs.length ∧
      ∀ (i : ℕ) (v : Val K), vs[i]? = some (some v) → ∃ a, s.models[i]? = some a ∧ (∃ N, ∀ f ≥ N, see f s.mem a = some v) ∧
        npars s.mem a = some v.np := by
  obtain ⟨s, h1, hlen, Fs, h2, h3⟩ := run_spec zero cs (s := ⟨[], []⟩) (vs := []) (vs' := vs)
    ⟨rfl, fun _ => [], fun i v h => by simp at h, fun i j v w h => by simp at h⟩ hv
  refine ⟨s, h1, hlen, fun i v hiv => ?_⟩
  obtain ⟨a, a1, a2, a3⟩ := h2 i v hiv
  exact ⟨a, a1, see_val a2⟩

/-- C21: with operators no object that was there changes at all. -/
theorem C21_operands (zero : K) (cs : List (Cmd K)) (vs : List (Option (Val K))) (hv : vrun [] cs = some vs)
    (i j : ℕ) (op : Op) (v w : Val K) (hi : vs[i]? = some (some v)) (hj : vs[j]? = some (some w)) :
    ∃ s s' : State K, (∃ N, ∀ f ≥ N, run zero f ⟨[], []⟩ cs = some s ∧ step zero f s (.binary i j op) = some s') ∧
      (∀ a, a < s.mem.length → s'.mem[a]? = s.mem[a]?) ∧ s'.models = s.models ++ [s.mem.length] ∧
      ∃ N, ∀ f ≥ N, see f s'.mem s.mem.length = some (v.combine op w) := by
  obtain ⟨s, ⟨N, h1⟩, hlen, Fs, h2, h3⟩ := run_spec zero cs (s := ⟨[], []⟩) (vs := []) (vs' := vs)
    ⟨rfl, fun _ => [], fun i v h => by simp at h, fun i j v w h => by simp at h⟩ hv
  obtain ⟨a, a1, a2, a3⟩ := h2 i v hi
  obtain ⟨b, b1, b2, b3⟩ := h2 j w hj
  obtain ⟨h', n, F', ⟨M, c1⟩, c2, c3, c4, c5, rfl⟩ := binary_spec zero op a2 a3 b2 b3
  refine ⟨s, ⟨h', s.models ++ [s.mem.length]⟩, ⟨N + M, fun f hf => ⟨h1 f (by omega), ?_⟩⟩, c2, rfl, (see_val c3).1⟩
  rw [step, a1, b1]
  simp only [Option.bind_some]
  rw [c1 f (by omega)]
  rfl

/-- C21, with values: a command changes no other model than the one it is about. -/
theorem C21_others (vs vs' : List (Option (Val K))) (c : Cmd K) (hv : vstep vs c = some vs') (k : ℕ) (v : Val K)
    (hk : vs[k]? = some (some v))
    (hc : match c with
      | .inplace i j _ => k ≠ i ∧ k ≠ j
      | .setPars i _ => k ≠ i
      | _ => True) : vs'[k]? = some (some v) := by
  have hlt : k < vs.length := (List.getElem?_eq_some_iff.1 hk).1
  cases c with
  | new b =>
    simp only [vstep, Option.some.injEq] at hv
    subst hv
    rw [List.getElem?_append_left hlt, hk]
  | copy i =>
    obtain ⟨w, h1, h2⟩ := Option.bind_eq_some_iff.1 hv
    simp only [Option.some.injEq] at h2
    subst h2
    rw [List.getElem?_append_left hlt, hk]
  | binary i j op =>
    obtain ⟨w, h1, h2⟩ := Option.bind_eq_some_iff.1 hv
    obtain ⟨z, h3, h4⟩ := Option.bind_eq_some_iff.1 h2
    simp only [Option.some.injEq] at h4
    subst h4
    rw [List.getElem?_append_left hlt, hk]
  | inplace i j op =>
    obtain ⟨w, h1, h2⟩ := Option.bind_eq_some_iff.1 hv
    obtain ⟨z, h3, h4⟩ := Option.bind_eq_some_iff.1 h2
    by_cases hij : i = j
    · rw [if_pos hij] at h4; simp at h4
    rw [if_neg hij] at h4
    simp only [Option.some.injEq] at h4
    subst h4
    simp only at hc
    rw [List.getElem?_set_ne (Ne.symm hc.2), List.getElem?_set_ne (Ne.symm hc.1), hk]
  | setPars i p =>
    obtain ⟨w, h1, h2⟩ := Option.bind_eq_some_iff.1 hv
    by_cases hp : p.length = w.np
    · rw [if_pos hp] at h2
      simp only [Option.some.injEq] at h2
      subst h2
      simp only at hc
      rw [List.getElem?_set_ne (Ne.symm hc), hk]
    · rw [if_neg hp] at h2; simp at h2

/-! ## Whatever there is in memory -/

/-- The objects from `B` on refer to objects from `B` on. -/
def Closed (B : ℕ) (h : Mem K) : Prop :=
  B ≤ h.length ∧ ∀ (i : ℕ) (o : Obj K), B ≤ i → h[i]? = some o → (∀ x, o.next = some x → B ≤ x) ∧ B ≤ o.head

def Good (B : ℕ) (h h' : Mem K) : Prop := (∀ i, i < B → h'[i]? = h[i]?) ∧ Closed B h'

theorem Good.trans {B : ℕ} {h h' h'' : Mem K} (a : Good B h h') (b : Good B h' h'') : Good B h h'' :=
  ⟨fun i hi => by rw [b.1 i hi, a.1 i hi], b.2⟩

theorem Good.refl {B : ℕ} {h : Mem K} (hc : Closed B h) : Good B h h := ⟨fun _ _ => rfl, hc⟩

theorem good_modify {B a : ℕ} {h : Mem K} {f : Obj K → Obj K} (hc : Closed B h) (ha : B ≤ a)
    (hf : ∀ o, (∀ x, o.next = some x → B ≤ x) ∧ B ≤ o.head → (∀ x, (f o).next = some x → B ≤ x) ∧ B ≤ (f o).head) :
    Good B h (h.modify a f) := by
  refine ⟨fun i hi => modify_ne _ _ _ _ (by omega), by simpa using hc.1, ?_⟩
  intro i o hi ho
  by_cases hia : i = a
  · subst hia
    cases h' : h[i]? with
    | none => rw [List.getElem?_modify, h'] at ho; simp at ho
    | some oi =>
      rw [modify_self _ _ _ _ h'] at ho
      rw [← Option.some.inj ho]
      exact hf oi (hc.2 i oi hi h')
  · rw [modify_ne _ _ _ _ hia] at ho
    exact hc.2 i o hi ho

theorem good_push {B : ℕ} {h : Mem K} {o : Obj K} (hc : Closed B h) (hn : o.next = none) (hh : o.head = h.length) :
    Good B h (h ++ [o]) := by
  refine ⟨fun i hi => List.getElem?_append_left (by have := hc.1; omega), by simp; have := hc.1; omega, ?_⟩
  intro i oi hi ho
  by_cases hil : i < h.length
  · rw [List.getElem?_append_left hil] at ho
    exact hc.2 i oi hi ho
  · have := (List.getElem?_eq_some_iff.1 ho).1
    simp at this
    obtain rfl : i = h.length := by omega
    simp at ho
    subst ho
    exact ⟨by simp [hn], by rw [hh]; exact hc.1⟩

theorem walk_ge {B : ℕ} {h : Mem K} (hc : Closed B h) (f : ℕ) : ∀ a l, B ≤ a → walk f h a = some l → B ≤ l := by
  induction f with
  | zero => intro a l _ hw; simp [walk] at hw
  | succ f ih =>
    intro a l ha hw
    rw [walk] at hw
    obtain ⟨o, h1, h2⟩ := Option.bind_eq_some_iff.1 hw
    cases hn : o.next with
    | none => rw [hn] at h2; simp at h2; omega
    | some b => rw [hn] at h2; exact ih b l ((hc.2 a o ha h1).1 b hn) h2

theorem setHeads_good {B hd : ℕ} (hhd : B ≤ hd) (f : ℕ) : ∀ (h h' : Mem K) (l : ℕ), Closed B h → B ≤ l →
    setHeads f h l hd = some h' → Good B h h' := by
  induction f with
  | zero => intro h h' l _ _ hs; simp [setHeads] at hs
  | succ f ih =>
    intro h h' l hc hl hs
    rw [setHeads] at hs
    obtain ⟨o, h1, h2⟩ := Option.bind_eq_some_iff.1 hs
    cases hn : o.next with
    | none =>
      rw [hn] at h2
      simp at h2
      subst h2
      exact Good.refl hc
    | some b =>
      rw [hn] at h2
      have hb := (hc.2 l o hl h1).1 b hn
      have g := good_modify (f := fun ob => { ob with head := hd }) hc hb (fun o ho => ⟨ho.1, hhd⟩)
      exact g.trans (ih _ _ b g.2 hb h2)

theorem append_good {B f self model : ℕ} {h h' : Mem K} {op : Op} (hc : Closed B h) (hs : B ≤ self) (hm : B ≤ model)
    (ha : append f h self model op = some h') : Good B h h' := by
  obtain ⟨⟨x0, m⟩, a1, a2⟩ := Option.bind_eq_some_iff.1 ha
  have hw : Good B h x0 ∧ B ≤ m := by
    obtain ⟨om, b1, b2⟩ := Option.bind_eq_some_iff.1 a1
    by_cases hn : om.next.isSome = true
    · rw [if_pos hn] at b2
      obtain ⟨om', c1, c2⟩ := Option.bind_eq_some_iff.1 b2
      obtain ⟨oh, c3, c4⟩ := Option.bind_eq_some_iff.1 c2
      simp only [Option.some.injEq, Prod.mk.injEq] at c4
      obtain ⟨rfl, rfl⟩ := c4
      exact ⟨good_push hc rfl rfl, hc.1⟩
    · rw [if_neg hn] at b2
      simp only [Option.some.injEq, Prod.mk.injEq] at b2
      obtain ⟨rfl, rfl⟩ := b2
      exact ⟨Good.refl hc, hm⟩
  obtain ⟨g0, hm'⟩ := hw
  refine g0.trans ?_
  simp only [link] at a2
  obtain ⟨l, b1, b2⟩ := Option.bind_eq_some_iff.1 a2
  have hl := walk_ge g0.2 f self l hs b1
  have g1 := good_modify (f := fun o => { o with next := some m }) g0.2 hl
    (fun o ho => ⟨by intro x hx; simp at hx; omega, ho.2⟩)
  have g2 := good_modify (f := fun o => { o with op := op }) g1.2 hm' (fun o ho => ho)
  obtain ⟨os, b3, b4⟩ := Option.bind_eq_some_iff.1 b2
  obtain ⟨x3, b5, b6⟩ := Option.bind_eq_some_iff.1 b4
  have g3 := setHeads_good (g2.2.2 self os hs b3).2 f _ _ l g2.2 hl b5
  obtain ⟨os', b7, b8⟩ := Option.bind_eq_some_iff.1 b6
  obtain ⟨om', b9, b10⟩ := Option.bind_eq_some_iff.1 b8
  obtain ⟨ps, b11, b12⟩ := Option.bind_eq_some_iff.1 b10
  obtain ⟨pm, b13, b14⟩ := Option.bind_eq_some_iff.1 b12
  simp only [Option.some.injEq] at b14
  subst b14
  have g4 := good_modify (f := fun o => { o with npchain := ps.length + pm.length, pars := some (ps ++ pm) }) g3.2 hs
    (fun o ho => ho)
  have g5 := good_modify (f := fun o => { o with pars := none }) g4.2 hm' (fun o ho => ho)
  exact (((g1.trans g2).trans g3).trans g4).trans g5

theorem finish_good {B n : ℕ} {h : Mem K} {o : Obj K} (hc : Closed B h) (hn : B ≤ n) : Good B h (finish h n o) :=
  good_modify hc hn (fun _ ho => ho)

theorem copy_good (zero : K) (f : ℕ) : ∀ (B : ℕ) (h : Mem K), Closed B h →
    (∀ a h' n, copy zero f h a = some (h', n) → Good B h h' ∧ B ≤ n) ∧
    (∀ n nx h', B ≤ n → copyLoop zero f h n nx = some h' → Good B h h') ∧
    (∀ l h' n, isolate zero f h l = some (h', n) → Good B h h' ∧ B ≤ n) := by
  induction f with
  | zero =>
    intro B h _
    refine ⟨fun a h' n hh => ?_, fun n nx h' _ hh => ?_, fun l h' n hh => ?_⟩
    · simp [copy] at hh
    · simp [copyLoop] at hh
    · simp [isolate] at hh
  | succ f ih =>
    intro B h hc
    refine ⟨fun a h' n hh => ?_, fun n nx h' hn hh => ?_, fun l h' n hh => ?_⟩
    · rw [copy] at hh
      obtain ⟨o, h1, h2⟩ := Option.bind_eq_some_iff.1 hh
      cases hk : o.kind with
      | base b =>
        simp only [hk] at h2
        obtain ⟨x1, h3, h4⟩ := Option.bind_eq_some_iff.1 h2
        simp only [Option.some.injEq, Prod.mk.injEq] at h4
        obtain ⟨rfl, rfl⟩ := h4
        have g1 : Good B h (fresh h (.base b) o.np b.dflt) := good_push hc rfl rfl
        have g2 := (ih B _ g1.2).2.1 h.length o.next x1 hc.1 h3
        exact ⟨(g1.trans g2).trans (finish_good g2.2 hc.1), hc.1⟩
      | brackets i =>
        simp only [hk] at h2
        obtain ⟨⟨x0, n0⟩, h3, h4⟩ := Option.bind_eq_some_iff.1 h2
        obtain ⟨g0, hn0⟩ := (ih B h hc).1 i x0 n0 h3
        obtain ⟨x1, h5, h6⟩ := Option.bind_eq_some_iff.1 h4
        have g1 : Good B x0 (fresh x0 (.brackets n0) o.np (List.replicate o.np zero)) := good_push g0.2 rfl rfl
        have g2 := (ih B _ g1.2).2.1 x0.length o.next x1 g0.2.1 h5
        have g3 := finish_good (o := o) g2.2 g0.2.1
        obtain ⟨oi, h7, h8⟩ := Option.bind_eq_some_iff.1 h6
        simp only [Option.some.injEq, Prod.mk.injEq] at h8
        obtain ⟨rfl, rfl⟩ := h8
        have g4 := good_modify (f := fun on => { on with pars := oi.pars }) g3.2 g0.2.1 (fun o ho => ho)
        exact ⟨(((g0.trans g1).trans g2).trans g3).trans g4, g0.2.1⟩
    · cases nx with
      | none =>
        rw [copyLoop] at hh
        simp only [Option.some.injEq] at hh
        subst hh
        exact Good.refl hc
      | some l =>
        rw [copyLoop] at hh
        obtain ⟨o, h1, h2⟩ := Option.bind_eq_some_iff.1 hh
        obtain ⟨⟨x1, m⟩, h3, h4⟩ := Option.bind_eq_some_iff.1 h2
        obtain ⟨g1, hm⟩ := (ih B h hc).2.2 l x1 m h3
        obtain ⟨x2, h5, h6⟩ := Option.bind_eq_some_iff.1 h4
        have g2 := append_good g1.2 hn hm h5
        exact (g1.trans g2).trans ((ih B x2 g2.2).2.1 n o.next h' hn h6)
    · rw [isolate] at hh
      obtain ⟨o, h1, h2⟩ := Option.bind_eq_some_iff.1 hh
      obtain ⟨⟨x2, m⟩, h3, h4⟩ := Option.bind_eq_some_iff.1 h2
      have c1 : Closed B (h.modify l fun ol => { ol with next := none, head := l }) := by
        by_cases hl : B ≤ l
        · exact (good_modify (f := fun ol => { ol with next := none, head := l }) hc hl
            (fun _ _ => ⟨by simp, hl⟩)).2
        · refine ⟨by simpa using hc.1, fun i oi hi hoi => ?_⟩
          rw [modify_ne _ _ _ _ (by omega)] at hoi
          exact hc.2 i oi hi hoi
      obtain ⟨g2, hm⟩ := (ih B _ c1).1 l x2 m h3
      have g3 : Good B h (x2.modify l fun ol => { ol with next := o.next, head := o.head }) := by
        refine ⟨fun i hi => ?_, ?_⟩
        · by_cases hil : i = l
          · subst hil
            have e := modify_self h i (fun ol => { ol with next := none, head := i }) o h1
            rw [modify_self _ _ _ _ (by rw [g2.1 i hi, e]), h1]
          · rw [modify_ne _ _ _ _ hil, g2.1 i hi, modify_ne _ _ _ _ hil]
        · by_cases hl : B ≤ l
          · exact (good_modify (f := fun ol => { ol with next := o.next, head := o.head }) g2.2 hl
              (fun _ _ => hc.2 l o hl h1)).2
          · refine ⟨by simpa using g2.2.1, fun i oi hi hoi => ?_⟩
            rw [modify_ne _ _ _ _ (by omega)] at hoi
            exact g2.2.2 i oi hi hoi
      obtain ⟨oh, h5, h6⟩ := Option.bind_eq_some_iff.1 h4
      obtain ⟨hp, h7, h8⟩ := Option.bind_eq_some_iff.1 h6
      simp only [Option.some.injEq, Prod.mk.injEq] at h8
      obtain ⟨rfl, rfl⟩ := h8
      have g4 := good_modify (f := fun om => { om with op := .nop, pars := some (hp.take o.np), npchain := om.np })
        g3.2 hm (fun o ho => ho)
      exact ⟨g3.trans g4, hm⟩

/-- C21: whatever there is in memory, well made or not, and whatever the operands are: an operator changes none of the
objects that were there. -/
theorem C21_unchanged (zero : K) (f : ℕ) (h h' : Mem K) (a b n : ℕ) (op : Op)
    (hb : binary zero f h a b op = some (h', n)) : (∀ i, i < h.length → h'[i]? = h[i]?) ∧ h.length ≤ n := by
  have hc : Closed h.length h := ⟨le_refl _, fun i o hi ho => by
    have := (List.getElem?_eq_some_iff.1 ho).1; omega⟩
  obtain ⟨⟨x1, n1⟩, h1, h2⟩ := Option.bind_eq_some_iff.1 hb
  obtain ⟨⟨x2, n2⟩, h3, h4⟩ := Option.bind_eq_some_iff.1 h2
  obtain ⟨x3, h5, h6⟩ := Option.bind_eq_some_iff.1 h4
  simp only [Option.some.injEq, Prod.mk.injEq] at h6
  obtain ⟨rfl, rfl⟩ := h6
  obtain ⟨g1, m1⟩ := (copy_good zero f _ h hc).1 a x1 n1 h1
  obtain ⟨g2, m2⟩ := (copy_good zero f _ x1 g1.2).1 b x2 n2 h3
  exact ⟨((g1.trans g2).trans (append_good g2.2 m1 m2 h5)).1, m1⟩

/-- C21: so is a copy. -/
theorem C21_copy_unchanged (zero : K) (f : ℕ) (h h' : Mem K) (a n : ℕ) (hb : copy zero f h a = some (h', n)) :
    (∀ i, i < h.length → h'[i]? = h[i]?) ∧ h.length ≤ n := by
  have hc : Closed h.length h := ⟨le_refl _, fun i o hi ho => by
    have := (List.getElem?_eq_some_iff.1 ho).1; omega⟩
  obtain ⟨g1, m1⟩ := (copy_good zero f _ h hc).1 a h' n hb
  exact ⟨g1.1, m1⟩

/-! ## Where it goes wrong -/

theorem setHeads_loop (f : ℕ) : ∀ (h : Mem K) (a hd : ℕ) (o : Obj K), h[a]? = some o → o.next = some a →
    setHeads f h a hd = none := by
  induction f with
  | zero => intros; rfl
  | succ f ih =>
    intro h a hd o ho hn
    rw [setHeads, ho]
    simp only [Option.bind_some, hn]
    exact ih _ a hd _ (modify_self _ _ _ _ ho) hn

/-- C21, where it fails: `model += model` never ends. -/
theorem C21_counterexample_self (b : Base K) (op : Op) (f : ℕ) :
    append f (fresh [] (.base b) b.dflt.length b.dflt) 0 0 op = none := by
  have h0 : (fresh [] (.base b) b.dflt.length b.dflt)[0]? =
      some ⟨.base b, b.dflt.length, none, 0, .nop, some b.dflt, b.dflt.length⟩ := rfl
  rw [append, wrap, h0]
  simp only [Option.bind_some, Option.isSome_none, Bool.false_eq_true, if_false]
  rw [link]
  cases f with
  | zero => rfl
  | succ f =>
    rw [walk, h0]
    simp only [Option.bind_some]
    have h1 := modify_self _ 0 (fun o => { o with next := some 0 }) _ h0
    have h2 := modify_self _ 0 (fun o => { o with op := op }) _ h1
    rw [h2]
    simp only [Option.bind_some]
    rw [setHeads_loop _ _ 0 _ _ h2 rfl]
    rfl

/-- A `BracketModel` around a model, with another one appended: the parameters are 1, 2. -/
def exBracket : Mem ℕ :=
  [⟨.base ⟨"inner", [1]⟩, 1, none, 0, .nop, some [1], 1⟩, ⟨.brackets 0, 1, some 2, 1, .nop, some [1, 2], 2⟩,
   ⟨.base ⟨"other", [2]⟩, 1, none, 1, .add, none, 1⟩]

/-- C21, where it fails: a copy of a chain that starts with a `BracketModel` has lost the parameters of all models but
the first; so the model made by an operator has too few of them, and a wrong number of parameters. -/
theorem C21_counterexample_bracket :
    (∃ h, append 5 [⟨.base ⟨"inner", [1]⟩, 1, none, 0, .nop, some [1], 1⟩, ⟨.brackets 0, 1, none, 1, .nop, some [1], 1⟩,
      ⟨.base ⟨"other", [2]⟩, 1, none, 2, .nop, some [2], 1⟩] 1 2 .add = some h ∧ h = exBracket) ∧
    (∃ h n o, copy 0 9 exBracket 1 = some (h, n) ∧ h[n]? = some o ∧ o.npchain = 2 ∧ o.pars = some [1]) ∧
    ∃ h n o, binary 0 9 (exBracket ++ [⟨.base ⟨"third", [3]⟩, 1, none, 3, .nop, some [3], 1⟩]) 1 3 .add = some (h, n) ∧
      h[n]? = some o ∧ o.npchain = 2 ∧ o.pars = some [1, 3] := by
  refine ⟨⟨_, rfl, rfl⟩, ⟨_, _, _, rfl, rfl, rfl, rfl⟩, ⟨_, _, _, rfl, rfl, rfl, rfl⟩⟩

/-! ## The hypotheses are met -/

/-- Three models, a sum, a product with the sum (so with brackets), new parameters in one of them, and one appended in
place. -/
def exProg : List (Cmd ℕ) :=
  [.new ⟨"a", [1]⟩, .new ⟨"b", [2, 3]⟩, .binary 0 1 .add, .binary 0 2 .mul, .setPars 0 [7], .inplace 1 2 .sub]

example : (vrun [] exProg).map List.length = some 4 := by decide
example : ∃ v, (vrun [] exProg).map (fun vs => vs[3]?) = some (some (some v)) ∧ v.np = 4 ∧ v.pars = [1, 1, 2, 3] := by
  refine ⟨_, rfl, by decide, rfl⟩
example : ((run 0 30 ⟨[], []⟩ exProg).bind fun s => (s.models[3]?).bind fun a => npars s.mem a) = some 4 := by decide

end BF.Heap
