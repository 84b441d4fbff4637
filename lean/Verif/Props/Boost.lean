import Verif.Boost
import Mathlib.Tactic.Common
import Mathlib.Data.Real.Basic
import Mathlib.Tactic.NormNum
import Mathlib.Tactic.Linarith

/-!
# C109: copies from the phantoms, and the boost of the best walker
-/

namespace BF
namespace Boost

variable {α β : Type*} [LinearOrder β]

/-! ## Specification -/

/-- The walkers at `ks` are replaced by copies of walkers that satisfy `good`, at their own place and with
their own id; all others stay. -/
structure Replaced (good : Walker α β → Prop) (start : ℕ) (ks : List ℕ) (wl wl' : WalkerList α β) : Prop where
  length : wl'.items.length = wl.items.length
  count : wl'.count = wl.count
  others : ∀ k : ℕ, k ∉ ks → wl'.items[k]? = wl.items[k]?
  copies : ∀ k ∈ ks, ∃ d p v, wl.items[k]? = some d ∧ good p ∧ wl'.items[k]? = some v ∧
    v.id = d.id ∧ v.allpars = p.allpars ∧ v.logL = p.logL ∧ v.start = start ∧ v.step = 0

/-- Every number below `m` comes again and again. -/
def Fair (rnd : ℕ → ℕ) (m : ℕ) : Prop := ∀ i < m, ∀ n, ∃ n' ≥ n, rnd n' % m = i

/-! ## Copies -/

theorem replaced_nil (good : Walker α β → Prop) (start : ℕ) (wl : WalkerList α β) :
    Replaced good start [] wl wl := ⟨rfl, rfl, fun _ _ => rfl, by simp⟩

theorem copy_some (wl wl1 : WalkerList α β) (i k : ℕ) (g : List (Walker α β)) (start : ℕ)
    (h : wl.copy i k g start = some wl1) : ∃ d s, wl.items[k]? = some d ∧ g[i]? = some s ∧
      wl1 = { wl with items := wl.items.set k { s with id := d.id, parent := i, start := start, step := 0 } } := by
  unfold WalkerList.copy at h
  split at h
  · rename_i d s h1 h2
    exact ⟨d, s, h1, h2, by simpa using h.symm⟩
  · cases h

theorem replaced_cons (good : Walker α β → Prop) (start k i : ℕ) (ks : List ℕ) (g : List (Walker α β))
    (wl wl1 wl' : WalkerList α β) (hk : k ∉ ks) (hc : wl.copy i k g start = some wl1)
    (hg : ∀ s, g[i]? = some s → good s) (h : Replaced good start ks wl1 wl') :
    Replaced good start (k :: ks) wl wl' := by
  obtain ⟨d, s, h1, h2, rfl⟩ := copy_some wl wl1 i k g start hc
  have hlt : k < wl.items.length := (List.getElem?_eq_some_iff.1 h1).1
  refine ⟨by rw [h.length]; simp, h.count, ?_, ?_⟩
  · intro j hj
    rw [List.mem_cons, not_or] at hj
    rw [h.others j hj.2]
    exact List.getElem?_set_ne (Ne.symm hj.1)
  · intro j hj
    by_cases hjk : j = k
    · subst hjk
      refine ⟨d, s, { s with id := d.id, parent := i, start := start, step := 0 }, h1, hg s h2, ?_, rfl, rfl,
        rfl, rfl, rfl⟩
      rw [h.others j hk]
      exact List.getElem?_set_self hlt
    · obtain ⟨d', p, v, a1, a2⟩ := h.copies j ((List.mem_cons.1 hj).resolve_left hjk)
      refine ⟨d', p, v, ?_, a2⟩
      rw [← a1]
      exact (List.getElem?_set_ne (Ne.symm hjk)).symm

theorem pick_ok (rnd : ℕ → ℕ) (phantoms : List (Walker α β)) (low : β) (fuel : ℕ) :
    ∀ n kcp n', pick rnd phantoms low fuel n = .ok kcp n' →
      ∃ p, phantoms[kcp]? = some p ∧ low < p.logL := by
  induction fuel with
  | zero => intro n kcp n' h; simp [pick] at h
  | succ fuel ih =>
      intro n kcp n' h
      unfold pick at h
      split at h
      · cases h
      · dsimp only at h
        split at h
        · cases h
        · rename_i p hp
          split at h
          · rename_i hl
            cases h
            exact ⟨p, hp, hl⟩
          · exact ih _ _ _ h

theorem copyLoop_ok (rnd : ℕ → ℕ) (phantoms : List (Walker α β)) (low : β) (start fuel : ℕ) (ks : List ℕ) :
    ∀ (wl : WalkerList α β) (n : ℕ) (wl' : WalkerList α β) (n' : ℕ), ks.Nodup →
      copyLoop rnd phantoms low start fuel ks wl n = .ok wl' n' →
      Replaced (fun p => p ∈ phantoms ∧ low < p.logL) start ks wl wl' := by
  induction ks with
  | nil => intro wl n wl' n' _ h; simp only [copyLoop, Res.ok.injEq] at h; rw [← h.1]; exact replaced_nil _ _ _
  | cons k ks ih =>
      intro wl n wl' n' hd h
      rw [List.nodup_cons] at hd
      unfold copyLoop at h
      split at h
      · cases h
      · cases h
      · rename_i kcp n1 hp
        split at h
        · cases h
        · rename_i wl1 hc
          obtain ⟨p, h1, h2⟩ := pick_ok rnd phantoms low fuel n kcp n1 hp
          refine replaced_cons _ start k kcp ks phantoms wl wl1 wl' hd.1 hc ?_ (ih _ _ _ _ hd.2 h)
          intro s hs
          rw [h1] at hs
          cases hs
          exact ⟨List.mem_of_getElem? h1, h2⟩

/-- C109, copies: each of the worst walkers is replaced by the copy of a phantom that is strictly above the
level, and keeps its place and id. The other walkers are not touched. -/
theorem C109_copies (rnd : ℕ → ℕ) (phantoms : List (Walker α β)) (low : β) (start fuel worst : ℕ)
    (wl wl' : WalkerList α β) (n n' : ℕ)
    (h : copyWalkerFromPhantoms rnd phantoms low start fuel worst wl n = .ok wl' n') :
    Replaced (fun p => p ∈ phantoms ∧ low < p.logL) start (List.range worst) wl wl' :=
  copyLoop_ok rnd phantoms low start fuel _ wl n wl' n' List.nodup_range h

theorem pickDyn_ok (rnd : ℕ → ℕ) (groups : List (ℕ × List (Walker α β))) (low : β) (fuel : ℕ) :
    ∀ n g i n', pickDyn rnd groups low fuel n = .ok (g, i) n' →
      (∃ m, ∃ key, locate groups (rnd m % total groups) = some (key, g, i) ∧ 0 < total groups) ∧
      ∃ p, g[i]? = some p ∧ low < p.logL := by
  induction fuel with
  | zero => intro n g i n' h; simp [pickDyn] at h
  | succ fuel ih =>
      intro n g i n' h
      unfold pickDyn at h
      split at h
      · cases h
      · rename_i ht
        split at h
        · cases h
        · rename_i key g1 i1 hl
          split at h
          · cases h
          · rename_i p hp
            split at h
            · rename_i hlow
              cases h
              exact ⟨⟨n, key, hl, Nat.pos_of_ne_zero ht⟩, p, hp, hlow⟩
            · exact ih _ _ _ _ h

/-- C109, groups: every number below the total is a place in one of the groups, and no two numbers are the same
place: the number is the sum of the sizes of the groups before, and the number in the group. -/
theorem C109_groups (groups : List (ℕ × List (Walker α β))) (kcp : ℕ) (h : kcp < total groups) :
    ∃ (j i : ℕ) (g : ℕ × List (Walker α β)), groups[j]? = some g ∧ i < g.2.length ∧
      locate groups kcp = some (g.1, g.2, i) ∧ kcp = total (groups.take j) + i := by
  induction groups generalizing kcp with
  | nil => simp [total] at h
  | cons g gs ih =>
      by_cases hk : kcp < g.2.length
      · refine ⟨0, kcp, g, rfl, hk, ?_, by simp [total]⟩
        cases gs <;> simp [locate, hk]
      · have ht : kcp - g.2.length < total gs := by
          simp only [total, List.map_cons, List.sum_cons] at h ⊢
          omega
        obtain ⟨j, i, g', h1, h2, h3, h4⟩ := ih _ ht
        refine ⟨j + 1, i, g', h1, h2, ?_, ?_⟩
        · cases gs with
          | nil => simp at h1
          | cons g2 gs => simpa [locate, hk] using h3
        · simp only [total, List.take_succ_cons, List.map_cons, List.sum_cons] at h4 ⊢
          omega

theorem copyLoopDyn_ok (rnd : ℕ → ℕ) (groups : List (ℕ × List (Walker α β))) (low : β) (start fuel : ℕ)
    (ks : List ℕ) : ∀ (wl : WalkerList α β) (n : ℕ) (wl' : WalkerList α β) (n' : ℕ), ks.Nodup →
      copyLoopDyn rnd groups low start fuel ks wl n = .ok wl' n' →
      Replaced (fun p => (∃ g ∈ groups, p ∈ g.2) ∧ low < p.logL) start ks wl wl' := by
  induction ks with
  | nil =>
      intro wl n wl' n' _ h
      simp only [copyLoopDyn, Res.ok.injEq] at h
      rw [← h.1]; exact replaced_nil _ _ _
  | cons k ks ih =>
      intro wl n wl' n' hd h
      rw [List.nodup_cons] at hd
      unfold copyLoopDyn at h
      split at h
      · cases h
      · cases h
      · rename_i g i n1 hp
        split at h
        · cases h
        · rename_i wl1 hc
          obtain ⟨⟨m, key, hl, ht⟩, p, h1, h2⟩ := pickDyn_ok rnd groups low fuel n g i n1 hp
          refine replaced_cons _ start k i ks g wl wl1 wl' hd.1 hc ?_ (ih _ _ _ _ hd.2 h)
          intro s hs
          rw [h1] at hs
          cases hs
          obtain ⟨j, i', g', a1, a2, a3, a4⟩ := C109_groups groups _ (Nat.mod_lt (rnd m) ht)
          rw [a3] at hl
          cases hl
          exact ⟨⟨g', List.mem_of_getElem? a1, List.mem_of_getElem? h1⟩, h2⟩

/-- C109, copies for dynamic models: the same, from the phantoms of all numbers of parameters. -/
theorem C109_dynamic_copies (rnd : ℕ → ℕ) (groups : List (ℕ × List (Walker α β))) (low : β)
    (start fuel worst : ℕ) (wl wl' : WalkerList α β) (n n' : ℕ)
    (h : copyWalkerFromDynamicPhantoms rnd groups low start fuel worst wl n = .ok wl' n') :
    Replaced (fun p => (∃ g ∈ groups, p ∈ g.2) ∧ low < p.logL) start (List.range worst) wl wl' :=
  copyLoopDyn_ok rnd groups low start fuel _ wl n wl' n' List.nodup_range h

/-! ## Does it end? -/

theorem pick_mono (rnd : ℕ → ℕ) (phantoms : List (Walker α β)) (low : β) (fuel : ℕ) :
    ∀ n kcp n', pick rnd phantoms low fuel n = .ok kcp n' → ∀ f' ≥ fuel,
      pick rnd phantoms low f' n = .ok kcp n' := by
  induction fuel with
  | zero => intro n kcp n' h; simp [pick] at h
  | succ fuel ih =>
      intro n kcp n' h f' hf
      obtain ⟨f, rfl⟩ : ∃ f, f' = f + 1 := ⟨f' - 1, by omega⟩
      unfold pick at h ⊢
      split at h
      · cases h
      · rename_i h0
        rw [if_neg h0]
        dsimp only at h ⊢
        split at h
        · cases h
        · rename_i p hp
          split at h
          · rename_i hl; rw [if_pos hl]; exact h
          · rename_i hl; rw [if_neg hl]; exact ih _ _ _ h f (by omega)

theorem pick_ends (rnd : ℕ → ℕ) (phantoms : List (Walker α β)) (low : β)
    (hf : Fair rnd phantoms.length) (hp : ∃ p ∈ phantoms, low < p.logL) (n : ℕ) :
    ∃ fuel kcp n', pick rnd phantoms low fuel n = .ok kcp n' := by
  obtain ⟨p, hp, hl⟩ := hp
  obtain ⟨i, hi, rfl⟩ := List.mem_iff_getElem.1 hp
  obtain ⟨m, hm, hr⟩ := hf i hi n
  obtain ⟨d, rfl⟩ : ∃ d, m = n + d := ⟨m - n, by omega⟩
  induction d generalizing n with
  | zero =>
      refine ⟨1, i, n + 1, ?_⟩
      simp only [Nat.add_zero] at hr
      unfold pick
      rw [if_neg (by omega)]
      dsimp only
      rw [hr, List.getElem?_eq_getElem hi]
      dsimp only
      rw [if_pos hl]
  | succ d ih =>
      obtain ⟨f, k, n', h⟩ := ih (n + 1) (by omega) (by rw [← hr]; congr 2; omega)
      by_cases hq : ∃ q, phantoms[rnd n % phantoms.length]? = some q ∧ low < q.logL
      · obtain ⟨q, hq, hql⟩ := hq
        refine ⟨1, rnd n % phantoms.length, n + 1, ?_⟩
        unfold pick
        rw [if_neg (by omega)]
        dsimp only
        rw [hq]
        dsimp only
        rw [if_pos hql]
      · refine ⟨f + 1, k, n', ?_⟩
        unfold pick
        rw [if_neg (by omega)]
        dsimp only
        have hlt : rnd n % phantoms.length < phantoms.length := Nat.mod_lt _ (by omega)
        rw [List.getElem?_eq_getElem hlt]
        dsimp only
        rw [if_neg (fun hh => hq ⟨_, List.getElem?_eq_getElem hlt, hh⟩)]
        exact h

theorem copyLoop_ends (rnd : ℕ → ℕ) (phantoms : List (Walker α β)) (low : β) (start : ℕ)
    (hf : Fair rnd phantoms.length) (hp : ∃ p ∈ phantoms, low < p.logL) (ks : List ℕ) :
    ∀ (wl : WalkerList α β) (n : ℕ), (∀ k ∈ ks, k < wl.items.length) →
      ∃ fuel, ∀ f' ≥ fuel, ∃ wl' n', copyLoop rnd phantoms low start f' ks wl n = .ok wl' n' := by
  induction ks with
  | nil => intro wl n _; exact ⟨0, fun f' _ => ⟨wl, n, rfl⟩⟩
  | cons k ks ih =>
      intro wl n hk
      obtain ⟨f, kcp, n1, h1⟩ := pick_ends rnd phantoms low hf hp n
      obtain ⟨p, h2, _⟩ := pick_ok rnd phantoms low f n kcp n1 h1
      have hkl := hk k (by simp)
      have hc : wl.copy kcp k phantoms start = some { wl with items := wl.items.set k { p with id := wl.items[k].id, parent := kcp, start := start, step := 0 } } := by
        unfold WalkerList.copy
        rw [List.getElem?_eq_getElem hkl, h2]
      obtain ⟨f2, h3⟩ := ih { wl with items := wl.items.set k { p with id := wl.items[k].id, parent := kcp, start := start, step := 0 } } n1 (by
        intro j hj; simpa using hk j (by simp [hj]))
      refine ⟨max f f2, fun f' hf' => ?_⟩
      obtain ⟨wl', n', h4⟩ := h3 f' (le_trans (le_max_right _ _) hf')
      refine ⟨wl', n', ?_⟩
      unfold copyLoop
      rw [pick_mono rnd phantoms low f n kcp n1 h1 f' (le_trans (le_max_left _ _) hf')]
      dsimp only
      rw [hc]
      exact h4

/-- C109, the end: as long as one phantom is above the level, and the generator keeps on giving all numbers,
the copies are made. -/
theorem C109_ends (rnd : ℕ → ℕ) (phantoms : List (Walker α β)) (low : β) (start worst : ℕ)
    (hf : Fair rnd phantoms.length) (hp : ∃ p ∈ phantoms, low < p.logL) (wl : WalkerList α β)
    (hw : worst ≤ wl.items.length) (n : ℕ) :
    ∃ fuel wl' n', copyWalkerFromPhantoms rnd phantoms low start fuel worst wl n = .ok wl' n' := by
  obtain ⟨f, h⟩ := copyLoop_ends rnd phantoms low start hf hp (List.range worst) wl n
    (fun k hk => lt_of_lt_of_le (List.mem_range.1 hk) hw)
  exact ⟨f, h f le_rfl⟩

theorem pick_running (rnd : ℕ → ℕ) (phantoms : List (Walker α β)) (low : β) (hne : phantoms ≠ [])
    (hp : ∀ p ∈ phantoms, p.logL ≤ low) (fuel : ℕ) : ∀ n, pick rnd phantoms low fuel n = .running := by
  induction fuel with
  | zero => intro n; rfl
  | succ f ih =>
      intro n
      have h0 : phantoms.length ≠ 0 := by simpa using hne
      have hlt : rnd n % phantoms.length < phantoms.length := Nat.mod_lt _ (Nat.pos_of_ne_zero h0)
      unfold pick
      rw [if_neg h0]
      dsimp only
      rw [List.getElem?_eq_getElem hlt]
      dsimp only
      rw [if_neg (not_lt.2 (hp _ (List.getElem_mem hlt))), ih]

/-- C109, counterexample: when no phantom is above the level, as when all walkers have the same likelihood, the
sampler hangs, whatever numbers are drawn. (Copies from the ensemble are always made.) -/
theorem C109_counterexample_hangs (rnd : ℕ → ℕ) (phantoms : List (Walker α β)) (low : β) (hne : phantoms ≠ [])
    (hp : ∀ p ∈ phantoms, p.logL ≤ low) (start fuel worst : ℕ) (wl : WalkerList α β) (n : ℕ) :
    copyWalkerFromPhantoms rnd phantoms low start fuel (worst + 1) wl n = .running := by
  unfold copyWalkerFromPhantoms
  rw [List.range_succ_eq_map]
  unfold copyLoop
  rw [pick_running rnd phantoms low hne hp fuel n]

def wk (id : ℕ) (a l : ℤ) : Walker ℤ ℤ := ⟨id, -1, 0, 0, [a], l⟩

/-- The hypotheses of C109_counterexample_hangs. -/
example : [wk 0 1 7, wk 1 2 7] ≠ [] ∧ ∀ p ∈ [wk 0 1 7, wk 1 2 7], p.logL ≤ 7 := by decide

/-- The hypotheses of C109_ends. -/
example : Fair (fun n => n) [wk 0 1 5, wk 1 2 7].length ∧ (∃ p ∈ [wk 0 1 5, wk 1 2 7], 6 < p.logL) := by
  refine ⟨fun i hi n => ⟨i + 2 * n, by omega, ?_⟩, by decide⟩
  have : i < 2 := hi
  show (i + 2 * n) % 2 = i
  omega

/-- A call that ends, for C109_copies. The parent is the number of the phantom. -/
example : (match copyWalkerFromPhantoms (fun n => n) [wk 0 1 5, wk 1 2 7, wk 2 3 8, wk 3 4 9] 7 4 10 1
      ⟨[wk 0 1 5, wk 1 2 7], 2⟩ 0 with
    | .ok wl' n' => some (wl'.items, n')
    | _ => none) = some ([⟨0, 2, 4, 0, [3], 8⟩, wk 1 2 7], 3) := by decide

/-- A call that ends, for C109_dynamic_copies. -/
example : (match copyWalkerFromDynamicPhantoms (fun n => n) [(1, [wk 0 1 5, wk 1 2 7]), (3, [wk 2 3 8])] 7 4 10 1
      ⟨[wk 0 1 5, wk 1 2 7], 2⟩ 0 with
    | .ok wl' n' => some (wl'.items, n')
    | _ => none) = some ([⟨0, 0, 4, 0, [3], 8⟩, wk 1 2 7], 3) := by decide

/-- C109, counterexample: the parent that a copy remembers is a number in the list of phantoms (for dynamic
models even in one of several lists); it is not the walker of the ensemble with that number. -/
theorem C109_counterexample_parent :
    ∃ (phantoms : List (Walker ℤ ℤ)) (wl wl' : WalkerList ℤ ℤ) (n' : ℕ) (v : Walker ℤ ℤ),
      copyWalkerFromPhantoms (fun n => n) phantoms 7 4 10 1 wl 0 = .ok wl' n' ∧
      wl'.items[0]? = some v ∧ v.parent = 2 ∧ wl.items.length = 2 :=
  ⟨[wk 0 1 5, wk 1 2 7, wk 2 3 8], ⟨[wk 0 1 5, wk 1 2 7], 2⟩, ⟨[⟨0, 2, 4, 0, [3], 8⟩, wk 1 2 7], 2⟩, 3,
    ⟨0, 2, 4, 0, [3], 8⟩, rfl, rfl, rfl, rfl⟩

/-! ## Options -/

/-- C109, option: whether the best walker is boosted is as asked for in the constructor, and without a fitter it
is done by Levenberg-Marquardt. -/
theorem C109_option {F : Type*} (lm : F) (b : Bool) :
    (Conf.make (.bool b)).engineFitter lm = if b then some lm else none := by
  cases b <;> rfl

/-- C109, counterexample: a fitter that is given as `bestBoost` is never used: the name for which the fitter
would be kept is `bestUpdate`. Whatever fitter is asked for, and whatever is assigned to `bestBoost`
afterwards, it is Levenberg-Marquardt. -/
theorem C109_counterexample_fitter {F : Type*} (lm f : F) (more : List (Value F)) :
    (Conf.make (.fitter f)).engineFitter lm = some lm ∧
    ∀ g, (more.foldl (fun c v => c.set (.bestBoost v)) (Conf.make (.fitter f))).engineFitter lm = some g →
      g = lm := by
  refine ⟨rfl, ?_⟩
  have key : ∀ (more : List (Value F)) (c : Conf F), c.myFitter = none →
      (more.foldl (fun c v => c.set (.bestBoost v)) c).myFitter = none := by
    intro more
    induction more with
    | nil => intro c h; exact h
    | cons v l ih => intro c h; exact ih _ h
  intro g hg
  have h := key more (Conf.make (.fitter f)) rfl
  unfold Conf.engineFitter at hg
  rw [h] at hg
  split at hg
  · simpa using hg.symm
  · cases hg

/-- C109, counterexample: once `copymode` has been 1, copies are made from the phantoms, whatever is assigned to
it later. -/
theorem C109_counterexample_copymode {F : Type*} (c : Conf F) (more : List (Assign F)) :
    (more.foldl Conf.set (c.set (.copymode 1))).fromPhantoms = true := by
  have key : ∀ (more : List (Assign F)) (c : Conf F), c.fromPhantoms = true →
      (more.foldl Conf.set c).fromPhantoms = true := by
    intro more
    induction more with
    | nil => intro c h; exact h
    | cons a l ih =>
        intro c h
        refine ih _ ?_
        cases a with
        | bestBoost v => exact h
        | bestUpdate v => cases v <;> exact h
        | copymode m =>
            unfold Conf.set
            dsimp only
            split
            · rfl
            · exact h
  exact key more _ rfl

/-! ## Boost -/

theorem doBoost_cases (nh : ℕ) (logLik : List α → Option β) (fit : List α → Option (List α × α))
    (phantoms : Option (List β)) (w w' : Wlk α β) (b : Bool)
    (h : doBoost nh logLik fit phantoms w = some (w', b)) :
    w' = w ∨ ∃ l best pars scale ptry ltry, phantoms = some l ∧ l.getLast? = some best ∧ best < w.logL ∧
      fit (start nh w.allpars) = some (pars, scale) ∧ trial nh w pars scale = some ptry ∧
      logLik ptry = some ltry ∧ w.logL < ltry ∧ w' = ⟨ptry, ltry, w.fitIndex⟩ ∧ b = true := by
  unfold doBoost at h
  split at h
  · left; simpa using (congrArg (fun x => x.map Prod.fst) h).symm
  · rename_i l
    split at h
    · cases h
    · rename_i best hb
      split at h
      · left; simpa using (congrArg (fun x => x.map Prod.fst) h).symm
      · rename_i hbw
        split at h
        · left; simpa using (congrArg (fun x => x.map Prod.fst) h).symm
        · rename_i pars scale hf
          split at h
          · cases h
          · rename_i ptry ht
            split at h
            · cases h
            · rename_i ltry hl
              split at h
              · rename_i hlt
                simp only [Option.some.injEq, Prod.mk.injEq] at h
                exact Or.inr ⟨l, best, pars, scale, ptry, ltry, rfl, hb, not_le.1 hbw, hf, ht, hl, hlt,
                  h.1.symm, h.2.symm⟩
              · left; simpa using (congrArg (fun x => x.map Prod.fst) h).symm

/-- C109, boost: the likelihood of a walker never goes down, and it stays the likelihood of its parameters; so a
walker above the level stays above it. Only a walker above all phantoms is changed. -/
theorem C109_boost (nh : ℕ) (logLik : List α → Option β) (fit : List α → Option (List α × α))
    (phantoms : Option (List β)) (w w' : Wlk α β) (b : Bool)
    (h : doBoost nh logLik fit phantoms w = some (w', b)) :
    w.logL ≤ w'.logL ∧ w'.fitIndex = w.fitIndex ∧
    (logLik w.allpars = some w.logL → logLik w'.allpars = some w'.logL) ∧
    (w' ≠ w → w.logL < w'.logL ∧ ∀ l, phantoms = some l → l.Pairwise (· ≤ ·) → ∀ x ∈ l, x < w.logL) := by
  rcases doBoost_cases nh logLik fit phantoms w w' b h with
    rfl | ⟨l, best, pars, scale, ptry, ltry, h1, h2, h3, h4, h5, h6, h7, rfl, rfl⟩
  · exact ⟨le_rfl, rfl, fun h => h, fun h => absurd rfl h⟩
  · refine ⟨le_of_lt h7, rfl, fun _ => h6, fun _ => ⟨h7, ?_⟩⟩
    intro l' hl' hs x hx
    rw [h1] at hl'
    cases hl'
    have hne : l ≠ [] := by rintro rfl; simp at h2
    rw [List.getLast?_eq_getLast_of_ne_nil hne, Option.some.injEq] at h2
    rw [← List.dropLast_append_getLast hne] at hs hx
    rw [h2] at hs hx
    rcases List.mem_append.1 hx with hx | hx
    · exact lt_of_le_of_lt ((List.pairwise_append.1 hs).2.2 x hx best (by simp)) h3
    · rw [List.mem_singleton.1 hx]; exact h3

/-- C109, boost with one hyperparameter: the fitter starts at the parameters of the walker, the walker keeps its
number of parameters, and its noise scale as long as that is not fitted. -/
theorem C109_boost_scale (logLik : List α → Option β) (fit : List α → Option (List α × α))
    (hfit : ∀ p q s, fit p = some (q, s) → q.length = p.length)
    (phantoms : Option (List β)) (w w' : Wlk α β) (b : Bool) (hw : w.allpars ≠ [])
    (h : doBoost 1 logLik fit phantoms w = some (w', b)) :
    start 1 w.allpars = w.allpars.dropLast ∧ w'.allpars.length = w.allpars.length ∧
    (w.fitIndex.getLast? ≠ some (-1) → w'.allpars.getLast? = w.allpars.getLast?) := by
  have hs : start 1 w.allpars = w.allpars.dropLast := by
    unfold start; rw [if_neg one_ne_zero, List.dropLast_eq_take]
  refine ⟨hs, ?_⟩
  rcases doBoost_cases 1 logLik fit phantoms w w' b h with
    rfl | ⟨l, best, pars, scale, ptry, ltry, h1, h2, h3, h4, h5, h6, h7, rfl, rfl⟩
  · exact ⟨rfl, fun _ => rfl⟩
  · have hl := hfit _ _ _ h4
    rw [hs, List.length_dropLast] at hl
    have hpos : 0 < w.allpars.length := List.length_pos_iff.2 hw
    unfold trial at h5
    rw [if_neg one_ne_zero] at h5
    dsimp only
    split at h5
    · cases h5
    · rename_i k hk
      split at h5
      · rename_i hk1
        cases h5
        refine ⟨by simp [hl]; omega, fun hne => ?_⟩
        exact absurd (hk.trans (congrArg some hk1)) hne
      · split at h5
        · cases h5
        · rename_i a ha
          cases h5
          exact ⟨by simp [hl]; omega, fun _ => by simp [ha]⟩

/-- The hypotheses of C109_boost_scale: a boost that succeeds. -/
example : doBoost 1 (fun p : List ℤ => some (-(p.getD 0 0 - 3) ^ 2)) (fun p => some (p.map fun _ => 3, 2))
      (some [-30, -9]) ⟨[1, 5], -4, [0]⟩ = some (⟨[3, 5], 0, [0]⟩, true) := by decide

/-- C109, counterexample: parameters that are kept at a value are fitted too, and change. Here the second
parameter is not among those to be fitted. -/
theorem C109_counterexample_kept :
    ∃ (logLik : List ℤ → Option ℤ) (fit : List ℤ → Option (List ℤ × ℤ)) (w w' : Wlk ℤ ℤ),
      doBoost 1 logLik fit (some [-30]) w = some (w', true) ∧ (1 : ℤ) ∉ w.fitIndex ∧
      w.allpars = [1, 5, 2] ∧ w'.allpars = [3, 7, 2] :=
  ⟨fun p => some (-(p.getD 0 0 - 3) ^ 2 - (p.getD 1 0 - 7) ^ 2), fun _ => some ([3, 7], 2),
    ⟨[1, 5, 2], -8, [0]⟩, ⟨[3, 7, 2], 0, [0]⟩, by decide, by decide, rfl, rfl⟩

/-- C109, counterexample: the boost does not look at the priors: the better place that the fitter finds is
taken, wherever it is. For every set of allowed parameters that does not contain the optimum of the fitter, the
walker ends outside. -/
theorem C109_counterexample_prior (allowed : List α → Prop) (logLik : List α → Option β)
    (pars : List α) (scale : α) (best top : β) (w : Wlk α β) (hb : best < w.logL) (ht : w.logL < top)
    (hs : w.fitIndex.getLast? = some (-1)) (hl : logLik (pars ++ [scale]) = some top) (hp : ¬ allowed pars) :
    ∃ w', doBoost 1 logLik (fun _ => some (pars, scale)) (some [best]) w = some (w', true) ∧
      ¬ allowed (start 1 w'.allpars) := by
  refine ⟨⟨pars ++ [scale], top, w.fitIndex⟩, ?_, by simpa [start] using hp⟩
  simp [doBoost, trial, hs, hl, hb, ht]

/-- C109, counterexample: without hyperparameters (Poisson, Bernoulli) the fitter gets an empty list of start
values. A fitter that needs as many as there are parameters fails, and that is ignored, so that no walker is ever
boosted. -/
theorem C109_counterexample_no_hyper (logLik : List α → Option β) (fit : List α → Option (List α × α))
    (hfit : fit [] = none) (best : β) (l : List β) (w : Wlk α β) :
    doBoost 0 logLik fit (some (l ++ [best])) w = some (w, false) := by
  simp [doBoost, start, hfit]

/-- C109, counterexample: with two hyperparameters (the exponential distribution) the list that is tried is one
too short: the first of the two is left out. -/
theorem C109_counterexample_two_hyper (w : Wlk α β) (pars : List α) (scale : α) (ptry : List α)
    (hw : 2 ≤ w.allpars.length) (hp : pars.length = (start 2 w.allpars).length)
    (h : trial 2 w pars scale = some ptry) : ptry.length + 1 = w.allpars.length := by
  have hs : (start 2 w.allpars).length = w.allpars.length - 2 := by
    unfold start; rw [if_neg two_ne_zero]; simp
  rw [hs] at hp
  unfold trial at h
  rw [if_neg two_ne_zero] at h
  split at h
  · cases h
  · split at h
    · cases h; simp [hp]; omega
    · split at h
      · cases h
      · cases h; simp [hp]; omega

example : trial 2 (⟨[1, 2, 3, 4], 0, [0, 1]⟩ : Wlk ℤ ℤ) [5, 6] 9 = some [5, 6, 4] := by decide

/-- C109, counterexample: the boost raises when the list of phantoms is empty, as it is when none of them was
above the last level. -/
theorem C109_counterexample_empty (nh : ℕ) (logLik : List α → Option β) (fit : List α → Option (List α × α))
    (w : Wlk α β) : doBoost nh logLik fit (some []) w = none := rfl

/-- C109, counterexample: a boost that found nothing better is counted as a success. -/
theorem C109_counterexample_counted :
    ∃ (logLik : List ℤ → Option ℤ) (w : Wlk ℤ ℤ),
      doBoost 1 logLik (fun _ => some ([9], 2)) (some [-30]) w = some (w, true) :=
  ⟨fun p => some (-(p.getD 0 0 - 3) ^ 2), ⟨[1, 5], -4, [0]⟩, by decide⟩

end Boost
end BF
