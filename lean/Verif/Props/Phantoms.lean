import Verif.Phantoms
import Verif.Props.Walkers
import Mathlib.Tactic.Linarith

/-!
# C41: bounding boxes of the phantoms; C42: the list of fitted parameters
-/

namespace BF
namespace Phantoms

open WalkerSpec WalkerList

variable {α β : Type*} [LinearOrder α] [Zero α] [LinearOrder β]

/-! ## Specification -/

/-- `(lo, hi)` is the tight bounding box of the parameter lists of the walkers in `ws`: it encloses
each parameter of each walker, and each of its values is a parameter of some walker. -/
def TightBox (ws : List (Walker α β)) (b : List α × List α) : Prop :=
  (∀ w ∈ ws, ∀ (i : ℕ) (v : α), w.allpars[i]? = some v →
    ∃ lo hi, b.1[i]? = some lo ∧ b.2[i]? = some hi ∧ lo ≤ v ∧ v ≤ hi) ∧
  (∀ (i : ℕ) (lo : α), b.1[i]? = some lo → ∃ w ∈ ws, w.allpars[i]? = some lo) ∧
  (∀ (i : ℕ) (hi : α), b.2[i]? = some hi → ∃ w ∈ ws, w.allpars[i]? = some hi)

/-- The walkers stored in a history. -/
def stored : List (Op α β) → List (Walker α β)
  | [] => []
  | .store w :: ops => w :: stored ops
  | .get _ :: ops => stored ops

/-- The levels asked for in a history. -/
def asked : List (Op α β) → List (WithBot β)
  | [] => []
  | .store _ :: ops => asked ops
  | .get l :: ops => l :: asked ops

/-- The walkers above a level. -/
def above (l : β) (ws : List (Walker α β)) : List (Walker α β) :=
  ws.filter fun w => decide (l < w.logL)

/-! ## Bounds of a list -/

theorem fold_spec (f : α → α → α) (R : α → α → Prop) (hrefl : ∀ a, R a a)
    (htrans : ∀ a b c, R a b → R b c → R a c) (hl : ∀ a b, R (f a b) a) (hr : ∀ a b, R (f a b) b)
    (hc : ∀ a b, f a b = a ∨ f a b = b) (n : ℕ) :
    ∀ (rs : List (List α)) (r : List α), r.length = n → (∀ x ∈ rs, x.length = n) →
      (rs.foldl (List.zipWith f) r).length = n ∧
      (∀ x ∈ r :: rs, ∀ (i : ℕ) (v : α), x[i]? = some v →
        ∃ a, (rs.foldl (List.zipWith f) r)[i]? = some a ∧ R a v) ∧
      (∀ (i : ℕ) (a : α), (rs.foldl (List.zipWith f) r)[i]? = some a → ∃ x ∈ r :: rs, x[i]? = some a) := by
  intro rs
  induction rs with
  | nil =>
    intro r hr1 _
    simp only [List.foldl_nil]
    refine ⟨hr1, ?_, ?_⟩
    · intro x hx i v hv
      simp at hx; subst hx
      exact ⟨v, hv, hrefl v⟩
    · intro i a ha; exact ⟨r, by simp, ha⟩
  | cons y rs ih =>
    intro r hr1 hrs
    have hy : y.length = n := hrs y (by simp)
    have hz : (List.zipWith f r y).length = n := by simp [hr1, hy]
    obtain ⟨h1, h2, h3⟩ := ih (List.zipWith f r y) hz fun x hx => hrs x (by simp [hx])
    simp only [List.foldl_cons]
    refine ⟨h1, ?_, ?_⟩
    · intro x hx i v hv
      have hi : i < n := by
        have : x.length = n := by
          rcases List.mem_cons.1 hx with rfl | hx
          · exact hr1
          · exact hrs x hx
        rw [← this]
        exact (List.getElem?_eq_some_iff.1 hv).1
      have hri : r[i]? = some (r[i]'(by omega)) := List.getElem?_eq_getElem (by omega)
      have hyi : y[i]? = some (y[i]'(by omega)) := List.getElem?_eq_getElem (by omega)
      have hzi : (List.zipWith f r y)[i]? = some (f (r[i]'(by omega)) (y[i]'(by omega))) := by
        rw [List.getElem?_zipWith, hri, hyi]
      obtain ⟨a, ha, hR⟩ := h2 _ (by simp) i _ hzi
      rcases List.mem_cons.1 hx with rfl | hx
      · rw [hri] at hv
        obtain rfl := Option.some.inj hv
        exact ⟨a, ha, htrans _ _ _ hR (hl _ _)⟩
      · rcases List.mem_cons.1 hx with rfl | hx
        · rw [hyi] at hv
          obtain rfl := Option.some.inj hv
          exact ⟨a, ha, htrans _ _ _ hR (hr _ _)⟩
        · exact h2 x (by simp [hx]) i v hv
    · intro i a ha
      obtain ⟨x, hx, hxa⟩ := h3 i a ha
      rcases List.mem_cons.1 hx with rfl | hx
      · rw [List.getElem?_zipWith] at hxa
        cases hri : r[i]? with
        | none => simp [hri] at hxa
        | some p =>
          cases hyi : y[i]? with
          | none => simp [hri, hyi] at hxa
          | some q =>
            simp only [hri, hyi, Option.some.injEq] at hxa
            rcases hc p q with h | h
            · exact ⟨r, by simp, by rw [hri, ← hxa, h]⟩
            · exact ⟨y, by simp, by rw [hyi, ← hxa, h]⟩
      · exact ⟨x, by simp [hx], hxa⟩

theorem allPars_same (ws : List (Walker α β)) (n : ℕ) (h : ∀ w ∈ ws, w.allpars.length = n) :
    allPars ws = ws.map Walker.allpars := by
  cases ws with
  | nil => simp [allPars]
  | cons w ws =>
    have hmax : ∀ l : List (Walker α β), (∀ w ∈ l, w.allpars.length = n) →
        (l.map fun w => w.allpars.length).foldr max 0 ≤ n := by
      intro l
      induction l with
      | nil => simp
      | cons v l ih =>
        intro hl
        simp only [List.map_cons, List.foldr_cons]
        exact max_le (hl v (by simp)).le (ih fun x hx => hl x (by simp [hx]))
    simp only [allPars]
    apply List.map_congr_left
    intro v hv
    have h1 := hmax _ h
    have h2 := h v hv
    simp only [padRow]
    rw [Nat.sub_eq_zero_of_le (by omega)]
    simp

theorem bounds_spec (ws : List (Walker α β)) (n : ℕ) (h : ∀ w ∈ ws, w.allpars.length = n) :
    (ws = [] → bounds ws = none) ∧
    (ws ≠ [] → ∃ b, bounds ws = some b ∧ b.1.length = n ∧ b.2.length = n ∧ TightBox ws b) := by
  constructor
  · rintro rfl; simp [bounds, allPars, colFold]
  · intro hne
    cases ws with
    | nil => exact absurd rfl hne
    | cons w ws =>
      have hrows : ∀ x ∈ ws.map Walker.allpars, x.length = n := by
        intro x hx
        obtain ⟨v, hv, rfl⟩ := List.mem_map.1 hx
        exact h v (by simp [hv])
      have hmin := fold_spec (min : α → α → α) (· ≤ ·) le_refl (fun _ _ _ => le_trans)
        min_le_left min_le_right (fun a b => min_choice a b) n (ws.map Walker.allpars) w.allpars
        (h w (by simp)) hrows
      have hmax := fold_spec (max : α → α → α) (fun a b => b ≤ a) le_refl
        (fun _ _ _ h g => le_trans g h) le_max_left le_max_right (fun a b => max_choice a b) n
        (ws.map Walker.allpars) w.allpars (h w (by simp)) hrows
      refine ⟨((ws.map Walker.allpars).foldl (List.zipWith min) w.allpars,
        (ws.map Walker.allpars).foldl (List.zipWith max) w.allpars), ?_, hmin.1, hmax.1, ?_, ?_, ?_⟩
      · simp only [bounds, allPars_same _ n h, List.map_cons, colFold]
      · intro v hv i x hx
        have hmem : v.allpars ∈ w.allpars :: ws.map Walker.allpars := by
          have := List.mem_map_of_mem (f := Walker.allpars) hv
          simpa using this
        obtain ⟨a, ha, hax⟩ := hmin.2.1 _ hmem i x hx
        obtain ⟨b, hb, hbx⟩ := hmax.2.1 _ hmem i x hx
        exact ⟨a, b, ha, hb, hax, hbx⟩
      · intro i lo hlo
        obtain ⟨x, hx, hxa⟩ := hmin.2.2 i lo hlo
        have : x ∈ (w :: ws).map Walker.allpars := by simpa using hx
        obtain ⟨v, hv, rfl⟩ := List.mem_map.1 this
        exact ⟨v, hv, hxa⟩
      · intro i hi hhi
        obtain ⟨x, hx, hxa⟩ := hmax.2.2 i hi hhi
        have : x ∈ (w :: ws).map Walker.allpars := by simpa using hx
        obtain ⟨v, hv, rfl⟩ := List.mem_map.1 this
        exact ⟨v, hv, hxa⟩

/-! ## Histories -/

/-- Invariant: the list is ordered, and above any level at or over the last crop it holds exactly
what was stored. -/
def Keeps (wl : WalkerList α β) (low : WithBot β) (st : List (Walker α β)) : Prop :=
  Ordered wl.items ∧ ∀ l : β, low ≤ l →
    ((above l wl.items).map content).Perm ((above l st).map content)

omit [LinearOrder α] [Zero α] in
theorem keeps_store (wl : WalkerList α β) (low : WithBot β) (st : List (Walker α β))
    (w : Walker α β) (h : Keeps wl low st) : Keeps (wl.insertWalker w) low (w :: st) := by
  obtain ⟨h1, h2⟩ := h
  obtain ⟨a, b, -, -⟩ := C03_insert_ordered wl w h1
  refine ⟨a, fun l hl => ?_⟩
  have hf : ∀ ws : List (Walker α β), (above l ws).map content
      = (ws.map content).filter fun c => decide (l < c.2.2.2.2) := by
    intro ws; rw [List.filter_map]; rfl
  rw [hf, hf]
  refine (b.filter _).trans ?_
  simp only [List.map_cons]
  have h3 := h2 l hl
  rw [hf, hf] at h3
  by_cases hw : l < w.logL
  · have e : ∀ ws, List.filter (fun c => decide (l < c.2.2.2.2)) (content w :: ws)
        = content w :: List.filter (fun c => decide (l < c.2.2.2.2)) ws := fun ws =>
      List.filter_cons_of_pos (decide_eq_true hw)
    rw [e, e]
    exact h3.cons _
  · have e : ∀ ws, List.filter (fun c => decide (l < c.2.2.2.2)) (content w :: ws)
        = List.filter (fun c => decide (l < c.2.2.2.2)) ws := fun ws =>
      List.filter_cons_of_neg (by rw [decide_eq_true_iff]; exact hw)
    rw [e, e]
    exact h3

omit [LinearOrder α] [Zero α] in
theorem keeps_crop (wl : WalkerList α β) (low : WithBot β) (st : List (Walker α β)) (l0 : β)
    (hl0 : low ≤ l0) (h : Keeps wl low st) : Keeps (wl.cropOnLow l0) l0 st ∧
      ((wl.cropOnLow l0).items.map content).Perm ((above l0 st).map content) := by
  obtain ⟨h1, h2⟩ := h
  obtain ⟨a, b, -⟩ := C03_crop_is_filter wl l0 h1
  refine ⟨⟨b, fun l hl => ?_⟩, ?_⟩
  · have hl' : l0 ≤ l := WithBot.coe_le_coe.1 hl
    have : above l (wl.cropOnLow l0).items = above l wl.items := by
      rw [a]
      simp only [above, List.filter_filter]
      apply List.filter_congr
      intro w _
      by_cases hw : l < w.logL
      · simp [hw, lt_of_le_of_lt hl' hw]
      · simp [hw]
    rw [this]
    exact h2 l (hl0.trans hl)
  · rw [a]; exact h2 l0 hl0

omit [LinearOrder α] [Zero α] in
theorem perm_mem (xs ys : List (Walker α β)) (h : (xs.map content).Perm (ys.map content))
    (w : Walker α β) (hw : w ∈ xs) : ∃ v ∈ ys, v.allpars = w.allpars ∧ v.logL = w.logL := by
  have : content w ∈ ys.map content := h.subset (List.mem_map_of_mem hw)
  obtain ⟨v, hv, hc⟩ := List.mem_map.1 this
  simp only [content, Prod.mk.injEq] at hc
  exact ⟨v, hv, hc.2.2.2.1, hc.2.2.2.2⟩

omit [Zero α] in
theorem tight_transfer (xs ys : List (Walker α β)) (h : (xs.map content).Perm (ys.map content))
    (b : List α × List α) (ht : TightBox xs b) : TightBox ys b := by
  obtain ⟨h1, h2, h3⟩ := ht
  refine ⟨?_, ?_, ?_⟩
  · intro w hw i v hv
    obtain ⟨x, hx, hxa, _⟩ := perm_mem ys xs h.symm w hw
    exact h1 x hx i v (by rw [hxa]; exact hv)
  · intro i lo hlo
    obtain ⟨w, hw, hwa⟩ := h2 i lo hlo
    obtain ⟨x, hx, hxa, _⟩ := perm_mem xs ys h w hw
    exact ⟨x, hx, by rw [hxa]; exact hwa⟩
  · intro i hi hhi
    obtain ⟨w, hw, hwa⟩ := h3 i hi hhi
    obtain ⟨x, hx, hxa, _⟩ := perm_mem xs ys h w hw
    exact ⟨x, hx, by rw [hxa]; exact hwa⟩

theorem run_keeps (ops : List (Op α β)) : ∀ (c : Coll α β) (st : List (Walker α β)),
    Keeps c.phantoms c.low st → ∃ st', Keeps (ops.foldl Op.run c).phantoms (ops.foldl Op.run c).low st'
      ∧ st'.Perm (stored ops ++ st) ∧
      ((ops.foldl Op.run c).low = c.low ∨ (ops.foldl Op.run c).low ∈ asked ops) := by
  induction ops with
  | nil => intro c st h; exact ⟨st, h, by simp [stored], by simp⟩
  | cons op ops ih =>
    intro c st h
    simp only [List.foldl_cons]
    cases op with
    | store w =>
      obtain ⟨st', h1, h2, h3⟩ := ih (store c w) (w :: st) (keeps_store _ _ _ w h)
      refine ⟨st', h1, ?_, ?_⟩
      · simp only [stored]
        refine h2.trans ?_
        simpa using (List.perm_middle (a := w) (l₁ := stored ops) (l₂ := st))
      · simpa [asked, store, Op.run] using h3
    | get low =>
      have key : ∃ c', Op.run c (.get low) = c' ∧ Keeps c'.phantoms c'.low st ∧
          (c'.low = c.low ∨ c'.low = low) := by
        refine ⟨_, rfl, ?_⟩
        simp only [Op.run, getMinmax]
        cases low with
        | bot => exact ⟨h, Or.inl rfl⟩
        | coe l =>
          change Keeps (if (l : WithBot β) > c.low then calculate c l else c).phantoms
            (if (l : WithBot β) > c.low then calculate c l else c).low st ∧
            ((if (l : WithBot β) > c.low then calculate c l else c).low = c.low ∨
             (if (l : WithBot β) > c.low then calculate c l else c).low = (l : WithBot β))
          split
          · rename_i hgt
            exact ⟨(keeps_crop c.phantoms c.low st l hgt.le h).1, Or.inr rfl⟩
          · exact ⟨h, Or.inl rfl⟩
      obtain ⟨c', hc', hk, hl⟩ := key
      obtain ⟨st', h1, h2, h3⟩ := ih c' st hk
      rw [hc']
      refine ⟨st', h1, h2, ?_⟩
      simp only [asked, List.mem_cons]
      rcases h3 with h3 | h3
      · rcases hl with hl | hl
        · left; rw [h3, hl]
        · right; left; rw [h3, hl]
      · right; right; exact h3

/-- After any history of stored walkers and requests, a request for a level above all levels asked
before is answered with the tight bounding box of all stored walkers above that level, or with
`None` when there are none. -/
theorem C41_box_partial (n : ℕ) (ops : List (Op α β)) (hn : ∀ w ∈ stored ops, w.allpars.length = n)
    (l : β) (hl : ∀ l' ∈ asked ops, l' < (l : WithBot β)) :
    ∃ ans, (getMinmax (ops.foldl Op.run empty) l).2 = some ans ∧
      (above l (stored ops) = [] → ans = none) ∧
      (above l (stored ops) ≠ [] → ∃ b, ans = some b ∧ b.1.length = n ∧ b.2.length = n ∧
        TightBox (above l (stored ops)) b) := by
  obtain ⟨st, hk, hp, hlow⟩ := run_keeps ops (empty : Coll α β) []
    ⟨by simp [Ordered, empty], fun _ _ => by simp [above, empty]⟩
  set c := ops.foldl Op.run empty with hc
  have hgt : (l : WithBot β) > c.low := by
    rcases hlow with h | h
    · rw [h]; exact WithBot.bot_lt_coe l
    · exact hl _ h
  have hg : (getMinmax c (l : WithBot β)).2 = some (bounds (c.phantoms.cropOnLow l).items) := by
    change (if (l : WithBot β) > c.low then calculate c l else c).box = _
    rw [if_pos hgt]; rfl
  obtain ⟨_, hcrop⟩ := keeps_crop c.phantoms c.low st l hgt.le hk
  have hst : ((c.phantoms.cropOnLow l).items.map content).Perm
      ((above l (stored ops)).map content) := by
    refine hcrop.trans ?_
    have : st.Perm (stored ops) := by simpa using hp
    exact (this.filter _).map _
  have hlen : ∀ w ∈ (c.phantoms.cropOnLow l).items, w.allpars.length = n := by
    intro w hw
    obtain ⟨v, hv, hva, _⟩ := perm_mem _ _ hst w hw
    rw [← hva]
    exact hn v (List.mem_of_mem_filter hv)
  obtain ⟨hb1, hb2⟩ := bounds_spec _ n hlen
  have hnil : (c.phantoms.cropOnLow l).items = [] ↔ above l (stored ops) = [] := by
    have hl := hst.length_eq
    simp only [List.length_map] at hl
    constructor <;> intro h <;> rw [h] at hl
    · exact List.length_eq_zero_iff.1 hl.symm
    · exact List.length_eq_zero_iff.1 hl
  refine ⟨_, hg, fun h => hb1 (hnil.2 h), fun h => ?_⟩
  obtain ⟨b, h1, h2, h3, h4⟩ := hb2 fun h' => h (hnil.1 h')
  exact ⟨b, h1, h2, h3, tight_transfer _ _ hst b h4⟩

/-- The answer is not recomputed when a walker is stored between two requests for the same level:
the box then misses the new walker. -/
theorem C41_counterexample :
    ∃ (ops : List (Op ℤ ℤ)) (b : List ℤ × List ℤ) (w : Walker ℤ ℤ),
      (getMinmax (ops.foldl Op.run empty) ((0 : ℤ) : WithBot ℤ)).2 = some (some b) ∧
      w ∈ above 0 (stored ops) ∧ w.allpars[0]? = some 9 ∧ b.2[0]? = some 1 :=
  ⟨[.store ⟨0, -1, 0, 0, [1], 5⟩, .get ((0 : ℤ) : WithBot ℤ), .store ⟨1, -1, 0, 0, [9], 6⟩],
    ([1], [1]), ⟨1, -1, 0, 0, [9], 6⟩, by decide, by decide, by decide, by decide⟩

/-- A first request for the level minus infinity has no answer at all. -/
theorem C41_counterexample_first (ws : List (Walker α β)) :
    (getMinmax ((ws.map Op.store).foldl Op.run empty) ⊥).2 = none := by
  have : ∀ c : Coll α β, c.box = none → ((ws.map Op.store).foldl Op.run c).box = none := by
    induction ws with
    | nil => intro c h; exact h
    | cons w ws ih => intro c h; simp only [List.map_cons, List.foldl_cons]; exact ih _ h
  exact this _ rfl

/-! ### dynamic collection -/

/-- One call on a dynamic collection. -/
inductive DOp (α β : Type*)
  | store (np : ℕ) (w : Walker α β)
  | get (low : β) (np : ℕ)

def DOp.run (m : ℕ) (c : Dyn α β) : DOp α β → Dyn α β
  | .store np w => storeDyn c np w
  | .get low np => (getDyn m c low np).1

/-- The walkers with `np` parameters that were stored. -/
def storedDyn (np : ℕ) : List (DOp α β) → List (Walker α β)
  | [] => []
  | .store k w :: ops => if k = np then w :: storedDyn np ops else storedDyn np ops
  | .get _ _ :: ops => storedDyn np ops

/-- The levels asked for `np` parameters. -/
def askedDyn (np : ℕ) : List (DOp α β) → List β
  | [] => []
  | .store _ _ :: ops => askedDyn np ops
  | .get l k :: ops => if k = np then l :: askedDyn np ops else askedDyn np ops

/-- The list for `np` parameters (empty when absent) and the last level. -/
def dynList (c : Dyn α β) (np : ℕ) : WalkerList α β := (c.phantoms np).getD ⟨[], 0⟩

/-- The level as a bound, minus infinity when never asked. -/
def dynLow (c : Dyn α β) (np : ℕ) : WithBot β := (c.low np).getD ⊥

omit [LinearOrder β] in
theorem dynList_none (c : Dyn α β) (np : ℕ) (h : c.phantoms np = none) : dynList c np = ⟨[], 0⟩ := by
  simp [dynList, h]

theorem calc_list (m : ℕ) (c : Dyn α β) (low : β) (np : ℕ) :
    dynList (calculateDyn m c low np) np = (dynList c np).cropOnLow low := by
  simp only [dynList, calculateDyn, upd, if_true, Option.getD_some]
  cases h : c.phantoms np with
  | none => simp [WalkerList.cropOnLow, WalkerList.firstIndex]
  | some wl => simp

theorem getDyn_cases (m : ℕ) (c : Dyn α β) (low : β) (np : ℕ) :
    (getDyn m c low np).1 = c ∨ (getDyn m c low np).1 = calculateDyn m c low np := by
  simp only [getDyn]
  cases c.low np with
  | none => right; rfl
  | some l => dsimp only; split <;> simp

omit [LinearOrder α] [Zero α] in
/-- A crop at any level keeps what was stored above that level and above earlier crops. -/
theorem keeps_crop_any (wl : WalkerList α β) (low : WithBot β) (st : List (Walker α β)) (l0 : β)
    (h : Keeps wl low st) : Keeps (wl.cropOnLow l0) (max low l0) st := by
  obtain ⟨h1, h2⟩ := h
  obtain ⟨a, b, -⟩ := C03_crop_is_filter wl l0 h1
  refine ⟨b, fun l hl => ?_⟩
  have hl' : l0 ≤ l := WithBot.coe_le_coe.1 ((le_max_right _ _).trans hl)
  have : above l (wl.cropOnLow l0).items = above l wl.items := by
    rw [a]
    simp only [above, List.filter_filter]
    apply List.filter_congr
    intro w _
    by_cases hw : l < w.logL
    · simp [hw, lt_of_le_of_lt hl' hw]
    · simp [hw]
  rw [this]
  exact h2 l ((le_max_left _ _).trans hl)

theorem dyn_run_keeps (m np : ℕ) (L : β) (ops : List (DOp α β)) :
    ∀ (c : Dyn α β) (hi : WithBot β) (st : List (Walker α β)),
    Keeps (dynList c np) hi st → dynLow c np ≤ hi → hi < L → (∀ l ∈ askedDyn np ops, l < L) →
    ∃ st' hi', Keeps (dynList (ops.foldl (DOp.run m) c) np) hi' st' ∧
      dynLow (ops.foldl (DOp.run m) c) np ≤ hi' ∧ hi' < L ∧
      st'.Perm (storedDyn np ops ++ st) := by
  induction ops with
  | nil => intro c hi st h h1 h2 _; exact ⟨st, hi, h, h1, h2, by simp [storedDyn]⟩
  | cons op ops ih =>
    intro c hi st h hlow hL ha
    simp only [List.foldl_cons]
    cases op with
    | store k w =>
      by_cases hk : k = np
      · subst hk
        have h1 : dynList (storeDyn c k w) k = (dynList c k).insertWalker w := by
          simp [dynList, storeDyn, upd]
        obtain ⟨st', hi', a, b, d, f⟩ := ih (storeDyn c k w) hi (w :: st)
          (by rw [h1]; exact keeps_store _ _ _ w h) hlow hL ha
        refine ⟨st', hi', a, b, d, ?_⟩
        simp only [storedDyn, if_true]
        exact f.trans (by simpa using (List.perm_middle (a := w) (l₁ := storedDyn k ops) (l₂ := st)))
      · have h1 : dynList (storeDyn c k w) np = dynList c np := by
          simp [dynList, storeDyn, upd, show np ≠ k from fun h => hk h.symm]
        obtain ⟨st', hi', a, b, d, f⟩ := ih (storeDyn c k w) hi st (by rw [h1]; exact h) hlow hL ha
        exact ⟨st', hi', a, b, d, by simpa [storedDyn, hk] using f⟩
    | get l k =>
      by_cases hk : k = np
      · subst hk
        have hlL : l < L := ha l (by simp [askedDyn])
        have ha' : ∀ l ∈ askedDyn k ops, l < L := fun x hx => ha x (by simp [askedDyn, hx])
        simp only [DOp.run, storedDyn]
        rcases getDyn_cases m c l k with hg | hg <;> rw [hg]
        · exact ih c hi st h hlow hL ha'
        · refine ih (calculateDyn m c l k) (max hi l) st ?_ ?_ ?_ ha'
          · rw [calc_list]; exact keeps_crop_any _ _ _ _ h
          · simp [dynLow, calculateDyn, upd]
          · exact max_lt hL (WithBot.coe_lt_coe.2 hlL)
      · have ha' : ∀ l ∈ askedDyn np ops, l < L := fun x hx => ha x (by simp [askedDyn, hk, hx])
        have hne : np ≠ k := fun h => hk h.symm
        simp only [DOp.run, storedDyn]
        rcases getDyn_cases m c l k with hg | hg <;> rw [hg]
        · exact ih c hi st h hlow hL ha'
        · refine ih (calculateDyn m c l k) hi st ?_ ?_ hL ha'
          · have : dynList (calculateDyn m c l k) np = dynList c np := by
              simp [dynList, calculateDyn, upd, hne]
            rw [this]; exact h
          · have : dynLow (calculateDyn m c l k) np = dynLow c np := by
              simp [dynLow, calculateDyn, upd, hne]
            rw [this]; exact hlow

/-- The dynamic collection: a request for `np` parameters at a level above all levels asked before
for that number is answered with the tight bounding box of the stored walkers with `np` parameters
above the level, or with `None` when there are no more than `minpars` of them. -/
theorem C41_dynamic_box_partial (m n np : ℕ) (ops : List (DOp α β))
    (hn : ∀ w ∈ storedDyn np ops, w.allpars.length = n)
    (l : β) (hl : ∀ l' ∈ askedDyn np ops, l' < l) :
    ((above l (storedDyn np ops)).length ≤ m →
      (getDyn m (ops.foldl (DOp.run m) emptyDyn) l np).2 = none) ∧
    (m < (above l (storedDyn np ops)).length →
      ∃ b, (getDyn m (ops.foldl (DOp.run m) emptyDyn) l np).2 = some b ∧
        b.1.length = n ∧ b.2.length = n ∧ TightBox (above l (storedDyn np ops)) b) := by
  obtain ⟨st, hi, hk, hlow, hL, hp⟩ := dyn_run_keeps m np l ops (emptyDyn : Dyn α β) ⊥ []
    ⟨by simp [Ordered, emptyDyn, dynList], fun _ _ => by simp [above, emptyDyn, dynList]⟩
    (by simp [dynLow, emptyDyn]) (WithBot.bot_lt_coe l) hl
  set c := ops.foldl (DOp.run m) emptyDyn with hc
  have hcalc : (getDyn m c l np).1 = calculateDyn m c l np := by
    simp only [getDyn]
    cases hcl : c.low np with
    | none => rfl
    | some x =>
      have hx : dynLow c np = x := by simp [dynLow, hcl]
      have : (l : WithBot β) > x := by rw [← hx]; exact lt_of_le_of_lt hlow hL
      dsimp only
      rw [if_pos (Or.inl this)]
  have hans : (getDyn m c l np).2 = (getDyn m c l np).1.box np := rfl
  obtain ⟨_, hcrop⟩ := keeps_crop (dynList c np) hi st l hL.le hk
  set wl := (dynList c np).cropOnLow l with hwl
  have hbox : (getDyn m c l np).2 = if wl.items.length ≤ m then none else bounds wl.items := by
    have h1 : (calculateDyn m c l np).phantoms np = some wl := by
      have := calc_list m c l np
      have h2 : ∃ x, (calculateDyn m c l np).phantoms np = some x := by
        simp only [calculateDyn, upd, if_true]; exact ⟨_, rfl⟩
      obtain ⟨x, hx⟩ := h2
      rw [dynList, hx] at this
      rw [hx, ← hwl.symm.trans rfl]
      simpa using this
    rw [hans, hcalc]
    simp only [calculateDyn, upd, if_true, Option.some.injEq] at h1 ⊢
    rw [h1]
  have hst : (wl.items.map content).Perm ((above l (storedDyn np ops)).map content) := by
    refine hcrop.trans ?_
    have : st.Perm (storedDyn np ops) := by simpa using hp
    exact (this.filter _).map _
  have hlen : ∀ w ∈ wl.items, w.allpars.length = n := by
    intro w hw
    obtain ⟨v, hv, hva, _⟩ := perm_mem _ _ hst w hw
    rw [← hva]
    exact hn v (List.mem_of_mem_filter hv)
  have hll : wl.items.length = (above l (storedDyn np ops)).length := by
    simpa using hst.length_eq
  rw [hbox, hll]
  constructor
  · intro h; rw [if_pos h]
  · intro h
    rw [if_neg (by omega)]
    obtain ⟨b, h1, h2, h3, h4⟩ := (bounds_spec wl.items n hlen).2 (by
      intro h0; rw [h0] at hll; simp at hll; omega)
    exact ⟨b, h1, h2, h3, tight_transfer _ _ hst b h4⟩

/-! Non-vacuity: a history with three walkers, a crop and a rising level. -/
example : (getMinmax ([.store ⟨0, -1, 0, 0, [1, 8], 5⟩, .store ⟨1, -1, 0, 0, [3, 2], 2⟩,
    .get ((1 : ℤ) : WithBot ℤ), .store ⟨2, -1, 0, 0, [-4, 5], 7⟩].foldl Op.run (empty : Coll ℤ ℤ))
    ((4 : ℤ) : WithBot ℤ)).2 = some (some ([-4, 5], [1, 8])) := by decide

example : (getDyn 1 ([DOp.store 2 ⟨0, -1, 0, 0, [1, 8], 5⟩, .store 3 ⟨1, -1, 0, 0, [3, 2, 1], 9⟩,
    .store 2 ⟨2, -1, 0, 0, [-4, 5], 7⟩].foldl (DOp.run 1) (emptyDyn : Dyn ℤ ℤ)) 4 2).2
    = some ([-4, 5], [1, 8]) := by decide

end Phantoms

namespace Fitlist

variable {α : Type*}

/-! ## C42 -/

/-- A hyperparameter that has to be fitted. -/
def Free (h : Hyper α) : Prop := h.isFixed = false ∧ h.isBound = true

theorem hyperFit_mem (hs : List (Hyper α)) : ∀ (nh : ℤ) (k : ℤ),
    k ∈ hyperFit nh hs ↔ ∃ (i : ℕ) (h : Hyper α), hs[i]? = some h ∧ Free h ∧ k = nh + i := by
  induction hs with
  | nil => intro nh k; simp [hyperFit]
  | cons h hs ih =>
    intro nh k
    have hcons : (∃ (i : ℕ) (g : Hyper α), (h :: hs)[i]? = some g ∧ Free g ∧ k = nh + i) ↔
        (Free h ∧ k = nh) ∨
        ∃ (i : ℕ) (g : Hyper α), hs[i]? = some g ∧ Free g ∧ k = nh + 1 + i := by
      constructor
      · rintro ⟨i, g, hg, hf, hk⟩
        cases i with
        | zero =>
          simp only [List.getElem?_cons_zero, Option.some.injEq] at hg
          subst hg
          left; exact ⟨hf, by simpa using hk⟩
        | succ i =>
          right
          refine ⟨i, g, by simpa using hg, hf, ?_⟩
          push_cast at hk; omega
      · rintro (⟨hf, hk⟩ | ⟨i, g, hg, hf, hk⟩)
        · exact ⟨0, h, by simp, hf, by simpa using hk⟩
        · exact ⟨i + 1, g, by simpa using hg, hf, by push_cast; omega⟩
    rw [hcons, ← ih]
    simp only [hyperFit]
    by_cases hf : Free h
    · have : (!h.isFixed && h.isBound) = true := by simp [hf.1, hf.2]
      simp [this, hf]
    · have : (!h.isFixed && h.isBound) = false := by
        by_contra hc
        simp only [Bool.not_eq_false, Bool.and_eq_true, Bool.not_eq_true'] at hc
        exact hf ⟨hc.1, hc.2⟩
      simp [this, hf]

theorem hyperFit_sorted (hs : List (Hyper α)) : ∀ (nh : ℤ),
    (hyperFit nh hs).Pairwise (· < ·) ∧ ∀ k ∈ hyperFit nh hs, nh ≤ k := by
  induction hs with
  | nil => intro nh; simp [hyperFit]
  | cons h hs ih =>
    intro nh
    obtain ⟨h1, h2⟩ := ih (nh + 1)
    simp only [hyperFit]
    split
    · refine ⟨List.pairwise_cons.2 ⟨fun k hk => ?_, h1⟩, fun k hk => ?_⟩
      · have := h2 k hk; omega
      · rcases List.mem_cons.1 hk with rfl | hk
        · exact le_refl _
        · have := h2 k hk; omega
    · exact ⟨h1, fun k hk => by have := h2 k hk; omega⟩

theorem baseList_mem (np : ℕ) (hs : List (Hyper α)) (k : ℤ) :
    k ∈ baseList np hs ↔ (0 ≤ k ∧ k < np) ∨
      ∃ (i : ℕ) (h : Hyper α), hs[i]? = some h ∧ Free h ∧ k = (i : ℤ) - hs.length := by
  simp only [baseList, List.mem_append, List.mem_map, List.mem_range, hyperFit_mem]
  constructor
  · rintro (⟨a, ha, rfl⟩ | ⟨i, h, h1, h2, h3⟩)
    · left; omega
    · right; exact ⟨i, h, h1, h2, by omega⟩
  · rintro (⟨h1, h2⟩ | ⟨i, h, h1, h2, h3⟩)
    · left; exact ⟨k.toNat, by omega, by omega⟩
    · right; exact ⟨i, h, h1, h2, by omega⟩

theorem baseList_nodup (np : ℕ) (hs : List (Hyper α)) : (baseList np hs).Nodup := by
  rw [baseList, List.nodup_append]
  refine ⟨?_, ?_, ?_⟩
  · exact (List.nodup_range).map (fun a b h => by exact_mod_cast h)
  · exact (hyperFit_sorted hs _).1.imp fun h => ne_of_lt h
  · intro a ha b hb hab
    obtain ⟨i, _, rfl⟩ := List.mem_map.1 ha
    obtain ⟨j, h, hj, _, hbj⟩ := (hyperFit_mem hs _ b).1 hb
    have := (List.getElem?_eq_some_iff.1 hj).1
    omega

variable [Zero α]

/-- Without kept parameters the list holds each model parameter and each free hyperparameter (from
the end) exactly once and nothing else, and the array of all parameters has the right length. -/
theorem C42_fitlist (np : ℕ) (hs : List (Hyper α)) (acc : Bool) :
    ∃ fl ap, makeFitlist np hs acc none = some (fl, ap) ∧ fl.Nodup ∧
      ap.length = np + hs.length ∧
      ∀ k : ℤ, k ∈ fl ↔ (0 ≤ k ∧ k < np) ∨
        ∃ (i : ℕ) (h : Hyper α), hs[i]? = some h ∧ Free h ∧ k = (i : ℤ) - hs.length := by
  refine ⟨_, _, rfl, baseList_nodup np hs, ?_, baseList_mem np hs⟩
  have : ∀ (l : List (Hyper α)) b, (hyperVals acc b l).length = l.length := by
    intro l
    induction l with
    | nil => intro b; rfl
    | cons h l ih => intro b; simp [hyperVals, ih]
  simp [this]

/-- A hyperparameter that is not fitted has its own value in the array of all parameters (or 0 for
the first one when the data have accuracies). -/
theorem C42_fixed_values (np : ℕ) (hs : List (Hyper α)) (acc : Bool) (i : ℕ) (h : Hyper α)
    (hi : hs[i]? = some h) (hf : ¬ Free h) :
    ∃ fl ap, makeFitlist np hs acc none = some (fl, ap) ∧
      ap[np + i]? = some (if acc = true ∧ i = 0 then 0 else h.hypar) := by
  refine ⟨_, _, rfl, ?_⟩
  rw [List.getElem?_append_right (by simp)]
  simp only [List.length_replicate, Nat.add_sub_cancel_left]
  have hff : (!h.isFixed && h.isBound) = false := by
    by_contra hc
    simp only [Bool.not_eq_false, Bool.and_eq_true, Bool.not_eq_true'] at hc
    exact hf ⟨hc.1, hc.2⟩
  have : ∀ (l : List (Hyper α)) (b : Bool) (i : ℕ), l[i]? = some h →
      (hyperVals acc b l)[i]? = some (if acc = true ∧ b = true ∧ i = 0 then 0 else h.hypar) := by
    intro l
    induction l with
    | nil => intro b i hi; simp at hi
    | cons g l ih =>
      intro b i hi
      cases i with
      | zero =>
        simp only [List.getElem?_cons_zero, Option.some.injEq] at hi
        subst hi
        simp [hyperVals, hff]
      | succ i =>
        simp only [List.getElem?_cons_succ] at hi
        simp only [hyperVals, List.getElem?_cons_succ, ih false i hi]
        simp
  rw [this hs true i hi]
  simp

theorem keepLoop_spec (fitlist : List ℤ) (keep : ℤ → Option α) : ∀ (ks : List ℕ) (fitl : List ℤ)
    (ap : List α), (∀ k ∈ ks, k < fitlist.length) →
    ∃ ap', keepLoop fitlist keep ks fitl ap = some (fitl ++ ks.filterMap (fun k : ℕ =>
      match keep k, fitlist[k]? with
      | none, some f => if keep f = none then some f else none
      | _, _ => none), ap') ∧ ap'.length = ap.length := by
  intro ks
  induction ks with
  | nil => intro fitl ap _; exact ⟨ap, by simp [keepLoop], rfl⟩
  | cons k ks ih =>
    intro fitl ap hk
    have hkl : k < fitlist.length := hk k (by simp)
    have hks : ∀ j ∈ ks, j < fitlist.length := fun j hj => hk j (by simp [hj])
    have hfk : fitlist[k]? = some fitlist[k] := List.getElem?_eq_getElem hkl
    simp only [keepLoop]
    cases h1 : keep k with
    | some v =>
      obtain ⟨ap', h2, h3⟩ := ih fitl (ap.set k v) hks
      refine ⟨ap', ?_, by simpa using h3⟩
      simp only [List.filterMap_cons, h1]
      exact h2
    | none =>
      simp only [hfk]
      cases h4 : keep fitlist[k] with
      | some v =>
        obtain ⟨ap', h2, h3⟩ := ih fitl (ap.set k v) hks
        refine ⟨ap', ?_, by simpa using h3⟩
        simp only [List.filterMap_cons, h1, hfk, h4]
        simpa using h2
      | none =>
        obtain ⟨ap', h2, h3⟩ := ih (fitl ++ [fitlist[k]]) ap hks
        refine ⟨ap', ?_, h3⟩
        simp only [List.filterMap_cons, h1, hfk, h4, if_true]
        rw [h2]
        simp

/-- With kept parameters, and no fixed hyperparameter, the list is that of all parameters and
hyperparameters in order, without the kept ones, which may be given by their position or, for
hyperparameters, by their number from the end. -/
theorem C42_keep_partial (np : ℕ) (hs : List (Hyper α)) (acc : Bool) (keep : ℤ → Option α)
    (hfree : ∀ h ∈ hs, Free h) :
    ∃ fl ap, makeFitlist np hs acc (some keep) = some (fl, ap) ∧ fl.Nodup ∧
      ∀ k : ℤ, k ∈ fl ↔
        ((0 ≤ k ∧ k < np) ∧ keep k = none) ∨
        ((-(hs.length : ℤ) ≤ k ∧ k < 0) ∧ keep k = none ∧ keep (np + hs.length + k) = none) := by
  have hfit : ∀ (l : List (Hyper α)) (nh : ℤ), (∀ h ∈ l, Free h) →
      hyperFit nh l = (List.range l.length).map fun i : ℕ => nh + (i : ℤ) := by
    intro l
    induction l with
    | nil => intro nh _; simp [hyperFit]
    | cons h l ih =>
      intro nh hl
      have hh := hl h (by simp)
      have : (!h.isFixed && h.isBound) = true := by simp [hh.1, hh.2]
      simp only [hyperFit, this, if_true]
      rw [ih (nh + 1) fun g hg => hl g (by simp [hg])]
      simp only [List.length_cons, List.range_succ_eq_map, List.map_cons, List.map_map]
      congr 1
      · simp
      · apply List.map_congr_left; intro i _; simp; omega
  have hbase : baseList np hs = (List.range (np + hs.length)).map
      fun i : ℕ => if i < np then (i : ℤ) else (i : ℤ) - np - hs.length := by
    rw [baseList, hfit hs _ hfree, List.range_add, List.map_append, List.map_map]
    congr 1
    · apply List.map_congr_left; intro i hi; simp at hi; simp [hi]
    · apply List.map_congr_left; intro i hi; simp; omega
  have hlen : (baseList np hs).length = np + hs.length := by rw [hbase]; simp
  obtain ⟨ap, h1, h2⟩ := keepLoop_spec (baseList np hs) keep (List.range (np + hs.length)) []
    (List.replicate np 0 ++ hyperVals acc true hs) (by intro k hk; rw [hlen]; simpa using hk)
  refine ⟨_, ap, h1, ?_, ?_⟩
  · simp only [List.nil_append]
    apply List.Nodup.filterMap _ List.nodup_range
    intro a b c hac hbc
    have hget : ∀ (a : ℕ) (c : ℤ), (match keep a, (baseList np hs)[a]? with
        | none, some f => if keep f = none then some f else none
        | _, _ => none) = some c → (baseList np hs)[a]? = some c := by
      intro a c h
      split at h
      · rename_i f _ hf
        split at h
        · rw [hf]; exact h
        · exact absurd h (by simp)
      · exact absurd h (by simp)
    have e1 := hget a c hac
    have e2 := hget b c hbc
    exact (List.getElem?_inj (List.getElem?_eq_some_iff.1 e1).1 (baseList_nodup np hs)).1
      (e1.trans e2.symm)
  · intro k
    simp only [List.nil_append, List.mem_filterMap, List.mem_range]
    have hget : ∀ a, a < np + hs.length → (baseList np hs)[a]? =
        some (if a < np then (a : ℤ) else (a : ℤ) - np - hs.length) := by
      intro a ha
      rw [hbase, List.getElem?_map, List.getElem?_range ha]
      rfl
    constructor
    · rintro ⟨a, ha, hm⟩
      rw [hget a ha] at hm
      by_cases han : a < np
      · rw [if_pos han] at hm
        cases hka : keep a with
        | some v => simp [hka] at hm
        | none =>
          simp only [hka, if_true, Option.some.injEq] at hm
          subst hm
          exact Or.inl ⟨by omega, hka⟩
      · rw [if_neg han] at hm
        cases hka : keep a with
        | some v => simp [hka] at hm
        | none =>
          simp only [hka] at hm
          split at hm
          · rename_i hkf
            obtain rfl := Option.some.inj hm
            refine Or.inr ⟨by omega, hkf, ?_⟩
            have : (np : ℤ) + hs.length + ((a : ℤ) - np - hs.length) = a := by omega
            rw [this]; exact hka
          · exact absurd hm (by simp)
    · rintro (⟨⟨h1, h2⟩, h3⟩ | ⟨⟨h1, h2⟩, h3, h4⟩)
      · refine ⟨k.toNat, by omega, ?_⟩
        have hk : ((k.toNat : ℕ) : ℤ) = k := by omega
        rw [hget _ (by omega), if_pos (by omega), hk, h3]
        simp [h3]
      · refine ⟨((np : ℤ) + hs.length + k).toNat, by omega, ?_⟩
        have hk : ((((np : ℤ) + hs.length + k).toNat : ℕ) : ℤ) = (np : ℤ) + hs.length + k := by omega
        rw [hget _ (by omega), if_neg (by omega), hk, h4]
        have : (np : ℤ) + hs.length + k - np - hs.length = k := by omega
        rw [this]
        simp [h3]

/-- With a fixed hyperparameter, keeping a model parameter raises an IndexError. -/
theorem C42_counterexample (np : ℕ) (hnp : 0 < np) (v : α) (h : Hyper α) (hf : h.isFixed = true)
    (acc : Bool) :
    makeFitlist np [h] acc (some fun k => if k = 0 then some v else none) = none := by
  have hb : baseList np [h] = (List.range np).map fun k : ℕ => (k : ℤ) := by
    simp [baseList, hyperFit, hf]
  simp only [makeFitlist, hb, List.length_singleton]
  have key : ∀ (n m : ℕ) (fl : List ℤ) (ap : List α), m + n = np →
      keepLoop ((List.range np).map fun k : ℕ => (k : ℤ)) (fun k => if k = 0 then some v else none)
        ((List.range (n + 1)).map (· + m)) fl ap = none := by
    intro n
    induction n with
    | zero =>
      intro m fl ap hm
      have : m ≠ 0 := by omega
      simp [keepLoop, this, show np ≤ m by omega]
    | succ n ih =>
      intro m fl ap hm
      have hr : (List.range (n + 1 + 1)).map (· + m)
          = m :: (List.range (n + 1)).map (· + (m + 1)) := by
        rw [List.range_succ_eq_map, List.map_cons, List.map_map]
        congr 1
        · simp
        · apply List.map_congr_left; intro i _; simp; omega
      rw [hr]
      simp only [keepLoop]
      by_cases hm0 : m = 0
      · subst hm0
        simp only [Nat.cast_zero, if_true]
        exact ih _ _ _ (by omega)
      · have : ((m : ℕ) : ℤ) ≠ 0 := by exact_mod_cast hm0
        have hg : ((List.range np).map fun k : ℕ => (k : ℤ))[m]? = some (m : ℤ) := by
          rw [List.getElem?_map, List.getElem?_range (by omega)]; rfl
        simp only [if_neg this, hg]
        exact ih _ _ _ (by omega)
  have := key np 0 [] (List.replicate np 0 ++ hyperVals acc true [h]) (by omega)
  simpa using this

/-! Non-vacuity. -/
example : makeFitlist 3 [⟨true, false, (5 : ℤ)⟩, ⟨false, true, 7⟩] false none
    = some ([0, 1, 2, -1], [0, 0, 0, 5, 0]) := by decide

example : makeFitlist 3 [⟨false, true, (7 : ℤ)⟩] false
    (some fun k => if k = 1 then some 4 else if k = -1 then some 2 else none)
    = some ([0, 2], [0, 4, 0, 2]) := by decide

end Fitlist
end BF
