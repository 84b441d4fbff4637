import Verif.Setup

/-!
# C105: problem, error distribution and engines of a NestedSampler belong together
-/

namespace BF
namespace Setup

variable {V L : Type}

/-! ## Specification -/

/-- The names of the error distributions in the documentation of the sampler, with their classes. -/
def distTable : List (String × DKind) :=
  [("gauss", .gauss), ("laplace", .laplace), ("poisson", .poisson), ("cauchy", .cauchy),
   ("uniform", .uniform), ("exponential", .exponential), ("gauss2d", .gauss2d), ("model", .model),
   ("bernoulli", .bernoulli)]

/-- The names of the engines, with their classes. -/
def engineTable : List (String × EKind) :=
  [("galilean", .galilean), ("chord", .chord), ("birth", .birth), ("death", .death),
   ("struct", .struct), ("gibbs", .gibbs), ("random", .random), ("step", .step)]

/-- `str.lower` leaves the names of the distributions as they are. -/
def LowerOk (lower : String → String) : Prop := ∀ x ∈ distTable, lower x.1 = x.1

/-- The engines that a problem needs: those that move parameters, those that change the number of
parameters for a dynamic model, and the one that changes the structure of a modifiable model. -/
def needed (m : Mdl) : List EKind :=
  (if m.dynamic then [.birth, .death] else []) ++ (if m.modifiable then [.struct] else [])

/-- All engines of the sampler work with the distribution of the sampler and share its collection of
phantoms. -/
def Consistent (s : Sampler V L) : Prop :=
  ∃ d ph, s.dist = some d ∧ s.phantoms = some ph ∧
    ∀ g ∈ s.engines, g.errdis = d ∧ g.phantoms = some ph.1

def isDistribution : Op V L → Bool
  | .distribution .. => true
  | _ => false

/-! ## Names -/

theorem distKind_iff (n : String) (k : DKind) : distKind n = some k ↔ (n, k) ∈ distTable := by
  unfold distKind distTable
  simp only [List.mem_cons, Prod.mk.injEq, List.not_mem_nil, or_false]
  constructor
  · intro h
    split_ifs at h <;> simp_all
  · rintro (⟨rfl, rfl⟩ | ⟨rfl, rfl⟩ | ⟨rfl, rfl⟩ | ⟨rfl, rfl⟩ | ⟨rfl, rfl⟩ | ⟨rfl, rfl⟩ | ⟨rfl, rfl⟩
      | ⟨rfl, rfl⟩ | ⟨rfl, rfl⟩) <;> simp

theorem engineKind_iff (n : String) (k : EKind) : engineKind n = some k ↔ (n, k) ∈ engineTable := by
  unfold engineKind engineTable
  simp only [List.mem_cons, Prod.mk.injEq, List.not_mem_nil, or_false]
  constructor
  · intro h
    split_ifs at h <;> simp_all
  · rintro (⟨rfl, rfl⟩ | ⟨rfl, rfl⟩ | ⟨rfl, rfl⟩ | ⟨rfl, rfl⟩ | ⟨rfl, rfl⟩ | ⟨rfl, rfl⟩ | ⟨rfl, rfl⟩
      | ⟨rfl, rfl⟩) <;> simp

/-- A distribution by name: in upper or lower case, one of the table; the sampler then has a new object
of that class, with the scale and limits asked for unless it is Poisson or Bernoulli, which have none.
Any other name is a ValueError and leaves the sampler as it was. -/
theorem C105_distribution_names (lower : String → String) (n : String) (limits : Option L) (scale : V)
    (s : Sampler V L) :
    (∀ k, (lower n, k) ∈ distTable →
      setErrorDistribution lower (.name n) limits scale s = ({ s with
        dist := some (if k = .poisson ∨ k = .bernoulli then ⟨s.next, k, none, none⟩
          else ⟨s.next, k, some scale, limits⟩)
        next := s.next + 1 }, none)) ∧
    ((∀ k, (lower n, k) ∉ distTable) →
      setErrorDistribution lower (.name n) limits scale s = (s, some .value)) := by
  constructor
  · intro k hk
    simp only [setErrorDistribution, setDistName, (distKind_iff _ _).2 hk]
    congr 2
    cases k <;> simp [DKind.scaled]
  · intro hk
    have : distKind (lower n) = none := by
      cases h : distKind (lower n) with
      | none => rfl
      | some k => exact absurd ((distKind_iff _ _).1 h) (hk k)
    simp [setErrorDistribution, setDistName, this]

/-! ## Engines -/

theorem engineLoop_names (draw : ℕ → ℕ) (d : Dist V L) (ph : ℕ) :
    ∀ (l : List (String × EKind)) (s : Sampler V L), (∀ x ∈ l, x ∈ engineTable) →
      engineLoop draw d ph (l.map fun x => .name x.1) s = ({ s with
        engines := s.engines ++ l.mapIdx fun i x =>
          ⟨x.2, d, some ph, s.walkers, some (draw (s.draws + i)), none⟩
        draws := s.draws + l.length }, none) := by
  intro l
  induction l with
  | nil => intro s _; simp [engineLoop]
  | cons x l ih =>
    intro s h
    have hx : engineKind x.1 = some x.2 := (engineKind_iff _ _).2 (h x (by simp))
    simp only [List.map_cons, engineLoop, hx]
    rw [ih _ fun y hy => h y (by simp [hy])]
    simp only [List.mapIdx_cons, List.append_assoc, List.cons_append, List.nil_append,
      List.length_cons, Nat.add_zero]
    congr 2
    · congr 3
      funext i y
      congr 3
      omega
    · omega

/-- Engines by name: when all names are in the table, the sampler has exactly these engines in this
order, all with its distribution and one new collection of phantoms, and each with a seed of its own:
consecutive numbers of the generator of the sampler. -/
theorem C105_engine_names (draw : ℕ → ℕ) (l : List (String × EKind)) (hl : ∀ x ∈ l, x ∈ engineTable)
    (s : Sampler V L) (d : Dist V L) (hd : s.dist = some d) :
    setEngines draw (some (l.map fun x => .name x.1)) s = ({ s with
      phantoms := some (s.next, s.problem.isDynamic)
      engines := l.mapIdx fun i x =>
        ⟨x.2, d, some s.next, s.walkers, some (draw (s.draws + i)), none⟩
      draws := s.draws + l.length
      next := s.next + 1 }, none) := by
  simp only [setEngines, hd, Option.getD_some]
  rw [engineLoop_names draw d _ l _ hl]
  simp

theorem engineLoop_bad (draw : ℕ → ℕ) (d : Dist V L) (ph : ℕ) (n : String)
    (hn : ∀ k, (n, k) ∉ engineTable) (rest : List (EArg V L)) :
    ∀ (l : List (String × EKind)) (s : Sampler V L), (∀ x ∈ l, x ∈ engineTable) →
      engineLoop draw d ph ((l.map fun x => .name x.1) ++ .name n :: rest) s = ({ s with
        engines := s.engines ++ l.mapIdx fun i x =>
          ⟨x.2, d, some ph, s.walkers, some (draw (s.draws + i)), none⟩
        draws := s.draws + l.length }, some .value) := by
  have hk : engineKind n = none := by
    cases h : engineKind n with
    | none => rfl
    | some k => exact absurd ((engineKind_iff _ _).1 h) (hn k)
  intro l
  induction l with
  | nil => intro s _; simp [engineLoop, hk]
  | cons x l ih =>
    intro s h
    have hx : engineKind x.1 = some x.2 := (engineKind_iff _ _).2 (h x (by simp))
    simp only [List.map_cons, List.cons_append, engineLoop, hx]
    rw [ih _ fun y hy => h y (by simp [hy])]
    simp only [List.mapIdx_cons, List.append_assoc, List.cons_append, List.nil_append,
      List.length_cons, Nat.add_zero]
    congr 2
    · congr 3
      funext i y
      congr 3
      omega
    · omega

/-- An unknown name among the engines is a ValueError, but the sampler does not keep the engines that it
had: it is left with the ones before the unknown name. -/
theorem C105_counterexample_engine_names (draw : ℕ → ℕ) (l : List (String × EKind))
    (hl : ∀ x ∈ l, x ∈ engineTable) (n : String) (hn : ∀ k, (n, k) ∉ engineTable)
    (rest : List (EArg V L)) (s : Sampler V L) (d : Dist V L) (hd : s.dist = some d) :
    (setEngines draw (some ((l.map fun x => .name x.1) ++ .name n :: rest)) s).2 = some .value ∧
    (setEngines draw (some ((l.map fun x => .name x.1) ++ .name n :: rest)) s).1.engines.map Eng.kind
      = l.map Prod.snd := by
  simp only [setEngines, hd, Option.getD_some]
  rw [engineLoop_bad draw d _ n hn rest l _ hl]
  refine ⟨rfl, ?_⟩
  simp only [List.nil_append]
  apply List.ext_getElem
  · simp
  · intro i h1 h2; simp

/-- The names of engines are case sensitive, those of distributions and problems are not: with
`lower` turning "Galilean" and "Gauss" into lower case, the distribution "Gauss" is found and the engine
"Galilean" is not. -/
theorem C105_counterexample_case (lower : String → String) (draw : ℕ → ℕ)
    (hg : lower "Gauss" = "gauss") (s : Sampler V L) (d : Dist V L) (hd : s.dist = some d)
    (sc : V) (lim : Option L) :
    (setErrorDistribution lower (.name "Gauss") lim sc s).2 = none ∧
    (setEngines draw (some [.name "Galilean"]) s).2 = some .value := by
  constructor
  · rw [(C105_distribution_names lower "Gauss" lim sc s).1 .gauss (by rw [hg]; simp [distTable])]
  · have := C105_counterexample_engine_names draw [] (by simp) "Galilean" (by simp [engineTable]) [] s d hd
    simpa using this.1

/-! ## The constructor -/

/-- The engines of a problem, by the table. -/
theorem myEngines_table (p : Prob) (hp : p.kind ≠ .order) :
    ∃ l : List (String × EKind), (∀ x ∈ l, x ∈ engineTable) ∧
      p.myEngines = l.map Prod.fst ∧
      l.map Prod.snd = match p.kind with
        | .classic => [.galilean, .chord] ++ needed p.model
        | .errors => [.galilean, .gibbs, .chord]
        | .multiple => [.galilean, .chord]
        | _ => needed p.model := by
  obtain ⟨k, ⟨dy, mo⟩, pr⟩ := p
  cases k
  case order => exact absurd rfl hp
  case classic =>
    refine ⟨[("galilean", .galilean), ("chord", .chord)] ++
      (if dy then [("birth", .birth), ("death", .death)] else []) ++
      (if mo then [("struct", .struct)] else []), ?_, ?_, ?_⟩ <;>
      cases dy <;> cases mo <;> simp [engineTable, Prob.myEngines, needed]
  case errors =>
    exact ⟨[("galilean", .galilean), ("gibbs", .gibbs), ("chord", .chord)], by simp [engineTable],
      by simp [Prob.myEngines], by simp⟩
  case multiple =>
    exact ⟨[("galilean", .galilean), ("chord", .chord)], by simp [engineTable],
      by simp [Prob.myEngines], by simp⟩
  case evidence =>
    refine ⟨(if dy then [("birth", .birth), ("death", .death)] else []) ++
      (if mo then [("struct", .struct)] else []), ?_, ?_, ?_⟩ <;>
      cases dy <;> cases mo <;> simp [engineTable, Prob.myEngines, needed]

/-- A sampler for a given problem (not an ordering problem), made without further choices, has the
default distribution of the problem with scale one and the limits asked for, and the engines of the
problem, each with its own seed, all working with that distribution and one collection of phantoms. -/
theorem C105_default (lower : String → String) (hlow : LowerOk lower) (draw : ℕ → ℕ) (one : V)
    (p : Prob) (hp : p.kind ≠ .order) (limits : Option L) (boost : Boost) :
    ∃ (s : Sampler V L) (d : Dist V L) (ph : ℕ),
      construct lower draw one (.object p) .missing limits none boost = .ok s ∧
      s.problem = p ∧ s.dist = some d ∧ s.phantoms = some (ph, p.model.dynamic) ∧
      d.kind = (match p.kind with
        | .classic => .gauss
        | .errors => .gauss2d
        | .multiple => .gauss
        | _ => .model) ∧
      d.scale = some one ∧ d.limits = limits ∧
      s.engines.map Eng.kind = (match p.kind with
        | .classic => [.galilean, .chord] ++ needed p.model
        | .errors => [.galilean, .gibbs, .chord]
        | .multiple => [.galilean, .chord]
        | _ => needed p.model) ∧
      (∀ g ∈ s.engines, g.errdis = d ∧ g.phantoms = some ph) ∧
      s.engines.map Eng.seed = (List.range s.engines.length).map fun i => some (draw i) := by
  obtain ⟨l, hl, h1, h2⟩ := myEngines_table p hp
  have hk : ∃ k, (p.myDistribution, k) ∈ distTable ∧ k = (match p.kind with
        | .classic => .gauss
        | .errors => .gauss2d
        | .multiple => .gauss
        | _ => .model) ∧ ¬ (k = .poisson ∨ k = .bernoulli) := by
    obtain ⟨k, m, pr⟩ := p
    cases k <;> simp [distTable, Prob.myDistribution] at hp ⊢
  obtain ⟨k, hk1, hk2, hk3⟩ := hk
  have hlo : lower p.myDistribution = p.myDistribution := hlow _ hk1
  have hkd : distKind p.myDistribution = some k := (distKind_iff _ _).2 hk1
  have hsc : k.scaled = true := by
    cases k <;> first
      | rfl
      | exact absurd (Or.inl rfl) hk3
      | exact absurd (Or.inr rfl) hk3
  set d : Dist V L := ⟨0, k, some one, limits⟩ with hd
  have hmap : p.myEngines.map (EArg.name (V := V) (L := L)) = l.map fun x => .name x.1 := by
    rw [h1, List.map_map]; rfl
  have hlen : (l.mapIdx fun i x => (⟨x.2, d, some 1, none, some (draw (0 + i)), none⟩ : Eng V L)).length
      = l.length := by simp
  refine ⟨⟨p, some d, l.mapIdx fun i x => ⟨x.2, d, some 1, none, some (draw (0 + i)), none⟩,
    some (1, p.model.dynamic), none, none, boost, none, 0 + l.length, 2⟩, d, 1, ?_, rfl, rfl, rfl, hk2,
    rfl, rfl, ?_, ?_, ?_⟩
  · simp only [construct, setProblem, setErrorDistribution, setDistName, hlo, hkd, hsc, if_true,
      setEngines, Option.getD_none, hmap, Nat.zero_add]
    rw [engineLoop_names draw _ _ l _ hl]
    simp [Prob.isDynamic, hd]
  · rw [← h2]
    apply List.ext_getElem
    · simp
    · intro i a b; simp
  · intro g hg
    obtain ⟨i, hi, rfl⟩ := List.mem_mapIdx.1 hg
    exact ⟨rfl, rfl⟩
  · apply List.ext_getElem
    · simp
    · intro i a b; simp

/-- Every problem made by name is of the kind of that name, whatever the case, and the one for errors in
x and y has no prior for the x parameters, without which the walkers cannot be made: there is no way to
pass one. -/
theorem C105_problem_names (lower : String → String) (n : String) (m : Mdl) (w acc : Arg) (p : Prob)
    (h : makeProblem lower n m w acc = .ok p) :
    p.model = m ∧ p.prior = false ∧
    ((lower n = "classic" ∧ p.kind = .classic) ∨ (lower n = "errors" ∧ p.kind = .errors) ∨
      (lower n = "multiple" ∧ p.kind = .multiple)) := by
  unfold makeProblem at h
  split_ifs at h with h1 h2 h3 h4 h5 h6 <;> simp only [Except.ok.injEq, reduceCtorEq] at h <;>
    subst h <;> simp_all

/-- Without weights and accuracy, or with numpy arrays, the three problems with a name are made. -/
theorem C105_problem_made (lower : String → String) (n : String) (m : Mdl) (w acc : Arg)
    (hw : w = .missing ∨ w = .array) (ha : acc = .missing ∨ acc = .array)
    (hn : lower n = "classic" ∨ lower n = "errors" ∨ lower n = "multiple") :
    ∃ p, makeProblem lower n m w acc = .ok p := by
  unfold makeProblem
  rcases hn with hn | hn | hn <;> rcases hw with rfl | rfl <;> rcases ha with rfl | rfl <;>
    simp [hn]

/-- The problem "evidence" is in the list of names, but it cannot be made by name: always a
TypeError. -/
theorem C105_counterexample_evidence (lower : String → String) (draw : ℕ → ℕ) (one : V) (n : String)
    (hn : lower n = "evidence") (m : Mdl) (w acc : Arg) (dist : DArg V L) (limits : Option L)
    (engines : Option (List (EArg V L))) (boost : Boost) :
    construct lower draw one (.name n m w acc) dist limits engines boost = .error .type := by
  simp [construct, setProblem, makeProblem, hn]

/-- As an object it can be made exactly for models that are dynamic or modifiable. -/
theorem C105_evidence_object (m : Mdl) :
    (∃ p, makeEvidence (some m) = .ok p ∧ p.kind = .evidence ∧ p.model = m) ↔
      (m.dynamic = true ∨ m.modifiable = true) := by
  obtain ⟨d, mo⟩ := m
  cases d <;> cases mo <;> simp [makeEvidence]

/-- Nor can an EvidenceProblem be copied by its constructor, as other problems are: `copy=` alone is an
AttributeError. -/
theorem C105_counterexample_evidence_copy : makeEvidence none = .error .attribute := rfl

/-- An array_like as accuracy that is a list: a TypeError for a classic problem; for several outputs a
list or a number is an AttributeError, and so are weights in a list. -/
theorem C105_counterexample_lists (lower : String → String) (m : Mdl) (n k : String)
    (hn : lower n = "classic") (hk : lower k = "multiple") (w acc : Arg) :
    makeProblem lower n m w .list = .error .type ∧
    makeProblem lower k m w .number = .error .attribute ∧
    makeProblem lower k m w .list = .error .attribute ∧
    makeProblem lower k m .list acc = .error .attribute := by
  simp [makeProblem, hn, hk]

/-- An ordering problem cannot be given to a NestedSampler without a distribution: its own one,
"distance", is not known there. -/
theorem C105_counterexample_order (lower : String → String) (draw : ℕ → ℕ) (one : V)
    (hd : lower "distance" = "distance") (m : Mdl) (pr : Bool) (limits : Option L)
    (engines : Option (List (EArg V L))) (boost : Boost) :
    construct lower draw one (.object ⟨.order, m, pr⟩) .missing limits engines boost
      = .error .value := by
  simp [construct, setProblem, setErrorDistribution, setDistName, Prob.myDistribution, hd, distKind]

/-- The problems with errors in x and y and with several outputs do not look at the model: for a dynamic
model they give no engine that changes the number of parameters, so it never changes. -/
theorem C105_counterexample_dynamic (lower : String → String) (hlow : LowerOk lower) (draw : ℕ → ℕ)
    (one : V) (p : Prob) (hp : p.kind = .errors ∨ p.kind = .multiple) (hd : p.model.dynamic = true)
    (limits : Option L) (boost : Boost) :
    ∃ s, construct lower draw one (.object p) .missing limits none boost = .ok s ∧
      s.problem.isDynamic = true ∧
      ∀ g ∈ s.engines, g.kind ≠ .birth ∧ g.kind ≠ .death ∧ g.kind ≠ .struct := by
  obtain ⟨s, d, ph, h1, h2, _, _, _, _, _, h3, _⟩ := C105_default lower hlow draw one p
    (by rcases hp with h | h <;> rw [h] <;> simp) limits boost
  refine ⟨s, h1, by rw [h2]; exact hd, ?_⟩
  intro g hg
  have : g.kind ∈ s.engines.map Eng.kind := List.mem_map.2 ⟨g, hg, rfl⟩
  rw [h3] at this
  revert this
  rcases hp with h | h <;> rw [h] <;> cases g.kind <;> simp

/-- Limits are dropped silently with a distribution object. -/
theorem C105_counterexample_limits (lower : String → String) (d : Dist V L) (limits : Option L)
    (scale : V) (s : Sampler V L) :
    (setErrorDistribution lower (.object d) limits scale s) = ({ s with dist := some d }, none) := rfl

/-! ## Histories -/

theorem engineLoop_consistent (draw : ℕ → ℕ) (d : Dist V L) (ph : ℕ × Bool) :
    ∀ (l : List (EArg V L)) (s : Sampler V L), s.dist = some d → s.phantoms = some ph →
      (∀ g ∈ s.engines, g.errdis = d ∧ g.phantoms = some ph.1) →
      Consistent (engineLoop draw d ph.1 l s).1 := by
  intro l
  induction l with
  | nil => intro s h1 h2 h3; exact ⟨d, ph, h1, h2, h3⟩
  | cons a l ih =>
    intro s h1 h2 h3
    cases a with
    | junk => exact ⟨d, ph, h1, h2, h3⟩
    | object e =>
      simp only [engineLoop]
      refine ih _ h1 h2 ?_
      intro g hg
      rcases List.mem_append.1 hg with hg | hg
      · exact h3 g hg
      · simp at hg; subst hg; exact ⟨rfl, rfl⟩
    | name n =>
      simp only [engineLoop]
      cases engineKind n with
      | none => exact ⟨d, ph, h1, h2, h3⟩
      | some k =>
        dsimp only
        refine ih _ h1 h2 ?_
        intro g hg
        rcases List.mem_append.1 hg with hg | hg
        · exact h3 g hg
        · simp at hg; subst hg; exact ⟨rfl, rfl⟩

theorem setEngines_consistent (draw : ℕ → ℕ) (a : Option (List (EArg V L))) (s : Sampler V L)
    (hd : s.dist ≠ none) : Consistent (setEngines draw a s).1 := by
  obtain ⟨d, hd⟩ := Option.ne_none_iff_exists'.1 hd
  simp only [setEngines, hd]
  exact engineLoop_consistent draw d (s.next, s.problem.isDynamic) _ _ rfl rfl (by simp)

theorem initSample_consistent (draw : ℕ → ℕ) (s : Sampler V L) (h : Consistent s) :
    Consistent (initSample draw s).1 := by
  obtain ⟨d, ph, h1, h2, h3⟩ := h
  simp only [initSample, h1, setInitialEngine]
  cases s.initial with
  | some e =>
    refine ⟨d, ph, rfl, h2, ?_⟩
    intro g hg
    obtain ⟨g0, hg0, rfl⟩ := List.mem_map.1 hg
    exact h3 g0 hg0
  | none =>
    dsimp only
    split_ifs
    · refine ⟨d, ph, rfl, h2, ?_⟩
      intro g hg
      obtain ⟨g0, hg0, rfl⟩ := List.mem_map.1 hg
      exact h3 g0 hg0
    · exact ⟨d, ph, rfl, h2, h3⟩

theorem step_consistent (lower : String → String) (draw : ℕ → ℕ) (s : Sampler V L) (o : Op V L)
    (ho : isDistribution o = false) (h : Consistent s) : Consistent (step lower draw s o).1 := by
  cases o with
  | problem a =>
    cases a with
    | name n m w acc =>
      simp only [step, setProblem]
      split <;> exact h
    | object p => exact h
    | junk => exact h
  | distribution a l sc => exact absurd ho (by simp [isDistribution])
  | engines a =>
    obtain ⟨d, _, h1, _⟩ := h
    exact setEngines_consistent draw a s (by rw [h1]; simp)
  | sample => exact initSample_consistent draw s h
  | bestBoost v => exact h
  | bestUpdate v => exact h

theorem run_consistent (lower : String → String) (draw : ℕ → ℕ) :
    ∀ (l : List (Op V L)) (s : Sampler V L), (∀ o ∈ l, isDistribution o = false) → Consistent s →
      Consistent (run lower draw s l) := by
  intro l
  induction l with
  | nil => intro s _ h; exact h
  | cons o l ih =>
    intro s ho h
    simp only [run, List.foldl_cons]
    exact ih _ (fun o' h' => ho o' (by simp [h'])) (step_consistent lower draw s o (ho o (by simp)) h)

theorem step_dist (lower : String → String) (draw : ℕ → ℕ) (s : Sampler V L) (o : Op V L)
    (h : s.dist ≠ none) : (step lower draw s o).1.dist ≠ none := by
  cases o with
  | problem a =>
    cases a with
    | name n m w acc =>
      simp only [step, setProblem]
      split <;> exact h
    | object p => exact h
    | junk => exact h
  | distribution a l sc =>
    simp only [step, setErrorDistribution]
    cases a with
    | missing => simp only [setDistName]; split <;> simp [h]
    | name n => simp only [setDistName]; split <;> simp [h]
    | object d => simp
    | junk => exact h
  | engines a =>
    obtain ⟨d, _, h1, _⟩ := setEngines_consistent draw a s h
    simp only [step, h1]
    simp
  | sample =>
    obtain ⟨d, hd⟩ := Option.ne_none_iff_exists'.1 h
    simp only [step, initSample, hd, setInitialEngine]
    cases s.initial with
    | some e => simp [hd]
    | none => dsimp only; split_ifs <;> simp [hd]
  | bestBoost v => exact h
  | bestUpdate v => exact h

/-- A constructed sampler is in order. -/
theorem construct_consistent (lower : String → String) (draw : ℕ → ℕ) (one : V) (problem : PArg)
    (dist : DArg V L) (limits : Option L) (engines : Option (List (EArg V L))) (boost : Boost)
    (s : Sampler V L) (h : construct lower draw one problem dist limits engines boost = .ok s) :
    Consistent s := by
  unfold construct at h
  dsimp only at h
  split at h
  · simp at h
  · rename_i s1 h1
    split at h
    · simp at h
    · rename_i s2 h2
      split at h
      · simp at h
      · rename_i s3 h3
        simp only [Except.ok.injEq] at h
        subst h
        have hd : s2.dist ≠ none := by
          cases dist with
          | missing =>
            simp only [setErrorDistribution, setDistName] at h2
            split at h2
            · simp at h2
            · simp only [Prod.mk.injEq, and_true] at h2
              rw [← h2]; simp
          | name n =>
            simp only [setErrorDistribution, setDistName] at h2
            split at h2
            · simp at h2
            · simp only [Prod.mk.injEq, and_true] at h2
              rw [← h2]; simp
          | object d =>
            simp only [setErrorDistribution, Prod.mk.injEq, and_true] at h2
            rw [← h2]; simp
          | junk => simp [setErrorDistribution] at h2
        have := setEngines_consistent draw engines s2 hd
        rw [h3] at this
        exact this

/-- Whatever is done with a constructed sampler, and whatever raises, as long as the error distribution
is not replaced after the engines were set last: all engines work with the distribution of the sampler
and share its phantoms. -/
theorem C105_consistent_partial (lower : String → String) (draw : ℕ → ℕ) (one : V) (problem : PArg)
    (dist : DArg V L) (limits : Option L) (engines : Option (List (EArg V L))) (boost : Boost)
    (s : Sampler V L) (h : construct lower draw one problem dist limits engines boost = .ok s) :
    (∀ l : List (Op V L), (∀ o ∈ l, isDistribution o = false) → Consistent (run lower draw s l)) ∧
    (∀ (l1 l2 : List (Op V L)) (a : Option (List (EArg V L))),
      (∀ o ∈ l2, isDistribution o = false) →
      Consistent (run lower draw s (l1 ++ .engines a :: l2))) := by
  have hc := construct_consistent lower draw one problem dist limits engines boost s h
  refine ⟨fun l hl => run_consistent lower draw l s hl hc, ?_⟩
  intro l1 l2 a hl
  have hd : (run lower draw s l1).dist ≠ none := by
    have hd : s.dist ≠ none := by
      obtain ⟨d, _, hd, _⟩ := hc
      rw [hd]; simp
    clear h hl hc
    induction l1 generalizing s with
    | nil => exact hd
    | cons o l ih =>
      simp only [run, List.foldl_cons]
      exact ih _ (step_dist lower draw s o hd)
  have : run lower draw s (l1 ++ .engines a :: l2)
      = run lower draw (setEngines draw a (run lower draw s l1)).1 l2 := by
    simp [run, List.foldl_append, step]
  rw [this]
  exact run_consistent lower draw l2 _ hl (setEngines_consistent draw a _ hd)

/-- When `sample` starts, in any history, the engine that makes the walkers has the distribution and the
phantoms of the sampler, and it and all other engines have one and the same new list of walkers. -/
theorem C105_sample (draw : ℕ → ℕ) (s s' : Sampler V L) (h : initSample draw s = (s', none)) :
    ∃ g d, s'.initial = some g ∧ s'.dist = some d ∧ s'.dist = s.dist ∧ g.errdis = d ∧
      g.phantoms = s'.phantoms.map Prod.fst ∧ s'.walkers = some s.next ∧ g.walkers = s'.walkers ∧
      (∀ e ∈ s'.engines, e.walkers = s'.walkers) ∧
      s'.engines.map (fun e => (e.kind, e.errdis)) = s.engines.map (fun e => (e.kind, e.errdis)) := by
  unfold initSample setInitialEngine at h
  cases hd : s.dist with
  | none => rw [hd] at h; simp at h
  | some d =>
    rw [hd] at h
    dsimp only at h
    cases hi : s.initial with
    | some e =>
      rw [hi] at h
      simp only [Prod.mk.injEq, and_true] at h
      subst h
      refine ⟨_, d, rfl, rfl, rfl, rfl, rfl, rfl, rfl, ?_, ?_⟩
      · intro e he
        obtain ⟨g0, _, rfl⟩ := List.mem_map.1 he
        rfl
      · simp
    | none =>
      rw [hi] at h
      dsimp only at h
      split_ifs at h
      · simp only [Prod.mk.injEq, and_true] at h
        subst h
        refine ⟨_, d, rfl, rfl, rfl, rfl, rfl, rfl, rfl, ?_, ?_⟩
        · intro e he
          obtain ⟨g0, _, rfl⟩ := List.mem_map.1 he
          rfl
        · simp
      · simp at h

/-- Another error distribution set on a constructed sampler: the walkers are made with the new one, the
engines explore with the old one. Likelihoods under two distributions are compared with each other. -/
theorem C105_counterexample_distribution (lower : String → String) (hlow : LowerOk lower)
    (draw : ℕ → ℕ) (one : V) (p : Prob) (hp : p.kind = .classic) (limits : Option L) (boost : Boost) :
    ∃ s s', construct lower draw one (.object p) .missing limits none boost = .ok s ∧
      s' = run lower draw s [.distribution (.name "laplace") limits one, .sample] ∧
      (∃ g, s'.initial = some g ∧ g.errdis.kind = .laplace) ∧
      s'.engines ≠ [] ∧ ∀ g ∈ s'.engines, g.errdis.kind = .gauss := by
  obtain ⟨s, d, ph, h1, h2, h3, h4, h5, _, _, h6, h7, _⟩ := C105_default lower hlow draw one p
    (by rw [hp]; simp) limits boost
  have hl : lower "laplace" = "laplace" := hlow ("laplace", .laplace) (by simp [distTable])
  refine ⟨s, _, h1, rfl, ?_⟩
  have hstep := (C105_distribution_names lower "laplace" limits one s).1 .laplace
    (by rw [hl]; simp [distTable])
  simp only [run, List.foldl_cons, List.foldl_nil, step, hstep]
  generalize hs1 : ({ s with
      dist := some (if DKind.laplace = .poisson ∨ DKind.laplace = .bernoulli
        then ⟨s.next, .laplace, none, none⟩ else ⟨s.next, .laplace, some one, limits⟩)
      next := s.next + 1 } : Sampler V L) = s1
  have hs1d : s1.dist = some ⟨s.next, .laplace, some one, limits⟩ := by rw [← hs1]; simp
  have hs1e : s1.engines = s.engines := by rw [← hs1]
  have hs1p : s1.problem = p := by rw [← hs1]; exact h2
  have hok : (initSample draw s1).2 = none := by
    unfold initSample setInitialEngine
    rw [hs1d]
    dsimp only
    cases s1.initial with
    | some e => rfl
    | none =>
      dsimp only
      rw [if_pos (by rw [hs1p]; simp [Prob.myStartEngine, hp])]
  obtain ⟨g, d', a1, a2, a3, a4, _, _, _, _, a5⟩ := C105_sample draw s1 (initSample draw s1).1
    (Prod.ext rfl hok)
  have hne : s.engines ≠ [] := by
    intro h0
    rw [h0, hp] at h6
    simp at h6
  refine ⟨⟨g, a1, ?_⟩, ?_, ?_⟩
  · rw [a3, hs1d] at a2
    rw [a4, ← Option.some.inj a2]
  · intro h0
    rw [h0, hs1e] at a5
    simp at a5
    exact hne a5
  · intro e he
    have hm : (e.kind, e.errdis) ∈ s.engines.map (fun e => (e.kind, e.errdis)) := by
      rw [← hs1e, ← a5]
      exact List.mem_map.2 ⟨e, he, rfl⟩
    obtain ⟨e0, he0, hee⟩ := List.mem_map.1 hm
    simp only [Prod.mk.injEq] at hee
    rw [← hee.2, (h7 e0 he0).1, h5, hp]

/-! ## Boosting -/

/-- A nested sampler cannot start on a problem of orders: its start engine is not among those it knows. For all other
problems there is a start engine. -/
theorem C105_counterexample_order_start (draw : ℕ → ℕ) (d : Dist V L) (s : Sampler V L) (hd : s.dist = some d)
    (hi : s.initial = none) : (initSample draw s).2 = some .value ↔ s.problem.kind = .order := by
  unfold initSample setInitialEngine
  rw [hd]
  dsimp only
  rw [hi]
  dsimp only
  cases hk : s.problem.kind <;> simp [Prob.myStartEngine, hk]

/-- The fitter of `bestBoost`: with `bestBoost` switched on and the fitter set by `bestUpdate`, all
engines use that fitter. -/
theorem C105_boost (draw : ℕ → ℕ) (s s' : Sampler V L) (hb : s.bestBoost ≠ .off)
    (h : initSample draw s = (s', none)) :
    ∀ g ∈ s'.engines, g.boost = some (s.myFitter.getD 0) := by
  unfold initSample setInitialEngine at h
  cases hd : s.dist with
  | none => rw [hd] at h; simp at h
  | some d =>
    rw [hd] at h
    dsimp only at h
    cases hi : s.initial with
    | some e =>
      rw [hi] at h
      simp only [Prod.mk.injEq, and_true] at h
      subst h
      intro g hg
      obtain ⟨g0, _, rfl⟩ := List.mem_map.1 hg
      simp [hb, boostFitter]
    | none =>
      rw [hi] at h
      dsimp only at h
      split_ifs at h
      · simp only [Prod.mk.injEq, and_true] at h
        subst h
        intro g hg
        obtain ⟨g0, _, rfl⟩ := List.mem_map.1 hg
        simp [hb, boostFitter]
      · simp at h

theorem engineLoop_fitter (draw : ℕ → ℕ) (d : Dist V L) (ph : ℕ) :
    ∀ (l : List (EArg V L)) (s : Sampler V L),
      (engineLoop draw d ph l s).1.bestBoost = s.bestBoost ∧
      (engineLoop draw d ph l s).1.myFitter = s.myFitter := by
  intro l
  induction l with
  | nil => intro s; exact ⟨rfl, rfl⟩
  | cons a l ih =>
    intro s
    cases a with
    | junk => exact ⟨rfl, rfl⟩
    | object e => exact ih _
    | name n =>
      simp only [engineLoop]
      cases engineKind n with
      | none => exact ⟨rfl, rfl⟩
      | some k => exact ih _

/-- `bestBoost=fitter` in the constructor: the fitter is ignored. The constructor assigns the attribute
`bestBoost`, but it is `bestUpdate` that `__setattr__` looks for; the engines use
`LevenbergMarquardtFitter` (number 0), whatever was asked for. -/
theorem C105_counterexample_boost (lower : String → String) (draw : ℕ → ℕ) (one : V) (problem : PArg)
    (dist : DArg V L) (limits : Option L) (engines : Option (List (EArg V L))) (f : Fit)
    (s s' : Sampler V L)
    (h : construct lower draw one problem dist limits engines (.fitter f) = .ok s)
    (hs : initSample draw s = (s', none)) :
    ∀ g ∈ s'.engines, g.boost = some 0 := by
  have hbm : s.bestBoost = .fitter f ∧ s.myFitter = none := by
    unfold construct at h
    dsimp only at h
    split at h
    · simp at h
    · rename_i s1 h1
      have e1 : s1.bestBoost = .fitter f ∧ s1.myFitter = none := by
        cases problem with
        | name n m w acc =>
          simp only [setProblem] at h1
          split at h1 <;> simp only [Prod.mk.injEq, reduceCtorEq, and_false, and_true] at h1
          rw [← h1]; exact ⟨rfl, rfl⟩
        | object p =>
          simp only [setProblem, Prod.mk.injEq, and_true] at h1
          rw [← h1]; exact ⟨rfl, rfl⟩
        | junk => simp [setProblem] at h1
      split at h
      · simp at h
      · rename_i s2 h2
        have e2 : s2.bestBoost = .fitter f ∧ s2.myFitter = none := by
          rw [← e1.1, ← e1.2]
          cases dist with
          | missing =>
            simp only [setErrorDistribution, setDistName] at h2
            split at h2 <;> simp only [Prod.mk.injEq, reduceCtorEq, and_false, and_true] at h2
            rw [← h2]; exact ⟨rfl, rfl⟩
          | name n =>
            simp only [setErrorDistribution, setDistName] at h2
            split at h2 <;> simp only [Prod.mk.injEq, reduceCtorEq, and_false, and_true] at h2
            rw [← h2]; exact ⟨rfl, rfl⟩
          | object d =>
            simp only [setErrorDistribution, Prod.mk.injEq, and_true] at h2
            rw [← h2]; exact ⟨rfl, rfl⟩
          | junk => simp [setErrorDistribution] at h2
        split at h
        · simp at h
        · rename_i s3 h3
          simp only [Except.ok.injEq] at h
          subst h
          rw [← e2.1, ← e2.2]
          unfold setEngines at h3
          cases hd : s2.dist with
          | none => rw [hd] at h3; simp at h3
          | some d =>
            rw [hd] at h3
            dsimp only at h3
            have := congrArg Prod.fst h3
            dsimp only at this
            rw [← this]
            exact engineLoop_fitter draw d _ _ _
  intro g hg
  rw [C105_boost draw s s' (by rw [hbm.1]; simp) hs g hg, hbm.2]
  rfl

/-! ## Data of a problem -/

/-- In every history of a problem its `sumweight` is the sum of the weights that it has now. -/
theorem C105_sumweight (y : List ℚ) (w0 : Option (List ℚ)) (l : List DOp) (w : List ℚ)
    (hw : (l.foldl Data.step (Data.make y w0)).weights = some w) :
    (l.foldl Data.step (Data.make y w0)).getSumweight.1 = w.sum := by
  have inv : ∀ (l : List DOp) (d : Data), (∀ x, d.sumweight = some x → ∃ v, d.weights = some v ∧ x = v.sum) →
      ∀ x, (l.foldl Data.step d).sumweight = some x →
        ∃ v, (l.foldl Data.step d).weights = some v ∧ x = v.sum := by
    intro l
    induction l with
    | nil => intro d h; exact h
    | cons o l ih =>
      intro d h
      simp only [List.foldl_cons]
      apply ih
      cases o with
      | readNdata =>
        simp only [Data.step, Data.getNdata]
        split <;> exact h
      | readSumweight =>
        simp only [Data.step, Data.getSumweight]
        split
        · exact h
        · rename_i hs
          split
          · rename_i v hv
            intro x hx
            simp only [Option.some.injEq] at hx
            exact ⟨v, hv, hx.symm⟩
          · simp only [Data.getNdata]
            split <;> exact h
      | weights v => intro x hx; simp [Data.step, Data.setWeights] at hx
      | ydata y' => exact h
  have hi := inv l (Data.make y w0) (by simp [Data.make])
  generalize l.foldl Data.step (Data.make y w0) = d at hw hi
  unfold Data.getSumweight
  cases hs : d.sumweight with
  | some x =>
    obtain ⟨v, hv, rfl⟩ := hi x hs
    rw [hw] at hv
    rw [Option.some.inj hv]
  | none => simp [hw]

/-- The number of data is that of the data, as long as the data are not replaced. -/
theorem C105_ndata_partial (y : List ℚ) (w0 : Option (List ℚ)) (l : List DOp)
    (hl : ∀ o ∈ l, ∀ y', o ≠ .ydata y') :
    (l.foldl Data.step (Data.make y w0)).getNdata.1 = y.length := by
  have inv : ∀ (l : List DOp) (d : Data), (∀ o ∈ l, ∀ y', o ≠ DOp.ydata y') → d.ydata = y →
      (∀ n, d.ndata = some n → n = y.length) →
      (l.foldl Data.step d).ydata = y ∧ ∀ n, (l.foldl Data.step d).ndata = some n → n = y.length := by
    intro l
    induction l with
    | nil => intro d _ h1 h2; exact ⟨h1, h2⟩
    | cons o l ih =>
      intro d ho h1 h2
      simp only [List.foldl_cons]
      have hget : d.getNdata.2.ydata = y ∧ ∀ n, d.getNdata.2.ndata = some n → n = y.length := by
        simp only [Data.getNdata]
        split
        · exact ⟨h1, h2⟩
        · refine ⟨h1, ?_⟩
          intro n hn
          simp only [Option.some.injEq] at hn
          rw [← hn, h1]
      have ho' : ∀ o' ∈ l, ∀ y', o' ≠ DOp.ydata y' := fun o' h' => ho o' (by simp [h'])
      cases o with
      | readNdata => exact ih _ ho' hget.1 hget.2
      | readSumweight =>
        simp only [Data.step, Data.getSumweight]
        split
        · exact ih _ ho' h1 h2
        · split
          · exact ih _ ho' h1 h2
          · exact ih _ ho' hget.1 hget.2
      | weights v => exact ih _ ho' h1 h2
      | ydata y' => exact absurd rfl (ho (.ydata y') (by simp) y')
  obtain ⟨h1, h2⟩ := inv l (Data.make y w0) hl rfl (by simp [Data.make])
  unfold Data.getNdata
  split
  · rename_i n hn; exact h2 n hn
  · rw [h1]

/-- Once it was asked for, the number of data stays: with new data in the problem, as `setProblem` can put
there, it is still that of the old ones, and so is the sum of the weights when there are none. The norm
of the likelihood and the evidence use it. -/
theorem C105_counterexample_ndata (y y' : List ℚ) (h : y.length ≠ y'.length) :
    let d := [DOp.readNdata, .ydata y'].foldl Data.step (Data.make y none)
    d.ydata = y' ∧ d.getNdata.1 = y.length ∧ d.getNdata.1 ≠ d.ydata.length ∧
    d.getSumweight.1 = (y.length : ℚ) := by
  simp [Data.step, Data.getNdata, Data.make, Data.setYdata, Data.getSumweight, h]

/-! ## The hypotheses are met -/

example : LowerOk id := fun _ _ => rfl

/-- A classic problem with a dynamic model; engines by name afterwards. -/
example : ∃ s : Sampler ℚ (ℚ × ℚ),
    construct id (fun k => k * k) (1 : ℚ) (.object ⟨.classic, ⟨true, false⟩, false⟩) .missing none
      none .on = .ok s ∧
    s.engines.map Eng.kind = [.galilean, .chord, .birth, .death] ∧
    s.engines.map Eng.seed = [some 0, some 1, some 4, some 9] := by
  obtain ⟨s, d, ph, h1, _, _, _, _, _, _, h2, _, h3⟩ := C105_default (V := ℚ) (L := ℚ × ℚ) id
    (fun _ _ => rfl) (fun k => k * k) 1 ⟨.classic, ⟨true, false⟩, false⟩ (by simp) none .on
  refine ⟨s, h1, h2, ?_⟩
  have : s.engines.length = 4 := by
    rw [← List.length_map (f := Eng.kind), h2]
    rfl
  rw [h3, this]
  rfl

end Setup
end BF
