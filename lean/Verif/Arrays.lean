import Mathlib.Data.Real.Basic
import Verif.Summary

/-!
# Arrays of parameters that are shared

In python an array of parameters is an object: a walker, the list of phantoms, a sample (whose parameters,
nuisance parameters and hyperparameters are slices, so views) and the variables of an engine may hold the same
one, and what is written through one of them is seen by all. The rest of the model treats arrays as values. Here
the arrays have addresses, and the engines are written as the assignments that they do to arrays.

Modelled: for each engine the order of its copies, assignments, writes and calls of `setWalker`, in all ways in
which conditions and random numbers can direct it: a condition is a choice, a loop is repeated any number of
times, and what is written or calculated is anything. Left out: arrays that are not parameters, `fitIndex` (no
code writes into one: `alterFitindex`, `Dynamic.py` 313-352, makes a new one) and threads.
-/

namespace BF.Arrays

/-- The variables of one call of an engine that hold arrays of parameters. -/
abbrev Reg := Fin 3

/-- What is done to arrays. -/
inductive Instr where
  /-- `r = self.walkers[kw].copy().allpars`: `Walker.py` 98, 114-119 copies the array. -/
  | copyWalker (r : Reg)
  /-- `r = self.walkers[kw].allpars`: the array of the walker itself. -/
  | refWalker (r : Reg)
  /-- `r = s.copy()`. -/
  | copy (r s : Reg)
  /-- `r` is a new array: the result of `numpy.append`, `numpy.roll`, `numpy.zeros` or `alterParameters`. -/
  | make (r : Reg)
  /-- `r = s`, or `r` is a view of `s`: `setAttribute`, `Tools.py` 132, does `numpy.asarray`, which does not
  copy. -/
  | move (r s : Reg)
  /-- `r[...] = ...`. -/
  | write (r : Reg)
  /-- The array `r` itself becomes the one of a walker: `Engine.py` 179-180, `walker` is given. -/
  | publish (r : Reg)
  /-- A copy of `r` becomes the one of a walker: `Engine.py` 176-177 with `Walker.py` 98. -/
  | publishCopy (r : Reg)
  /-- A new array becomes the one of a walker: `Engine.doBoost` 216-229. -/
  | publishNew

/-- What an engine may do. -/
inductive Prog where
  | skip
  | act (i : Instr)
  | seq (p q : Prog)
  /-- `if`. -/
  | alt (p q : Prog)
  /-- Any number of times. -/
  | loop (p : Prog)

@[inherit_doc] infixr:60 " ;; " => Prog.seq

instance : Coe Instr Prog := ⟨Prog.act⟩

/-- The memory. -/
structure St where
  /-- The contents of the arrays. -/
  mem : ℕ → List ℝ
  /-- The first free address. -/
  next : ℕ
  reg : Reg → ℕ
  /-- The addresses of the arrays in the ensemble. -/
  walkers : List ℕ
  /-- The arrays that have ever been given to a walker, with their contents at that moment. The phantoms
  (`PhantomCollection.py` 122-132: the same walkers) and the samples are among these. -/
  log : List (ℕ × List ℝ)

/-- A new array, with the contents `v`, in the variable `r`. -/
def St.alloc (s : St) (r : Reg) (v : List ℝ) : St :=
  { s with
    mem := Function.update s.mem s.next v, next := s.next + 1, reg := Function.update s.reg r s.next }

/-- `WalkerList.setWalker`, 99-118 and `PhantomCollection.storeItems`, 122-132: the array at address `a` is
the one of a walker at any place, replacing the one there or appended. -/
def St.put (s : St) (place : Option ℕ) (a : ℕ) : St :=
  { s with
    walkers := match place with
      | some k => s.walkers.set k a
      | none => s.walkers ++ [a]
    log := (a, s.mem a) :: s.log }

/-- The memory with a new array that is in no variable. -/
def St.fresh (s : St) (v : List ℝ) : St :=
  { s with mem := Function.update s.mem s.next v, next := s.next + 1 }

/-- One action, in an engine that was called for walker `kw`. -/
inductive Step (kw : ℕ) : Instr → St → St → Prop where
  | copyWalker (r s a) (h : s.walkers[kw]? = some a) : Step kw (.copyWalker r) s (s.alloc r (s.mem a))
  | refWalker (r s a) (h : s.walkers[kw]? = some a) :
      Step kw (.refWalker r) s { s with reg := Function.update s.reg r a }
  | copy (r t s) : Step kw (.copy r t) s (s.alloc r (s.mem (s.reg t)))
  | make (r s v) : Step kw (.make r) s (s.alloc r v)
  | move (r t s) : Step kw (.move r t) s { s with reg := Function.update s.reg r (s.reg t) }
  | write (r s v) : Step kw (.write r) s { s with mem := Function.update s.mem (s.reg r) v }
  | publish (r s place) : Step kw (.publish r) s (s.put place (s.reg r))
  | publishCopy (r s place) :
      Step kw (.publishCopy r) s ((s.fresh (s.mem (s.reg r))).put place s.next)
  | publishNew (s place v) : Step kw .publishNew s ((s.fresh v).put place s.next)

/-- All executions. -/
inductive Run (kw : ℕ) : Prog → St → St → Prop where
  | skip (s) : Run kw .skip s s
  | act {i s t} (h : Step kw i s t) : Run kw (.act i) s t
  | seq {p q s t u} (h : Run kw p s t) (h' : Run kw q t u) : Run kw (.seq p q) s u
  | left {p q s t} (h : Run kw p s t) : Run kw (.alt p q) s t
  | right {p q s t} (h : Run kw q s t) : Run kw (.alt p q) s t
  | done {p s} : Run kw (.loop p) s s
  | turn {p s t u} (h : Run kw p s t) (h' : Run kw (.loop p) t u) : Run kw (.loop p) s u

/-! ## The engines -/

/-- `Engine.setWalker` 153-188 without a walker to copy from: a copy of the array, or what the boost 193-229
made of it. The fitter of the boost gets a view of the copy as start; it does not write in it, as
`insertParameters`, `BaseFitter.py` 339-340, returns a new array when all parameters are fitted. -/
def setWalker (r : Reg) : Prog := .alt (.act (.publishCopy r)) (.act .publishNew)

/-- The same with a walker to copy from: the array itself. -/
def setWalkerRef (r : Reg) : Prog := .alt (.act (.publish r)) (.act .publishNew)

/-- `if` without `else`. -/
def opt (p : Prog) : Prog := .alt p .skip

/-- `GibbsEngine.execute` 80-172; 0: `param`, 1: `ptry`. -/
def gibbs : Prog :=
  Instr.copyWalker 0 ;; .loop (
    Instr.copy 1 0 ;; Instr.write 1 ;; .loop (Instr.write 1) ;;
      .alt (Instr.move 0 1 ;; setWalker 0) (Instr.write 0))

/-- `StepEngine.execute` 81-184; 0: `param`, 1: `ptry`. -/
def stepping : Prog :=
  Instr.copyWalker 0 ;; .loop (
    Instr.copy 1 0 ;; Instr.write 1 ;; opt (setWalker 1 ;; Instr.move 0 1))

/-- `ChordEngine.execute` 106-284 and `stepOut` 287-314; 0: `param`, 1: `ptry`. -/
def chord : Prog :=
  Instr.copyWalker 0 ;; Instr.copy 1 0 ;; .loop (
    .loop (Instr.write 1) ;; opt (Instr.copy 0 1 ;; setWalker 1))

/-- `GalileanEngine.execute` 99-245; 0: `allpars`, 1: `ptry`, 2: `pedge`. -/
def galilean : Prog :=
  Instr.copyWalker 0 ;; Instr.copy 1 0 ;; .loop (
    .alt (Instr.write 1) (Instr.write 1 ;; Instr.copy 2 0 ;; Instr.write 2 ;; Instr.write 1) ;;
      opt (Instr.copy 0 1 ;; setWalkerRef 0))

/-- `RandomEngine.execute` 80-171; 0: `param`, 1: `ptry`. -/
def random : Prog :=
  Instr.copyWalker 0 ;; .loop (Instr.copy 1 0 ;; Instr.write 1 ;; opt (setWalker 1))

/-- `BirthEngine.execute` 79-168; 0: `allp`, 1: the parameters of the model, at first a view of `allp`, then,
after `grow`, a new array (`Dynamic.py` 163-165), 2: `ptry`. -/
def birth : Prog :=
  Instr.copyWalker 0 ;; Instr.move 1 0 ;; opt (
    Instr.make 1 ;; Instr.move 2 1 ;; opt (Instr.make 2) ;;
      .loop (Instr.write 2) ;; opt (setWalker 2))

/-- `DeathEngine.execute` 82-154; as `birth`. `RepeatingModel.shuffle` 289-315 writes in `allp`, and so in the
parameters of the model; `shrink` makes a new array (`Dynamic.py` 198-199). -/
def death : Prog :=
  Instr.copyWalker 0 ;; Instr.move 1 0 ;; Instr.move 2 0 ;; opt (Instr.write 2) ;; opt (
    Instr.make 1 ;; Instr.move 2 1 ;; opt (Instr.make 2) ;; opt (setWalker 2))

/-- `StructureEngine.execute` 80-160; 0: `cwalker.allpars`, 1: `ptry`. -/
def structural : Prog :=
  .loop (Instr.copyWalker 0 ;; Instr.copy 1 0 ;; opt (setWalker 1))

/-- `StartEngine.execute` 73-157; 0: `walker.allpars`, 1: `allp`. -/
def start : Prog :=
  Instr.refWalker 0 ;; Instr.copy 1 0 ;; .loop (opt (Instr.make 1) ;; Instr.write 1) ;; setWalker 1

/-- `MoveEngine`, `ReverseEngine`, `SwitchEngine`, `ShuffleEngine`, `LoopEngine`, `NearEngine` and
`StartOrderEngine`: `param` is the array of the walker itself; `ptry` is made by `numpy.append`, `numpy.roll`,
`copy` or `permutation`, in which there may be written. Simplified: they are taken together; in `MoveEngine` 95
`ptry` is at first a view of `param`, in which is not written. 0: `param`, 1: `ptry`. -/
def order : Prog :=
  .loop (Instr.refWalker 0 ;; Instr.move 1 0 ;; Instr.make 1 ;; .loop (Instr.write 1) ;; opt (Instr.make 1) ;;
    opt (setWalker 1))

/-- All engines. -/
def engines : List Prog :=
  [gibbs, stepping, chord, galilean, random, birth, death, structural, start, order]

/-! ## The sampler -/

/-- A sample: the address of the array of which its parameters are views, the number of parameters of the model
and of the problem, and the contents when it was stored. -/
structure Smp where
  addr : ℕ
  nm : ℕ
  np : ℕ
  was : List ℝ

/-- The sampler. -/
structure Sampler where
  st : St
  samples : List Smp

/-- What the samplers do, in any order. -/
inductive Event : Sampler → Sampler → Prop where
  /-- An engine explores a walker, `Explorer.exploreWalker` or `initWalkers`. -/
  | engine {S : Sampler} {st' : St} {p : Prog} (kw : ℕ) (frame : Reg → ℕ) (hp : p ∈ engines)
      (hf : ∀ r, frame r < S.st.next) (h : Run kw p { S.st with reg := frame } st') :
      Event S { S with st := st' }
  /-- `WalkerList.copy` 120-143: place `des` gets a copy of a walker or of a phantom. -/
  | copy {S : Sampler} (a : ℕ) (v : List ℝ) (des : ℕ) (h : (a, v) ∈ S.st.log) :
      Event S { S with st := (S.st.fresh (S.st.mem a)).put (some des) S.st.next }
  /-- `updateEvidence`, `NestedSampler.py` 780-781, with `Walker.toSample` 121-140. -/
  | sample {S : Sampler} (k a nm np : ℕ) (h : S.st.walkers[k]? = some a) :
      Event S { S with samples := S.samples ++ [⟨a, nm, np, S.st.mem a⟩] }
  /-- The walkers are sorted or some are removed: `NestedSampler.py` 448, `PhantomSampler.py` 248, 265. -/
  | rearrange {S : Sampler} (l : List ℕ) (h : ∀ a ∈ l, a ∈ S.st.walkers) :
      Event S { S with st := { S.st with walkers := l } }
  /-- Samples are removed: `SampleList.weed` 258-277. -/
  | weed {S : Sampler} (l : List Smp) (h : l.Sublist S.samples) : Event S { S with samples := l }

/-- Any number of events. -/
inductive History : Sampler → Sampler → Prop where
  | nil (S) : History S S
  | snoc {S T U} (h : History S T) (e : Event T U) : History S U

/-- The sample as it is now: what its attributes show. -/
noncomputable def Smp.now (s : Smp) (st : St) (logL logW : ℝ) : Summary.Item :=
  Summary.toSample s.np s.nm (st.mem s.addr) logL logW

/-- `Sample.allpars`, `Sample.py` 134-140. -/
def allpars (i : Summary.Item) : List ℝ := i.parameters ++ i.nuisance.getD [] ++ i.hyper.getD []

/-- `Walker.hypars`, `Walker.py` 150-155. -/
def walkerHypars (nm : ℕ) (allpars : List ℝ) : Option (List ℝ) :=
  if allpars.length > nm then some (allpars.drop nm) else none

end BF.Arrays
