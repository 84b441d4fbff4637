import Mathlib.Data.List.Basic
import Mathlib.Data.List.Sort
import Mathlib.Order.Defs.LinearOrder

/-!
# Exploring walkers in threads

`Explorer.py` 98-209 and 282-314, with what the threads share: the list of walkers, the collection of phantoms,
the random generator of the engines and the list of errors.

A thread is a tree of the accesses it makes to what is shared. One access is one step; the threads take their
steps in any order. What a thread calculates for itself is in the functions which continue after an access.
-/

namespace Threads

/-- What a thread does next. `W`: walkers, `R`: random numbers. -/
inductive Prog (W R : Type) where
  /-- The thread has ended. -/
  | done
  /-- The thread has ended with an exception. -/
  | fail
  /-- The next number of the generator of the engines: `Engine.py` 124, a copy has the generator of the
  original. -/
  | draw (k : R → Prog W R)
  /-- `self.walkers[i]`; `none`: there is no such walker. -/
  | read (i : ℕ) (k : Option W → Prog W R)
  /-- `len( self.walkers )` -/
  | len (k : ℕ → Prog W R)
  /-- `self.walkers.setWalker( w, i )`, `WalkerList.py` 103-122 -/
  | put (i : ℕ) (w : W) (k : Prog W R)
  /-- The value of `phantoms.phantoms`, `PhantomCollection.py` 132. -/
  | load (k : List W → Prog W R)
  /-- The assignment to `phantoms.phantoms`, `PhantomCollection.py` 132. -/
  | save (l : List W) (k : Prog W R)

/-- What the threads share. `next`: how many numbers have been drawn. -/
structure Shared (W : Type) where
  walkers : List W
  phantoms : List W
  next : ℕ

/-- `WalkerList.py` 103-122, without the ids. -/
def setWalker {W : Type} (l : List W) (i : ℕ) (w : W) : List W :=
  if i < l.length then l.set i w else l ++ [w]

/-- One access. `rnd`: the numbers of the generator. -/
def access {W R : Type} (rnd : ℕ → R) : Prog W R → Shared W → Prog W R × Shared W
  | .done, s => (.done, s)
  | .fail, s => (.fail, s)
  | .draw k, s => (k (rnd s.next), { s with next := s.next + 1 })
  | .read i k, s => (k s.walkers[i]?, s)
  | .len k, s => (k s.walkers.length, s)
  | .put i w k, s => (k, { s with walkers := setWalker s.walkers i w })
  | .load k, s => (k s.phantoms, s)
  | .save l k, s => (k, { s with phantoms := l })

/-- All threads and what they share. -/
structure State (W R : Type) where
  threads : List (Prog W R)
  shared : Shared W

/-- Thread `i` makes one access; nothing happens when there is no such thread. -/
def step {W R : Type} (rnd : ℕ → R) (s : State W R) (i : ℕ) : State W R :=
  match s.threads[i]? with
  | none => s
  | some p => ⟨s.threads.set i (access rnd p s.shared).1, (access rnd p s.shared).2⟩

/-- The threads make their accesses in the order of the schedule. -/
def run {W R : Type} (rnd : ℕ → R) (s : State W R) (schedule : List ℕ) : State W R :=
  schedule.foldl (step rnd) s

/-- Has the thread ended? -/
def Prog.ended {W R : Type} : Prog W R → Bool
  | .done => true
  | .fail => true
  | _ => false

/-- All threads have ended: what `join` waits for, `Explorer.py` 130-131. -/
def State.ended {W R : Type} (s : State W R) : Bool := s.threads.all Prog.ended

variable {W R : Type}

/-- `WalkerList.py` 156-200: `insertWalker`, the new walker before the first that is above it. -/
def insertWalker (logL : W → ℤ) (l : List W) (w : W) : List W :=
  let klow := l.findIdx fun v => decide (logL v > logL w)
  l.take klow ++ w :: l.drop klow

/-- `PhantomCollection.py` 122-132: `storeItems`. Two accesses: the old list and the new one. Left out: the
counter; the empty list, which is extended in place. -/
def storeItems (logL : W → ℤ) (w : W) (k : Prog W R) : Prog W R :=
  .load fun l => .save (insertWalker logL l w) k

/-- An engine as far as it matters here: from the walker and one random number it makes a new walker, or
nothing when it does not succeed. The other numbers it draws are left out. -/
abbrev Eng (W R : Type) := W → R → Option W

/-- The engines, with `update` as in `ChordEngine.py` 257-258 (all engines have these lines), followed by
`Engine.setWalker`, `Engine.py` 153-187. `k` continues with the number of moves. -/
def execute (logL : W → ℤ) (append : Bool) (kw : ℕ) (e : Eng W R) (k : ℕ → Prog W R) : Prog W R :=
  .read kw fun w? =>
    match w? with
    | none => .fail
    | some w => .draw fun r =>
        match e w r with
        | none => k 0
        | some w' =>
            if append then .len fun n => .put n w' (storeItems logL w' (k 1))
            else .put kw w' (storeItems logL w' (k 1))

/-- `Explorer.py` 178-181: one round over the engines. -/
def round (logL : W → ℤ) (append : Bool) (kw : ℕ) : List (Eng W R) → ℕ → (ℕ → Prog W R) → Prog W R
  | [], moves, k => k moves
  | e :: es, moves, k => execute logL append kw e fun mv => round logL append kw es (moves + mv) k

/-- `Explorer.py` 176-201. The order of the engines in every trial is from the generator of the thread
itself; here it is in the list of the trials still allowed. -/
def trials (logL : W → ℤ) (append : Bool) (kw maxmoves : ℕ) :
    List (List (Eng W R)) → ℕ → Prog W R → Prog W R
  | [], _, k => k
  | es :: ts, moves, k =>
      if moves < maxmoves then
        round logL append kw es moves fun m => trials logL append kw maxmoves ts m k
      else k

/-- `Explorer.py` 145-209: explore one walker and check it. Left out: `logLcheck`. When walkers are appended
the length is taken here once, at the end; in the code after every engine. -/
def exploreWalker (logL : W → ℤ) (append : Bool) (kw maxmoves : ℕ) (low : ℤ) (ts : List (List (Eng W R))) :
    Prog W R :=
  trials logL append kw maxmoves ts 0 <|
    if append then
      .len fun n => .read (n - 1) fun w? =>
        match w? with
        | none => .fail
        | some w => if logL w < low then .fail else .done
    else
      .read kw fun w? =>
        match w? with
        | none => .fail
        | some w => if logL w < low then .fail else .done

/-- `Explorer.py` 120-128: the threads when they have been started; `jobs`: per walker the trials. -/
def start (logL : W → ℤ) (append : Bool) (maxmoves : ℕ) (low : ℤ) (jobs : List (ℕ × List (List (Eng W R))))
    (sh : Shared W) : State W R :=
  ⟨jobs.map fun j => exploreWalker logL append j.1 maxmoves low j.2, sh⟩

/-- One thread alone until it ends. -/
def alone (rnd : ℕ → R) : Prog W R → Shared W → Shared W
  | .done, s => s
  | .fail, s => s
  | .draw k, s => alone rnd (k (rnd s.next)) { s with next := s.next + 1 }
  | .read i k, s => alone rnd (k s.walkers[i]?) s
  | .len k, s => alone rnd (k s.walkers.length) s
  | .put i w k, s => alone rnd k { s with walkers := setWalker s.walkers i w }
  | .load k, s => alone rnd (k s.phantoms) s
  | .save l k, s => alone rnd k { s with phantoms := l }

/-- `Explorer.py` 113-117: without threads, one walker after the other. -/
def inTurn (rnd : ℕ → R) (ps : List (Prog W R)) (s : Shared W) : Shared W :=
  ps.foldl (fun s p => alone rnd p s) s

/-- `Explorer.py` 140-143 and 308-314: every thread that failed has added to the list of the module; the call
raises when there is something in that list. Result: the list and whether the call raises. -/
def joinAll (errors : List String) (failed : List Bool) : List String × Bool :=
  let errors := errors ++ (failed.filter id).map fun _ => "error"
  (errors, decide (errors.length > 0))

/-- `Engine.py` 107-127: the counters, and whether the best walker is to be boosted. -/
structure Engine where
  report : List ℕ
  boost : Bool

/-- `Engine.py` 105-131: a copy starts with counters at 0 and with `noBoost`. -/
def Engine.copy (_ : Engine) : Engine := ⟨[0, 0, 0, 0, 0], false⟩

/-- `Explorer.py` 133-138: the counters of a copy are added to those of the engine. -/
def Engine.joined (e c : Engine) : Engine :=
  let nc := ((c.report.take 4).foldl (· + ·) 0)
  let r := List.zipWith (· + ·) (e.report.take 4) (c.report.take 4)
  { e with report := r ++ [e.report.getD 4 0 + nc] }

end Threads
