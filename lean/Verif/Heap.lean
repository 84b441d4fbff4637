import Mathlib.Data.List.Basic

/-!
# Compound models as objects in memory

Models how chains of models are built, copied and combined in `Model.py`: as linked objects that can be shared.

Simplifications: an address is an index in a list of objects. Of an object only the links, the operation, the
parameters and the numbers of parameters are there; the class and configuration of a base model (`Base`) and its
default parameters stand for the rest. The arrays of parameters are values (numpy arrays can be shared too; every
assignment here makes a new array in the code as well, except `setatt` of parameters given by the user). The checks on
dimensions and on dynamic models and `selectPipe` in `appendModel` are left out, and so are standard deviations.
Loops take fuel; `none` is an exception or a loop that has not ended.
-/

namespace BF.Heap

/-- `Model.py` 136-141. -/
inductive Op | nop | add | sub | mul | div | pip
  deriving DecidableEq

/-- The class of a base model with its configuration, and its default parameters, as many as it has. -/
structure Base (K : Type) where
  name : String
  dflt : List K

variable {K : Type}

/-- A base model or `Brackets` around the model at an address. -/
inductive Kind (K : Type)
  | base (b : Base K)
  | brackets (inner : ℕ)

/-- The attributes `npbase`, `_next`, `_head`, `_operation`, `parameters`, `_npchain` (`Model.py` 171-187). -/
structure Obj (K : Type) where
  kind : Kind K
  np : ℕ
  next : Option ℕ
  head : ℕ
  op : Op
  pars : Option (List K)
  npchain : ℕ

abbrev Mem (K : Type) := List (Obj K)

/-- The end of the chain: `Model.py` 425-427. -/
def walk : ℕ → Mem K → ℕ → Option ℕ
  | 0, _, _ => none
  | f + 1, h, a => (h[a]?).bind fun o =>
      match o.next with
      | none => some a
      | some b => walk f h b

/-- `Model.py` 430-432. -/
def setHeads : ℕ → Mem K → ℕ → ℕ → Option (Mem K)
  | 0, _, _, _ => none
  | f + 1, h, last, hd => (h[last]?).bind fun o =>
      match o.next with
      | none => some h
      | some b => setHeads f (h.modify b fun ob => { ob with head := hd }) b hd

/-- `Brackets( model )`: `Model.py` 1727-1743; `npchain` is the one of the head of the model (249-250). -/
def makeBrackets (h : Mem K) (model : ℕ) : Option (Mem K × ℕ) :=
  (h[model]?).bind fun om => (h[om.head]?).bind fun oh =>
    some (h ++ [{ kind := .brackets model, np := oh.npchain, next := none, head := h.length, op := .nop,
                  pars := om.pars, npchain := oh.npchain }], h.length)

/-- `Model.py` 422-423. -/
def wrap (h : Mem K) (model : ℕ) : Option (Mem K × ℕ) :=
  (h[model]?).bind fun om => if om.next.isSome then makeBrackets h model else some (h, model)

/-- `Model.py` 425-440, after the brackets. -/
def link (f : ℕ) (h : Mem K) (self model : ℕ) (op : Op) : Option (Mem K) :=
  (walk f h self).bind fun last =>
    let h1 := h.modify last fun o => { o with next := some model }
    let h2 := h1.modify model fun o => { o with op := op }
    (h2[self]?).bind fun os =>
    (setHeads f h2 last os.head).bind fun h3 =>
    (h3[self]?).bind fun os => (h3[model]?).bind fun om =>
    os.pars.bind fun ps => om.pars.bind fun pm =>
      let h4 := h3.modify self fun o => { o with npchain := ps.length + pm.length, pars := some (ps ++ pm) }
      some (h4.modify model fun o => { o with pars := none })

/-- `Model.appendModel` 397-442. -/
def append (f : ℕ) (h : Mem K) (self model : ℕ) (op : Op) : Option (Mem K) :=
  (wrap h model).bind fun hm => link f hm.1 self hm.2 op

/-- A new object, as in `Model.py` 171-187. -/
def fresh (h : Mem K) (kind : Kind K) (np : ℕ) (pars : List K) : Mem K :=
  h ++ [{ kind := kind, np := np, next := none, head := h.length, op := .nop, pars := some pars, npchain := np }]

/-- `Model.py` 197-199. -/
def finish (h : Mem K) (n : ℕ) (o : Obj K) : Mem K :=
  h.modify n fun on => { on with
    npchain := o.npchain
    pars := match o.pars with
      | some p => some p
      | none => on.pars }

mutual
/-- `copy`: the constructor of the class with `copy=self`, `Model.py` 144-203; of `Brackets` 1727-1748, where the
parameters are replaced by those of the contents after the chain has been copied. `zero` is 0. -/
def copy (zero : K) : ℕ → Mem K → ℕ → Option (Mem K × ℕ)
  | 0, _, _ => none
  | f + 1, h, a => (h[a]?).bind fun o =>
      match o.kind with
      | .base b =>
          (copyLoop zero f (fresh h (.base b) o.np b.dflt) h.length o.next).bind fun h1 =>
            some (finish h1 h.length o, h.length)
      | .brackets i => (copy zero f h i).bind fun hi =>
          (copyLoop zero f (fresh hi.1 (.brackets hi.2) o.np (List.replicate o.np zero)) hi.1.length o.next).bind fun h1 =>
            let h2 := finish h1 hi.1.length o
            (h2[hi.2]?).bind fun oi =>
              some (h2.modify hi.1.length fun on => { on with pars := oi.pars }, hi.1.length)

/-- `Model.py` 191-195: append copies of the rest of the chain, from `last` on, to the model at `n`. -/
def copyLoop (zero : K) : ℕ → Mem K → ℕ → Option ℕ → Option (Mem K)
  | 0, _, _, _ => none
  | _ + 1, h, _, none => some h
  | f + 1, h, n, some l => (h[l]?).bind fun o =>
      (isolate zero f h l).bind fun hm =>
      (append f hm.1 n hm.2 o.op).bind fun h2 => copyLoop zero f h2 n o.next

/-- `Model.isolateModel( 0 )` 274-312: the links are cut, the model is copied and the links are restored. -/
def isolate (zero : K) : ℕ → Mem K → ℕ → Option (Mem K × ℕ)
  | 0, _, _ => none
  | f + 1, h, l => (h[l]?).bind fun o =>
      (copy zero f (h.modify l fun ol => { ol with next := none, head := l }) l).bind fun hm =>
        let h3 := hm.1.modify l fun ol => { ol with next := o.next, head := o.head }
        (h3[o.head]?).bind fun oh => oh.pars.bind fun hp =>
          some (h3.modify hm.2 fun om => { om with op := .nop, pars := some (hp.take o.np), npchain := om.np }, hm.2)
end

/-- `__add__` and the other operators, 1357-1488: copies of both are combined. -/
def binary (zero : K) (f : ℕ) (h : Mem K) (a b : ℕ) (op : Op) : Option (Mem K × ℕ) :=
  (copy zero f h a).bind fun ha => (copy zero f ha.1 b).bind fun hb =>
    (append f hb.1 ha.2 hb.2 op).bind fun h' => some (h', ha.2)

/-- Assigning to `parameters`: `Model.py` 222-226. -/
def setPars (h : Mem K) (a : ℕ) (p : List K) : Option (Mem K) :=
  (h[a]?).bind fun o => (h[o.head]?).bind fun oh =>
    if p.length ≠ oh.npchain then none else some (h.modify a fun o => { o with pars := some p })

/-! ## What a user does -/

/-- A program that makes and combines models. Models are numbered in the order in which they are made. -/
inductive Cmd (K : Type)
  | new (b : Base K)
  | copy (i : ℕ)
  | binary (i j : ℕ) (op : Op)
  | inplace (i j : ℕ) (op : Op)
  | setPars (i : ℕ) (p : List K)

/-- Memory and the addresses of the models. -/
structure State (K : Type) where
  mem : Mem K
  models : List ℕ

/-- One step of the program. -/
def step (zero : K) (f : ℕ) (s : State K) : Cmd K → Option (State K)
  | .new b => some ⟨fresh s.mem (.base b) b.dflt.length b.dflt, s.models ++ [s.mem.length]⟩
  | .copy i => (s.models[i]?).bind fun a =>
      (Heap.copy zero f s.mem a).bind fun r => some ⟨r.1, s.models ++ [r.2]⟩
  | .binary i j op => (s.models[i]?).bind fun a => (s.models[j]?).bind fun b =>
      (Heap.binary zero f s.mem a b op).bind fun r => some ⟨r.1, s.models ++ [r.2]⟩
  | .inplace i j op => (s.models[i]?).bind fun a => (s.models[j]?).bind fun b =>
      (append f s.mem a b op).bind fun h => some ⟨h, s.models⟩
  | .setPars i p => (s.models[i]?).bind fun a => (Heap.setPars s.mem a p).bind fun h => some ⟨h, s.models⟩

def run (zero : K) (f : ℕ) (s : State K) : List (Cmd K) → Option (State K)
  | [] => some s
  | c :: cs => (step zero f s c).bind fun s' => run zero f s' cs

end BF.Heap
