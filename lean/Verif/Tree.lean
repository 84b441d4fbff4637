import Verif.Dynamic
import Mathlib.Data.Real.Archimedean
import Mathlib.Data.Nat.Bitwise

/-!
# Decision trees

Models `DecisionTreeModel.py`. A number of the table is real, so there are no NaNs; a column of
categories is read as natural numbers.
-/

namespace BF.Tree

open BF.Dynamic

noncomputable section

/-- One node of the tree, `DecisionTreeModel.__init__` 112-213: a leaf when `dimension` is None, else a
branch with the dimension, `split`, `mask`, `left` and `rite`. `shrink` does not remove the mask of a
branch that it turns into a leaf (830-833), so a leaf may still have one. The links to the parent are
not kept: they are found from the path. -/
inductive Tree
  | leaf (mask : Option ℕ)
  | branch (dim : ℕ) (split : Option ℝ) (mask : Option ℕ) (left rite : Tree)

namespace Tree

/-- `isLeaf` 262-266. -/
def isLeaf : Tree → Bool
  | .leaf _ => true
  | .branch .. => false

end Tree

/-- The table of input: a number for every dimension and point, and the same as a category. -/
structure Data where
  n : ℕ
  num : ℕ → ℕ → ℝ
  cat : ℕ → ℕ → ℕ

/-- `numpy.min`, 290. -/
def minOf : List ℝ → ℝ
  | [] => 0
  | x :: xs => xs.foldl min x

/-- `numpy.max`, 291. -/
def maxOf : List ℝ → ℝ
  | [] => 0
  | x :: xs => xs.foldl max x

/-- `partitionList` 268-304: the points of the list that go to the left and those that go to the right.
`none` is the TypeError in 296 when there is no split and no mask. -/
def partition (d : Data) (dim : ℕ) (split : Option ℝ) (mask : Option ℕ) (plist : List ℕ) :
    Option (List ℕ × List ℕ) :=
  if plist = [] then some ([], []) else
  match split with
  | some s =>
      let xd := plist.map (d.num dim)
      let mn := minOf xd
      let mx := maxOf xd
      let cut := mn + (mx - mn) * s
      let cmp : ℕ → Prop := fun i => if s < 1 / 2 then d.num dim i > cut else ¬ d.num dim i ≤ cut
      haveI : DecidablePred cmp := Classical.decPred cmp
      some (plist.filter fun i => decide (cmp i), plist.filter fun i => !decide (cmp i))
  | none =>
      match mask with
      | none => none
      | some m =>
          if 2 ≤ m then
            some (plist.filter fun i => decide (d.cat dim i &&& m ≠ 0),
              plist.filter fun i => !decide (d.cat dim i &&& m ≠ 0))
          else
            some (plist.filter fun i => decide (d.cat dim i = m),
              plist.filter fun i => !decide (d.cat dim i = m))

/-- `res[pl] = v`, 338. -/
def assign {α : Type} (res : List α) (pl : List ℕ) (v : α) : List α :=
  pl.foldl (fun r i => r.set i v) res

/-- `recursiveResult` 332-349, where the question whether a child is a leaf is asked by the child. -/
def recResult (d : Data) (params : List ℝ) : Tree → ℕ → List ℕ → List ℝ → Option (List ℝ × ℕ)
  | .leaf _, kpar, pl, res => (params[kpar]?).map fun v => (assign res pl v, kpar + 1)
  | .branch dim split mask l r, kpar, pl, res =>
      (partition d dim split mask pl).bind fun pp =>
      (recResult d params l kpar pp.1 res).bind fun q =>
      recResult d params r q.2 pp.2 q.1

/-- What `baseResult` returns: an array or, for a single leaf, one number. -/
inductive Out
  | scalar (v : ℝ)
  | array (l : List ℝ)

/-- The value at one point, after broadcasting a number to all points. -/
def Out.at : Out → ℕ → Option ℝ
  | .scalar v, _ => some v
  | .array l, i => l[i]?

/-- `baseResult` 306-330. -/
def baseResult (d : Data) (t : Tree) (params : List ℝ) : Option Out :=
  if params = [] then none else                     -- params[0] in 322
  if t.isLeaf then (params[0]?).map .scalar else
  (recResult d params t 0 (List.range d.n) (List.replicate d.n 0)).map fun q => .array q.1

/-- `part[pl,k] = 1.0`, 384. -/
def assignCol (part : List (List ℝ)) (pl : List ℕ) (k : ℕ) : List (List ℝ) :=
  pl.foldl (fun p i => p.modify i fun row => row.set k 1) part

/-- `recursivePartial` 378-395; `np` is the number of columns. -/
def recPartial (d : Data) (np : ℕ) : Tree → ℕ → List ℕ → List (List ℝ) → Option (List (List ℝ) × ℕ)
  | .leaf _, kpar, pl, part => if kpar < np then some (assignCol part pl kpar, kpar + 1) else none
  | .branch dim split mask l r, kpar, pl, part =>
      (partition d dim split mask pl).bind fun pp =>
      (recPartial d np l kpar pp.1 part).bind fun q =>
      recPartial d np r q.2 pp.2 q.1

/-- `basePartial` 351-376. In 366 `parlist` is taken for the list of points. `np` is `npbase`. -/
def basePartial (d : Data) (t : Tree) (np : ℕ) (parlist : Option (List ℕ)) :
    Option (List (List ℝ)) :=
  if t.isLeaf then some (List.replicate d.n [1]) else
  (recPartial d np t 0 (parlist.getD (List.range d.n))
    (List.replicate d.n (List.replicate np 0))).map Prod.fst

/-- `recursiveOrder` 415-426. -/
def recOrder (d : Data) : Tree → List ℕ → Option (List ℕ)
  | .leaf _, pl => some pl
  | .branch dim split mask l r, pl =>
      (partition d dim split mask pl).bind fun pp =>
      (recOrder d l pp.1).bind fun a => (recOrder d r pp.2).map fun b => a ++ b

/-- `sortXdata` 397-413. -/
def sortXdata (d : Data) (t : Tree) : Option (List ℕ) := recOrder d t (List.range d.n)

/-! ## Walking through the tree -/

/-- A path from the root: at each branch, whether to go right. -/
abbrev Path := List Bool

/-- `walk` 511-521: all nodes, each before its children, left before right. -/
def walk : Tree → List (Path × Tree)
  | .leaf m => [([], .leaf m)]
  | .branch dim split mask l r => ([], .branch dim split mask l r) ::
      ((walk l).map fun q => (false :: q.1, q.2)) ++ (walk r).map fun q => (true :: q.1, q.2)

/-- `findLeaf` 605-622. `none` is the StopIteration when there are not so many leaves. -/
def findLeaf (t : Tree) (kleaf : ℕ) : Option (Path × Tree) :=
  ((walk t).filter fun q => q.2.isLeaf)[kleaf]?

/-- `findBranch` 624-645. -/
def findBranch (t : Tree) (kbranch : ℕ) : Option (Path × Tree) :=
  ((walk t).filter fun q => !q.2.isLeaf)[kbranch]?

/-- `count` 693-710: the number of leaves. -/
def countLeaf (t : Tree) : ℕ := ((walk t).filter fun q => q.2.isLeaf).length

/-- `count` 693-710: the number of branches. -/
def countBranch (t : Tree) : ℕ := ((walk t).filter fun q => !q.2.isLeaf).length

/-- Changing the node at the end of a path. -/
def modifyAt (f : Tree → Tree) : Path → Tree → Tree
  | [], t => f t
  | _ :: _, .leaf m => .leaf m
  | false :: p, .branch dim split mask l r => .branch dim split mask (modifyAt f p l) r
  | true :: p, .branch dim split mask l r => .branch dim split mask l (modifyAt f p r)

/-- `Tools.getItem` 37-52 for a list. `none` is the IndexError for an empty list. -/
def getItem {α : Type} (l : List α) (k : ℕ) : Option α :=
  if l.length ≤ k then l.getLast? else l[k]?

/-- The mask in `setSplitOrMask`, 260. -/
def newMask (itype : ℕ) (split : ℝ) : ℕ := ⌊split * 2 ^ itype + 1⌋₊

/-- Lines 763-772 of `grow`, with `setSplitOrMask` 254-260: the leaf becomes a branch. -/
def sprout (kdim itype : ℕ) (split : ℝ) : Tree → Tree
  | .leaf m => if itype = 0 then .branch kdim (some split) m (.leaf none) (.leaf none)
      else .branch kdim none (some (newMask itype split)) (.leaf none) (.leaf none)
  | t => t

/-- Lines 830-833 of `shrink`: the branch becomes a leaf, which keeps the mask. -/
def prune : Tree → Tree
  | .branch _ _ m _ _ => .leaf m
  | t => t

/-- The tree with its bookkeeping: what `grow`, `shrink` and `vary` use and change. `npchain` and
`params` belong to the head of the chain. -/
structure DT where
  tree : Tree
  ncomp : ℕ
  minComp : Option ℕ
  maxComp : Option ℕ
  itypes : List ℕ
  npbase : ℕ
  npchain : ℕ
  params : List ℝ
  dynamic : Bool

/-- `DecisionTreeModel( itypes=itypes )` without a depth, 112-213: one leaf. -/
def DT.init (itypes : List ℕ) : DT := ⟨.leaf none, 0, none, none, itypes, 1, 1, [0], true⟩

/-- `grow` 725-798; `value` are the values of the new parameters: zeros or random draws (785-788). The
names of the parameters are left out. -/
def DT.grow (s : DT) (offset location kdim : ℕ) (split : ℝ) (value : ℕ → ℝ) : Option (DT × Bool) :=
  if !s.dynamic then some (s, false) else
  if s.maxComp.elim false (fun m => decide (m ≤ s.ncomp)) then some (s, false) else
  (getItem s.itypes kdim).bind fun itype =>
  (findLeaf s.tree location).bind fun q =>
  let tree := modifyAt (sprout kdim itype split) q.1 s.tree
  (s.params[offset + location]?).bind fun _ =>                       -- 779
  if countLeaf tree < s.npchain then none else                       -- numpy.zeros( dnp ) in 785
  let dnp := countLeaf tree - s.npchain
  (insertPars s.params location offset ((List.range dnp).map value)).map fun p =>
    ({ s with
        tree := tree, npbase := s.npbase + dnp, npchain := s.npchain + dnp, params := p
        ncomp := countBranch tree }, true)

/-- `shrink` 800-850. The case that there are more leaves than parameters in the chain is not modelled
(it fills with NaN); it does not occur. -/
def DT.shrink (s : DT) (offset location : ℕ) : Option (DT × Bool) :=
  if s.ncomp < 1 ∨ s.minComp.elim false (fun m => decide (s.ncomp ≤ m)) = true then some (s, false) else
  (findLeaf s.tree location).bind fun q =>
  if q.1 = [] then some (s, false) else
  let tree := modifyAt prune q.1.dropLast s.tree
  if s.npchain < countLeaf tree then none else
  let n := s.npchain - countLeaf tree
  (deletePars s.params (min (location + n) s.npchain) n offset).map fun p =>
    ({ s with
        tree := tree, npbase := s.npbase - n, npchain := s.npchain - n, params := p
        ncomp := countBranch tree }, true)

/-- The new split or mask of a branch in `vary`, 883-905: `none` for `rng` gives the split of the
caller; else the random numbers: the mean of some draws, one draw, and an integer. `nsplit` is 3. -/
def varyNode (kdim itype : ℕ) (split : ℝ) (rng : Option (ℝ × ℝ × ℕ)) : Tree → Tree
  | .leaf m => .leaf m
  | .branch _ sp mk l r =>
      match rng with
      | none => if itype = 0 then .branch kdim (some split) mk l r
          else .branch kdim sp (some (newMask itype split)) l r
      | some (mean, u, k) =>
          if itype = 0 then
            .branch kdim (some (sp.elim mean fun s => (3 * s + u) / (3 + 1))) mk l r
          else if itype = 1 then
            .branch kdim sp (some (mk.elim (k % 2 + 1) fun m => if m = 1 then 2 else 1)) l r
          else
            .branch kdim sp (some (mk.elim (k % 2 ^ itype + 1)
              fun m => m ^^^ 2 ^ (k % itype))) l r

/-- `vary` 852-911, with the location and the dimension chosen. -/
def DT.vary (s : DT) (location kdim : ℕ) (split : ℝ) (rng : Option (ℝ × ℝ × ℕ)) :
    Option (DT × Bool) :=
  if s.ncomp < 1 then some (s, false) else
  (findBranch s.tree location).bind fun q =>
  (getItem s.itypes kdim).map fun itype =>
    ({ s with tree := modifyAt (varyNode kdim itype split rng) q.1 s.tree }, true)

/-- `check` 647-680. -/
def check (itypes : List ℕ) (t : Tree) : Prop :=
  ∀ q ∈ walk t, match q.2 with
    | .leaf _ => True
    | .branch dim (some sp) _ _ _ => ∃ tp, getItem itypes dim = some tp ∧ tp = 0 ∧ 0 < sp ∧ sp < 1
    | .branch dim none (some mk) _ _ =>
        ∃ tp, getItem itypes dim = some tp ∧ 0 < tp ∧ 0 < mk ∧ mk < 2 ^ (tp + 1)
    | .branch _ none none _ _ => False

/-- One random action of the engines: the integers and numbers drawn in `grow` 753-757 and 786-788,
in `shrink` 818-819 and in `vary` 875-903. -/
inductive Act
  | grow (loc kdim : ℕ) (split : ℝ) (value : ℕ → ℝ)
  | shrink (loc : ℕ)
  | vary (loc kdim : ℕ) (rng : ℝ × ℝ × ℕ)

/-- One action on a tree of `ndim` inputs that is a model by itself. `rng.randint( n )` is the drawn
integer modulo n. -/
def Act.run (ndim : ℕ) (s : DT) : Act → Option DT
  | .grow loc kdim split v => (s.grow 0 (loc % s.npbase) (kdim % ndim) split v).map Prod.fst
  | .shrink loc => (s.shrink 0 (loc % s.npbase)).map Prod.fst
  | .vary loc kdim rng => (s.vary (loc % s.ncomp) (kdim % ndim) (1 / 2) (some rng)).map Prod.fst

/-- A history of actions. -/
def runAll (ndim : ℕ) : DT → List Act → Option DT
  | s, [] => some s
  | s, a :: as => (a.run ndim s).bind fun s' => runAll ndim s' as

/-! ## Copies and codes -/

/-- `copy` 216-236, of the structure: the mask is not copied when there is a split. -/
def copy : Tree → Tree
  | .leaf _ => .leaf none
  | .branch dim (some s) _ l r => .branch dim (some s) none (copy l) (copy r)
  | .branch dim none m l r => .branch dim none m (copy l) (copy r)

/-- The first item of a code: 1, 2 or a pair. -/
inductive Code
  | one
  | two
  | pair (a b : Code)
deriving DecidableEq

/-- A split, which is a float, or a mask, which is an int. -/
inductive Cut
  | split (s : ℝ)
  | mask (m : ℕ)

/-- `sm` in 537. `none` when both are None. -/
def cutOf : Option ℝ → Option ℕ → Option Cut
  | some s, _ => some (.split s)
  | none, some m => some (.mask m)
  | none, none => none

/-- `encode` 524-554. A branch without a split and without a mask is not coded. -/
def encode : Tree → Option (Code × List ℕ × List Cut)
  | .leaf _ => some (.one, [], [])
  | .branch dim split mask l r =>
      (cutOf split mask).bind fun sm =>
      if l.isLeaf && r.isLeaf then some (.two, [dim], [sm]) else
      if l.isLeaf then (encode r).map fun c => (.pair .one c.1, dim :: c.2.1, sm :: c.2.2) else
      if r.isLeaf then (encode l).map fun c => (.pair c.1 .one, dim :: c.2.1, sm :: c.2.2) else
      (encode l).bind fun c => (encode r).map fun e =>
        (.pair c.1 e.1, dim :: (c.2.1 ++ e.2.1), sm :: (c.2.2 ++ e.2.2))

/-- Setting a split or a mask by name, 581-582. -/
def putCut (dim : ℕ) (l r : Tree) : Cut → Tree
  | .split s => .branch dim (some s) none l r
  | .mask m => .branch dim none (some m) l r

/-- `decode` 556-602, on a fresh leaf. The returned number is that of the last branch; a code 1 for the
whole tree returns -1, here 0; it is not used. `none` is an IndexError. -/
def decode : Code → List ℕ → List Cut → ℕ → Option (Tree × ℕ)
  | .one, _, _, kbr => some (.leaf none, kbr - 1)
  | .two, kdim, splim, kbr =>
      (kdim[kbr]?).bind fun dim => (splim[kbr]?).map fun sm =>
        (putCut dim (.leaf none) (.leaf none) sm, kbr)
  | .pair a b, kdim, splim, kbr =>
      (kdim[kbr]?).bind fun dim => (splim[kbr]?).bind fun sm =>
      (decode a kdim splim (kbr + 1)).bind fun q =>
      (decode b kdim splim (q.2 + 1)).map fun q' =>
        (putCut dim q.1 q'.1 sm, q'.2)

/-- `DecisionTreeModel( code=code, kdim=kdim, split=split )` 112-213: the numbers of parameters and
components are those of one leaf (145, 190), and the tree is the decoded one (212-213). -/
def DT.ofCode (itypes : List ℕ) (code : Code) (kdim : List ℕ) (splim : List Cut) : Option DT :=
  (decode code kdim splim 0).map fun q => { DT.init itypes with tree := q.1 }

/-- `DecisionTreeModel( depth=depth, kdim=kdim, split=split, itypes=itypes )`, 150-177, for lists of
dimensions and splits. `none` is an IndexError of `kdim[0]` or `split[0]`. -/
def build (itypes : List ℕ) : ℕ → List ℕ → List ℝ → Option Tree
  | 0, _, _ => some (.leaf none)
  | d + 1, kdim, split =>
      (kdim[0]?).bind fun dim => (getItem itypes dim).bind fun itype => (split[0]?).bind fun sp =>
      (build itypes d kdim.tail split.tail).bind fun l =>
      (build itypes d (kdim.tail.drop (2 ^ d - 1)) (split.tail.drop (2 ^ d - 1))).map fun r =>
        if itype = 0 then .branch dim (some sp) none l r
        else .branch dim none (some (newMask itype sp)) l r

end

end BF.Tree
