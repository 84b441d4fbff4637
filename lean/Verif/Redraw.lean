import Verif.Orders

/-!
# Drawing another place

Models the loops of `MoveEngine.py` and `SwitchEngine.py` in which a destination is drawn until it differs from the
source, with the calls they are part of. In `Verif.Orders` they are replaced by their outcome.

`ds` are the successive raw draws of the loop; `rng.randint( n )` is the draw modulo `n`.
-/

namespace BF
namespace Orders

variable {α β : Type*}

/-- `MoveEngine.py` 86-88 and `SwitchEngine.py` 103-105: draw until it is another one. `none`: the draws are used and
the loop is still running. -/
def another (np src : ℕ) : List ℕ → Option ℕ
  | [] => none
  | r :: rs =>
      let des := r % np
      if des = src then another np src rs else some des

section
variable [LinearOrder β]

/-- `SwitchEngine.py` 79-127 with the draws of the loop. `none`: `randint( 0 )` raises, or the loop is still running. -/
def switchDrawn (L : List α → β) (low : β) (param : List α) (first : ℕ) (ds : List ℕ) : Option (Outcome α β) :=
  let np := param.length
  if np = 0 then none
  else
    let src := first % np
    (another np src ds).map fun des =>
      let ptry := switchTry param src des
      if low ≤ L ptry then .accept 2 ptry (L ptry) else .reject 0

/-- `MoveEngine.py` 79-128 with the draws of the loop. The geometric number and the later ones are `draw 2`, `draw 3`
and so on. -/
def moveDrawn (L : List α → β) (low : β) (param : List α) (first : ℕ) (ds : List ℕ) (draw : ℕ → ℕ) :
    Option (Outcome α β) :=
  let np := param.length
  if np = 0 then none
  else
    let src := first % np
    (another np src ds).map fun des =>
      let mx := if src < des then des - src else np - src
      moveLoop L low param src des draw (min (1 + draw 2) mx) 3

end

end Orders
end BF
