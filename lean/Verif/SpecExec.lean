import Verif.SpecMem

/-!
# Specification of one dimensional transforms on the values of a box
-/

namespace Verif
variable {α β : Type}

/-- The values of the line through `p` in the direction `d`, from the lower to the upper bound of the box. -/
def lineOf (b : Box) (d : Fin 3) (G : A3 Int → α) (p : A3 Int) : List α :=
  (List.range (b.high d - b.low d + 1).toNat).map fun (i : Nat) => G (p.set d (b.low d + i))

/-- Transform every line in the direction `d`; `t v k` is the entry `k` of the transform of the line `v`. -/
def along (b : Box) (d : Fin 3) (t : List α → Nat → β) (G : A3 Int → α) (p : A3 Int) : β :=
  t (lineOf b d G p) (p d - b.low d).toNat

end Verif
