import Verif.Spec

/-!
# Distributions that form a grid of processes
-/

namespace Verif

/-- The interval of a box in the direction `d`. -/
def interval (b : Box) (d : Fin 3) : Int × Int := (b.low.get d, b.high.get d)

/-- The boxes form a grid of `g 0 × g 1 × g 2` processes: every direction is cut into intervals that have indexes and no index in common, every combination
of three intervals is the box of some rank, and there are no other boxes but those of ranks without indexes, which have the interval from 0 to -1. -/
def FormsGrid (shape : List Box) (g : A3 Nat) : Prop :=
  (∀ d, 0 < g.get d) ∧ ∃ cuts : Fin 3 → List (Int × Int),
    (∀ d, (cuts d).length = g.get d ∧ (cuts d).Pairwise (fun r s => r.2 < s.1 ∨ s.2 < r.1) ∧ ∀ r ∈ cuts d, r.1 ≤ r.2) ∧
    (∀ b ∈ shape, ∀ d, interval b d = (0, -1) ∨ interval b d ∈ cuts d) ∧
    ∀ r0 ∈ cuts 0, ∀ r1 ∈ cuts 1, ∀ r2 ∈ cuts 2, ∃ b ∈ shape, interval b 0 = r0 ∧ interval b 1 = r1 ∧ interval b 2 = r2

end Verif
