import Verif.SpecLaws
import Verif.SpecR2R

/-!
# Laws between the arrays of several sine and cosine transforms

The entries of the real arrays of the ranks, the index seen from the other end of the world, and alternating signs. The laws in
`Props/TrigLaws.lean` are equations between such entries of the input and the output of several calls.
-/

namespace Verif

/-- The entry of the index `p` in the array `j` of the batch: the rank `r` has the index in its box and the array `x`, where the entry is at the
position of `p` in the layout of the box. -/
def RealAt (boxes : List Box) (data : List (Data ℝ Unit)) (j : Nat) (p : A3 Int) (v : ℝ) : Prop :=
  ∃ (r : Nat) (b : Box) (x : Data ℝ Unit), boxes[r]? = some b ∧ data[r]? = some x ∧ p ∈ b ∧ x.rd (j * b.points.card + b.offset p) = some (.inl v)

/-- The index counted from the other end in all three directions. -/
def fromEnd (w : Box) (p : A3 Int) : A3 Int := A3.of fun d => w.low.get d + w.high.get d - p.get d

/-- `(-1)^(i + j + k)`, where `i`, `j`, `k` are the distances of `p` from the first index. -/
def alternating (w : Box) (p : A3 Int) : ℝ := ∏ d : Fin 3, (-1 : ℝ) ^ w.rel p d

end Verif
