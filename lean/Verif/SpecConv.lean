import Verif.SpecDft

/-!
# What programs with a transform, work on the spectrum and a transform back should compute

The convolution over the indexes of a box, periodic in all three directions, independent of the model.
-/

namespace Verif
open Finset

/-- The index at the position of `p` minus the one of `q`, counted from the lower corner and periodic. -/
def difference (w : Box) (p q : A3 Int) : A3 Int := A3.of fun d => w.low.get d + (p.get d - q.get d) % (w.extent d : Int)

/-- The periodic convolution of values on the indexes of `w`. -/
def conv3 {R : Type} [CommSemiring R] (w : Box) (x y : A3 Int → R) (p : A3 Int) : R := ∑ q ∈ w.points, x q * y (difference w p q)

/-- The sum of the squares of the absolute values on the indexes of `w`. -/
noncomputable def energy3 (w : Box) (x : A3 Int → ℂ) : ℝ := ∑ q ∈ w.points, Complex.normSq (x q)

end Verif
