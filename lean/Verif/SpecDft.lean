import Verif.SpecFFT
import Verif.Spec

/-!
# What the distributed transforms should compute

The three dimensional discrete Fourier transform of values on the indexes of a box, independent of the model.
-/

namespace Verif
open Finset

/-- The number of indexes in a direction. -/
def Box.extent (w : Box) (d : Fin 3) : Nat := (w.high.get d - w.low.get d + 1).toNat

/-- The position of an index in a direction, counted from the lower bound. -/
def Box.rel (w : Box) (p : A3 Int) (d : Fin 3) : Nat := (p.get d - w.low.get d).toNat

/-- `exp(± 2 π i (a b / n₀ + a' b' / n₁ + a'' b'' / n₂))`. -/
noncomputable def wave (fwd : Bool) (w : Box) (q p : A3 Int) : ℂ := ∏ d : Fin 3, root fwd (w.extent d) (w.rel q d * w.rel p d)

/-- The three dimensional discrete Fourier transform over the indexes of `w`, without scaling. -/
noncomputable def dft3 (fwd : Bool) (w : Box) (G : A3 Int → ℂ) (p : A3 Int) : ℂ := ∑ q ∈ w.points, G q * wave fwd w q p

/-- The index with the negative frequencies. -/
def mirror (w : Box) (q : A3 Int) : A3 Int := A3.of fun d => w.low.get d + ((w.extent d - w.rel q d) % w.extent d : Nat)

/-- The spectrum on `w` whose lower half in the direction `d` is given: the other entries are conjugates of these. -/
noncomputable def fullSpectrum3 (w : Box) (d : Fin 3) (H : A3 Int → ℂ) (q : A3 Int) : ℂ :=
  if w.rel q d ≤ w.extent d / 2 then H q else starRingEnd ℂ (H (mirror w q))

/-- The backward transform to real data from the lower half of the spectrum. -/
noncomputable def c2r3 (w : Box) (d : Fin 3) (H : A3 Int → ℂ) (p : A3 Int) : ℝ := (dft3 false w (fullSpectrum3 w d H) p).re

end Verif
