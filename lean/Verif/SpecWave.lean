import Verif.SpecR2R

/-!
# What the sine and cosine transforms of FFTW compute

The documentation of `rtransform` (heffte_fft3d.h:737-747) names the kinds of FFTW; their definitions are the ones of the FFTW manual.
-/

namespace Verif
open Finset

/-- `RODFT00`, the DST-I: `Y_k = 2 ∑ X_j sin(π (j + 1) (k + 1) / (n + 1))`. -/
noncomputable def rodft00 (n : Nat) (x : Nat → ℝ) (k : Nat) : ℝ :=
  2 * ∑ j ∈ range n, x j * Real.sin (Real.pi * (j + 1) * (k + 1) / (n + 1))

/-- The four transforms. -/
inductive Wave where
  | cos
  | sin
  | cos1
  | sin1

/-- Entry `k` of the one dimensional transform of `x 0, …, x (n - 1)`: the kinds of the table, and the type I transforms, which are their
own inverses up to a factor. -/
noncomputable def waveOf (z : Wave) (fwd : Bool) (n : Nat) (x : Nat → ℝ) (k : Nat) : ℝ :=
  match z, fwd with
  | .cos, true => redft10 n x k
  | .cos, false => redft01 n x k
  | .sin, true => rodft10 n x k
  | .sin, false => rodft01 n x k
  | .cos1, _ => redft00 n x k
  | .sin1, _ => rodft00 n x k

/-- Entry `k` of the one dimensional transform of the vector `v`. -/
noncomputable def waves (z : Wave) (fwd : Bool) (v : List ℝ) (k : Nat) : ℝ := waveOf z fwd v.length (fun j => v.getD j 0) k

/-- The transform of the vector of length `n` with a one at `j`. -/
noncomputable def waveWeight (z : Wave) (fwd : Bool) (n j k : Nat) : ℝ := waveOf z fwd n (fun i => if i = j then 1 else 0) k

/-- The three dimensional transform over the indexes of `w`, without scaling. -/
noncomputable def wave3 (z : Wave) (fwd : Bool) (w : Box) (G : A3 Int → ℝ) (p : A3 Int) : ℝ :=
  ∑ q ∈ w.points, G q * ∏ d : Fin 3, waveWeight z fwd (w.extent d) (w.rel q d) (w.rel p d)

/-- The lengths for which the transform is defined. -/
def Wave.least : Wave → Nat
  | .cos1 => 2
  | _ => 1

/-- The factor of a forward transform followed by a backward transform in one direction. -/
def Wave.gain (z : Wave) (n : Nat) : Nat :=
  match z with
  | .cos => 2 * n
  | .sin => 2 * n
  | .cos1 => 2 * (n - 1)
  | .sin1 => 2 * (n + 1)

/-- The same in three dimensions. -/
def Wave.gain3 (z : Wave) (w : Box) : Nat := z.gain (w.extent 0) * z.gain (w.extent 1) * z.gain (w.extent 2)

end Verif
