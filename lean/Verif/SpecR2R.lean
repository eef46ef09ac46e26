import Verif.SpecDft

/-!
# What the sine and cosine transforms should compute

The definitions are the ones of the FFTW manual ("1d Real-even DFTs (DCTs)", "1d Real-odd DFTs (DSTs)"), independent of the model.
The backward transforms of the library are twice the FFTW transform of the inverse kind.
-/

namespace Verif
open Finset

/-- `REDFT10`, the DCT-II: `Y_k = 2 ∑ X_j cos(π (j + 1/2) k / n)`. -/
noncomputable def redft10 (n : Nat) (x : Nat → ℝ) (k : Nat) : ℝ := 2 * ∑ j ∈ range n, x j * Real.cos (Real.pi * (j + 1 / 2) * k / n)

/-- `REDFT01`, the DCT-III: `Y_k = X_0 + 2 ∑_{j ≥ 1} X_j cos(π j (k + 1/2) / n)`. -/
noncomputable def redft01 (n : Nat) (x : Nat → ℝ) (k : Nat) : ℝ :=
  x 0 + 2 * ∑ j ∈ range (n - 1), x (j + 1) * Real.cos (Real.pi * (j + 1) * (k + 1 / 2) / n)

/-- `RODFT10`, the DST-II: `Y_k = 2 ∑ X_j sin(π (j + 1/2) (k + 1) / n)`. -/
noncomputable def rodft10 (n : Nat) (x : Nat → ℝ) (k : Nat) : ℝ := 2 * ∑ j ∈ range n, x j * Real.sin (Real.pi * (j + 1 / 2) * (k + 1) / n)

/-- `RODFT01`, the DST-III: `Y_k = (-1)^k X_{n-1} + 2 ∑_{j < n-1} X_j sin(π (j + 1) (k + 1/2) / n)`. -/
noncomputable def rodft01 (n : Nat) (x : Nat → ℝ) (k : Nat) : ℝ :=
  (-1) ^ k * x (n - 1) + 2 * ∑ j ∈ range (n - 1), x j * Real.sin (Real.pi * (j + 1) * (k + 1 / 2) / n)

/-- `REDFT00`, the DCT-I: `Y_k = X_0 + (-1)^k X_{n-1} + 2 ∑_{0 < j < n-1} X_j cos(π j k / (n - 1))`. -/
noncomputable def redft00 (n : Nat) (x : Nat → ℝ) (k : Nat) : ℝ :=
  x 0 + (-1) ^ k * x (n - 1) + 2 * ∑ j ∈ range (n - 2), x (j + 1) * Real.cos (Real.pi * (j + 1) * k / (n - 1 : Nat))

/-- Entry `k` of the one dimensional transform of `x 0, …, x (n - 1)`. -/
noncomputable def trigOf (z : Trig) (fwd : Bool) (n : Nat) (x : Nat → ℝ) (k : Nat) : ℝ :=
  match z, fwd with
  | .cos, true => redft10 n x k
  | .cos, false => 2 * redft01 n x k
  | .sin, true => rodft10 n x k
  | .sin, false => 2 * rodft01 n x k
  | .cos1, true => redft00 n x k
  | .cos1, false => 2 * redft00 n x k

/-- Entry `k` of the one dimensional transform of the vector `v`. -/
noncomputable def trig (z : Trig) (fwd : Bool) (v : List ℝ) (k : Nat) : ℝ := trigOf z fwd v.length (fun j => v.getD j 0) k

/-- The weight of entry `j` in entry `k`: the transform of the vector of length `n` with a one at `j`. -/
noncomputable def weight (z : Trig) (fwd : Bool) (n j k : Nat) : ℝ := trigOf z fwd n (fun i => if i = j then 1 else 0) k

/-- The three dimensional transform over the indexes of `w`, without scaling. -/
noncomputable def trig3 (z : Trig) (fwd : Bool) (w : Box) (G : A3 Int → ℝ) (p : A3 Int) : ℝ :=
  ∑ q ∈ w.points, G q * ∏ d : Fin 3, weight z fwd (w.extent d) (w.rel q d) (w.rel p d)

/-- The lengths for which the transform is defined. -/
def Trig.least : Trig → Nat
  | .cos => 1
  | .sin => 1
  | .cos1 => 2

/-- The factor of a forward transform followed by a backward transform, `4 n` or `4 (n - 1)`. -/
def Trig.gain (z : Trig) (n : Nat) : Nat :=
  match z with
  | .cos => 4 * n
  | .sin => 4 * n
  | .cos1 => 4 * (n - 1)

end Verif
