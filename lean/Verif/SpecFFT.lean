import Mathlib.Analysis.SpecialFunctions.Complex.Circle

/-!
# What the transforms should compute

Independent of the model: the discrete Fourier transform over the complex numbers.
-/

namespace Verif
open Finset

/-- The sign of the exponent: the forward transform has the negative exponent. -/
def sgn (fwd : Bool) : ℂ := if fwd then -1 else 1

/-- `exp(± 2 π i m / N)`. -/
noncomputable def root (fwd : Bool) (N m : Nat) : ℂ := Complex.exp (sgn fwd * (2 * Real.pi * Complex.I * m / N))

/-- The entry `k` of the discrete Fourier transform of the vector `v`, without scaling. -/
noncomputable def dft (fwd : Bool) (v : List ℂ) (k : Nat) : ℂ := ∑ n ∈ range v.length, v.getD n 0 * root fwd v.length (n * k)

/-- The entry `k` of the forward transform of real data. -/
noncomputable def r2c (v : List ℝ) (k : Nat) : ℂ := dft true (v.map Complex.ofReal) k

/-- Entry `k < N` of the spectrum of length `N` whose entries `0, …, N / 2` are given: the others are conjugates of these. -/
noncomputable def fullSpectrum (N : Nat) (v : List ℂ) (k : Nat) : ℂ :=
  if k ≤ N / 2 then v.getD k 0 else starRingEnd ℂ (v.getD (N - k) 0)

/-- Entry `j` of the backward transform of length `N` to real data, from the entries `0, …, N / 2` of the spectrum. -/
noncomputable def c2r (N : Nat) (v : List ℂ) (j : Nat) : ℝ :=
  (∑ k ∈ range N, fullSpectrum N v k * root false N (k * j)).re

end Verif
