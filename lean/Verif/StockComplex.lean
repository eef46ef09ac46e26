import Verif.FFTTree
import Verif.SpecFFT
import Mathlib.RingTheory.RootsOfUnity.Complex

namespace Verif.Stock
open Finset Complex

/-- The constants of the code: `omega::get` (heffte_stock_algos.h:34-40, `direction_sign` 21-23), the imaginary unit, `plus120`
and `minus120` (heffte_stock_algos.h:444-445). -/
noncomputable def complexTw : Tw ℂ where
  om dir power N :=
    let a : ℝ := 2 * Real.pi * power / N
    ⟨Real.cos a, (if dir then -1 else 1) * Real.sin a⟩
  i := ⟨0, 1⟩
  plus120 := ⟨-0.5, -Real.sqrt 3 / 2⟩
  minus120 := ⟨-0.5, Real.sqrt 3 / 2⟩

theorem om_eq_root (d : Bool) (m N : Nat) : complexTw.om d m N = root d N m := by
  unfold root sgn complexTw
  dsimp only
  have h : ∀ s : ℝ, (s = 1 ∨ s = -1) → (⟨Real.cos (2 * Real.pi * m / N), s * Real.sin (2 * Real.pi * m / N)⟩ : ℂ) =
      Complex.exp ((s : ℂ) * (2 * Real.pi * I * m / N)) := by
    intro s hs
    have harg : (s : ℂ) * (2 * Real.pi * I * m / N) = ((s * (2 * Real.pi * m / N) : ℝ) : ℂ) * I := by
      push_cast; ring
    rw [harg, exp_mul_I, ← ofReal_cos, ← ofReal_sin]
    generalize (2 * Real.pi * m / N : ℝ) = t
    rcases hs with rfl | rfl
    · apply Complex.ext <;> simp [cos_ofReal_re, sin_ofReal_re]
    · apply Complex.ext <;> simp [cos_ofReal_re, sin_ofReal_re]
  cases d
  · simpa using h 1 (Or.inl rfl)
  · simpa using h (-1) (Or.inr rfl)

theorem root_pow (d : Bool) (N m k : Nat) : root d N m ^ k = root d N (m * k) := by
  unfold root
  rw [← Complex.exp_nat_mul]
  congr 1
  push_cast; ring

theorem root_scale (d : Bool) {c : Nat} (hc : 0 < c) (N m : Nat) : root d (c * N) (c * m) = root d N m := by
  unfold root
  congr 2
  have : (c : ℂ) ≠ 0 := Nat.cast_ne_zero.2 (by omega)
  push_cast
  rw [show 2 * (Real.pi : ℂ) * I * (c * m) = c * (2 * Real.pi * I * m) by ring, mul_div_mul_left _ _ this]

theorem root_prim (d : Bool) {N : Nat} (hN : 0 < N) : IsPrimitiveRoot (root d N 1) N := by
  have h := Complex.isPrimitiveRoot_exp N (by omega)
  cases d with
  | false =>
    have e : root false N 1 = exp (2 * Real.pi * I / N) := by
      unfold root sgn; congr 1; simp
    rw [e]; exact h
  | true =>
    have e : root true N 1 = (exp (2 * Real.pi * I / N))⁻¹ := by
      unfold root sgn; rw [← Complex.exp_neg]; congr 1; simp
    rw [e]; exact h.inv

theorem root_rev (d : Bool) (N m : Nat) : root d N m * root (!d) N m = 1 := by
  unfold root sgn
  rw [← Complex.exp_add]
  cases d <;> simp

theorem complexTw_ok : complexTw.OK where
  pow d m N := by rw [om_eq_root, om_eq_root, root_pow, one_mul]
  sub d m n hm _ := by
    rw [om_eq_root, om_eq_root, root_pow, one_mul]
    have := root_scale d hm n 1
    rwa [mul_one] at this
  prim d N hN := by rw [om_eq_root]; exact root_prim d hN
  rev d N _ := by rw [om_eq_root, om_eq_root, root_rev]
  four_fwd := by
    unfold complexTw
    have : (2 * Real.pi * (1 : Nat) / (4 : Nat) : ℝ) = Real.pi / 2 := by push_cast; ring
    apply Complex.ext <;> simp only [this] <;> simp
  four_bwd := by
    unfold complexTw
    have : (2 * Real.pi * (1 : Nat) / (4 : Nat) : ℝ) = Real.pi / 2 := by push_cast; ring
    apply Complex.ext <;> simp only [this] <;> simp
  three_fwd := by
    unfold complexTw
    have : (2 * Real.pi * (1 : Nat) / (3 : Nat) : ℝ) = Real.pi - Real.pi / 3 := by push_cast; ring
    apply Complex.ext <;> simp only [this, Real.cos_pi_sub, Real.sin_pi_sub, Real.cos_pi_div_three, Real.sin_pi_div_three] <;> norm_num
    ring
  three_bwd := by
    unfold complexTw
    have : (2 * Real.pi * (1 : Nat) / (3 : Nat) : ℝ) = Real.pi - Real.pi / 3 := by push_cast; ring
    apply Complex.ext <;> simp only [this, Real.cos_pi_sub, Real.sin_pi_sub, Real.cos_pi_div_three, Real.sin_pi_div_three] <;> norm_num

end Verif.Stock
