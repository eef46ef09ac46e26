import Verif.Rounding
import Verif.Graded
import Verif.StockComplex

namespace Verif.Stock
open Finset

/-! ## The error of single operations -/

theorem norm_le_of_parts {z w : ℂ} {c : ℝ} (hc : 0 ≤ c) (h1 : |z.re| ≤ c * |w.re|) (h2 : |z.im| ≤ c * |w.im|) : ‖z‖ ≤ c * ‖w‖ := by
  rw [Complex.norm_def, Complex.norm_def, ← Real.sqrt_sq hc, ← Real.sqrt_mul (sq_nonneg c)]
  refine Real.sqrt_le_sqrt ?_
  rw [Complex.normSq_apply, Complex.normSq_apply]
  have e1 : z.re * z.re ≤ (c * |w.re|) * (c * |w.re|) := by
    rw [← abs_mul_abs_self z.re]
    exact mul_self_le_mul_self (abs_nonneg _) h1
  have e2 : z.im * z.im ≤ (c * |w.im|) * (c * |w.im|) := by
    rw [← abs_mul_abs_self z.im]
    exact mul_self_le_mul_self (abs_nonneg _) h2
  have a1 := abs_mul_abs_self w.re
  have a2 := abs_mul_abs_self w.im
  nlinarith

theorem norm_le_of_abs {z : ℂ} {c : ℝ} (hc : 0 ≤ c) (h1 : |z.re| ≤ c) (h2 : |z.im| ≤ c) : ‖z‖ ≤ Real.sqrt 2 * c := by
  rw [Complex.norm_def, ← Real.sqrt_sq hc, ← Real.sqrt_mul (by norm_num)]
  refine Real.sqrt_le_sqrt ?_
  rw [Complex.normSq_apply]
  have e1 : z.re * z.re ≤ c * c := by
    rw [← abs_mul_abs_self z.re]
    exact mul_self_le_mul_self (abs_nonneg _) h1
  have e2 : z.im * z.im ≤ c * c := by
    rw [← abs_mul_abs_self z.im]
    exact mul_self_le_mul_self (abs_nonneg _) h2
  nlinarith

theorem sqrt_two_le : Real.sqrt 2 ≤ 3 / 2 := by
  rw [Real.sqrt_le_left (by norm_num)]
  norm_num

variable {A : Arith}

theorem Arith.rnd_abs (A : Arith) (x : ℝ) : |A.rnd x| ≤ (1 + A.u) * |x| := by
  have h := A.rnd_err x
  have := abs_add_le (A.rnd x - x) x
  rw [sub_add_cancel] at this
  linarith

theorem val_add (x y : Flt A) : ‖(x + y).val - (x.val + y.val)‖ ≤ A.u * ‖x.val + y.val‖ :=
  norm_le_of_parts A.u_nonneg (A.rnd_err _) (A.rnd_err _)

theorem val_sub (x y : Flt A) : ‖(x - y).val - (x.val - y.val)‖ ≤ A.u * ‖x.val - y.val‖ :=
  norm_le_of_parts A.u_nonneg (A.rnd_err _) (A.rnd_err _)

theorem val_neg (x : Flt A) : (- x).val = - x.val := rfl

theorem dot_err (A : Arith) {s : ℝ} (hs : |s| = 1) (a b c d : ℝ) :
    |Flt.dot A s a b c d - (a * b + s * (c * d))| ≤ ((1 + A.u) ^ 2 - 1) * (|a * b| + |c * d|) := by
  have hu := A.u_nonneg
  -- one sum of two numbers that are near to the products
  have key : ∀ p q : ℝ, |p - a * b| ≤ A.u * |a * b| → |q - c * d| ≤ A.u * |c * d| →
      |A.rnd (p + s * q) - (a * b + s * (c * d))| ≤ ((1 + A.u) ^ 2 - 1) * (|a * b| + |c * d|) := by
    intro p q hp hq
    have h1 := A.rnd_err (p + s * q)
    have h2 : |p + s * q| ≤ (1 + A.u) * (|a * b| + |c * d|) := by
      have e1 : |p| ≤ (1 + A.u) * |a * b| := by
        have := abs_add_le (p - a * b) (a * b); rw [sub_add_cancel] at this; linarith
      have e2 : |q| ≤ (1 + A.u) * |c * d| := by
        have := abs_add_le (q - c * d) (c * d); rw [sub_add_cancel] at this; linarith
      have := abs_add_le p (s * q)
      rw [abs_mul, hs, one_mul] at this
      linarith
    have h3 : |(p + s * q) - (a * b + s * (c * d))| ≤ A.u * (|a * b| + |c * d|) := by
      have e : (p + s * q) - (a * b + s * (c * d)) = (p - a * b) + s * (q - c * d) := by ring
      rw [e]
      have := abs_add_le (p - a * b) (s * (q - c * d))
      rw [abs_mul, hs, one_mul] at this
      linarith
    have h4 := abs_sub_le (A.rnd (p + s * q)) (p + s * q) (a * b + s * (c * d))
    have h5 : A.u * |p + s * q| ≤ A.u * ((1 + A.u) * (|a * b| + |c * d|)) := mul_le_mul_of_nonneg_left h2 hu
    nlinarith
  have hz : ∀ x : ℝ, |x - x| ≤ A.u * |x| := fun x => by rw [sub_self, abs_zero]; positivity
  unfold Flt.dot
  cases A.fused with
  | none => exact key _ _ (A.rnd_err _) (A.rnd_err _)
  | some b =>
    cases b with
    | true => exact key _ _ (hz _) (A.rnd_err _)
    | false => exact key _ _ (A.rnd_err _) (hz _)

/-- The inequality of Cauchy and Schwarz for two numbers. -/
theorem cauchy_two (a b c d : ℝ) : |a| * |c| + |b| * |d| ≤ Real.sqrt (a * a + b * b) * Real.sqrt (c * c + d * d) := by
  rw [← Real.sqrt_mul (add_nonneg (mul_self_nonneg a) (mul_self_nonneg b))]
  refine Real.le_sqrt_of_sq_le ?_
  have h1 := abs_mul_abs_self a
  have h2 := abs_mul_abs_self b
  have h3 := abs_mul_abs_self c
  have h4 := abs_mul_abs_self d
  rw [← h1, ← h2, ← h3, ← h4]
  nlinarith [sq_nonneg (|a| * |d| - |b| * |c|)]

theorem val_mul (x y : Flt A) : ‖(x * y).val - x.val * y.val‖ ≤ ((1 + A.u) ^ 3 - 1) * (‖x.val‖ * ‖y.val‖) := by
  have hu := A.u_nonneg
  set a := x.val.re
  set b := x.val.im
  set c := y.val.re
  set d := y.val.im
  have hx : ‖x.val‖ = Real.sqrt (a * a + b * b) := by rw [Complex.norm_def, Complex.normSq_apply]
  have hy : ‖y.val‖ = Real.sqrt (c * c + d * d) := by rw [Complex.norm_def, Complex.normSq_apply]
  have e0 : 0 ≤ (1 + A.u) ^ 2 - 1 := by nlinarith
  have hre : |((x * y).val - x.val * y.val).re| ≤ ((1 + A.u) ^ 2 - 1) * (‖x.val‖ * ‖y.val‖) := by
    have h := dot_err A (s := -1) (by norm_num) a c b d
    have e : ((x * y).val - x.val * y.val).re = Flt.dot A (-1) a c b d - (a * c + -1 * (b * d)) := by
      rw [Complex.sub_re, Complex.mul_re]
      change Flt.dot A (-1) a c b d - _ = _
      ring
    rw [e]
    refine h.trans (mul_le_mul_of_nonneg_left ?_ e0)
    rw [hx, hy, abs_mul, abs_mul]
    exact cauchy_two a b c d
  have him : |((x * y).val - x.val * y.val).im| ≤ ((1 + A.u) ^ 2 - 1) * (‖x.val‖ * ‖y.val‖) := by
    have h := dot_err A (s := 1) (by norm_num) a d b c
    have e : ((x * y).val - x.val * y.val).im = Flt.dot A 1 a d b c - (a * d + 1 * (b * c)) := by
      rw [Complex.sub_im, Complex.mul_im]
      change Flt.dot A 1 a d b c - _ = _
      ring
    rw [e]
    refine h.trans (mul_le_mul_of_nonneg_left ?_ e0)
    rw [hx, hy, abs_mul, abs_mul, add_comm (c * c)]
    exact cauchy_two a b d c
  refine (norm_le_of_abs (by positivity) hre him).trans ?_
  rw [← mul_assoc]
  refine mul_le_mul_of_nonneg_right ?_ (by positivity)
  have := mul_le_mul_of_nonneg_right sqrt_two_le e0
  refine this.trans ?_
  nlinarith [mul_nonneg hu hu, mul_nonneg hu (mul_nonneg hu hu)]

theorem Arith.rnd_nat (A : Arith) {n : Nat} (hn : 0 < n) : (1 - A.u) * n ≤ A.rnd n ∧ |A.rnd n - n| ≤ A.u * n := by
  have h := A.rnd_err n
  have hn' : (0 : ℝ) < n := by exact_mod_cast hn
  rw [abs_of_pos hn'] at h
  refine ⟨?_, h⟩
  have := (abs_le.1 h).1
  linarith

/-- `1 / (1 - u)` as a power of `e`. -/
theorem Arith.inv_le (A : Arith) : 1 / (1 - A.u) ≤ Real.exp (2 * A.u) := by
  have h0 := A.u_nonneg
  have h1 := A.u_le
  have h2 := Real.add_one_le_exp (2 * A.u)
  rw [div_le_iff₀ (by linarith)]
  nlinarith

theorem val_div (x : Flt A) {n : Nat} (hn : 0 < n) : ‖(x / (n : Flt A)).val - x.val / n‖ ≤ (Real.exp (3 * A.u) - 1) * (‖x.val‖ / n) := by
  have h0 := A.u_nonneg
  have h1 := A.u_le
  have hn' : (0 : ℝ) < n := by exact_mod_cast hn
  obtain ⟨r1, r2⟩ := A.rnd_nat hn
  have hr : 0 < A.rnd n := lt_of_lt_of_le (by nlinarith) r1
  have hval : ∀ t : ℝ, |A.rnd (t / A.rnd n) - t / n| ≤ (Real.exp (3 * A.u) - 1) / n * |t| := by
    intro t
    have e1 := A.rnd_err (t / A.rnd n)
    have e2 : |t / A.rnd n - t / n| ≤ A.u / A.rnd n * |t| := by
      have : t / A.rnd n - t / n = (n - A.rnd n) / n / A.rnd n * t := by field_simp
      rw [this, abs_mul]
      refine mul_le_mul_of_nonneg_right ?_ (abs_nonneg t)
      rw [abs_div, abs_div, abs_of_pos hr, abs_of_pos hn', abs_sub_comm]
      refine div_le_div_of_nonneg_right ?_ hr.le
      rw [div_le_iff₀ hn']
      exact r2
    have e3 : |t / A.rnd n| = 1 / A.rnd n * |t| := by rw [abs_div, abs_of_pos hr]; ring
    rw [e3] at e1
    have e4 : 1 / A.rnd n ≤ 1 / (1 - A.u) / n := by
      rw [div_div]
      exact one_div_le_one_div_of_le (by nlinarith) r1
    have e5 := A.inv_le
    have e6 := abs_sub_le (A.rnd (t / A.rnd n)) (t / A.rnd n) (t / n)
    have e7 : 2 * A.u * (1 / (1 - A.u)) ≤ Real.exp (3 * A.u) - 1 := by
      have : 2 * A.u * (1 / (1 - A.u)) = (1 + A.u) * (1 / (1 - A.u)) - 1 := by
        have : (1 - A.u) ≠ 0 := by linarith
        field_simp
        ring
      rw [this, show 3 * A.u = A.u + 2 * A.u by ring, Real.exp_add]
      have := Real.add_one_le_exp A.u
      have := mul_le_mul (show 1 + A.u ≤ Real.exp A.u by linarith) e5 (by apply div_nonneg <;> linarith) (Real.exp_pos _).le
      linarith
    calc |A.rnd (t / A.rnd n) - t / n| ≤ A.u * (1 / A.rnd n * |t|) + A.u / A.rnd n * |t| := by linarith
      _ = 2 * A.u * (1 / A.rnd n) * |t| := by ring
      _ ≤ 2 * A.u * (1 / (1 - A.u) / n) * |t| := by
        refine mul_le_mul_of_nonneg_right (mul_le_mul_of_nonneg_left e4 (by linarith)) (abs_nonneg t)
      _ = 2 * A.u * (1 / (1 - A.u)) / n * |t| := by ring
      _ ≤ (Real.exp (3 * A.u) - 1) / n * |t| := by
        refine mul_le_mul_of_nonneg_right (div_le_div_of_nonneg_right e7 hn'.le) (abs_nonneg t)
  have hc : 0 ≤ (Real.exp (3 * A.u) - 1) / n := by
    refine div_nonneg ?_ hn'.le
    have := Real.add_one_le_exp (3 * A.u)
    linarith
  have := norm_le_of_parts (z := (x / (n : Flt A)).val - x.val / n) (w := x.val) hc ?_ ?_
  · calc _ ≤ _ := this
      _ = _ := by ring
  · rw [Complex.sub_re, Complex.div_natCast_re]
    exact hval _
  · rw [Complex.sub_im, Complex.div_natCast_im]
    exact hval _

/-! ## The twiddle factors -/

/-- The relative distance after `k` roundings. -/
def Rel (A : Arith) (k x y : ℝ) : Prop := |x - y| ≤ (Real.exp (k * A.u) - 1) * |y|

theorem Rel.one {x y : ℝ} (h : |x - y| ≤ A.u * |y|) : Rel A 1 x y := by
  have := Real.add_one_le_exp (1 * A.u)
  exact h.trans (mul_le_mul_of_nonneg_right (by linarith) (abs_nonneg y))

theorem Rel.abs_le {k x y : ℝ} (h : Rel A k x y) : |x| ≤ Real.exp (k * A.u) * |y| := by
  have := abs_add_le (x - y) y
  rw [sub_add_cancel] at this
  have h' : |x - y| ≤ (Real.exp (k * A.u) - 1) * |y| := h
  linarith

theorem Rel.mul {j k a b c d : ℝ} (h1 : Rel A j a b) (h2 : Rel A k c d) : Rel A (j + k) (a * c) (b * d) := by
  have e : a * c - b * d = (a - b) * c + b * (c - d) := by ring
  have h1' : |a - b| ≤ (Real.exp (j * A.u) - 1) * |b| := h1
  have h2' : |c - d| ≤ (Real.exp (k * A.u) - 1) * |d| := h2
  unfold Rel
  rw [e, abs_mul b d, show (j + k) * A.u = j * A.u + k * A.u by ring, Real.exp_add]
  refine (abs_add_le _ _).trans ?_
  rw [abs_mul, abs_mul]
  have e1 : |a - b| * |c| ≤ (Real.exp (j * A.u) - 1) * |b| * (Real.exp (k * A.u) * |d|) :=
    mul_le_mul h1' h2.abs_le (abs_nonneg c) ((abs_nonneg _).trans h1')
  have e2 : |b| * |c - d| ≤ |b| * ((Real.exp (k * A.u) - 1) * |d|) := mul_le_mul_of_nonneg_left h2' (abs_nonneg b)
  linarith

theorem Arith.exp_ge (A : Arith) {k : ℝ} (hk : 0 ≤ k) : 0 ≤ Real.exp (k * A.u) - 1 := by
  have := Real.add_one_le_exp (k * A.u)
  have := mul_nonneg hk A.u_nonneg
  linarith

theorem Rel.trans {j k a b c : ℝ} (hj : 0 ≤ j) (h1 : Rel A j a b) (h2 : Rel A k b c) : Rel A (j + k) a c := by
  have h1' : |a - b| ≤ (Real.exp (j * A.u) - 1) * |b| := h1
  have h2' : |b - c| ≤ (Real.exp (k * A.u) - 1) * |c| := h2
  unfold Rel
  rw [show (j + k) * A.u = j * A.u + k * A.u by ring, Real.exp_add]
  have h3 := abs_sub_le a b c
  have := mul_le_mul_of_nonneg_left h2.abs_le (A.exp_ge hj)
  linarith

theorem Rel.inv {n : Nat} (hn : 0 < n) : Rel A 2 (1 / A.rnd n) (1 / n) := by
  obtain ⟨r1, r2⟩ := A.rnd_nat hn
  have h0 := A.u_nonneg
  have h1 := A.u_le
  have hn' : (0 : ℝ) < n := by exact_mod_cast hn
  have hr : 0 < A.rnd n := lt_of_lt_of_le (by nlinarith) r1
  have e : 1 / A.rnd n - 1 / n = (n - A.rnd n) / A.rnd n * (1 / n) := by field_simp
  unfold Rel
  rw [e, abs_mul]
  refine mul_le_mul_of_nonneg_right ?_ (abs_nonneg _)
  rw [abs_div, abs_of_pos hr, abs_sub_comm, div_le_iff₀ hr]
  have e1 : A.u * n ≤ (1 / (1 - A.u) - 1) * A.rnd n := by
    have hne : (1 - A.u) ≠ 0 := by linarith
    have : 1 / (1 - A.u) - 1 = A.u / (1 - A.u) := by field_simp; ring
    rw [this, div_mul_eq_mul_div, le_div_iff₀ (by linarith)]
    nlinarith
  refine (r2.trans e1).trans (mul_le_mul_of_nonneg_right ?_ hr.le)
  linarith [A.inv_le]

theorem angle_rel (A : Arith) (m : Nat) {N : Nat} (hN : 0 < N) : Rel A 7 (A.angle m N) (2 * Real.pi * m / N) := by
  have hpi : (0 : ℝ) < 2 * Real.pi := by positivity
  have h1 : Rel A 1 A.pi2 (2 * Real.pi) := .one (by rw [abs_of_pos hpi]; exact A.pi2_err)
  have h2 : Rel A 1 (A.rnd m) m := .one (A.rnd_err _)
  have h3 := Rel.trans (by norm_num) (Rel.one (A.rndA_err (A.pi2 * A.rnd m))) (h1.mul h2)
  have h4 := h3.mul (Rel.inv hN)
  rw [mul_one_div, mul_one_div] at h4
  have h5 := Rel.trans (by norm_num) (Rel.one (A.rndA_err _)) h4
  have h6 := Rel.trans (by norm_num) (Rel.one (A.rnd_err _)) h5
  have : (1 : ℝ) + (1 + (1 + (1 + 1) + 2)) = 7 := by norm_num
  rw [this] at h6
  exact h6

/-- The number of roundings of `omega::get(m, N)`. -/
noncomputable def omCost (m N : Nat) : ℝ := 3 + 88 * (m / N)

theorem exp_seven {x : ℝ} (h0 : 0 ≤ x) (h1 : x ≤ 1 / 8) : Real.exp (7 * x) - 1 ≤ 14 * x := by
  have h := Real.abs_exp_sub_one_sub_id_le (x := 7 * x) (by rw [abs_of_nonneg (by linarith)]; linarith)
  have := (abs_le.1 h).2
  nlinarith

theorem circle_dist (s : ℝ) (hs : s = 1 ∨ s = -1) (a b : ℝ) :
    ‖(⟨Real.cos a, s * Real.sin a⟩ : ℂ) - ⟨Real.cos b, s * Real.sin b⟩‖ ≤ |a - b| := by
  rw [Complex.norm_def, ← Real.sqrt_sq_eq_abs]
  refine Real.sqrt_le_sqrt ?_
  rw [Complex.normSq_apply, Complex.sub_re, Complex.sub_im]
  dsimp only
  have h1 := Real.one_sub_sq_div_two_le_cos (x := a - b)
  rw [Real.cos_sub] at h1
  have h2 := Real.sin_sq_add_cos_sq a
  have h3 := Real.sin_sq_add_cos_sq b
  have h4 : s * s = 1 := by rcases hs with rfl | rfl <;> norm_num
  have e : (Real.cos a - Real.cos b) * (Real.cos a - Real.cos b) + (s * Real.sin a - s * Real.sin b) * (s * Real.sin a - s * Real.sin b) =
      2 - 2 * (Real.cos a * Real.cos b + Real.sin a * Real.sin b) := by
    have : (s * Real.sin a - s * Real.sin b) * (s * Real.sin a - s * Real.sin b) = (s * s) * ((Real.sin a - Real.sin b) * (Real.sin a - Real.sin b)) := by ring
    rw [this, h4]
    linarith
  rw [e]
  linarith

theorem val_om (A : Arith) (d : Bool) (m : Nat) {N : Nat} (hN : 0 < N) :
    ‖((fltTw A).om d m N).val - complexTw.om d m N‖ ≤ Real.exp (omCost m N * A.u) - 1 := by
  have hu := A.u_nonneg
  have hu8 := A.u_le
  set s : ℝ := if d then -1 else 1 with hs
  have hs' : s = 1 ∨ s = -1 := by rw [hs]; cases d <;> simp
  set a := A.angle m N with ha
  set t := 2 * Real.pi * m / N with ht
  have hN' : (0 : ℝ) < N := by exact_mod_cast hN
  have ht0 : 0 ≤ t := by positivity
  have hm0 : (0 : ℝ) ≤ m / N := by positivity
  have h1 : ‖(⟨A.cosF a, s * A.sinF a⟩ : ℂ) - ⟨Real.cos a, s * Real.sin a⟩‖ ≤ Real.sqrt 2 * (2 * A.u) := by
    refine norm_le_of_abs (by linarith) ?_ ?_
    · exact A.cosF_err a
    · rw [Complex.sub_im]
      dsimp only
      rw [← mul_sub, abs_mul]
      have : |s| = 1 := by rcases hs' with h | h <;> rw [h] <;> norm_num
      rw [this, one_mul]
      exact A.sinF_err a
  have h2 := circle_dist s hs' a t
  have h3 : |a - t| ≤ 88 * (m / N) * A.u := by
    have h : |a - t| ≤ (Real.exp (7 * A.u) - 1) * |t| := angle_rel A m hN
    rw [abs_of_nonneg ht0] at h
    have h' := mul_le_mul_of_nonneg_right (exp_seven hu hu8) ht0
    have hpi : Real.pi < 3.1416 := Real.pi_lt_d4
    have e : 14 * A.u * t = 28 * Real.pi * (m / N * A.u) := by rw [ht]; ring
    have : 28 * Real.pi * (m / N * A.u) ≤ 88 * (m / N * A.u) := mul_le_mul_of_nonneg_right (by linarith) (by positivity)
    linarith
  have h4 : ‖(⟨A.cosF a, s * A.sinF a⟩ : ℂ) - ⟨Real.cos t, s * Real.sin t⟩‖ ≤ omCost m N * A.u := by
    refine (norm_sub_le_norm_sub_add_norm_sub _ ⟨Real.cos a, s * Real.sin a⟩ _).trans ?_
    have := mul_le_mul_of_nonneg_right sqrt_two_le (show 0 ≤ 2 * A.u by linarith)
    rw [omCost]
    linarith
  have h5 := Real.add_one_le_exp (omCost m N * A.u)
  refine h4.trans ?_
  linarith

theorem norm_om (d : Bool) (m N : Nat) : ‖complexTw.om d m N‖ = 1 := by
  rw [om_eq_root]
  unfold root sgn
  rw [Complex.norm_exp]
  have : ((if d then (-1 : ℂ) else 1) * (2 * Real.pi * Complex.I * m / N)).re = 0 := by
    have e : 2 * (Real.pi : ℂ) * Complex.I * m / N = ((2 * Real.pi * m / N : ℝ) : ℂ) * Complex.I := by push_cast; ring
    rw [e]
    cases d <;> simp
  rw [this, Real.exp_zero]

theorem val_sqrt (A : Arith) {s : ℝ} (hs : s = 1 ∨ s = -1) (y : ℝ) (hy : y = A.rnd (A.rndA (s * A.rndA (Real.sqrt 3) / 2))) :
    ‖(⟨-0.5, y⟩ : ℂ) - ⟨-0.5, s * Real.sqrt 3 / 2⟩‖ ≤ Real.exp (3 * A.u) - 1 := by
  have h1 : Rel A 1 (A.rndA (Real.sqrt 3)) (Real.sqrt 3) := .one (A.rndA_err _)
  have h2 : Rel A 1 (s * A.rndA (Real.sqrt 3) / 2) (s * Real.sqrt 3 / 2) := by
    unfold Rel at h1 ⊢
    have e : s * A.rndA (Real.sqrt 3) / 2 - s * Real.sqrt 3 / 2 = s / 2 * (A.rndA (Real.sqrt 3) - Real.sqrt 3) := by ring
    rw [e, abs_mul, show s * Real.sqrt 3 / 2 = s / 2 * Real.sqrt 3 by ring, abs_mul (s / 2)]
    have := mul_le_mul_of_nonneg_left h1 (abs_nonneg (s / 2))
    linarith
  have h3 := Rel.trans (by norm_num) (Rel.one (A.rnd_err (A.rndA (s * A.rndA (Real.sqrt 3) / 2))))
    (Rel.trans (by norm_num) (Rel.one (A.rndA_err (s * A.rndA (Real.sqrt 3) / 2))) h2)
  rw [← hy, show (1 : ℝ) + (1 + 1) = 3 by norm_num] at h3
  have h3' : |y - s * Real.sqrt 3 / 2| ≤ (Real.exp (3 * A.u) - 1) * |s * Real.sqrt 3 / 2| := h3
  have e0 := A.exp_ge (show (0 : ℝ) ≤ 3 by norm_num)
  have h4 := norm_le_of_parts (z := (⟨-0.5, y⟩ : ℂ) - ⟨-0.5, s * Real.sqrt 3 / 2⟩) (w := ⟨0, s * Real.sqrt 3 / 2⟩) e0 (by simp) (by simpa using h3')
  refine h4.trans ?_
  have h5 : ‖(⟨0, s * Real.sqrt 3 / 2⟩ : ℂ)‖ ≤ 1 := by
    rw [Complex.norm_def, Complex.normSq_apply]
    dsimp only
    have h33 : Real.sqrt 3 * Real.sqrt 3 = 3 := Real.mul_self_sqrt (by norm_num)
    rw [Real.sqrt_le_iff]
    refine ⟨by norm_num, ?_⟩
    have h4 : s * s = 1 := by rcases hs with rfl | rfl <;> norm_num
    have : s * Real.sqrt 3 / 2 * (s * Real.sqrt 3 / 2) = s * s * (Real.sqrt 3 * Real.sqrt 3) / 4 := by ring
    rw [this, h4, h33]
    norm_num
  calc _ ≤ (Real.exp (3 * A.u) - 1) * 1 := mul_le_mul_of_nonneg_left h5 e0
    _ = _ := mul_one _

/-! ## The distance to the exact values -/

/-- The pair of a computed and an exact value: the exact value has the size `b`, the computed value has the error of `τ` roundings. -/
def Near (A : Arith) (b τ : ℝ) (z : Flt A × ℂ) : Prop :=
  0 ≤ τ ∧ ‖z.2‖ ≤ b ∧ ‖z.1.val - z.2‖ ≤ (Real.exp (τ * A.u) - 1) * b

noncomputable instance (A : Arith) : NatCast (Flt A × ℂ) := ⟨fun n => ((n : Flt A), (n : ℂ))⟩

/-- The constants of the pairs. -/
noncomputable def pairTw (A : Arith) : Tw (Flt A × ℂ) where
  om d m N := ((fltTw A).om d m N, complexTw.om d m N)
  i := ((fltTw A).i, complexTw.i)
  plus120 := ((fltTw A).plus120, complexTw.plus120)
  minus120 := ((fltTw A).minus120, complexTw.minus120)

theorem Near.size {b τ : ℝ} {z : Flt A × ℂ} (h : Near A b τ z) : 0 ≤ b := (norm_nonneg _).trans h.2.1

theorem Near.norm_le {b τ : ℝ} {z : Flt A × ℂ} (h : Near A b τ z) : ‖z.1.val‖ ≤ Real.exp (τ * A.u) * b := by
  have := norm_sub_norm_le z.1.val z.2
  have h1 := h.2.1
  have h2 := h.2.2
  linarith

theorem Near.mono {b τ b' τ' : ℝ} {z : Flt A × ℂ} (h : Near A b τ z) (hb : b ≤ b') (hτ : τ ≤ τ') : Near A b' τ' z := by
  refine ⟨h.1.trans hτ, h.2.1.trans hb, h.2.2.trans ?_⟩
  have h1 : Real.exp (τ * A.u) ≤ Real.exp (τ' * A.u) := Real.exp_le_exp.2 (mul_le_mul_of_nonneg_right hτ A.u_nonneg)
  exact mul_le_mul (by linarith) hb h.size (A.exp_ge (h.1.trans hτ))

/-- A result with the relative error `δ` of the rounding of a value with the relative error of `τ` roundings. -/
theorem near_round {b τ δ κ : ℝ} {c x e : ℂ} (hδ : δ ≤ Real.exp (κ * A.u) - 1) (hδ0 : 0 ≤ δ) (hb : 0 ≤ b) (hx : ‖x - e‖ ≤ (Real.exp (τ * A.u) - 1) * b)
    (he : ‖e‖ ≤ b) (hc : ‖c - x‖ ≤ δ * (Real.exp (τ * A.u) * b)) : ‖c - e‖ ≤ (Real.exp ((τ + κ) * A.u) - 1) * b := by
  have h1 := norm_sub_le_norm_sub_add_norm_sub c x e
  have h2 : δ * (Real.exp (τ * A.u) * b) ≤ (Real.exp (κ * A.u) - 1) * (Real.exp (τ * A.u) * b) :=
    mul_le_mul_of_nonneg_right hδ (by positivity)
  rw [add_mul, Real.exp_add]
  linarith

theorem near_sum {b τ b' : ℝ} {x y : Flt A × ℂ} (hx : Near A b τ x) (hy : Near A b' τ y) {c : ℂ} {s : ℂ} (hs : ‖s‖ = 1)
    (hc : ‖c - (x.1.val + s * y.1.val)‖ ≤ A.u * ‖x.1.val + s * y.1.val‖) :
    ‖x.2 + s * y.2‖ ≤ b + b' ∧ ‖c - (x.2 + s * y.2)‖ ≤ (Real.exp ((τ + 1) * A.u) - 1) * (b + b') := by
  have he : ‖x.2 + s * y.2‖ ≤ b + b' := by
    refine (norm_add_le _ _).trans ?_
    rw [norm_mul, hs, one_mul]
    exact add_le_add hx.2.1 hy.2.1
  refine ⟨he, ?_⟩
  refine near_round (δ := A.u) (x := x.1.val + s * y.1.val) ?_ A.u_nonneg (add_nonneg hx.size hy.size) ?_ he ?_
  · have := Real.add_one_le_exp (1 * A.u); linarith
  · have e : x.1.val + s * y.1.val - (x.2 + s * y.2) = (x.1.val - x.2) + s * (y.1.val - y.2) := by ring
    rw [e]
    refine (norm_add_le _ _).trans ?_
    rw [norm_mul, hs, one_mul, mul_add]
    exact add_le_add hx.2.2 hy.2.2
  · refine hc.trans (mul_le_mul_of_nonneg_left ?_ A.u_nonneg)
    refine (norm_add_le _ _).trans ?_
    rw [norm_mul, hs, one_mul, mul_add]
    exact add_le_add hx.norm_le hy.norm_le

/-- The pairs of computed and exact values follow the operations. -/
noncomputable def nearGraded (A : Arith) : Graded (pairTw A) omCost where
  N := Near A
  size h := h.size
  count h := h.1
  mono h := h.mono
  add {b τ b' x y} hx hy := by
    have := near_sum hx hy (c := (x.1 + y.1).val) (s := 1) (by simp) (by simpa using val_add x.1 y.1)
    rw [one_mul] at this
    have := hx.1
    exact ⟨by linarith, by assumption⟩
  sub {b τ b' x y} hx hy := by
    have := near_sum hx hy (c := (x.1 - y.1).val) (s := -1) (by simp) (by simpa [← sub_eq_add_neg] using val_sub x.1 y.1)
    rw [neg_one_mul, ← sub_eq_add_neg] at this
    have := hx.1
    exact ⟨by linarith, by assumption⟩
  neg {b τ x} hx := by
    refine ⟨hx.1, ?_, ?_⟩
    · change ‖- x.2‖ ≤ b
      rw [norm_neg]; exact hx.2.1
    · change ‖- x.1.val - (- x.2)‖ ≤ _
      rw [← neg_sub_neg, neg_neg, neg_neg, ← neg_sub, neg_sub, norm_sub_rev]
      exact hx.2.2
  mul {b τ b' τ' x y} hx hy := by
    have hxs := hx.size
    have hys := hy.size
    refine ⟨by have := hx.1; have := hy.1; linarith, ?_, ?_⟩
    · change ‖x.2 * y.2‖ ≤ _
      rw [norm_mul]
      exact mul_le_mul hx.2.1 hy.2.1 (norm_nonneg _) hxs
    · change ‖(x.1 * y.1).val - x.2 * y.2‖ ≤ _
      have hu := A.u_nonneg
      refine near_round (δ := (1 + A.u) ^ 3 - 1) (x := x.1.val * y.1.val) ?_ ?_ (by positivity) ?_ ?_ ?_
      · have := Real.add_one_le_exp A.u
        have h3 : (1 + A.u) ^ 3 ≤ Real.exp A.u ^ 3 := pow_le_pow_left₀ (by linarith) (by linarith) 3
        rw [← Real.exp_nat_mul] at h3
        push_cast at h3
        linarith
      · nlinarith [mul_nonneg hu hu, mul_nonneg hu (mul_nonneg hu hu)]
      · have e : x.1.val * y.1.val - x.2 * y.2 = (x.1.val - x.2) * y.1.val + x.2 * (y.1.val - y.2) := by ring
        rw [e]
        refine (norm_add_le _ _).trans ?_
        rw [norm_mul, norm_mul, add_mul τ, Real.exp_add]
        have h1 := mul_le_mul hx.2.2 hy.norm_le (norm_nonneg _) (mul_nonneg (A.exp_ge hx.1) hxs)
        have h2 := mul_le_mul hx.2.1 hy.2.2 (norm_nonneg _) hxs
        linarith
      · rw [norm_mul]
        exact mul_le_mul hx.2.1 hy.2.1 (norm_nonneg _) hxs
      · refine (val_mul x.1 y.1).trans (mul_le_mul_of_nonneg_left ?_ ?_)
        · rw [add_mul τ, Real.exp_add]
          have := mul_le_mul hx.norm_le hy.norm_le (norm_nonneg _) (by positivity)
          linarith
        · nlinarith [mul_nonneg hu hu, mul_nonneg hu (mul_nonneg hu hu)]
  div {b τ x} n hn hx := by
    have hn' : (0 : ℝ) < n := by exact_mod_cast hn
    have hnn : ‖(n : ℂ)‖ = n := by simp
    have hb := hx.size
    refine ⟨by have := hx.1; linarith, ?_, ?_⟩
    · change ‖x.2 / (n : ℂ)‖ ≤ _
      rw [norm_div, hnn]
      exact div_le_div_of_nonneg_right hx.2.1 hn'.le
    · change ‖(x.1 / (n : Flt A)).val - x.2 / (n : ℂ)‖ ≤ _
      refine near_round (δ := Real.exp (3 * A.u) - 1) (x := x.1.val / n) le_rfl (A.exp_ge (by norm_num)) (by positivity) ?_ ?_ ?_
      · rw [← sub_div, norm_div, hnn, ← mul_div_assoc]
        exact div_le_div_of_nonneg_right hx.2.2 hn'.le
      · rw [norm_div, hnn]
        exact div_le_div_of_nonneg_right hx.2.1 hn'.le
      · refine (val_div x.1 hn).trans (mul_le_mul_of_nonneg_left ?_ (A.exp_ge (by norm_num)))
        rw [← mul_div_assoc]
        exact div_le_div_of_nonneg_right hx.norm_le hn'.le
  one := by
    refine ⟨le_rfl, ?_, ?_⟩
    · change ‖(1 : ℂ)‖ ≤ 1
      simp
    · change ‖(⟨1, 0⟩ : ℂ) - 1‖ ≤ _
      have : (⟨1, 0⟩ : ℂ) - 1 = 0 := by apply Complex.ext <;> simp
      rw [this]; simp
  om d m N hN := by
    refine ⟨by unfold omCost; positivity, (norm_om d m N).le, ?_⟩
    rw [mul_one]
    exact val_om A d m hN
  i := by
    refine ⟨le_rfl, ?_, ?_⟩
    · change ‖Complex.I‖ ≤ 1
      simp
    · change ‖Complex.I - Complex.I‖ ≤ _
      simp
  plus120 := by
    refine ⟨by norm_num, ?_, ?_⟩
    · have := norm_om true 1 3
      rw [complexTw_ok.three_fwd] at this
      exact this.le
    · rw [mul_one]
      have := val_sqrt A (s := -1) (Or.inr rfl) _ rfl
      simp only [neg_one_mul] at this
      exact this
  minus120 := by
    refine ⟨by norm_num, ?_, ?_⟩
    · have := norm_om false 1 3
      rw [complexTw_ok.three_bwd] at this
      exact this.le
    · rw [mul_one]
      have := val_sqrt A (s := 1) (Or.inl rfl) _ rfl
      simp only [one_mul] at this
      exact this

end Verif.Stock
