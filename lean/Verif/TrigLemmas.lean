import Verif.SpecR2R
import Verif.DftLemmas

/-!
# Sine and cosine transforms as Fourier transforms of longer signals
-/

namespace Verif
open Finset Stock

/-- The signal of the forward transform, of length `4 n` (`4 (n - 1)` for cosine-I). -/
def signal (z : Trig) (n : Nat) (x : Nat → ℝ) (m : Nat) : ℝ :=
  match z with
  | .cos => if m % 2 = 0 then 0 else if m < 2 * n then x (m / 2) else x ((4 * n - m) / 2)
  | .sin => if m % 2 = 0 then 0 else if m < 2 * n then x (m / 2) else -x ((4 * n - m) / 2)
  | .cos1 => if m % 2 = 1 then 0 else if m < 2 * (n - 1) then x (m / 2) else x ((4 * (n - 1) - m) / 2)

/-- The half spectrum of the backward transform, entries `0, …, 2 n` (`2 (n - 1)` for cosine-I). -/
noncomputable def spectrum (z : Trig) (n : Nat) (y : Nat → ℝ) (k : Nat) : ℂ :=
  match z with
  | .cos => if k < n then ⟨y k, 0⟩ else if k = n then 0 else ⟨-y (2 * n - k), 0⟩
  | .sin => if k = 0 then 0 else if k ≤ n then ⟨0, -y (k - 1)⟩ else if k < 2 * n then ⟨0, -y (2 * n - k - 1)⟩ else 0
  | .cos1 => if k < n then ⟨y k, 0⟩ else ⟨y (2 * (n - 1) - k), 0⟩

/-- The length of the signal. -/
def Trig.long (z : Trig) (n : Nat) : Nat := z.gain n

/-- The position of entry `j` of the result in the signal. -/
def Trig.pick (z : Trig) (j : Nat) : Nat :=
  match z with
  | .cos => 2 * j + 1
  | .sin => 2 * j + 1
  | .cos1 => 2 * j

/-! ## Sums -/

theorem sum_pairs {M : Type} [AddCommMonoid M] (h : Nat → M) (N : Nat) : ∑ m ∈ range (2 * N), h m = ∑ j ∈ range N, (h (2 * j) + h (2 * j + 1)) := by
  induction N with
  | zero => simp
  | succ N ih =>
    rw [show 2 * (N + 1) = 2 * N + 1 + 1 by ring, sum_range_succ, sum_range_succ, sum_range_succ, ih, add_assoc]

theorem sum_mirror {M : Type} [AddCommMonoid M] (h : Nat → M) {N : Nat} (hN : 0 < N) :
    ∑ k ∈ range (2 * N - 1), h (k + 1) = ∑ k ∈ range (N - 1), (h (k + 1) + h (2 * N - (k + 1))) + h N := by
  rw [show 2 * N - 1 = (N - 1) + 1 + (N - 1) by omega, sum_range_add, sum_range_succ, sum_add_distrib, ← sum_range_reflect (fun k => h (N - 1 + 1 + k + 1)),
    show N - 1 + 1 = N by omega]
  have : ∑ j ∈ range (N - 1), h (N + (N - 1 - 1 - j) + 1) = ∑ k ∈ range (N - 1), h (2 * N - (k + 1)) := by
    refine sum_congr rfl fun k hk => ?_
    rw [mem_range] at hk
    congr 1; omega
  rw [this, add_right_comm]

theorem sum_first {M : Type} [AddCommMonoid M] (h : Nat → M) {N : Nat} (hN : 0 < N) :
    ∑ k ∈ range (2 * N), h k = h 0 + (∑ k ∈ range (N - 1), (h (k + 1) + h (2 * N - (k + 1))) + h N) := by
  rw [← sum_mirror h hN, show 2 * N = 2 * N - 1 + 1 by omega, sum_range_succ', add_comm]
  rw [show 2 * N - 1 + 1 - 1 = 2 * N - 1 by omega]

theorem sum_fold {M : Type} [AddCommMonoid M] (h : Nat → M) (N : Nat) : ∑ k ∈ range (2 * N), h k = ∑ k ∈ range N, (h k + h (2 * N - 1 - k)) := by
  rw [show 2 * N = N + N by ring, sum_range_add, sum_add_distrib, ← sum_range_reflect (fun k => h (N + k))]
  congr 1
  refine sum_congr rfl fun k hk => ?_
  rw [mem_range] at hk
  congr 1; omega

/-! ## Roots as sines and cosines -/

theorem root_trig (N m : Nat) : root true N m = ⟨Real.cos (2 * Real.pi * m / N), -Real.sin (2 * Real.pi * m / N)⟩ ∧
    root false N m = ⟨Real.cos (2 * Real.pi * m / N), Real.sin (2 * Real.pi * m / N)⟩ := by
  rw [← om_eq_root, ← om_eq_root]
  constructor <;> simp [complexTw]

/-- The backward transform of a half spectrum of even length. -/
theorem c2r_even {M : Nat} (hM : 0 < M) (s : Nat → ℂ) (j : Nat) :
    c2r (2 * M) ((List.range (M + 1)).map s) j = (s 0).re + (s M * root false (2 * M) (M * j)).re +
      2 * ∑ k ∈ range (M - 1), (s (k + 1) * root false (2 * M) ((k + 1) * j)).re := by
  unfold c2r
  have hfull : ∀ k, k ≤ M → fullSpectrum (2 * M) ((List.range (M + 1)).map s) k = s k := by
    intro k hk
    unfold fullSpectrum
    rw [if_pos (by omega), getD_range_map _ _ (by omega)]
  have hmir : ∀ k, k < M - 1 → fullSpectrum (2 * M) ((List.range (M + 1)).map s) (2 * M - (k + 1)) = starRingEnd ℂ (s (k + 1)) := by
    intro k hk
    unfold fullSpectrum
    rw [if_neg (by omega), getD_range_map _ _ (by omega), show 2 * M - (2 * M - (k + 1)) = k + 1 by omega]
  rw [sum_first _ hM, hfull 0 (by omega), hfull M le_rfl, Nat.zero_mul, root_zero, mul_one]
  rw [show ∀ a b c : ℂ, (a + (b + c)).re = a.re + c.re + b.re by intros; simp; ring]
  congr 1
  rw [Complex.re_sum, Finset.mul_sum]
  refine sum_congr rfl fun k hk => ?_
  rw [mem_range] at hk
  rw [hfull _ (by omega), hmir _ hk, root_mirror _ (by omega) (by omega), ← root_conj, ← map_mul, Complex.add_re, Complex.conj_re]
  ring

/-! ## Angles -/

theorem cos_odd_pi (j : Nat) (t : ℝ) : Real.cos ((2 * j + 1) * Real.pi - t) = -Real.cos t := by
  rw [show (2 * j + 1) * Real.pi - t = (Real.pi - t) + (j : ℕ) * (2 * Real.pi) by ring, Real.cos_add_nat_mul_two_pi, Real.cos_pi_sub]

theorem sin_odd_pi (j : Nat) (t : ℝ) : Real.sin ((2 * j + 1) * Real.pi - t) = Real.sin t := by
  rw [show (2 * j + 1) * Real.pi - t = (Real.pi - t) + (j : ℕ) * (2 * Real.pi) by ring, Real.sin_add_nat_mul_two_pi, Real.sin_pi_sub]

theorem cos_full (j : Nat) (t : ℝ) : Real.cos (j * (2 * Real.pi) - t) = Real.cos t := by
  rw [Real.cos_nat_mul_two_pi_sub]

theorem sin_full (j : Nat) (t : ℝ) : Real.sin (j * (2 * Real.pi) - t) = -Real.sin t := by
  rw [Real.sin_nat_mul_two_pi_sub]

theorem cos_half (j : Nat) : Real.cos ((2 * j + 1) * Real.pi / 2) = 0 := by
  have := cos_odd_pi j ((2 * j + 1) * Real.pi / 2)
  rw [show (2 * (j : ℝ) + 1) * Real.pi - (2 * j + 1) * Real.pi / 2 = (2 * j + 1) * Real.pi / 2 by ring] at this
  linarith

theorem sin_half (j : Nat) : Real.sin ((2 * j + 1) * Real.pi / 2) = (-1) ^ j := by
  rw [show (2 * (j : ℝ) + 1) * Real.pi / 2 = Real.pi / 2 + j * Real.pi by ring, Real.sin_add_nat_mul_pi, Real.sin_pi_div_two, mul_one]

theorem cos_whole (j : Nat) : Real.cos (j * Real.pi) = (-1) ^ j := Real.cos_nat_mul_pi j

/-! ## Backward -/

theorem c2r_cos {n : Nat} (hn : 0 < n) (y : Nat → ℝ) (j : Nat) :
    c2r (4 * n) ((List.range (2 * n + 1)).map (spectrum .cos n y)) (2 * j + 1) = 2 * redft01 n y j := by
  have hn' : (n : ℝ) ≠ 0 := by exact_mod_cast hn.ne'
  rw [show 4 * n = 2 * (2 * n) by ring, c2r_even (by omega)]
  have e0 : spectrum .cos n y 0 = ⟨y 0, 0⟩ := by simp [spectrum, hn]
  have eM : spectrum .cos n y (2 * n) = ⟨-y 0, 0⟩ := by
    simp only [spectrum]; rw [if_neg (by omega), if_neg (by omega), Nat.sub_self]
  have en : spectrum .cos n y n = 0 := by simp [spectrum]
  have hroot : ∀ k : Nat, (root false (2 * (2 * n)) (k * (2 * j + 1))).re = Real.cos (Real.pi * k * (j + 1 / 2) / n) := by
    intro k
    rw [(root_trig _ _).2]
    dsimp only
    congr 1
    push_cast
    field_simp
  have hre : ∀ (a : ℝ) (w : ℂ), ((⟨a, 0⟩ : ℂ) * w).re = a * w.re := by intro a w; simp [Complex.mul_re]
  have elow : ∀ k, k < n - 1 → spectrum .cos n y (k + 1) = ⟨y (k + 1), 0⟩ := by
    intro k hk; simp only [spectrum]; rw [if_pos (by omega)]
  have ehigh : ∀ k, k < n - 1 → spectrum .cos n y (2 * n - (k + 1)) = ⟨-y (k + 1), 0⟩ := by
    intro k hk; simp only [spectrum]; rw [if_neg (by omega), if_neg (by omega), show 2 * n - (2 * n - (k + 1)) = k + 1 by omega]
  rw [sum_mirror (fun k => (spectrum .cos n y k * root false (2 * (2 * n)) (k * (2 * j + 1))).re) hn, e0, eM, en, zero_mul, hre, hroot]
  have hM : Real.cos (Real.pi * ((2 * n : Nat) : ℝ) * (j + 1 / 2) / n) = -1 := by
    have := cos_odd_pi j 0
    rw [sub_zero, Real.cos_zero] at this
    rw [← this]
    congr 1
    push_cast
    field_simp
  rw [hM]
  have hs : ∑ k ∈ range (n - 1), ((spectrum .cos n y (k + 1) * root false (2 * (2 * n)) ((k + 1) * (2 * j + 1))).re +
      (spectrum .cos n y (2 * n - (k + 1)) * root false (2 * (2 * n)) ((2 * n - (k + 1)) * (2 * j + 1))).re) =
      2 * ∑ k ∈ range (n - 1), y (k + 1) * Real.cos (Real.pi * (k + 1) * (j + 1 / 2) / n) := by
    rw [Finset.mul_sum]
    refine sum_congr rfl fun k hk => ?_
    rw [mem_range] at hk
    rw [elow k hk, ehigh k hk, hre, hre, hroot, hroot]
    have : Real.cos (Real.pi * ((2 * n - (k + 1) : Nat) : ℝ) * (j + 1 / 2) / n) = -Real.cos (Real.pi * (k + 1) * (j + 1 / 2) / n) := by
      rw [← cos_odd_pi j (Real.pi * (k + 1) * (j + 1 / 2) / n)]
      congr 1
      rw [Nat.cast_sub (by omega)]
      push_cast
      field_simp
    rw [this]
    push_cast
    ring
  rw [hs]
  simp only [redft01, Complex.zero_re]
  ring

theorem c2r_sin {n : Nat} (hn : 0 < n) (y : Nat → ℝ) (j : Nat) :
    c2r (4 * n) ((List.range (2 * n + 1)).map (spectrum .sin n y)) (2 * j + 1) = 2 * rodft01 n y j := by
  have hn' : (n : ℝ) ≠ 0 := by exact_mod_cast hn.ne'
  rw [show 4 * n = 2 * (2 * n) by ring, c2r_even (by omega)]
  have e0 : spectrum .sin n y 0 = 0 := by simp [spectrum]
  have eM : spectrum .sin n y (2 * n) = 0 := by
    simp only [spectrum]; rw [if_neg (by omega), if_neg (by omega), if_neg (by omega)]
  have en : spectrum .sin n y n = ⟨0, -y (n - 1)⟩ := by
    simp only [spectrum]; rw [if_neg (by omega), if_pos le_rfl]
  have hroot : ∀ k : Nat, (root false (2 * (2 * n)) (k * (2 * j + 1))).im = Real.sin (Real.pi * k * (j + 1 / 2) / n) := by
    intro k
    rw [(root_trig _ _).2]
    dsimp only
    congr 1
    push_cast
    field_simp
  have hre : ∀ (a : ℝ) (w : ℂ), ((⟨0, -a⟩ : ℂ) * w).re = a * w.im := by intro a w; simp [Complex.mul_re]
  have elow : ∀ k, k < n - 1 → spectrum .sin n y (k + 1) = ⟨0, -y k⟩ := by
    intro k hk; simp only [spectrum]; rw [if_neg (by omega), if_pos (by omega)]; rfl
  have ehigh : ∀ k, k < n - 1 → spectrum .sin n y (2 * n - (k + 1)) = ⟨0, -y k⟩ := by
    intro k hk; simp only [spectrum]
    rw [if_neg (by omega), if_neg (by omega), if_pos (by omega), show 2 * n - (2 * n - (k + 1)) - 1 = k by omega]
  rw [sum_mirror (fun k => (spectrum .sin n y k * root false (2 * (2 * n)) (k * (2 * j + 1))).re) hn, e0, eM, en, zero_mul, hre, hroot]
  have hM : Real.sin (Real.pi * (n : ℝ) * (j + 1 / 2) / n) = (-1) ^ j := by
    rw [← sin_half]
    congr 1
    field_simp
  rw [hM]
  have hs : ∑ k ∈ range (n - 1), ((spectrum .sin n y (k + 1) * root false (2 * (2 * n)) ((k + 1) * (2 * j + 1))).re +
      (spectrum .sin n y (2 * n - (k + 1)) * root false (2 * (2 * n)) ((2 * n - (k + 1)) * (2 * j + 1))).re) =
      2 * ∑ k ∈ range (n - 1), y k * Real.sin (Real.pi * (k + 1) * (j + 1 / 2) / n) := by
    rw [Finset.mul_sum]
    refine sum_congr rfl fun k hk => ?_
    rw [mem_range] at hk
    rw [elow k hk, ehigh k hk, hre, hre, hroot, hroot]
    have : Real.sin (Real.pi * ((2 * n - (k + 1) : Nat) : ℝ) * (j + 1 / 2) / n) = Real.sin (Real.pi * (k + 1) * (j + 1 / 2) / n) := by
      rw [← sin_odd_pi j (Real.pi * (k + 1) * (j + 1 / 2) / n)]
      congr 1
      rw [Nat.cast_sub (by omega)]
      push_cast
      field_simp
    rw [this]
    push_cast
    ring
  rw [hs]
  simp only [rodft01, Complex.zero_re]
  ring

theorem c2r_cos1 {n : Nat} (hn : 2 ≤ n) (y : Nat → ℝ) (j : Nat) :
    c2r (4 * (n - 1)) ((List.range (2 * (n - 1) + 1)).map (spectrum .cos1 n y)) (2 * j) = 2 * redft00 n y j := by
  obtain ⟨N, rfl⟩ : ∃ N, n = N + 1 := ⟨n - 1, by omega⟩
  rw [Nat.add_sub_cancel]
  have hN : 0 < N := by omega
  have hn' : (N : ℝ) ≠ 0 := by exact_mod_cast hN.ne'
  rw [show 4 * N = 2 * (2 * N) by ring, c2r_even (by omega)]
  have e0 : spectrum .cos1 (N + 1) y 0 = ⟨y 0, 0⟩ := by simp [spectrum]
  have eM : spectrum .cos1 (N + 1) y (2 * N) = ⟨y 0, 0⟩ := by
    simp only [spectrum]; rw [if_neg (by omega), show 2 * (N + 1 - 1) - 2 * N = 0 by omega]
  have en : spectrum .cos1 (N + 1) y N = ⟨y N, 0⟩ := by simp [spectrum]
  have hroot : ∀ k : Nat, (root false (2 * (2 * N)) (k * (2 * j))).re = Real.cos (Real.pi * k * j / N) := by
    intro k
    rw [(root_trig _ _).2]
    dsimp only
    congr 1
    push_cast
    field_simp
  have hre : ∀ (a : ℝ) (w : ℂ), ((⟨a, 0⟩ : ℂ) * w).re = a * w.re := by intro a w; simp [Complex.mul_re]
  have elow : ∀ k, k < N - 1 → spectrum .cos1 (N + 1) y (k + 1) = ⟨y (k + 1), 0⟩ := by
    intro k hk; simp only [spectrum]; rw [if_pos (by omega)]
  have ehigh : ∀ k, k < N - 1 → spectrum .cos1 (N + 1) y (2 * N - (k + 1)) = ⟨y (k + 1), 0⟩ := by
    intro k hk; simp only [spectrum]; rw [if_neg (by omega), show 2 * (N + 1 - 1) - (2 * N - (k + 1)) = k + 1 by omega]
  rw [sum_mirror (fun k => (spectrum .cos1 (N + 1) y k * root false (2 * (2 * N)) (k * (2 * j))).re) hN, e0, eM, en, hre, hre, hroot, hroot]
  have hM : Real.cos (Real.pi * ((2 * N : Nat) : ℝ) * j / N) = 1 := by
    have := cos_full j 0
    rw [sub_zero, Real.cos_zero] at this
    rw [← this]
    congr 1
    push_cast
    field_simp
  have hm : Real.cos (Real.pi * (N : ℝ) * j / N) = (-1) ^ j := by
    rw [← cos_whole]
    congr 1
    field_simp
  rw [hM, hm]
  have hs : ∑ k ∈ range (N - 1), ((spectrum .cos1 (N + 1) y (k + 1) * root false (2 * (2 * N)) ((k + 1) * (2 * j))).re +
      (spectrum .cos1 (N + 1) y (2 * N - (k + 1)) * root false (2 * (2 * N)) ((2 * N - (k + 1)) * (2 * j))).re) =
      2 * ∑ k ∈ range (N - 1), y (k + 1) * Real.cos (Real.pi * (k + 1) * j / N) := by
    rw [Finset.mul_sum]
    refine sum_congr rfl fun k hk => ?_
    rw [mem_range] at hk
    rw [elow k hk, ehigh k hk, hre, hre, hroot, hroot]
    have : Real.cos (Real.pi * ((2 * N - (k + 1) : Nat) : ℝ) * j / N) = Real.cos (Real.pi * (k + 1) * j / N) := by
      rw [← cos_full j (Real.pi * (k + 1) * j / N)]
      congr 1
      rw [Nat.cast_sub (by omega)]
      push_cast
      field_simp
    rw [this]
    push_cast
    ring
  rw [hs]
  simp only [redft00]
  rw [show N + 1 - 2 = N - 1 by omega, show N + 1 - 1 = N by omega]
  ring

/-! ## Forward -/

theorem r2c_map (N : Nat) (f : Nat → ℝ) (k : Nat) : r2c ((List.range N).map f) k = ∑ m ∈ range N, (f m : ℂ) * root true N (m * k) := by
  unfold r2c dft
  simp only [List.length_map, List.length_range]
  refine sum_congr rfl fun m hm => ?_
  rw [mem_range] at hm
  rw [List.map_map, getD_range_map _ _ hm]
  rfl

/-- Two opposite entries of a symmetric signal. -/
theorem pair_even {N m : Nat} (hN : 0 < N) (hm : m ≤ N) (x : ℝ) (k : Nat) :
    (x : ℂ) * root true N (m * k) + x * root true N ((N - m) * k) = ((2 * (x * Real.cos (2 * Real.pi * (m * k) / N)) : ℝ) : ℂ) := by
  rw [root_mirror _ hN hm, ← root_conj, ← mul_add, Complex.add_conj, (root_trig _ _).1]
  push_cast
  ring

/-- Two opposite entries of an antisymmetric signal. -/
theorem pair_odd {N m : Nat} (hN : 0 < N) (hm : m ≤ N) (x : ℝ) (k : Nat) :
    (x : ℂ) * root true N (m * k) + ((-x : ℝ) : ℂ) * root true N ((N - m) * k) = ((2 * (x * Real.sin (2 * Real.pi * (m * k) / N)) : ℝ) : ℂ) * -Complex.I := by
  rw [root_mirror _ hN hm, ← root_conj, Complex.ofReal_neg, neg_mul, ← sub_eq_add_neg, ← mul_sub, Complex.sub_conj, (root_trig _ _).1]
  push_cast
  ring

theorem r2c_cos {n : Nat} (hn : 0 < n) (x : Nat → ℝ) {k : Nat} (hk : k ≤ 2 * n) :
    r2c ((List.range (4 * n)).map (signal .cos n x)) k = spectrum .cos n (redft10 n x) k := by
  have hn' : (n : ℝ) ≠ 0 := by exact_mod_cast hn.ne'
  have h1 : r2c ((List.range (4 * n)).map (signal .cos n x)) k = (redft10 n x k : ℝ) := by
    rw [r2c_map, show 4 * n = 2 * (2 * n) by ring, sum_pairs]
    have : ∀ j ∈ range (2 * n), ((signal .cos n x (2 * j) : ℝ) : ℂ) * root true (2 * (2 * n)) (2 * j * k) +
        (signal .cos n x (2 * j + 1) : ℂ) * root true (2 * (2 * n)) ((2 * j + 1) * k) =
        ((if j < n then x j else x (2 * n - 1 - j) : ℝ) : ℂ) * root true (2 * (2 * n)) ((2 * j + 1) * k) := by
      intro j hj
      rw [mem_range] at hj
      simp only [signal]
      rw [if_pos (by omega), if_neg (by omega)]
      rw [show (2 * j + 1) / 2 = j by omega, show (4 * n - (2 * j + 1)) / 2 = 2 * n - 1 - j by omega]
      by_cases h : j < n
      · rw [if_pos (by omega), if_pos h]; simp
      · rw [if_neg (by omega), if_neg h]; simp
    rw [sum_congr rfl this, sum_fold]
    unfold redft10
    rw [Finset.mul_sum, Complex.ofReal_sum]
    refine sum_congr rfl fun j hj => ?_
    rw [mem_range] at hj
    rw [if_pos hj, if_neg (by omega), show 2 * n - 1 - (2 * n - 1 - j) = j by omega,
      show 2 * (2 * n - 1 - j) + 1 = 2 * (2 * n) - (2 * j + 1) by omega, pair_even (by omega) (by omega)]
    congr 4
    push_cast
    field_simp
  rw [h1]
  simp only [spectrum]
  by_cases h : k < n
  · rw [if_pos h]; rfl
  · rw [if_neg h]
    by_cases h2 : k = n
    · subst h2
      rw [if_pos rfl]
      unfold redft10
      rw [sum_eq_zero]
      · simp
      · intro j _
        rw [show Real.pi * ((j : ℝ) + 1 / 2) * k / k = (2 * j + 1) * Real.pi / 2 by field_simp, cos_half, mul_zero]
    · rw [if_neg h2]
      have : redft10 n x k = -redft10 n x (2 * n - k) := by
        unfold redft10
        rw [← mul_neg, ← sum_neg_distrib]
        congr 1
        refine sum_congr rfl fun j _ => ?_
        rw [← mul_neg, ← cos_odd_pi j (Real.pi * (j + 1 / 2) * ((2 * n - k : Nat) : ℝ) / n)]
        congr 2
        rw [Nat.cast_sub (by omega)]
        push_cast
        field_simp
        ring
      rw [this]; rfl

theorem r2c_sin {n : Nat} (hn : 0 < n) (x : Nat → ℝ) {k : Nat} (hk : k ≤ 2 * n) :
    r2c ((List.range (4 * n)).map (signal .sin n x)) k = spectrum .sin n (rodft10 n x) k := by
  have hn' : (n : ℝ) ≠ 0 := by exact_mod_cast hn.ne'
  have h1 : r2c ((List.range (4 * n)).map (signal .sin n x)) k =
      ((2 * ∑ j ∈ range n, x j * Real.sin (Real.pi * (j + 1 / 2) * k / n) : ℝ) : ℂ) * -Complex.I := by
    rw [r2c_map, show 4 * n = 2 * (2 * n) by ring, sum_pairs]
    have : ∀ j ∈ range (2 * n), ((signal .sin n x (2 * j) : ℝ) : ℂ) * root true (2 * (2 * n)) (2 * j * k) +
        (signal .sin n x (2 * j + 1) : ℂ) * root true (2 * (2 * n)) ((2 * j + 1) * k) =
        ((if j < n then x j else -x (2 * n - 1 - j) : ℝ) : ℂ) * root true (2 * (2 * n)) ((2 * j + 1) * k) := by
      intro j hj
      rw [mem_range] at hj
      simp only [signal]
      rw [if_pos (by omega), if_neg (by omega)]
      rw [show (2 * j + 1) / 2 = j by omega, show (4 * n - (2 * j + 1)) / 2 = 2 * n - 1 - j by omega]
      by_cases h : j < n
      · rw [if_pos (by omega), if_pos h]; simp
      · rw [if_neg (by omega), if_neg h]; simp
    rw [sum_congr rfl this, sum_fold]
    rw [Finset.mul_sum, Complex.ofReal_sum, sum_mul]
    refine sum_congr rfl fun j hj => ?_
    rw [mem_range] at hj
    rw [if_pos hj, if_neg (by omega), show 2 * n - 1 - (2 * n - 1 - j) = j by omega,
      show 2 * (2 * n - 1 - j) + 1 = 2 * (2 * n) - (2 * j + 1) by omega, pair_odd (by omega) (by omega)]
    congr 5
    push_cast
    field_simp
  have hI : ∀ a : ℝ, (a : ℂ) * -Complex.I = ⟨0, -a⟩ := by
    intro a; apply Complex.ext <;> simp
  rw [h1, hI]
  simp only [spectrum]
  by_cases h : k = 0
  · subst h
    rw [if_pos rfl, sum_eq_zero (fun j _ => by simp)]
    apply Complex.ext <;> simp
  · rw [if_neg h]
    by_cases h2 : k ≤ n
    · rw [if_pos h2]
      unfold rodft10
      rw [Nat.cast_sub (by omega), Nat.cast_one, sub_add_cancel]
    · rw [if_neg h2]
      have hsym : ∀ j : Nat, Real.sin (Real.pi * (j + 1 / 2) * k / n) = Real.sin (Real.pi * (j + 1 / 2) * ((2 * n - k : Nat) : ℝ) / n) := by
        intro j
        rw [← sin_odd_pi j (Real.pi * (j + 1 / 2) * ((2 * n - k : Nat) : ℝ) / n)]
        congr 1
        rw [Nat.cast_sub (by omega)]
        push_cast
        field_simp
        ring
      by_cases h3 : k < 2 * n
      · rw [if_pos h3]
        unfold rodft10
        rw [Nat.cast_sub (show 1 ≤ 2 * n - k by omega), Nat.cast_one, sub_add_cancel]
        simp only [hsym]
      · obtain rfl : k = 2 * n := by omega
        rw [if_neg h3]
        rw [sum_eq_zero (fun j _ => by rw [hsym, Nat.sub_self]; simp)]
        apply Complex.ext <;> simp

theorem r2c_cos1 {n : Nat} (hn : 2 ≤ n) (x : Nat → ℝ) {k : Nat} (hk : k ≤ 2 * (n - 1)) :
    r2c ((List.range (4 * (n - 1))).map (signal .cos1 n x)) k = spectrum .cos1 n (redft00 n x) k := by
  obtain ⟨N, rfl⟩ : ∃ N, n = N + 1 := ⟨n - 1, by omega⟩
  rw [Nat.add_sub_cancel] at *
  have hN : 0 < N := by omega
  have hn' : (N : ℝ) ≠ 0 := by exact_mod_cast hN.ne'
  have h1 : r2c ((List.range (4 * N)).map (signal .cos1 (N + 1) x)) k = (redft00 (N + 1) x k : ℝ) := by
    rw [r2c_map, show 4 * N = 2 * (2 * N) by ring, sum_pairs]
    have : ∀ j ∈ range (2 * N), ((signal .cos1 (N + 1) x (2 * j) : ℝ) : ℂ) * root true (2 * (2 * N)) (2 * j * k) +
        (signal .cos1 (N + 1) x (2 * j + 1) : ℂ) * root true (2 * (2 * N)) ((2 * j + 1) * k) =
        ((if j < N then x j else x (2 * N - j) : ℝ) : ℂ) * root true (2 * (2 * N)) (2 * j * k) := by
      intro j hj
      rw [mem_range] at hj
      have s1 : signal .cos1 (N + 1) x (2 * j + 1) = 0 := by
        simp only [signal]
        rw [if_pos (by omega)]
      have s2 : signal .cos1 (N + 1) x (2 * j) = if j < N then x j else x (2 * N - j) := by
        simp only [signal]
        rw [if_neg (by omega), show 2 * j / 2 = j by omega, show (4 * (N + 1 - 1) - 2 * j) / 2 = 2 * N - j by omega]
        by_cases h : j < N
        · rw [if_pos (show 2 * j < 2 * (N + 1 - 1) by omega), if_pos h]
        · rw [if_neg (show ¬ 2 * j < 2 * (N + 1 - 1) by omega), if_neg h]
      rw [s1, s2]
      simp
    rw [sum_congr rfl this, sum_first _ hN]
    unfold redft00
    rw [show N + 1 - 2 = N - 1 by omega, show N + 1 - 1 = N by omega]
    rw [if_pos hN, if_neg (by omega), show 2 * N - N = N by omega]
    have e1 : root true (2 * (2 * N)) (2 * 0 * k) = 1 := by simp [root_zero]
    have e2 : root true (2 * (2 * N)) (2 * N * k) = (((-1) ^ k : ℝ) : ℂ) := by
      rw [(root_trig _ _).1]
      have : 2 * Real.pi * ((2 * N * k : Nat) : ℝ) / ((2 * (2 * N) : Nat) : ℝ) = k * Real.pi := by
        push_cast; field_simp
      rw [this, cos_whole]
      apply Complex.ext
      · simp only [Complex.ofReal_re]
      · rw [Complex.ofReal_im, Real.sin_nat_mul_pi]; simp
    rw [e1, e2]
    have e3 : ∑ j ∈ range (N - 1), (((if j + 1 < N then x (j + 1) else x (2 * N - (j + 1)) : ℝ) : ℂ) * root true (2 * (2 * N)) (2 * (j + 1) * k) +
        ((if 2 * N - (j + 1) < N then x (2 * N - (j + 1)) else x (2 * N - (2 * N - (j + 1))) : ℝ) : ℂ) *
          root true (2 * (2 * N)) (2 * (2 * N - (j + 1)) * k)) =
        ((2 * ∑ j ∈ range (N - 1), x (j + 1) * Real.cos (Real.pi * (j + 1) * k / N) : ℝ) : ℂ) := by
      rw [Finset.mul_sum, Complex.ofReal_sum]
      refine sum_congr rfl fun j hj => ?_
      rw [mem_range] at hj
      rw [if_pos (by omega), if_neg (by omega), show 2 * N - (2 * N - (j + 1)) = j + 1 by omega,
        show 2 * (2 * N - (j + 1)) = 2 * (2 * N) - 2 * (j + 1) by omega, pair_even (by omega) (by omega)]
      congr 4
      push_cast
      field_simp
    rw [e3]
    push_cast
    ring
  rw [h1]
  simp only [spectrum]
  by_cases h : k < N + 1
  · rw [if_pos h]; rfl
  · rw [if_neg h, show N + 1 - 1 = N by omega]
    have : redft00 (N + 1) x k = redft00 (N + 1) x (2 * N - k) := by
      unfold redft00
      rw [show N + 1 - 1 = N by omega]
      congr 2
      · congr 1
        have : (-1 : ℝ) ^ (2 * N - k) * (-1) ^ k = 1 := by rw [← pow_add, Nat.sub_add_cancel hk, pow_mul]; simp
        have h2 : (-1 : ℝ) ^ k * (-1) ^ k = 1 := by rw [← pow_add, ← two_mul, pow_mul]; simp
        have h3 : (-1 : ℝ) ^ k ≠ 0 := by positivity
        exact (mul_right_cancel₀ h3 (this.trans h2.symm)).symm
      · refine sum_congr rfl fun j _ => ?_
        congr 1
        have := cos_full (j + 1) (Real.pi * (j + 1) * ((2 * N - k : Nat) : ℝ) / N)
        rw [← this]
        congr 1
        rw [Nat.cast_sub (by omega)]
        push_cast
        field_simp
        ring
    rw [this]; rfl

/-! ## All three -/

/-- The half spectrum of the long signal. -/
theorem r2c_signal (z : Trig) {n : Nat} (hn : z.least ≤ n) (x : Nat → ℝ) {k : Nat} (hk : k ≤ z.gain n / 2) :
    r2c ((List.range (z.gain n)).map (signal z n x)) k = spectrum z n (trigOf z true n x) k := by
  cases z with
  | cos => exact r2c_cos hn x (by simp only [Trig.gain] at hk; omega)
  | sin => exact r2c_sin hn x (by simp only [Trig.gain] at hk; omega)
  | cos1 => exact r2c_cos1 hn x (by simp only [Trig.gain] at hk; omega)

/-- The backward transform of the half spectrum. -/
theorem c2r_spectrum (z : Trig) {n : Nat} (hn : z.least ≤ n) (y : Nat → ℝ) (j : Nat) :
    c2r (z.gain n) ((List.range (z.gain n / 2 + 1)).map (spectrum z n y)) (z.pick j) = trigOf z false n y j := by
  cases z with
  | cos => rw [show Trig.gain .cos n / 2 = 2 * n by simp only [Trig.gain]; omega]; exact c2r_cos hn y j
  | sin => rw [show Trig.gain .sin n / 2 = 2 * n by simp only [Trig.gain]; omega]; exact c2r_sin hn y j
  | cos1 => rw [show Trig.gain .cos1 n / 2 = 2 * (n - 1) by simp only [Trig.gain]; omega]; exact c2r_cos1 hn y j

theorem signal_pick (z : Trig) {n j : Nat} (hj : j < n) (x : Nat → ℝ) : signal z n x (z.pick j) = x j := by
  cases z with
  | cos =>
    show signal .cos n x (2 * j + 1) = x j
    simp only [signal]
    rw [if_neg (show ¬ (2 * j + 1) % 2 = 0 by omega), if_pos (show 2 * j + 1 < 2 * n by omega)]; congr 1; omega
  | sin =>
    show signal .sin n x (2 * j + 1) = x j
    simp only [signal]
    rw [if_neg (show ¬ (2 * j + 1) % 2 = 0 by omega), if_pos (show 2 * j + 1 < 2 * n by omega)]; congr 1; omega
  | cos1 =>
    show signal .cos1 n x (2 * j) = x j
    simp only [signal]
    rw [if_neg (show ¬ 2 * j % 2 = 1 by omega)]
    split <;> (congr 1; omega)

theorem pick_lt (z : Trig) {n j : Nat} (hn : z.least ≤ n) (hj : j < n) : z.pick j < z.gain n := by
  cases z <;> simp only [Trig.pick, Trig.gain, Trig.least] at * <;> omega

/-- The backward transform inverts the forward transform up to a factor. -/
theorem trig_inv (z : Trig) {n j : Nat} (hn : z.least ≤ n) (hj : j < n) (x : Nat → ℝ) :
    trigOf z false n (trigOf z true n x) j = z.gain n * x j := by
  rw [← c2r_spectrum z hn]
  have : (List.range (z.gain n / 2 + 1)).map (spectrum z n (trigOf z true n x)) =
      (List.range (z.gain n / 2 + 1)).map (r2c ((List.range (z.gain n)).map (signal z n x))) := by
    refine List.map_congr_left fun k hk => ?_
    rw [List.mem_range] at hk
    rw [r2c_signal z hn x (by omega)]
  rw [this]
  have hl : ((List.range (z.gain n)).map (signal z n x)).length = z.gain n := by simp
  have := c2r_r2c (v := (List.range (z.gain n)).map (signal z n x)) (j := z.pick j) (by rw [hl]; exact pick_lt z hn hj)
  rw [hl] at this
  rw [this, getD_range_map _ _ (pick_lt z hn hj), signal_pick z hj]

end Verif
