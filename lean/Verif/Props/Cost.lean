import Verif.CostBounds
import Mathlib.Tactic.NormNum.Prime

/-!
# Properties of the work of a stock transform (C91)

A fast Fourier transform needs of the order of `N log N` operations.  The operations are those of complex numbers (`Price.ops`) and the evaluations
of a sine and a cosine (`Price.trigs`); `Cost.lean` says which are counted.  The bounds are in terms of the prime factors of the length only.
-/

namespace Verif
open Stock
variable {K : Type} [Field K] (tw : Tw K) {N : Nat} {dir : Bool} {v : List K} {out0 : Arr K} {W : Nat → Arr K} {t : Tick (List K)}

/-- A run of the counted transform has the result of the transform, for any prices. -/
theorem C91_same_program (c : Price) (hN : 0 < N) (hv : v.length = N) :
    ∃ t, stockFFTT tw c N dir v out0 W = .ok t ∧ stockFFT tw N dir v out0 W = .ok t.val := by
  obtain ⟨t, h1, h2, -⟩ := stockT_eq tw c hN dir v hv out0 W
  exact ⟨t, h1, h2⟩

theorem run_cost {c : Price} (hN : 0 < N) (h : stockFFTT tw c N dir v out0 W = .ok t) : t.cost = (initTree N).price c := by
  by_cases hv : v.length = N
  · obtain ⟨t', h1, -, h3⟩ := stockT_eq tw c hN dir v hv out0 W
    rw [h1] at h
    cases h
    exact h3
  · unfold stockFFTT at h
    rw [stockPlan_eq hN] at h
    simp only [bind, Except.bind] at h
    rw [if_pos (by simpa using hv)] at h
    cases h

/-- **C91.** The work depends on the length only: not on the numbers, the direction, the twiddle factors or what was in the memory before. -/
theorem C91_data_independent {c : Price} {L : Type} [Field L] (tw' : Tw L) {dir' : Bool} {v' : List L} {out0' : Arr L} {W' : Nat → Arr L} {t' : Tick (List L)}
    (hN : 0 < N) (h : stockFFTT tw c N dir v out0 W = .ok t) (h' : stockFFTT tw' c N dir' v' out0' W' = .ok t') : t.cost = t'.cost := by
  rw [run_cost tw hN h, run_cost tw' hN h']

/-- **C91.** A length from 2 whose prime factors are at most 100000 and not divisible by the square of a prime above 1213: with `S` the sum and
`Ω` the number of the prime factors, repeated ones repeated, at most `3 N (S - 1)` operations and `N (2 Ω - 1)` evaluations. -/
theorem C91_bound_partial (hN : 2 ≤ N) (hp : ∀ p, p.Prime → p ∣ N → p ≤ 100000) (hq : ∀ q, q.Prime → 1213 < q → ¬ q * q ∣ N) :
    (stockFFTT tw .ops N dir v out0 W = .ok t → t.cost ≤ 3 * N * (N.primeFactorsList.sum - 1)) ∧
    (stockFFTT tw .trigs N dir v out0 W = .ok t → t.cost ≤ N * (2 * N.primeFactorsList.length - 1)) := by
  obtain ⟨h1, h2⟩ := price_le N hN hp hq
  refine ⟨fun h => ?_, fun h => ?_⟩ <;> rw [run_cost tw (by omega) h]
  · rw [Nat.mul_sub]; omega
  · rw [Nat.mul_sub, ← Nat.mul_assoc, Nat.mul_comm N 2]; omega

/-- **C91.** Lengths whose prime factors are at most `P ≤ 1213`: `3 P N log₂ N` operations and `2 N log₂ N` evaluations are enough. -/
theorem C91_nlogn_partial {P : Nat} (hN : 0 < N) (hP : P ≤ 1213) (hp : ∀ p, p.Prime → p ∣ N → p ≤ P) :
    (stockFFTT tw .ops N dir v out0 W = .ok t → t.cost ≤ 3 * P * (N * Nat.log 2 N)) ∧
    (stockFFTT tw .trigs N dir v out0 W = .ok t → t.cost ≤ 2 * (N * Nat.log 2 N)) := by
  rcases Nat.lt_or_ge N 2 with h2 | h2
  · obtain rfl : N = 1 := by omega
    have h0 : ∀ c, (initTree 1).price c = 0 := by
      intro c
      unfold initTree
      split
      · rename_i k h
        have := helper_composite h
        omega
      · rename_i k h
        have := (helper_rader h).1
        omega
      · rename_i t k hc hr h'
        have np : ∀ b, 1 < b → ∀ e, 1 ≠ b ^ (e + 1) := fun b hb e he => by
          have := Nat.one_lt_pow (n := e + 1) (by omega) hb
          omega
        unfold fptrFactorHelper at h'
        dsimp only at h'
        split_ifs at h' with h0 h4 h2 h3 g4 g2 g3 hk <;> simp only [Prod.mk.injEq] at h' <;> obtain ⟨rfl, rfl⟩ := h'
        · omega
        · obtain ⟨e, he⟩ := (powerOf_iff (by omega) (by omega)).1 h4
          exact absurd he (np 4 (by omega) e)
        · obtain ⟨e, he⟩ := (powerOf_iff (by omega) (by omega)).1 h2
          exact absurd he (np 2 (by omega) e)
        · obtain ⟨e, he⟩ := (powerOf_iff (by omega) (by omega)).1 h3
          exact absurd he (np 3 (by omega) e)
        all_goals first | exact (hc rfl).elim | exact (hr rfl).elim | skip
        all_goals rfl
    exact ⟨fun h => by rw [run_cost tw hN h, h0]; exact Nat.zero_le _, fun h => by rw [run_cost tw hN h, h0]; exact Nat.zero_le _⟩
  · obtain ⟨f1, f2⟩ := factors_log (by omega) hp
    obtain ⟨h1, h2⟩ := price_le N h2 (fun p pp hd => (hp p pp hd).trans (by omega)) fun q qp ql hd => by
      have := hp q qp (dvd_of_mul_right_dvd hd)
      omega
    refine ⟨fun h => ?_, fun h => ?_⟩ <;> rw [run_cost tw (by omega) h]
    · have := Nat.mul_le_mul_left (3 * N) f1
      nlinarith
    · have := Nat.mul_le_mul_left (2 * N) f2
      nlinarith

/-! ## Exact amounts -/

theorem pow4_exact : ∀ e, pow4Price .ops (4 ^ (e + 1)) = (31 * e + 9) * 4 ^ e + 5
  | 0 => by rw [pow4Price_base]; decide
  | e + 1 => by
    rw [pow4Price_step, pow4_exact e]
    show 4 * ((31 * e + 9) * 4 ^ e + 5) + 0 + 16 * 1 + (4 ^ (e + 1) - 1) * (31 * 1) = (31 * (e + 1) + 9) * 4 ^ (e + 1) + 5
    have h1 : 1 ≤ 4 ^ (e + 1) := Nat.one_le_pow _ _ (by omega)
    rw [Nat.sub_mul]
    have h2 : 4 ^ (e + 1) = 4 * 4 ^ e := by rw [pow_succ]; ring
    rw [h2] at h1 ⊢
    have h3 : 1 * (31 * 1) ≤ 4 * 4 ^ e * (31 * 1) := Nat.mul_le_mul_right _ h1
    zify [h3]
    ring

theorem pow3_exact : ∀ e, 2 * pow3Price .ops (3 ^ (e + 1)) = (36 * e + 13) * 3 ^ e + 7
  | 0 => by rw [pow3Price_base]; decide
  | e + 1 => by
    have ih := pow3_exact e
    rw [pow3Price_step]
    show 2 * (3 * pow3Price .ops (3 ^ (e + 1)) + 0 + 11 * 1 + (3 ^ (e + 1) - 1) * (18 * 1)) = (36 * (e + 1) + 13) * 3 ^ (e + 1) + 7
    have h1 : 1 ≤ 3 ^ (e + 1) := Nat.one_le_pow _ _ (by omega)
    rw [Nat.sub_mul]
    have h2 : 3 ^ (e + 1) = 3 * 3 ^ e := by rw [pow_succ]; ring
    rw [h2] at h1 ih ⊢
    have h3 : 1 * (18 * 1) ≤ 3 * 3 ^ e * (18 * 1) := Nat.mul_le_mul_right _ h1
    zify [h3] at ih ⊢
    linear_combination 3 * ih

theorem pow2_exact : ∀ e, pow2Price .ops (2 ^ (e + 1)) + 2 ^ e = 5 * e * 2 ^ e + 3
  | 0 => by rw [pow2Price_base]; decide
  | e + 1 => by
    have ih := pow2_exact e
    rw [pow2Price_step]
    show 2 * pow2Price .ops (2 ^ (e + 1)) + 0 + 2 * 1 + (2 ^ (e + 1) - 1) * (5 * 1) + 2 ^ (e + 1) = 5 * (e + 1) * 2 ^ (e + 1) + 3
    have h1 : 1 ≤ 2 ^ (e + 1) := Nat.one_le_pow _ _ (by omega)
    rw [Nat.sub_mul]
    have h2 : 2 ^ (e + 1) = 2 * 2 ^ e := by rw [pow_succ]; ring
    rw [h2] at h1 ih ⊢
    have h3 : 1 * (5 * 1) ≤ 2 * 2 ^ e * (5 * 1) := Nat.mul_le_mul_right _ h1
    zify [h3] at ih ⊢
    linear_combination 2 * ih

/-- **C91.** The number of operations for a power of 4, with `N = 4 ^ k` it is `(31 k - 22) N / 4 + 5`. -/
theorem C91_exact_pow4 (e : Nat) (h : stockFFTT tw .ops (4 ^ (e + 1)) dir v out0 W = .ok t) : t.cost = (31 * e + 9) * 4 ^ e + 5 := by
  rw [run_cost tw (Nat.pow_pos (by omega)) h, ← pow4_exact]
  have h4 := (powerOf_iff (N := 4 ^ (e + 1)) (k := 4) (Nat.pow_pos (by omega)) (by omega)).2 ⟨e, rfl⟩
  have hh : fptrFactorHelper (4 ^ (e + 1)) = (.pow4, 4 ^ (e + 1)) := by
    unfold fptrFactorHelper
    have : 4 ≤ 4 ^ (e + 1) := by rw [pow_succ]; have := Nat.one_le_pow e 4 (by omega); omega
    rw [if_neg (by omega), if_pos h4]
  unfold initTree
  rw [hh]
  rfl

/-- **C91.** A prime from 5 to 100000 is summed directly: one evaluation and `(p - 1) (3 p - 1)` operations. -/
theorem C91_exact_prime {p : Nat} (hp : p.Prime) (h5 : 5 ≤ p) (h : p ≤ 100000) :
    (stockFFTT tw .ops p dir v out0 W = .ok t → t.cost = (p - 1) * (3 * p - 1)) ∧ (stockFFTT tw .trigs p dir v out0 W = .ok t → t.cost = 1) := by
  constructor <;> intro hr <;> rw [run_cost tw (by omega) hr, price_prime_small hp h5 h] <;> simp [Price.ops, Price.trigs]

/-! ## False in general -/

/-- **C91, false.** A prime above 100000 goes to Rader's algorithm, which evaluates a sine and a cosine `(p - 1)²` times: quadratic, and `p² - 2 p` more
evaluations than the direct sum needs. -/
theorem C91_false_rader {p : Nat} (hp : p.Prime) (h : 100000 < p) (hr : stockFFTT tw .trigs p dir v out0 W = .ok t) : (p - 1) * (p - 1) ≤ t.cost := by
  rw [run_cost tw (by omega) hr]
  exact price_prime_large hp h

/-- **C91, false.** No constant is enough: for every `C` there is a length above any bound such that every transform of that length makes more than `C N log₂ N` evaluations. -/
theorem C91_false_nlogn (C B : Nat) : ∃ N, B < N ∧ (∀ v : List K, v.length = N → ∃ t, stockFFTT tw .trigs N dir v out0 W = .ok t) ∧
    ∀ (v : List K) (t : Tick (List K)), stockFFTT tw .trigs N dir v out0 W = .ok t → C * (N * Nat.log 2 N) < t.cost := by
  obtain ⟨p, hp, hpr⟩ := Nat.exists_infinite_primes (B + 100001 + 2 ^ (8 * C + 5))
  have hpow : 0 < 2 ^ (8 * C + 5) := Nat.pow_pos (by omega)
  refine ⟨p, by omega, fun v hv => ?_, fun v t h => lt_of_lt_of_le ?_ (C91_false_rader tw hpr (by omega) h)⟩
  · obtain ⟨t, h1, -⟩ := stockT_eq tw .trigs (show 0 < p by omega) dir v hv out0 W
    exact ⟨t, h1⟩
  · have hL : 8 * C + 5 ≤ Nat.log 2 p := Nat.le_log_of_pow_le (by omega) (by omega)
    have h1 := sq_lt_two_pow (Nat.log 2 p) (by omega)
    have h2 := Nat.pow_log_le_self 2 (show p ≠ 0 by omega)
    generalize Nat.log 2 p = L at *
    have h3 : 8 * C * L ≤ L * L := Nat.mul_le_mul_right _ (by omega)
    have h4 : 8 * (C * L) < p := by nlinarith
    have hp' : 100001 ≤ p := by omega
    clear hp h1 h2 h3 hL hpow
    obtain ⟨m, rfl⟩ : ∃ m, p = m + 1 := ⟨p - 1, by omega⟩
    rw [Nat.add_sub_cancel]
    have : C * ((m + 1) * L) = (C * L) * (m + 1) := by ring
    rw [this]
    generalize C * L = z at *
    nlinarith

/-! ## Instances -/

/-- `1024 = 4 ^ 5`. -/
example (v : List K) (hv : v.length = 1024) : ∃ t, stockFFTT tw .ops 1024 dir v out0 W = .ok t ∧ t.cost = 34053 := by
  obtain ⟨t, h, -⟩ := C91_same_program tw .ops (dir := dir) (out0 := out0) (W := W) (by omega) hv
  exact ⟨t, h, C91_exact_pow4 tw 4 h⟩

/-- `1050 = 2 · 3 · 5² · 7`: the bounds of `C91_bound_partial`. -/
example (v : List K) (hv : v.length = 1050) : (∃ t, stockFFTT tw .ops 1050 dir v out0 W = .ok t ∧ t.cost ≤ 66150) ∧
    ∃ t, stockFFTT tw .trigs 1050 dir v out0 W = .ok t ∧ t.cost ≤ 9450 := by
  have hf : [2, 3, 5, 5, 7].Perm (Nat.primeFactorsList 1050) := Nat.primeFactorsList_unique (by decide) (by intro p hp; simp at hp; rcases hp with rfl | rfl | rfl | rfl <;> norm_num)
  have hp : ∀ p, p.Prime → p ∣ 1050 → p ≤ 7 := by
    intro p hp hd
    have : p ∈ Nat.primeFactorsList 1050 := (Nat.mem_primeFactorsList (by omega)).2 ⟨hp, hd⟩
    rw [← hf.mem_iff] at this
    simp at this
    omega
  have hq : ∀ q, q.Prime → 1213 < q → ¬ q * q ∣ 1050 := fun q qp ql hd => by have := hp q qp (dvd_of_mul_right_dvd hd); omega
  have key := fun t => C91_bound_partial tw (N := 1050) (dir := dir) (v := v) (out0 := out0) (W := W) (t := t) (by omega)
    (fun p pp hd => (hp p pp hd).trans (by omega)) hq
  rw [← hf.sum_eq, ← hf.length_eq] at key
  obtain ⟨t, h, -⟩ := C91_same_program tw .ops (dir := dir) (out0 := out0) (W := W) (by omega) hv
  obtain ⟨t', h', -⟩ := C91_same_program tw .trigs (dir := dir) (out0 := out0) (W := W) (by omega) hv
  exact ⟨⟨t, h, (key t).1 h⟩, t', h', (key t').2 h'⟩

example : Nat.Prime 7919 ∧ 5 ≤ 7919 ∧ 7919 ≤ 100000 := ⟨by norm_num, by omega, by omega⟩
example : Nat.Prime 100003 ∧ 100000 < 100003 := ⟨by norm_num, by omega⟩

end Verif
