import Verif.Accuracy
import Verif.Props.Stock

/-!
# Property C76: the rounding errors of the stock FFT
-/

namespace Verif
open Stock Finset

/-! ## C76 -/

/-- The lengths: no prime factor is above `q`, and the factor search does not fail on the square of a prime. -/
theorem reach_of_smooth {N q : Nat} (hq : q ≤ 100000) (hf : ∀ p, p.Prime → p ∣ N → p ≤ q) (hs : ∀ p, p.Prime → 1213 < p → ¬ p * p ∣ N) :
    ∀ p, p.Prime → 1213 < p → ¬ Reach N (p * p) := by
  intro p hp hl h
  cases h with
  | dvd h => exact hs p hp hl h
  | rader hp' h1 h2 h3 =>
    have := hf _ hp' h2
    omega

theorem norm_sum {A : Arith} (v : List (Flt A)) : (v.map fun x => ‖x.val‖).sum = ∑ j ∈ range v.length, ‖(v.getD j 0).val‖ := by
  induction v with
  | nil => rfl
  | cons a v ih =>
    rw [List.map_cons, List.sum_cons, List.length_cons, sum_range_succ', ih, add_comm]
    rfl

theorem accuracy_of_tree (A : Arith) {N : Nat} (hN : 1 ≤ N) (hfac : ∀ p, p.Prime → 1213 < p → ¬ Reach N (p * p)) {g c : ℝ}
    (hg : (initTree N).gain = g) (hc : (initTree N).cost omCost ≤ c) (fwd : Bool) (v : List (Flt A)) (hv : v.length = N) (out0 : Arr (Flt A)) (W : Nat → Arr (Flt A)) :
    ∃ r, stockFFT (fltTw A) N fwd v out0 W = .ok r ∧ r.length = N ∧ ∀ k < N,
      ‖(r.getD k 0).val - dft fwd (v.map Flt.val) k‖ ≤ (Real.exp (c * A.u) - 1) * (g * (v.map fun x => ‖x.val‖).sum) := by
  have hgood := good_initTree N hN hfac
  refine ⟨_, stockFFT_tree (fltTw A) hN fwd v hv out0 W, by rw [List.length_map, List.length_range], fun k hk => ?_⟩
  have h := (tree_error A hgood 0 fwd (fun n => v.getD n 0) 0 1 out0 0 1 (by omega) W).1 k (by rw [tree_sz]; exact hk)
  rw [tree_sz] at h
  simp only [zero_add, mul_one] at h
  have e1 : ((List.range N).map ((initTree N).fft (fltTw A) 0 fwd (fun n => v.getD n 0) 0 1 out0 0 1 W).1).getD k 0 =
      ((initTree N).fft (fltTw A) 0 fwd (fun n => v.getD n 0) 0 1 out0 0 1 W).1 k := by
    rw [List.getD_eq_getElem?_getD, List.getElem?_map, List.getElem?_range hk]
    rfl
  have e2 : dft fwd (v.map Flt.val) k = ∑ j ∈ range N, (v.getD j 0).val * complexTw.om fwd 1 N ^ (j * k) := by
    unfold dft
    rw [List.length_map, hv]
    refine sum_congr rfl fun n hn => ?_
    rw [om_eq_root, root_pow, one_mul]
    congr 1
    rw [List.getD_eq_getElem?_getD, List.getD_eq_getElem?_getD, List.getElem?_map]
    have : n < v.length := by rw [hv]; exact mem_range.1 hn
    rw [List.getElem?_eq_getElem this]
    rfl
  have e3 : (v.map fun x => ‖x.val‖).sum = ∑ j ∈ range N, ‖(v.getD j 0).val‖ := by
    rw [← hv, norm_sum]
  rw [e1, e2, e3]
  refine h.trans ?_
  rw [hg]
  have hg1 := Tree.one_le_gain _ hgood
  rw [hg] at hg1
  have hsum : 0 ≤ ∑ j ∈ range N, ‖(v.getD j 0).val‖ := sum_nonneg fun _ _ => norm_nonneg _
  refine mul_le_mul_of_nonneg_right ?_ (by positivity)
  have := Real.exp_le_exp.2 (mul_le_mul_of_nonneg_right hc A.u_nonneg)
  linarith

/-- **C76.**  The transform of the stock backend in floating point arithmetic.  For every length whose prime factors are at most
`q ≤ 100000`, both directions, every input, every arithmetic with the unit roundoff `u` and whatever the work memory holds, every
output differs from the exact discrete Fourier transform of the input by at most `exp(60 q (N - 1) u) - 1` times the sum of the sizes
of the entries of the input.  For a power of 2 the factor is `exp(120 (N - 1) u) - 1`. -/
theorem C76_error_bound (A : Arith) {N q : Nat} (hN : 1 ≤ N) (hq2 : 2 ≤ q) (hq : q ≤ 100000) (hf : ∀ p, p.Prime → p ∣ N → p ≤ q)
    (hs : ∀ p, p.Prime → 1213 < p → ¬ p * p ∣ N) (fwd : Bool) (v : List (Flt A)) (hv : v.length = N) (out0 : Arr (Flt A)) (W : Nat → Arr (Flt A)) :
    ∃ r, stockFFT (fltTw A) N fwd v out0 W = .ok r ∧ r.length = N ∧ ∀ k < N,
      ‖(r.getD k 0).val - dft fwd (v.map Flt.val) k‖ ≤ (Real.exp (60 * q * (N - 1) * A.u) - 1) * (v.map fun x => ‖x.val‖).sum := by
  obtain ⟨g, c⟩ := tree_cost hq2 hq N hN hf hs
  have := accuracy_of_tree A hN (reach_of_smooth hq hf hs) g c fwd v hv out0 W
  simpa only [one_mul] using this

/-- **C76** as a linear bound, as long as `60 q (N - 1) u` is at most 1. -/
theorem C76_linear (A : Arith) {N q : Nat} (hN : 1 ≤ N) (hq2 : 2 ≤ q) (hq : q ≤ 100000) (hf : ∀ p, p.Prime → p ∣ N → p ≤ q)
    (hs : ∀ p, p.Prime → 1213 < p → ¬ p * p ∣ N) (hu : 60 * q * (N - 1) * A.u ≤ 1) (fwd : Bool) (v : List (Flt A)) (hv : v.length = N)
    (out0 : Arr (Flt A)) (W : Nat → Arr (Flt A)) :
    ∃ r, stockFFT (fltTw A) N fwd v out0 W = .ok r ∧ r.length = N ∧ ∀ k < N,
      ‖(r.getD k 0).val - dft fwd (v.map Flt.val) k‖ ≤ 120 * q * (N - 1) * A.u * (v.map fun x => ‖x.val‖).sum := by
  obtain ⟨r, h1, h2, h3⟩ := C76_error_bound A hN hq2 hq hf hs fwd v hv out0 W
  refine ⟨r, h1, h2, fun k hk => (h3 k hk).trans ?_⟩
  have hN' : (1 : ℝ) ≤ N := by exact_mod_cast hN
  have hx : 0 ≤ 60 * (q : ℝ) * (N - 1) * A.u := mul_nonneg (mul_nonneg (by positivity) (by linarith)) A.u_nonneg
  set x := 60 * (q : ℝ) * (N - 1) * A.u with hxd
  have he := (abs_le.1 (Real.abs_exp_sub_one_sub_id_le (x := x) (by rw [abs_of_nonneg hx]; exact hu))).2
  refine mul_le_mul_of_nonneg_right ?_ ?_
  · have : 120 * (q : ℝ) * (N - 1) * A.u = 2 * x := by rw [hxd]; ring
    rw [this]
    nlinarith
  · rw [norm_sum]
    exact sum_nonneg fun _ _ => norm_nonneg _

/-- **C76** for the primes above 100000, where Rader's algorithm transforms twice with the length `N - 1`. -/
theorem C76_error_prime (A : Arith) {N q : Nat} (hp : N.Prime) (hl : 100000 < N) (hq2 : 2 ≤ q) (hq : q ≤ 100000) (hf : ∀ p, p.Prime → p ∣ N - 1 → p ≤ q)
    (hs : ∀ p, p.Prime → 1213 < p → ¬ p * p ∣ N - 1) (fwd : Bool) (v : List (Flt A)) (hv : v.length = N) (out0 : Arr (Flt A)) (W : Nat → Arr (Flt A)) :
    ∃ r, stockFFT (fltTw A) N fwd v out0 W = .ok r ∧ r.length = N ∧ ∀ k < N,
      ‖(r.getD k 0).val - dft fwd (v.map Flt.val) k‖ ≤ (Real.exp ((120 * q + 90) * N * A.u) - 1) * ((N - 1) * (v.map fun x => ‖x.val‖).sum) := by
  obtain ⟨g, c⟩ := tree_cost_prime hq2 hq hp hl hf hs
  refine accuracy_of_tree A hp.one_lt.le (fun p hpp hpl h => ?_) g c fwd v hv out0 W
  cases h with
  | dvd h =>
    rcases hp.eq_one_or_self_of_dvd _ h with h | h
    · nlinarith
    · exact (Nat.not_prime_mul (by omega) (by omega)) (h ▸ hp)
  | rader hp' h1 h2 h3 =>
    have e := (Nat.prime_dvd_prime_iff_eq hp' hp).1 h2
    rw [e] at h3
    exact reach_of_smooth hq hf hs p hpp hpl h3

/-- **C76**, the values: in every arithmetic, also one that is not even rounded like IEEE numbers, the output depends only on the
length, the direction and the input, not on what the output and the work memory held before. -/
theorem C76_any_memory {K : Type} [Zero K] [One K] [Add K] [Sub K] [Mul K] [Neg K] [Div K] [NatCast K] (tw : Tw K) {N : Nat} (hN : 1 ≤ N)
    (hfac : ∀ p, p.Prime → 1213 < p → ¬ Reach N (p * p)) (fwd : Bool) (v : List K) (hv : v.length = N) (out0 out1 : Arr K) (W W' : Nat → Arr K) :
    stockFFT tw N fwd v out0 W = stockFFT tw N fwd v out1 W' := by
  rw [stockFFT_tree tw hN fwd v hv, stockFFT_tree tw hN fwd v hv]
  congr 1
  refine List.map_congr_left fun k hk => ?_
  rw [List.mem_range] at hk
  have := tree_det tw (good_initTree N hN hfac) 0 fwd (fun n => v.getD n 0) (fun n => v.getD n 0) 0 1 (fun _ _ => rfl) out0 out1 0 1 (by omega) W W' k
    (by rw [tree_sz]; exact hk)
  simpa using this

/-- The growth of the error with the square of a prime length is real: the powers of the twiddle factor in `DFT_helper` come from
`2 N (N - 2)` products one after the other.  For every unit roundoff there are an arithmetic and an input such that the error is
`2 N (N - 2) + 3` units of roundoff. -/
theorem C76_growth {N : Nat} (hp : N.Prime) (h5 : 5 ≤ N) (hN : N ≤ 100000) {u : ℝ} (h0 : 0 ≤ u) (h1 : u ≤ 1 / 8) (fwd : Bool) :
    ∃ (A : Arith) (v : List (Flt A)), A.u = u ∧ v.length = N ∧ ∀ out0 W, ∃ r, stockFFT (fltTw A) N fwd v out0 W = .ok r ∧ ∃ k < N,
      (2 * N * (N - 2) + 3) * u * (v.map fun x => ‖x.val‖).sum ≤ ‖(r.getD k 0).val - dft fwd (v.map Flt.val) k‖ := by
  obtain ⟨M, rfl⟩ : ∃ M, N = M + 2 := ⟨N - 2, by omega⟩
  set A := awayArith u h0 h1 with hA
  set v : List (Flt A) := (List.range (M + 2)).map fun n => if n = M + 1 then Flt.mk 1 0 else Flt.mk 0 0 with hv
  have hlen : v.length = M + 2 := by rw [hv, List.length_map, List.length_range]
  have hget : ∀ n < M + 2, v.getD n 0 = if n = M + 1 then Flt.mk 1 0 else Flt.mk 0 0 := by
    intro n hn
    rw [hv, List.getD_eq_getElem?_getD, List.getElem?_map, List.getElem?_range hn]
    rfl
  have hone : (Flt.mk 1 0 : Flt A).val = 1 := by
    apply Complex.ext <;> simp [Flt.mk, Flt.val]
  have hzero : (Flt.mk 0 0 : Flt A).val = 0 := by
    apply Complex.ext <;> simp [Flt.mk, Flt.val]
  have hsum : (v.map fun x => ‖x.val‖).sum = 1 := by
    rw [norm_sum, hlen, sum_range_succ, hget (M + 1) (by omega), if_pos rfl, hone, norm_one]
    rw [sum_eq_zero fun n hn => ?_, zero_add]
    rw [mem_range] at hn
    rw [hget n (by omega), if_neg (by omega), hzero, norm_zero]
  have htree : initTree (M + 2) = .leaf .discrete (M + 2) := tree_prime hp h5 hN
  refine ⟨A, v, rfl, hlen, fun out0 W => ⟨_, stockFFT_tree (fltTw A) (by omega) fwd v hlen out0 W, M + 1, by omega, ?_⟩⟩
  rw [hsum, mul_one]
  have hr : (((List.range (M + 2)).map ((initTree (M + 2)).fft (fltTw A) 0 fwd (fun n => v.getD n 0) 0 1 out0 0 1 W).1).getD (M + 1) 0).val =
      (dftHelper (fltTw A) fwd (M + 2) (fun n => v.getD n 0) 0 1 out0 0 1 (M + 1)).val := by
    rw [List.getD_eq_getElem?_getD, List.getElem?_map, List.getElem?_range (by omega), htree]
    rfl
  have hn := away_dft (u := u) (h0 := h0) (h1 := h1) fwd M (fun n => v.getD n 0) out0
    (fun n hn => by rw [hget n (by omega), if_neg (by omega), hzero]) (by rw [hget _ (by omega), if_pos rfl, hone])
  rw [hr]
  have hd : ‖dft fwd (v.map Flt.val) (M + 1)‖ = 1 := by
    unfold dft
    rw [List.length_map, hlen, sum_range_succ]
    have hm : ∀ n < M + 2, (v.map Flt.val).getD n 0 = if n = M + 1 then 1 else 0 := by
      intro n hn
      have := hget n hn
      rw [List.getD_eq_getElem?_getD] at this ⊢
      rw [List.getElem?_map]
      rw [List.getElem?_eq_getElem (by rw [hlen]; exact hn)] at this ⊢
      simp only [Option.getD_some, Option.map_some] at this ⊢
      rw [this]
      split
      · exact hone
      · exact hzero
    rw [sum_eq_zero fun n hn => ?_, zero_add, hm _ (by omega), if_pos rfl, one_mul]
    · rw [← one_mul (_ * _), ← root_pow, norm_pow, ← om_eq_root, norm_om, one_pow]
    · rw [mem_range] at hn
      rw [hm n (by omega), if_neg (by omega), zero_mul]
  have h3 := norm_sub_norm_le (dftHelper (fltTw A) fwd (M + 2) (fun n => v.getD n 0) 0 1 out0 0 1 (M + 1)).val (dft fwd (v.map Flt.val) (M + 1))
  rw [hd, hn] at h3
  have h4 := one_add_mul_le_pow (a := u) (by linarith) (2 * M * (M + 2) + 3)
  push_cast at h4 ⊢
  nlinarith

/-- `double` without contractions. -/
noncomputable def exDouble : Arith := binary 53 (by norm_num) (by norm_num) none

/-- A transform of the length `2 ^ 20` in `double`: the error is below `2⁻²⁵` of the sum of the sizes. -/
example (v : List (Flt exDouble)) (hv : v.length = 2 ^ 20) (out0 : Arr (Flt exDouble)) (W : Nat → Arr (Flt exDouble)) :
    ∃ r, stockFFT (fltTw exDouble) (2 ^ 20) true v out0 W = .ok r ∧ r.length = 2 ^ 20 ∧ ∀ k < 2 ^ 20,
      ‖(r.getD k 0).val - dft true (v.map Flt.val) k‖ ≤ (1 / 2) ^ 25 * (v.map fun x => ‖x.val‖).sum := by
  have hu : exDouble.u = (1 / 2) ^ 53 := rfl
  have hf : ∀ p, Nat.Prime p → p ∣ 2 ^ 20 → p = 2 := fun p hp hd => (Nat.prime_dvd_prime_iff_eq hp Nat.prime_two).1 (hp.dvd_of_dvd_pow hd)
  obtain ⟨r, h1, h2, h3⟩ := C76_linear exDouble (N := 2 ^ 20) (q := 2) (by norm_num) le_rfl (by norm_num)
    (fun p hp hd => (hf p hp hd).le) (fun p hp hl hd => by have := hf p hp ((dvd_mul_right p p).trans hd); omega)
    (by rw [hu]; norm_num) true v hv out0 W
  refine ⟨r, h1, h2, fun k hk => (h3 k hk).trans (mul_le_mul_of_nonneg_right ?_ ?_)⟩
  · rw [hu]; norm_num
  · rw [norm_sum]
    exact sum_nonneg fun _ _ => norm_nonneg _

/-- Without rounding the bound is zero and the result is exact, as in C34. -/
example (v : List (Flt exactArith)) (hv : v.length = 30) (out0 : Arr (Flt exactArith)) (W : Nat → Arr (Flt exactArith)) :
    ∃ r, stockFFT (fltTw exactArith) 30 false v out0 W = .ok r ∧ r.length = 30 ∧ ∀ k < 30, (r.getD k 0).val = dft false (v.map Flt.val) k := by
  obtain ⟨r, h1, h2, h3⟩ := C76_error_bound exactArith (N := 30) (q := 30) (by norm_num) (by norm_num) (by norm_num)
    (fun p _ hd => Nat.le_of_dvd (by norm_num) hd) (fun p _ hl hd => by have := Nat.le_of_dvd (by norm_num) hd; nlinarith) false v hv out0 W
  refine ⟨r, h1, h2, fun k hk => ?_⟩
  have := h3 k hk
  have hu : exactArith.u = 0 := rfl
  rw [hu, mul_zero, Real.exp_zero, sub_self, zero_mul] at this
  exact sub_eq_zero.1 (norm_le_zero_iff.1 this)

/-- Rader's algorithm: 100003 is the first prime above the bound, `100002 = 2 · 3 · 7 · 2381`. -/
example (A : Arith) (v : List (Flt A)) (hv : v.length = 100003) (out0 : Arr (Flt A)) (W : Nat → Arr (Flt A)) :
    ∃ r, stockFFT (fltTw A) 100003 true v out0 W = .ok r := by
  have hfac : ∀ p, Nat.Prime p → p ∣ 100002 → p = 2 ∨ p = 3 ∨ p = 7 ∨ p = 2381 := by
    intro p hp hd
    rw [show 100002 = 2 * 3 * 7 * 2381 by norm_num] at hd
    rcases (Nat.Prime.dvd_mul hp).1 hd with hd | hd
    · rcases (Nat.Prime.dvd_mul hp).1 hd with hd | hd
      · rcases (Nat.Prime.dvd_mul hp).1 hd with hd | hd
        · exact Or.inl ((Nat.prime_dvd_prime_iff_eq hp Nat.prime_two).1 hd)
        · exact Or.inr (Or.inl ((Nat.prime_dvd_prime_iff_eq hp Nat.prime_three).1 hd))
      · exact Or.inr (Or.inr (Or.inl ((Nat.prime_dvd_prime_iff_eq hp (by norm_num)).1 hd)))
    · exact Or.inr (Or.inr (Or.inr ((Nat.prime_dvd_prime_iff_eq hp (by norm_num)).1 hd)))
  obtain ⟨r, h1, -⟩ := C76_error_prime A (N := 100003) (q := 2381) (by norm_num) (by norm_num) (by norm_num) (by norm_num)
    (fun p hp hd => by rcases hfac p hp hd with h | h | h | h <;> omega)
    (fun p hp hl hd => by
      rcases hfac p hp ((dvd_mul_right p p).trans hd) with h | h | h | h <;> subst h <;> revert hd <;> norm_num)
    true v hv out0 W
  exact ⟨r, h1⟩

/-- The growth for a length that the direct sum handles. -/
example : ∃ (A : Arith) (v : List (Flt A)), A.u = (1 / 2) ^ 24 ∧ v.length = 9973 ∧ ∀ out0 W, ∃ r, stockFFT (fltTw A) 9973 true v out0 W = .ok r ∧ ∃ k < 9973,
    (2 * (9973 : Nat) * ((9973 : Nat) - 2) + 3) * (1 / 2) ^ 24 * (v.map fun x => ‖x.val‖).sum ≤ ‖(r.getD k 0).val - dft true (v.map Flt.val) k‖ :=
  C76_growth (by norm_num) (by norm_num) (by norm_num) (by positivity) (by norm_num) true

end Verif
