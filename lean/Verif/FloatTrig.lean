import Verif.FloatCalls
import Verif.Props.R2R

/-!
# The sine and cosine transforms of the stock backend in floating point arithmetic

The executors of `R2R.lean` with the numbers of `FloatCalls.lean`.  The copies and the changes of sign are exact, all the roundings are those of
the Fourier transforms of the long lines and of the scaling.  The comparison is with the transforms of `SpecR2R.lean`.
-/

namespace Verif
open Stock Finset

/-! ## The calls -/

/-- `scale_factor` of `stock_cos`, `stock_sin` and `stock_cos1` in `double` (fft3d.h:577, 590, 643-648); the sizes minus one are integers that are
converted to `double`. -/
noncomputable def Stock.Arith.trigBase (A : Arith) (z : Trig) (count : Int) (sizes : A3 Int) : ℝ :=
  match z with
  | .cos1 => A.rndA (1 / A.rndA (A.rndA (A.rndA (64 * A.rndA (sizes.x - 1 : Int)) * A.rndA (sizes.y - 1 : Int)) * A.rndA (sizes.z - 1 : Int)))
  | .cos => A.rndA (A.rndA (1 / A.rndA count) / 64)
  | .sin => A.rndA (A.rndA (1 / A.rndA count) / 64)

/-- `get_scale_factor` (fft3d.h:545-547) of these. -/
noncomputable def Stock.Arith.trigFactor (A : Arith) (s : Scaling) (z : Trig) (count : Int) (sizes : A3 Int) : ℝ :=
  let f := A.trigBase z count sizes
  if s = .symmetric then A.rndA (Real.sqrt f) else f

/-- A call of a sine or cosine transform of the stock backend without AVX in floating point arithmetic, see `Object.call`; `ws` is what the workspaces
of the executors hold before. -/
noncomputable def floatTrig (A : Arith) (z : Trig) (ob : Object) (junk : Tag → Int × Int → Arr (Flt A) × (Nat → Arr (Flt A)))
    (inp : Tag → Int × Int → Arr (Flt A)) (ws : Tag → List ℝ) (W : World ℝ Unit) (fwd : Bool) (nb : Nat) (inplace : Nat → Bool) (s : Scaling)
    (mems : List (Mem ℝ Unit)) : Res (List (Mem ℝ Unit)) :=
  ob.call (trigKernel ((stockNumbers A).kernel junk inp) ws) (fun _ => A.times (A.trigFactor s z ob.plan.indexCount ob.plan.fftSizes)) (fun _ u => u)
    W .same fwd nb inplace s mems

/-! ## Real numbers that are near -/

section
variable {A : Arith} {q n : Nat} {fwd : Bool} {b τ x y : ℝ}

/-- A real value `x` near to `y`: `y` is at most `b`, and the error is that of `τ` roundings relative to `b`. -/
def Close (A : Arith) (b τ x y : ℝ) : Prop := 0 ≤ τ ∧ |y| ≤ b ∧ |x - y| ≤ (Real.exp (τ * A.u) - 1) * b

theorem Close.size (h : Close A b τ x y) : 0 ≤ b := (abs_nonneg _).trans h.2.1

theorem Close.self (x : ℝ) : Close A |x| 0 x x := ⟨le_rfl, le_rfl, by simp⟩

theorem Close.zero (hτ : 0 ≤ τ) : Close A 0 τ 0 0 := ⟨hτ, by simp, by simp⟩

theorem Close.neg (h : Close A b τ x y) : Close A b τ (-x) (-y) :=
  ⟨h.1, by rw [abs_neg]; exact h.2.1, by rw [show -x - -y = -(x - y) by ring, abs_neg]; exact h.2.2⟩

theorem Close.mono {b' τ' : ℝ} (h : Close A b τ x y) (hb : b ≤ b') (hτ : τ ≤ τ') : Close A b' τ' x y := by
  refine ⟨h.1.trans hτ, h.2.1.trans hb, h.2.2.trans ?_⟩
  have h1 : Real.exp (τ * A.u) ≤ Real.exp (τ' * A.u) := Real.exp_le_exp.2 (mul_le_mul_of_nonneg_right hτ A.u_nonneg)
  exact mul_le_mul (by linarith) hb h.size (A.exp_ge (h.1.trans hτ))

theorem Close.re (h : Close A b τ x y) : Near A b τ (Flt.mk x 0, (y : ℂ)) := by
  refine ⟨h.1, by simpa using h.2.1, ?_⟩
  have e : (Flt.mk x 0 : Flt A).val - (y : ℂ) = ((x - y : ℝ) : ℂ) := by apply Complex.ext <;> simp [Flt.mk, Flt.val]
  simp only
  rw [e, Complex.norm_real]
  exact h.2.2

theorem Close.im (h : Close A b τ x y) : Near A b τ (Flt.mk 0 x, (⟨0, y⟩ : ℂ)) := by
  have e1 : (⟨0, y⟩ : ℂ) = (y : ℂ) * Complex.I := by apply Complex.ext <;> simp
  have e2 : (Flt.mk 0 x : Flt A).val - (⟨0, y⟩ : ℂ) = ((x - y : ℝ) : ℂ) * Complex.I := by apply Complex.ext <;> simp [Flt.mk, Flt.val]
  refine ⟨h.1, ?_, ?_⟩
  · simp only
    rw [e1, norm_mul, Complex.norm_I, mul_one, Complex.norm_real]
    exact h.2.1
  · simp only
    rw [e2, norm_mul, Complex.norm_I, mul_one, Complex.norm_real]
    exact h.2.2

theorem Close.of_re {v : Flt A} {e : ℂ} (h : Near A b τ (v, e)) : Close A b τ v.val.re e.re :=
  ⟨h.1, (Complex.abs_re_le_norm _).trans h.2.1, by rw [← Complex.sub_re]; exact (Complex.abs_re_le_norm _).trans h.2.2⟩

theorem Close.of_im {v : Flt A} {e : ℂ} (h : Near A b τ (v, e)) : Close A b τ v.val.im e.im :=
  ⟨h.1, (Complex.abs_im_le_norm _).trans h.2.1, by rw [← Complex.sub_im]; exact (Complex.abs_im_le_norm _).trans h.2.2⟩

theorem Close.of_nearR (h : NearR A b τ x y) : Close A b τ x y := by
  obtain ⟨z, e, h1, rfl, rfl⟩ := h
  exact Close.of_re h1

/-! ## One line -/

theorem close_signal (z : Trig) (hn : z.least ≤ n) {B x y : Nat → ℝ} (hτ : 0 ≤ τ) (h : ∀ j < n, Close A (B j) τ (x j) (y j)) {m : Nat} (hm : m < z.gain n) :
    Close A |signal z n B m| τ (signal z n x m) (signal z n y m) := by
  have h0 : Close A |(0 : ℝ)| τ 0 0 := by rw [abs_zero]; exact Close.zero hτ
  have h' : ∀ j < n, Close A |B j| τ (x j) (y j) := fun j hj => by rw [abs_of_nonneg (h j hj).size]; exact h j hj
  cases z <;> simp only [Trig.least, Trig.gain, signal] at *
  · split
    · exact h0
    · split <;> exact h' _ (by omega)
  · split
    · exact h0
    · split
      · exact h' _ (by omega)
      · rw [abs_neg]; exact (h' _ (by omega)).neg
  · split
    · exact h0
    · split <;> exact h' _ (by omega)

theorem sum_two_halves {N : Nat} (f B : Nat → ℝ) (h1 : ∀ j < N, f j = B j) (h2 : ∀ j < N, f (N + j) = B (N - 1 - j)) :
    ∑ j ∈ range (2 * N), f j = 2 * ∑ j ∈ range N, B j := by
  rw [two_mul N, sum_range_add, two_mul]
  congr 1
  · exact sum_congr rfl fun j hj => h1 j (mem_range.1 hj)
  · rw [← sum_range_reflect B]
    exact sum_congr rfl fun j hj => h2 j (mem_range.1 hj)

theorem sum_signal (z : Trig) (hn : z.least ≤ n) {B : Nat → ℝ} (hB : ∀ j < n, 0 ≤ B j) : ∑ m ∈ range (z.gain n), |signal z n B m| ≤ 2 * ∑ j ∈ range n, B j := by
  have hmir : ∀ f : Nat → ℝ, (∀ m, m % 2 = 0 → f m = 0) → (∀ j < n, f (2 * j + 1) = B j) → (∀ j < n, f (2 * (n + j) + 1) = B (n - 1 - j)) →
      ∑ m ∈ range (4 * n), f m = 2 * ∑ j ∈ range n, B j := by
    intro f f0 f1 f2
    rw [show 4 * n = 2 * (2 * n) by ring, sum_pairs]
    refine sum_two_halves _ B (fun j hj => ?_) (fun j hj => ?_)
    · rw [f0 _ (by omega), f1 j hj, zero_add]
    · rw [f0 _ (by omega), f2 j hj, zero_add]
  cases z with
  | cos =>
    refine le_of_eq (hmir _ (fun m hm => ?_) (fun j hj => ?_) (fun j hj => ?_))
    · simp only [signal]; rw [if_pos hm, abs_zero]
    · simp only [signal]
      rw [if_neg (by omega), if_pos (by omega), show (2 * j + 1) / 2 = j by omega, abs_of_nonneg (hB j hj)]
    · simp only [signal]
      rw [if_neg (by omega), if_neg (by omega), show (4 * n - (2 * (n + j) + 1)) / 2 = n - 1 - j by omega, abs_of_nonneg (hB _ (by omega))]
  | sin =>
    refine le_of_eq (hmir _ (fun m hm => ?_) (fun j hj => ?_) (fun j hj => ?_))
    · simp only [signal]; rw [if_pos hm, abs_zero]
    · simp only [signal]
      rw [if_neg (by omega), if_pos (by omega), show (2 * j + 1) / 2 = j by omega, abs_of_nonneg (hB j hj)]
    · simp only [signal]
      rw [if_neg (by omega), if_neg (by omega), abs_neg, show (4 * n - (2 * (n + j) + 1)) / 2 = n - 1 - j by omega, abs_of_nonneg (hB _ (by omega))]
  | cos1 =>
    simp only [Trig.least, Trig.gain] at *
    obtain ⟨N, rfl⟩ : ∃ N, n = N + 1 := ⟨n - 1, by omega⟩
    rw [show 4 * (N + 1 - 1) = 2 * (2 * N) by omega, sum_pairs, two_mul N, sum_range_add, two_mul]
    refine add_le_add ?_ ?_
    · rw [sum_range_succ]
      have e : ∀ j ∈ range N, |signal .cos1 (N + 1) B (2 * j)| + |signal .cos1 (N + 1) B (2 * j + 1)| = B j := by
        intro j hj
        rw [mem_range] at hj
        simp only [signal]
        rw [if_neg (by omega), if_pos (by omega), if_pos (by omega), abs_zero, add_zero, show 2 * j / 2 = j by omega, abs_of_nonneg (hB j (by omega))]
      rw [sum_congr rfl e]
      linarith [hB N (by omega)]
    · rw [sum_range_succ']
      have e : ∀ j ∈ range N, |signal .cos1 (N + 1) B (2 * (N + j))| + |signal .cos1 (N + 1) B (2 * (N + j) + 1)| = B (N - 1 - j + 1) := by
        intro j hj
        rw [mem_range] at hj
        simp only [signal]
        rw [if_neg (by omega), if_neg (by omega), if_pos (by omega), abs_zero, add_zero, show (4 * (N + 1 - 1) - 2 * (N + j)) / 2 = N - 1 - j + 1 by omega,
          abs_of_nonneg (hB _ (by omega))]
      rw [sum_congr rfl e, sum_range_reflect (fun j => B (j + 1)) N]
      linarith [hB 0 (by omega)]

/-- The sizes of the entries of the half spectrum. -/
def halfSize (z : Trig) (n : Nat) (B : Nat → ℝ) (k : Nat) : ℝ :=
  match z with
  | .cos => if k < n then B k else if k = n then 0 else B (2 * n - k)
  | .sin => if k = 0 then 0 else if k ≤ n then B (k - 1) else if k < 2 * n then B (2 * n - k - 1) else 0
  | .cos1 => if k < n then B k else B (2 * (n - 1) - k)

theorem near_half {junk : Tag → Int × Int → Arr (Flt A) × (Nat → Arr (Flt A))} {inp : Tag → Int × Int → Arr (Flt A)} (z : Trig) (hn : z.least ≤ n)
    {B x y : Nat → ℝ} (hτ : 0 ≤ τ) (h : ∀ j < n, Close A (B j) τ (x j) (y j)) {m : Nat} (hm : m ≤ z.gain n / 2) :
    Near A (halfSize z n B m) τ (halfLine ((stockNumbers A).kernel junk inp) z n x m, spectrum z n y m) := by
  have h0 : Near A 0 τ (Flt.mk 0 0, (0 : ℂ)) := by have := (Close.zero (A := A) hτ).re; simpa using this
  cases z <;> simp only [Trig.least, Trig.gain, halfSize, halfLine, spectrum, Numbers.kernel, stockNumbers, fltNumbers] at *
  · split
    · exact (h _ (by omega)).re
    · split
      · exact h0
      · exact (h _ (by omega)).neg.re
  · split
    · exact h0
    · split
      · exact (h _ (by omega)).neg.im
      · split
        · exact (h _ (by omega)).neg.im
        · exact h0
  · split
    · exact (h _ (by omega)).re
    · exact (h _ (by omega)).re

theorem sum_half (z : Trig) (hn : z.least ≤ n) {B : Nat → ℝ} (hB : ∀ j < n, 0 ≤ B j) : ∑ m ∈ range (z.gain n / 2 + 1), halfSize z n B m ≤ 2 * ∑ j ∈ range n, B j := by
  cases z with
  | cos =>
    simp only [Trig.gain]
    rw [show 4 * n / 2 + 1 = n + (1 + n) by omega, sum_range_add, sum_range_add, sum_range_one]
    simp only [halfSize]
    rw [two_mul (∑ j ∈ range n, B j)]
    refine add_le_add (le_of_eq (sum_congr rfl fun j hj => if_pos (mem_range.1 hj))) (le_of_eq ?_)
    rw [if_neg (by omega), if_pos (by omega), zero_add, ← sum_range_reflect B]
    refine sum_congr rfl fun j hj => ?_
    rw [mem_range] at hj
    rw [if_neg (by omega), if_neg (by omega)]
    congr 1; omega
  | sin =>
    simp only [Trig.least, Trig.gain] at *
    obtain ⟨N, rfl⟩ : ∃ N, n = N + 1 := ⟨n - 1, by omega⟩
    rw [show 4 * (N + 1) / 2 + 1 = 1 + ((N + 1) + (N + 1)) by omega, sum_range_add, sum_range_one, sum_range_add]
    simp only [halfSize]
    rw [if_pos trivial, zero_add, two_mul (∑ j ∈ range (N + 1), B j)]
    refine add_le_add (le_of_eq (sum_congr rfl fun j hj => ?_)) ?_
    · rw [mem_range] at hj
      rw [if_neg (by omega), if_pos (by omega)]
      congr 1; omega
    · rw [sum_range_succ, if_neg (by omega), if_neg (by omega), if_neg (by omega), add_zero, sum_range_succ B]
      have e : ∀ j ∈ range N, (if 1 + (N + 1 + j) = 0 then 0 else if 1 + (N + 1 + j) ≤ N + 1 then B (1 + (N + 1 + j) - 1) else
          if 1 + (N + 1 + j) < 2 * (N + 1) then B (2 * (N + 1) - (1 + (N + 1 + j)) - 1) else 0) = B (N - 1 - j) := by
        intro j hj
        rw [mem_range] at hj
        rw [if_neg (by omega), if_neg (by omega), if_pos (by omega)]
        congr 1; omega
      rw [sum_congr rfl e, sum_range_reflect B N]
      linarith [hB N (by omega)]
  | cos1 =>
    simp only [Trig.least, Trig.gain] at *
    obtain ⟨N, rfl⟩ : ∃ N, n = N + 1 := ⟨n - 1, by omega⟩
    rw [show 4 * (N + 1 - 1) / 2 + 1 = (N + 1) + N by omega, sum_range_add]
    simp only [halfSize]
    rw [two_mul (∑ j ∈ range (N + 1), B j)]
    refine add_le_add (le_of_eq (sum_congr rfl fun j hj => if_pos (mem_range.1 hj))) ?_
    have e : ∀ j ∈ range N, (if N + 1 + j < N + 1 then B (N + 1 + j) else B (2 * (N + 1 - 1) - (N + 1 + j))) = B (N - 1 - j) := by
      intro j hj
      rw [mem_range] at hj
      rw [if_neg (by omega)]
      congr 1; omega
    rw [sum_congr rfl e, sum_range_reflect B N, sum_range_succ B]
    linarith [hB N (by omega)]

/-- How large the entries of a transformed line are at most, relative to the sum of the sizes of the entries. -/
def ampl (fwd : Bool) : ℝ := if fwd then 2 else 4

theorem ampl_pos : 0 < ampl fwd := by unfold ampl; split <;> norm_num

/-- The transform of a line. -/
theorem close_line {junk : Tag → Int × Int → Arr (Flt A) × (Nat → Arr (Flt A))} {inp : Tag → Int × Int → Arr (Flt A)} (z : Trig) (hn : z.least ≤ n)
    (hq : Smooth q (z.gain n)) {B x y : Nat → ℝ} (hτ : 0 ≤ τ) (h : ∀ j < n, Close A (B j) τ (x j) (y j)) {k : Nat} (hk : k < n) :
    Close A (ampl fwd * ∑ j ∈ range n, B j) (τ + 60 * q * (z.gain n - 1))
      (((stockNumbers A).kernel junk inp).trigLine (stockNumbers A).r2c (stockNumbers A).c2r z fwd ((List.range n).map x) k) (trigOf z fwd n y k) := by
  have hB : ∀ j < n, 0 ≤ B j := fun j hj => (h j hj).size
  cases fwd with
  | true =>
    rw [(trigLine_entries _ _ _ z hn x k).1]
    have key : ∀ i < z.gain n, Near A (∑ m ∈ range (z.gain n), |signal z n B m|) (τ + 60 * q * (z.gain n - 1))
        ((stockNumbers A).r2c ((List.range (z.gain n)).map (signal z n x)) i, r2c ((List.range (z.gain n)).map (signal z n y)) i) := by
      intro i hi
      refine near_line (fwd := true) hq (v := ((List.range (z.gain n)).map (signal z n x)).map (stockNumbers A).cast)
        (w := ((List.range (z.gain n)).map (signal z n y)).map Complex.ofReal) (by simp) (by simp) (fun m hm => ?_) hi
      rw [List.map_map, List.map_map, getD_range_map _ _ hm, getD_range_map _ _ hm]
      exact (close_signal z hn hτ h hm).re
    have hs := sum_signal z hn hB
    have hr := fun i (hi : i ≤ z.gain n / 2) => r2c_signal z hn y hi
    cases z with
    | cos =>
      simp only [Trig.least, Trig.gain] at *
      have h1 := (Close.of_re (key k (by omega))).mono hs le_rfl
      have h2 := hr k (by omega)
      simp only [spectrum] at h2
      rw [if_pos hk] at h2
      rw [h2] at h1
      exact h1
    | sin =>
      simp only [Trig.least, Trig.gain] at *
      have h1 := (Close.of_im (key (k + 1) (by omega))).mono hs le_rfl
      have h2 := hr (k + 1) (by omega)
      simp only [spectrum] at h2
      rw [if_neg (by omega), if_pos (by omega), Nat.add_sub_cancel] at h2
      rw [h2] at h1
      have h3 := h1.neg
      rw [neg_neg] at h3
      exact h3
    | cos1 =>
      simp only [Trig.least, Trig.gain] at *
      have h1 := (Close.of_re (key k (by omega))).mono hs le_rfl
      have h2 := hr k (by omega)
      simp only [spectrum] at h2
      rw [if_pos hk] at h2
      rw [h2] at h1
      exact h1
  | false =>
    rw [(trigLine_entries _ _ _ z hn x k).2, ← c2r_spectrum z hn y k]
    have hp : z.pick k < z.gain n := by cases z <;> simp only [Trig.pick, Trig.gain, Trig.least] at * <;> omega
    have h1 := near_c2r (A := A) hq (v := (List.range (z.gain n / 2 + 1)).map (halfLine ((stockNumbers A).kernel junk inp) z n x))
      (w := (List.range (z.gain n / 2 + 1)).map (spectrum z n y)) (b := halfSize z n B) (τ := τ) (fun j hj => by
        rw [getD_range_map _ _ (by omega), getD_range_map _ _ (by omega)]
        exact near_half z hn hτ h hj) hp
    refine (Close.of_nearR h1).mono ?_ le_rfl
    have := sum_half z hn hB
    unfold ampl
    simp only [Bool.false_eq_true, if_false]
    linarith

/-! ## Three dimensions -/

variable {junk : Tag → Int × Int → Arr (Flt A) × (Nat → Arr (Flt A))} {inp : Tag → Int × Int → Arr (Flt A)}

/-- What an executor computes of a line in floating point arithmetic. -/
noncomputable abbrev floatLine (A : Arith) (junk : Tag → Int × Int → Arr (Flt A) × (Nat → Arr (Flt A))) (inp : Tag → Int × Int → Arr (Flt A)) :
    Trig → Bool → List ℝ → Nat → ℝ := ((stockNumbers A).kernel junk inp).trigLine (stockNumbers A).r2c (stockNumbers A).c2r

theorem close_along {w : Box} {d : Fin 3} (z : Trig) (hn : z.least ≤ w.extent d) (hq : Smooth q (z.gain (w.extent d))) {g G B : A3 Int → ℝ} (hτ : 0 ≤ τ)
    (h : ∀ p ∈ w, Close A (B p) τ (g p) (G p)) {p : A3 Int} (hp : p ∈ w) :
    Close A (ampl fwd * ∑ i ∈ range (w.extent d), B (p.set d (w.low.get d + i))) (τ + 60 * q * (z.gain (w.extent d) - 1))
      (along w d (floatLine A junk inp z fwd) g p) (along w d (trig z fwd) G p) := by
  have h1 := close_line (fwd := fwd) (junk := junk) (inp := inp) z hn hq hτ (B := fun i => B (p.set d (w.low.get d + i))) (x := fun i => g (p.set d (w.low.get d + i)))
    (y := fun i => G (p.set d (w.low.get d + i))) (fun j hj => h _ (set_mem hp d hj)) (rel_lt hp d)
  have e : along w d (trig z fwd) G p = trigOf z fwd (w.extent d) (fun i => G (p.set d (w.low.get d + i))) (w.rel p d) := by
    unfold along trig
    rw [lineOf_length, ← extent_eq]
    exact trigOf_congr z fwd hn (fun j hj => lineOf_entry _ _ _ _ _ hj) _
  rw [e]
  exact h1

/-- The roundings of the transforms of the lines in all directions. -/
noncomputable def trigRoundings (q : Nat) (z : Trig) (w : Box) : ℝ := ∑ d : Fin 3, 60 * (q : ℝ) * (z.gain (w.extent d) - 1)

theorem trigRoundings_nonneg {z : Trig} {w : Box} (h : ∀ d, Smooth q (z.gain (w.extent d))) : 0 ≤ trigRoundings q z w := by
  refine sum_nonneg fun d _ => ?_
  have : (1 : ℝ) ≤ z.gain (w.extent d) := by exact_mod_cast (h d).pos
  exact mul_nonneg (by positivity) (by linarith)

theorem close_trig3 {w : Box} (z : Trig) (hn : ∀ d, z.least ≤ w.extent d) (hq : ∀ d, Smooth q (z.gain (w.extent d))) {a b c : Fin 3} (hd : AllDirs a b c)
    {g G B : A3 Int → ℝ} (hτ : 0 ≤ τ) (h : ∀ p ∈ w, Close A (B p) τ (g p) (G p)) {p : A3 Int} (hp : p ∈ w) :
    Close A (ampl fwd ^ 3 * ∑ x ∈ w.points, B x) (τ + trigRoundings q z w) (alongAll w (floatLine A junk inp z fwd) [a, b, c] g p) (trig3 z fwd w G p) := by
  have h1 := fun p hp => close_along (fwd := fwd) (junk := junk) (inp := inp) z (hn a) (hq a) hτ h (p := p) hp
  have h2 := fun p hp => close_along (fwd := fwd) (junk := junk) (inp := inp) z (hn b) (hq b) (h1 p hp).1 h1 (p := p) hp
  have h3 := close_along (fwd := fwd) (junk := junk) (inp := inp) z (hn c) (hq c) (h2 p hp).1 h2 hp
  rw [← alongAll_trig3 z fwd w hn hd]
  refine h3.mono (le_of_eq ?_) (le_of_eq ?_)
  · rw [sum_points w hd p]
    simp only [← Finset.mul_sum]
    ring_nf
    rfl
  · unfold trigRoundings
    rw [sum_dirs hd]
    ring

theorem close_trig_chain {w : Box} (z : Trig) (hn : ∀ d, z.least ≤ w.extent d) (hq : ∀ d, Smooth q (z.gain (w.extent d))) {dirs : A3 (Fin 3)}
    (hd : AllDirs dirs.x dirs.y dirs.z) {c : Nat → A3 Int → ℝ} {G B : A3 Int → ℝ} (hτ : 0 ≤ τ) {j : Nat} (h : ∀ p ∈ w, Close A (B p) τ (c j p) (G p)) {p : A3 Int}
    (hp : p ∈ w) : Close A (ampl fwd ^ 3 * ∑ x ∈ w.points, B x) (τ + trigRoundings q z w)
      (chain w (floatLine A junk inp z fwd) (fun x => [dirs x]) fwd c 3 j p) (trig3 z fwd w G p) := by
  cases fwd with
  | true => exact close_trig3 (fwd := true) z hn hq hd hτ h hp
  | false => exact close_trig3 (fwd := false) z hn hq hd.rev hτ h hp

/-! ## The scaling -/

/-- A positive value up to `κ` roundings in both directions. -/
def Ratio (A : Arith) (κ x y : ℝ) : Prop := 0 < y ∧ Real.exp (-(κ * A.u)) * y ≤ x ∧ x ≤ Real.exp (κ * A.u) * y

theorem Ratio.pos {κ : ℝ} (h : Ratio A κ x y) : 0 < x := (mul_pos (Real.exp_pos _) h.1).trans_le h.2.1

theorem Ratio.self (h : 0 < y) : Ratio A 0 y y := ⟨h, by simp, by simp⟩

theorem Ratio.mono {κ κ' : ℝ} (h : Ratio A κ x y) (hκ : κ ≤ κ') : Ratio A κ' x y := by
  have hu := mul_le_mul_of_nonneg_right hκ A.u_nonneg
  refine ⟨h.1, le_trans (mul_le_mul_of_nonneg_right (Real.exp_le_exp.2 (by linarith)) h.1.le) h.2.1,
    h.2.2.trans (mul_le_mul_of_nonneg_right (Real.exp_le_exp.2 hu) h.1.le)⟩

theorem Ratio.mul {κ κ' x' y' : ℝ} (h : Ratio A κ x y) (h' : Ratio A κ' x' y') : Ratio A (κ + κ') (x * x') (y * y') := by
  refine ⟨mul_pos h.1 h'.1, ?_, ?_⟩
  · have := mul_le_mul h.2.1 h'.2.1 (mul_pos (Real.exp_pos _) h'.1).le h.pos.le
    rw [show -((κ + κ') * A.u) = -(κ * A.u) + -(κ' * A.u) by ring, Real.exp_add]
    linarith
  · have := mul_le_mul h.2.2 h'.2.2 h'.pos.le (mul_pos (Real.exp_pos _) h.1).le
    rw [show (κ + κ') * A.u = κ * A.u + κ' * A.u by ring, Real.exp_add]
    linarith

theorem Ratio.inv {κ : ℝ} (h : Ratio A κ x y) : Ratio A κ (1 / x) (1 / y) := by
  refine ⟨one_div_pos.2 h.1, ?_, ?_⟩
  · rw [mul_one_div, div_le_div_iff₀ h.1 h.pos, Real.exp_neg, inv_mul_eq_div, div_le_iff₀ (Real.exp_pos _)]
    have := h.2.2
    linarith
  · rw [mul_one_div, div_le_div_iff₀ h.pos h.1]
    have := mul_le_mul_of_nonneg_left h.2.1 (Real.exp_pos (κ * A.u)).le
    rw [← mul_assoc, ← Real.exp_add, add_neg_cancel, Real.exp_zero, one_mul] at this
    linarith

theorem Ratio.sqrt {κ : ℝ} (hκ : 0 ≤ κ) (h : Ratio A κ x y) : Ratio A κ (Real.sqrt x) (Real.sqrt y) := by
  have hu : 0 ≤ κ * A.u := mul_nonneg hκ A.u_nonneg
  have h1 : Ratio A (κ / 2) (Real.sqrt x) (Real.sqrt y) := by
    have e : ∀ t : ℝ, Real.exp t = Real.exp (t / 2) * Real.exp (t / 2) := fun t => by rw [← Real.exp_add]; congr 1; ring
    refine ⟨Real.sqrt_pos.2 h.1, ?_, ?_⟩
    · rw [← Real.sqrt_sq (Real.exp_pos (-(κ / 2 * A.u))).le, ← Real.sqrt_mul (sq_nonneg _)]
      refine Real.sqrt_le_sqrt ?_
      have := h.2.1
      rw [e, show -(κ * A.u) / 2 = -(κ / 2 * A.u) by ring] at this
      rw [sq]
      exact this
    · rw [← Real.sqrt_sq (Real.exp_pos (κ / 2 * A.u)).le, ← Real.sqrt_mul (sq_nonneg _)]
      refine Real.sqrt_le_sqrt ?_
      have := h.2.2
      rw [e, show κ * A.u / 2 = κ / 2 * A.u by ring] at this
      rw [sq]
      exact this
  exact h1.mono (by linarith)

theorem exp_two_u (A : Arith) : Real.exp (-(2 * A.u)) ≤ 1 - A.u ∧ 1 + A.u ≤ Real.exp (2 * A.u) := by
  have hu := A.u_nonneg
  have hu' := A.u_le
  have h1 := Real.add_one_le_exp (2 * A.u)
  refine ⟨?_, by linarith⟩
  rw [Real.exp_neg, inv_le_comm₀ (Real.exp_pos _) (by linarith)]
  refine le_trans ?_ h1
  rw [inv_le_comm₀ (by linarith) (by linarith), inv_le_iff_one_le_mul₀ (by linarith)]
  nlinarith

theorem Ratio.rnd {κ : ℝ} (h : Ratio A κ x y) : Ratio A (κ + 2) (A.rndA x) y := by
  obtain ⟨e1, e2⟩ := exp_two_u A
  have hx := h.pos
  have h1 := abs_le.1 (A.rndA_err x)
  rw [abs_of_pos hx] at h1
  refine ⟨h.1, ?_, ?_⟩
  · rw [show -((κ + 2) * A.u) = -(2 * A.u) + -(κ * A.u) by ring, Real.exp_add, mul_assoc]
    have h2 := mul_le_mul e1 h.2.1 (mul_pos (Real.exp_pos _) h.1).le (by linarith [A.u_le])
    linarith
  · rw [show (κ + 2) * A.u = 2 * A.u + κ * A.u by ring, Real.exp_add, mul_assoc]
    have h2 := mul_le_mul e2 h.2.2 hx.le (Real.exp_pos _).le
    linarith

theorem Ratio.rel {κ : ℝ} (hκ : 0 ≤ κ) (h : Ratio A κ x y) : Rel A κ x y := by
  unfold Rel
  rw [abs_of_pos h.1, abs_le]
  have hu : 0 ≤ κ * A.u := mul_nonneg hκ A.u_nonneg
  have h1 := Real.add_one_le_exp (κ * A.u)
  have h2 := Real.add_one_le_exp (-(κ * A.u))
  have h3 : 2 ≤ Real.exp (κ * A.u) + Real.exp (-(κ * A.u)) := by linarith
  have h4 := h.2.1
  have h5 := h.2.2
  have h6 := h.1
  constructor <;> nlinarith

/-- The factor of `scale::full`. -/
theorem ratio_base {z : Trig} {w : Box} {sizes : A3 Int} (hn : ∀ d, z.least ≤ w.extent d) (hs : ∀ d, sizes.get d = w.extent d)
    {count : Int} (hc : (count : ℝ) = w.extent 0 * w.extent 1 * w.extent 2) : Ratio A 14 (A.trigBase z count sizes) (1 / (z.gain3 w : ℝ)) := by
  have e0 := hs 0
  have e1 := hs 1
  have e2 := hs 2
  simp only [A3.get_zero, A3.get_one, A3.get_two] at e0 e1 e2
  have d0 := hn 0
  have d1 := hn 1
  have d2 := hn 2
  have easy : 1 ≤ w.extent 0 → 1 ≤ w.extent 1 → 1 ≤ w.extent 2 →
      Ratio A 14 (A.rndA (A.rndA (1 / A.rndA count) / 64)) (1 / ((4 * w.extent 0 * (4 * w.extent 1) * (4 * w.extent 2) : Nat) : ℝ)) := by
    intro p0 p1 p2
    have hpos : (0 : ℝ) < count := by
      rw [hc]
      have h0 : (0 : ℝ) < w.extent 0 := by exact_mod_cast p0
      have h1 : (0 : ℝ) < w.extent 1 := by exact_mod_cast p1
      have h2 : (0 : ℝ) < w.extent 2 := by exact_mod_cast p2
      positivity
    have h1 := ((((Ratio.self (A := A) hpos).rnd.inv.rnd).mul (Ratio.self (A := A) (y := 1 / 64) (by norm_num))).rnd).mono (κ' := 14) (by norm_num)
    rw [mul_one_div] at h1
    refine cast (congrArg _ ?_) h1
    rw [hc]
    push_cast
    rw [one_div_mul_one_div]
    congr 1
    ring
  cases z with
  | cos => exact easy d0 d1 d2
  | sin => exact easy d0 d1 d2
  | cos1 =>
    simp only [Trig.least] at d0 d1 d2
    have hp : ∀ (s : Int) (m : Nat), s = m → 2 ≤ m → Ratio A 2 (A.rndA ((s - 1 : Int) : ℝ)) ((m - 1 : Nat) : ℝ) := by
      intro s m hs hm
      have h1 : ((s - 1 : Int) : ℝ) = ((m - 1 : Nat) : ℝ) := by
        rw [hs, Nat.cast_sub (by omega)]
        push_cast
        rfl
      rw [h1]
      have h2 : (0 : ℝ) < ((m - 1 : Nat) : ℝ) := by exact_mod_cast (by omega : 0 < m - 1)
      exact (Ratio.self (A := A) h2).rnd.mono (by norm_num)
    have q0 := hp _ _ e0 d0
    have q1 := hp _ _ e1 d1
    have q2 := hp _ _ e2 d2
    have h1 := ((((((Ratio.self (A := A) (y := 64) (by norm_num)).mul q0).rnd.mul q1).rnd.mul q2).rnd).inv.rnd).mono (κ' := 14) (by norm_num)
    refine cast (congrArg _ ?_) h1
    unfold Trig.gain3
    simp only [Trig.gain]
    push_cast
    congr 1
    ring

theorem rel_trigFactor {z : Trig} {w : Box} {sizes : A3 Int} (hn : ∀ d, z.least ≤ w.extent d) (hs : ∀ d, sizes.get d = w.extent d)
    {count : Int} (hc : (count : ℝ) = w.extent 0 * w.extent 1 * w.extent 2) {s : Scaling} (hsc : s ≠ .none) :
    Rel A 16 (A.trigFactor s z count sizes) (s.factor (z.gain3 w)) := by
  have h := ratio_base (A := A) hn hs hc
  unfold Stock.Arith.trigFactor Scaling.factor
  cases s with
  | none => exact absurd rfl hsc
  | full =>
    simp only [reduceCtorEq, if_false]
    have := (h.mono (κ' := 16) (by norm_num)).rel (by norm_num)
    simpa using this
  | symmetric =>
    simp only [if_true]
    have := ((h.sqrt (by norm_num)).rnd.mono (κ' := 16) (by norm_num)).rel (by norm_num)
    rw [Real.sqrt_div zero_le_one, Real.sqrt_one] at this
    simpa using this

/-- What a call does with a value at the end. -/
noncomputable def endT (A : Arith) (s : Scaling) (z : Trig) (count : Int) (sizes : A3 Int) (x : ℝ) : ℝ :=
  if s = .none then x else A.times (A.trigFactor s z count sizes) x

theorem close_scaled {c f : ℝ} (hr : Rel A 16 c f) (hf0 : 0 ≤ f) (h : Close A b τ x y) : Close A (f * b) (τ + 18) (A.times c x) (f * y) := by
  have h1 : Rel A 18 (A.times c x) (x * f) :=
    ((rel_of_err (A.rnd_err _)).trans ((rel_of_err (A.rndA_err _)).trans (hr.mul x) (by norm_num)) (by norm_num)).mono (by norm_num)
  unfold Rel at h1
  refine ⟨by linarith [h.1], ?_, ?_⟩
  · rw [abs_mul, abs_of_nonneg hf0]
    exact mul_le_mul_of_nonneg_left h.2.1 hf0
  · have h2 : |x| ≤ Real.exp (τ * A.u) * b := by
      have := abs_sub_abs_le_abs_sub x y
      have h3 := h.2.1
      have h4 := h.2.2
      linarith
    have h3 : |x * f| ≤ Real.exp (τ * A.u) * (f * b) := by
      rw [abs_mul, abs_of_nonneg hf0]
      have := mul_le_mul_of_nonneg_right h2 hf0
      linarith
    have h4 : |x * f - f * y| ≤ (Real.exp (τ * A.u) - 1) * (f * b) := by
      rw [show x * f - f * y = f * (x - y) by ring, abs_mul, abs_of_nonneg hf0]
      have := mul_le_mul_of_nonneg_left h.2.2 hf0
      linarith
    have h5 := abs_sub_le (A.times c x) (x * f) (f * y)
    have h6 := mul_le_mul_of_nonneg_left h3 (A.exp_ge (show (0 : ℝ) ≤ 18 by norm_num))
    rw [add_mul, Real.exp_add]
    linarith

theorem close_end {z : Trig} {w : Box} {sizes : A3 Int} (hn : ∀ d, z.least ≤ w.extent d) (hs : ∀ d, sizes.get d = w.extent d)
    {count : Int} (hc : (count : ℝ) = w.extent 0 * w.extent 1 * w.extent 2) (s : Scaling) (h : Close A b τ x y) :
    Close A (s.factor (z.gain3 w) * b) (τ + 18) (endT A s z count sizes x) (s.factor (z.gain3 w) * y) := by
  unfold endT
  by_cases hsc : s = .none
  · subst hsc
    rw [if_pos rfl, show Scaling.none.factor (z.gain3 w) = 1 from rfl, one_mul, one_mul]
    exact h.mono le_rfl (by linarith)
  · rw [if_neg hsc]
    exact close_scaled (rel_trigFactor hn hs hc hsc) (factor_nonneg s (by positivity)) h

end
end Verif
