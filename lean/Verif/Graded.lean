import Verif.FFTTree

/-!
# Predicates that the arithmetic of the stock FFT preserves

`Graded` is a predicate on numbers with a size `b` and a number `τ` of roundings.  The algorithms only use additions, multiplications and
the twiddle factors, so the sizes and the roundings of their results follow from the input.  Two instances are used: the distance of the
computed from the exact value (`RoundLemmas.lean`), and the equality of two runs with different contents of the work memory.
-/

namespace Verif.Stock
open Finset
variable {K : Type} [Zero K] [One K] [Add K] [Sub K] [Mul K] [Neg K] [Div K] [NatCast K]

/-- A predicate on numbers that follows the operations; `omc m N` is the number of roundings of `omega::get(m, N)`. -/
structure Graded (tw : Tw K) (omc : Nat → Nat → ℝ) where
  N : ℝ → ℝ → K → Prop
  size : ∀ {b τ x}, N b τ x → 0 ≤ b
  count : ∀ {b τ x}, N b τ x → 0 ≤ τ
  mono : ∀ {b τ b' τ' x}, N b τ x → b ≤ b' → τ ≤ τ' → N b' τ' x
  add : ∀ {b τ b' x y}, N b τ x → N b' τ y → N (b + b') (τ + 1) (x + y)
  sub : ∀ {b τ b' x y}, N b τ x → N b' τ y → N (b + b') (τ + 1) (x - y)
  neg : ∀ {b τ x}, N b τ x → N b τ (- x)
  mul : ∀ {b τ b' τ' x y}, N b τ x → N b' τ' y → N (b * b') (τ + τ' + 3) (x * y)
  div : ∀ {b τ x} (n : Nat), 0 < n → N b τ x → N (b / n) (τ + 3) (x / (n : K))
  one : N 1 0 1
  om : ∀ d m n, 0 < n → N 1 (omc m n) (tw.om d m n)
  i : N 1 0 tw.i
  plus120 : N 1 3 tw.plus120
  minus120 : N 1 3 tw.minus120

variable {tw : Tw K} {omc : Nat → Nat → ℝ}

/-- A transform of length `n` with the gain `g` and the cost `c`, from `x` into `y'`; outside of its output `y'` is `y`. -/
def Spread (G : Graded tw omc) (n : Nat) (g c : ℝ) (x : Arr K) (xo si : Nat) (y y' : Arr K) (yo so : Nat) : Prop :=
  ∀ (b : Nat → ℝ) τ, (∀ k < n, G.N (b k) τ (x (xo + k * si))) →
    (∀ k < n, G.N (g * ∑ j ∈ range n, b j) (τ + c) (y' (yo + k * so))) ∧ ∀ a, (∀ k < n, a ≠ yo + k * so) → y' a = y a

theorem Graded.omc_nonneg (G : Graded tw omc) {n : Nat} (hn : 0 < n) (m : Nat) : 0 ≤ omc m n := G.count (G.om true m n hn)

theorem Graded.add_le (G : Graded tw omc) {b b' τ τ' σ : ℝ} {x y : K} (hx : G.N b τ x) (hy : G.N b' τ' y) (h1 : τ + 1 ≤ σ) (h2 : τ' + 1 ≤ σ) :
    G.N (b + b') σ (x + y) :=
  G.mono (G.add (τ := σ - 1) (G.mono hx le_rfl (by linarith)) (G.mono hy le_rfl (by linarith))) le_rfl (by linarith)

theorem Graded.sub_le (G : Graded tw omc) {b b' τ τ' σ : ℝ} {x y : K} (hx : G.N b τ x) (hy : G.N b' τ' y) (h1 : τ + 1 ≤ σ) (h2 : τ' + 1 ≤ σ) :
    G.N (b + b') σ (x - y) :=
  G.mono (G.sub (τ := σ - 1) (G.mono hx le_rfl (by linarith)) (G.mono hy le_rfl (by linarith))) le_rfl (by linarith)

theorem Graded.mul_le (G : Graded tw omc) {b τ τ' σ : ℝ} {x y : K} (hx : G.N 1 τ x) (hy : G.N b τ' y) (h : τ + τ' + 3 ≤ σ) : G.N b σ (x * y) :=
  G.mono (G.mul hx hy) (by rw [one_mul]) h

theorem Graded.mul_le' (G : Graded tw omc) {b τ τ' σ : ℝ} {x y : K} (hx : G.N b τ x) (hy : G.N 1 τ' y) (h : τ + τ' + 3 ≤ σ) : G.N b σ (x * y) :=
  G.mono (G.mul hx hy) (by rw [mul_one]) h

/-- The blocks `q < r` of length `m` of the output have the sizes `B q`. -/
theorem blocks_graded (G : Graded tw omc) {r m : Nat} {g c : ℝ} {x : Arr K} {xo : Nat → Nat} {si yo so : Nat} (hso : 0 < so) (Y : Nat → Arr K)
    (h : ∀ q < r, Spread G m g c x (xo q) si (Y q) (Y (q + 1)) (yo + q * m * so) so) (b : Nat → Nat → ℝ) (τ : ℝ)
    (hb : ∀ q < r, ∀ k < m, G.N (b q k) τ (x (xo q + k * si))) :
    (∀ q < r, ∀ k < m, G.N (g * ∑ j ∈ range m, b q j) (τ + c) (Y r (yo + (k + q * m) * so))) ∧
    ∀ a, (∀ k < r * m, a ≠ yo + k * so) → Y r a = Y 0 a := by
  induction r with
  | zero => exact ⟨fun q hq => absurd hq (by omega), fun _ _ => rfl⟩
  | succ r ih =>
    obtain ⟨h1, h2⟩ := ih (fun q hq => h q (by omega)) fun q hq => hb q (by omega)
    obtain ⟨g1, g2⟩ := h r (by omega) (b r) τ (hb r (by omega))
    constructor
    · intro q hq k hk
      by_cases hqr : q = r
      · subst hqr
        have := g1 k hk
        rwa [show yo + q * m * so + k * so = yo + (k + q * m) * so by ring] at this
      · rw [g2 _ ?_]
        · exact h1 q (by omega) k hk
        · intro j hj hadr
          have : yo + (k + q * m) * so = yo + (j + r * m) * so := by rw [hadr]; ring
          rw [adr_inj hso, blk_inj hk hj] at this
          omega
    · intro a ha
      rw [g2 _ ?_]
      · exact h2 a fun k hk => ha k (by have : r * m ≤ (r + 1) * m := Nat.mul_le_mul_right m (by omega); omega)
      · intro j hj hadr
        refine ha (j + r * m) (blk_lt hj (by omega)) ?_
        rw [hadr]; ring

/-- One level of the radix `r` algorithms. -/
theorem radix_graded {ρ : Type} (G : Graded tw omc) {r m : Nat} {yo so : Nat} (hso : 0 < so) (hm : 0 < m) (Q : Nat → ρ → Prop)
    (f : Nat → Arr K × ρ → Arr K × ρ) (y0 y1 : Arr K) (t1 : ρ) (B : Nat → ℝ) {S τ σ : ℝ} (hQ : Q 1 t1)
    (hsub : ∀ q < r, ∀ k < m, G.N (B q) τ (y0 (yo + (k + q * m) * so)))
    (h0 : ∀ i < r, G.N S σ (y1 (yo + (i * m) * so)))
    (h0' : ∀ a, (∀ i < r, a ≠ yo + (i * m) * so) → y1 a = y0 a)
    (hf : ∀ k u t, 0 < k → k < m → Q k t → (∀ q < r, G.N (B q) τ (u (yo + (k + q * m) * so))) → Q (k + 1) (f k (u, t)).2 ∧
      (∀ i < r, G.N S σ ((f k (u, t)).1 (yo + (k + i * m) * so))) ∧
      ∀ a, (∀ i < r, a ≠ yo + (k + i * m) * so) → (f k (u, t)).1 a = u a) :
    (∀ k < r * m, G.N S σ ((forRange 1 (m - 1) f (y1, t1)).1 (yo + k * so))) ∧
    ∀ a, (∀ k < r * m, a ≠ yo + k * so) → (forRange 1 (m - 1) f (y1, t1)).1 a = y0 a := by
  have inv := forRange_inv (fun c (s : Arr K × ρ) => Q (c + 1) s.2 ∧
      (∀ k < c + 1, ∀ i < r, G.N S σ (s.1 (yo + (k + i * m) * so))) ∧
      ∀ a, (∀ k < c + 1, ∀ i < r, a ≠ yo + (k + i * m) * so) → s.1 a = y0 a) 1 f (y1, t1) (m - 1) ?_ ?_
  · obtain ⟨-, h1, h2⟩ := inv
    rw [Nat.sub_add_cancel hm] at h1 h2
    constructor
    · intro a ha
      obtain ⟨k, i, hk, hi, rfl⟩ := blk_split ha
      exact h1 k hk i hi
    · intro a ha
      exact h2 a fun k hk i hi => ha _ (blk_lt hk hi)
  · refine ⟨hQ, ?_, ?_⟩
    · intro k hk i hi
      have : k = 0 := by omega
      subst this
      simpa using h0 i hi
    · intro a ha
      exact h0' a fun i hi => by simpa using ha 0 (by omega) i hi
  · rintro c hc ⟨u, t⟩ ⟨ht, h1, h2⟩
    dsimp only at ht h1 h2
    rw [show 1 + c = c + 1 by omega]
    obtain ⟨g1, g2, g3⟩ := hf (c + 1) u t (by omega) (by omega) ht (by
      intro q hq
      rw [h2 _ fun k hk j hj h => by rw [adr_inj hso, blk_inj (by omega) (by omega)] at h; omega]
      exact hsub q hq _ (by omega))
    refine ⟨g1, ?_, ?_⟩
    · intro k hk i hi
      rcases Nat.lt_or_ge k (c + 1) with hlt | hge
      · rw [g3 _ ?_]
        · exact h1 k hlt i hi
        · intro j hj h
          rw [adr_inj hso, blk_inj (by omega) (by omega)] at h
          omega
      · have : k = c + 1 := by omega
        subst this
        exact g2 i hi
    · intro a ha
      rw [g3 _ fun i hi => ha _ (by omega) i hi]
      exact h2 a fun k hk i hi => ha k (by omega) i hi

theorem sum_radix (r m : Nat) (b : Nat → ℝ) : ∑ q ∈ range r, ∑ n ∈ range m, b (q + r * n) = ∑ n ∈ range (r * m), b n := (sum_mod r b m).symm

/-- The powers of a twiddle factor. -/
theorem Graded.pow_step (G : Graded tw omc) {w w1 : K} {ω : ℝ} {k : Nat} (hw : G.N 1 (k * (ω + 3)) w) (h1 : G.N 1 ω w1) :
    G.N 1 (((k + 1 : Nat) : ℝ) * (ω + 3)) (w * w1) :=
  G.mul_le hw h1 (by push_cast; linarith)

theorem Graded.pow_start (G : Graded tw omc) {w1 : K} {ω : ℝ} (h1 : G.N 1 ω w1) : G.N 1 (((1 : Nat) : ℝ) * (ω + 3)) w1 :=
  G.mono h1 le_rfl (by push_cast; linarith)

/-- The roundings of `pow2_FFT_helper`. -/
noncomputable def pow2Cost (omc : Nat → Nat → ℝ) : Nat → ℝ
  | 0 => 1
  | e + 1 => pow2Cost omc e + ((2 ^ (e + 1) : Nat) : ℝ) * (omc 1 (2 * 2 ^ (e + 1)) + 3) + 1

theorem step_le {ω : ℝ} (hω : 0 ≤ ω) {k m : Nat} (h : k < m) : (k : ℝ) * (ω + 3) + (ω + 3) ≤ m * (ω + 3) := by
  have : (k : ℝ) + 1 ≤ m := by exact_mod_cast h
  nlinarith

theorem pow2_step_graded (G : Graded tw omc) (d : Bool) (x : Arr K) {so m : Nat} {c : ℝ} (hso : 0 < so) (hm : 2 ≤ m)
    (ih : ∀ xo si y yo, Spread G m 1 c x xo si y (pow2Helper tw d m x xo si y yo so) yo so) (xo si : Nat) (y : Arr K) (yo : Nat) :
    Spread G (2 * m) 1 (c + (m : ℝ) * (omc 1 (2 * m) + 3) + 1) x xo si y (pow2Helper tw d (2 * m) x xo si y yo so) yo so := by
  unfold pow2Helper
  rw [if_neg (by omega), dif_neg (by omega), Nat.mul_div_cancel_left m (by omega : 0 < 2)]
  dsimp only
  have hm0 : m ≠ 0 := by omega
  set ω := tw.om d 1 (2 * m) with hω
  have hw : G.N 1 (omc 1 (2 * m)) ω := G.om d 1 (2 * m) (by omega)
  have hw0 := G.omc_nonneg (show 0 < 2 * m by omega) 1
  set ya := pow2Helper tw d m x xo (si * 2) y yo so with hya
  set yb := pow2Helper tw d m x (xo + si) (si * 2) ya (yo + so * m) so with hyb
  have e1 : so * m = m * so := mul_comm _ _
  intro b τ hb
  obtain ⟨hs, hfr⟩ := blocks_graded G (r := 2) (m := m) (x := x) (g := 1) (c := c) (xo := fun q => xo + q * si) (si := si * 2) (yo := yo) hso
    (fun q => match q with | 0 => y | 1 => ya | _ => yb) (by
      intro q hq
      rw [e1] at hyb
      have hq' : q = 0 ∨ q = 1 := by omega
      rcases hq' with rfl | rfl
      · simpa using ih xo (si * 2) y yo
      · simpa [hyb] using ih (xo + si) (si * 2) ya (yo + m * so)) (fun q n => b (q + 2 * n)) τ (by
      intro q hq k hk
      have := hb (q + 2 * k) (by omega)
      rwa [show xo + (q + 2 * k) * si = xo + q * si + k * (si * 2) by ring] at this)
  set B : Nat → ℝ := fun q => ∑ n ∈ range m, b (q + 2 * n) with hB
  have hS : 1 * ∑ j ∈ range (2 * m), b j = B 0 + B 1 := by
    rw [one_mul, ← sum_radix, sum_range_succ, sum_range_succ, sum_range_zero, zero_add]
  replace hs : ∀ q < 2, ∀ k < m, G.N (B q) (τ + c) (yb (yo + (k + q * m) * so)) := fun q hq k hk => by
    have := hs q hq k hk
    rwa [one_mul] at this
  rw [hS]
  clear_value B
  have s0 := hs 0 (by omega) 0 (by omega)
  have s1 := hs 1 (by omega) 0 (by omega)
  simp only [zero_mul, add_zero, zero_add, one_mul] at s0 s1
  have hstep := step_le hw0 (show 0 < m by omega)
  have key := radix_graded G (r := 2) (yo := yo) (σ := τ + (c + (m : ℝ) * (omc 1 (2 * m) + 3) + 1)) (S := B 0 + B 1) (m := m) hso (by omega)
    (fun k (w : K) => G.N 1 ((k : ℝ) * (omc 1 (2 * m) + 3)) w)
    (fun j (s : Arr K × K) =>
      (st (st s.1 (yo + j * so) (s.1 (yo + j * so) + s.2 * s.1 (yo + (j + m) * so))) (yo + (j + m) * so)
        (s.1 (yo + j * so) - s.2 * st s.1 (yo + j * so) (s.1 (yo + j * so) + s.2 * s.1 (yo + (j + m) * so)) (yo + (j + m) * so)), s.2 * ω))
    yb (st (st yb yo (yb yo + yb (yo + m * so))) (yo + m * so) (yb yo - st yb yo (yb yo + yb (yo + m * so)) (yo + m * so)))
    ω B (G.pow_start hw) hs ?_ ?_ ?_
  · exact ⟨key.1, fun a ha => (key.2 a ha).trans (hfr a ha)⟩
  · intro i hi
    have hi' : i = 0 ∨ i = 1 := by omega
    rcases hi' with rfl | rfl
    · simp only [st, hso.ne', hm0, zero_mul, add_zero, if_true, left_eq_add, mul_eq_zero, or_self, if_false]
      exact G.add_le s0 s1 (by simp at hstep; linarith) (by simp at hstep; linarith)
    · simp only [st, hso.ne', hm0, one_mul, add_eq_left, mul_eq_zero, or_self, if_false, if_true]
      exact G.sub_le s0 s1 (by simp at hstep; linarith) (by simp at hstep; linarith)
  · intro a ha
    rw [st_ne _ _ (by simpa using ha 1 (by simp)), st_ne _ _ (by simpa using ha 0 (by simp))]
  · intro k u t hk0 hkm ht hu
    have u0 := hu 0 (by omega)
    have u1 := hu 1 (by omega)
    simp only [zero_mul, add_zero, one_mul] at u0 u1
    have hk := step_le hw0 hkm
    have hp := G.mul_le ht u1 le_rfl
    refine ⟨G.pow_step ht hw, ?_, ?_⟩
    · intro i hi
      have hi' : i = 0 ∨ i = 1 := by omega
      rcases hi' with rfl | rfl
      · simp only [st, hso.ne', hm0, zero_mul, add_zero, if_true, add_right_inj, mul_eq_mul_right_iff, left_eq_add, or_self, if_false]
        exact G.add_le u0 hp (by nlinarith) (by nlinarith)
      · simp only [st, hso.ne', hm0, one_mul, add_right_inj, mul_eq_mul_right_iff, add_eq_left, or_self, if_false, if_true]
        exact G.sub_le u0 hp (by nlinarith) (by nlinarith)
    · intro a ha
      dsimp only
      rw [st_ne _ _ (by simpa using ha 1 (by simp)), st_ne _ _ (by simpa using ha 0 (by simp))]

theorem pow2_base_graded (G : Graded tw omc) (d : Bool) (x : Arr K) {so : Nat} (hso : 0 < so) (xo si : Nat) (y : Arr K) (yo : Nat) :
    Spread G 2 1 1 x xo si y (pow2Helper tw d 2 x xo si y yo so) yo so := by
  unfold pow2Helper
  rw [if_pos rfl]
  dsimp only
  intro b τ hb
  have b0 := hb 0 (by omega)
  have b1 := hb 1 (by omega)
  rw [zero_mul, add_zero] at b0
  rw [one_mul] at b1
  rw [one_mul, sum_range_succ, sum_range_succ, sum_range_zero, zero_add]
  constructor
  · intro k hk
    have hk' : k = 0 ∨ k = 1 := by omega
    rcases hk' with rfl | rfl
    · rw [zero_mul, add_zero, st_ne _ _ (by omega), st_same]
      exact G.add b0 b1
    · rw [one_mul, st_same]
      exact G.sub b0 b1
  · intro a ha
    rw [st_ne _ _ (by simpa using ha 1 (by simp)), st_ne _ _ (by simpa using ha 0 (by simp))]

theorem pow2_graded (G : Graded tw omc) (d : Bool) (x : Arr K) {so : Nat} (hso : 0 < so) :
    ∀ e xo si y yo, Spread G (2 ^ (e + 1)) 1 (pow2Cost omc e) x xo si y (pow2Helper tw d (2 ^ (e + 1)) x xo si y yo so) yo so
  | 0 => fun xo si y yo => pow2_base_graded G d x hso xo si y yo
  | e + 1 => fun xo si y yo => by
    have hm : 2 ≤ 2 ^ (e + 1) := by
      calc 2 = 2 ^ 1 := rfl
        _ ≤ 2 ^ (e + 1) := Nat.pow_le_pow_right (by omega) (by omega)
    have := pow2_step_graded G d x hso hm (pow2_graded G d x hso e) xo si y yo
    rw [pow_succ 2 (e + 1), mul_comm _ 2]
    exact this

/-! ## Powers of 3 -/

/-- The powers of a twiddle factor, without the last product. -/
theorem Graded.pow_mul (G : Graded tw omc) {w w' : K} {ω a b c : ℝ} (hw : G.N 1 (a * (ω + 3) - 3) w) (hw' : G.N 1 (b * (ω + 3) - 3) w') (h : a + b = c) :
    G.N 1 (c * (ω + 3) - 3) (w * w') :=
  G.mul_le hw hw' (by rw [← h]; linarith)

/-- The roundings of `pow3_FFT_helper`. -/
noncomputable def pow3Cost (omc : Nat → Nat → ℝ) : Nat → ℝ
  | 0 => 8
  | e + 1 => pow3Cost omc e + 2 * ((3 ^ (e + 1) : Nat) : ℝ) * (omc 1 (3 * 3 ^ (e + 1)) + 3) + 1

theorem pow3_base_graded (G : Graded tw omc) (d : Bool) (x : Arr K) {so : Nat} (hso : 0 < so) {p q : K} (hp : G.N 1 3 p) (hq : G.N 1 3 q)
    (xo si : Nat) (y : Arr K) (yo : Nat) : Spread G 3 1 8 x xo si y (pow3Helper tw d p q 3 x xo si y yo so) yo so := by
  unfold pow3Helper
  rw [if_pos rfl]
  dsimp only
  intro b τ hb
  have b0 := hb 0 (by omega)
  have b1 := hb 1 (by omega)
  have b2 := hb 2 (by omega)
  rw [zero_mul, add_zero] at b0
  rw [one_mul] at b1
  rw [one_mul, sum_range_succ, sum_range_succ, sum_range_succ, sum_range_zero, zero_add]
  constructor
  · intro k hk
    have hk' : k = 0 ∨ k = 1 ∨ k = 2 := by omega
    rcases hk' with rfl | rfl | rfl
    · rw [zero_mul, add_zero, st_ne _ _ (by omega), st_ne _ _ (by omega), st_same]
      exact G.add_le (G.add b0 b1) b2 (by linarith) (by linarith)
    · rw [one_mul, st_ne _ _ (by omega), st_same]
      exact G.add_le (G.add_le (σ := τ + 7) b0 (G.mul_le hp b1 le_rfl) (by linarith) (by linarith)) (G.mul_le hq b2 le_rfl)
        (by linarith) (by linarith)
    · rw [st_same]
      exact G.add_le (G.add_le (σ := τ + 7) b0 (G.mul_le hq b1 le_rfl) (by linarith) (by linarith)) (G.mul_le hp b2 le_rfl)
        (by linarith) (by linarith)
  · intro a ha
    rw [st_ne _ _ (by simpa using ha 2 (by simp)), st_ne _ _ (by simpa using ha 1 (by simp)), st_ne _ _ (by simpa using ha 0 (by simp))]

theorem pow3_step_graded (G : Graded tw omc) (d : Bool) (x : Arr K) {so m : Nat} {c : ℝ} (hso : 0 < so) (hm : 2 ≤ m) {p q : K}
    (hp : G.N 1 3 p) (hq : G.N 1 3 q)
    (ih : ∀ xo si y yo, Spread G m 1 c x xo si y (pow3Helper tw d p q m x xo si y yo so) yo so) (xo si : Nat) (y : Arr K) (yo : Nat) :
    Spread G (3 * m) 1 (c + 2 * (m : ℝ) * (omc 1 (3 * m) + 3) + 1) x xo si y (pow3Helper tw d p q (3 * m) x xo si y yo so) yo so := by
  unfold pow3Helper
  rw [if_neg (by omega), dif_neg (by omega), Nat.mul_div_cancel_left m (by omega : 0 < 3)]
  dsimp only
  have hm0 : m ≠ 0 := by omega
  set ω := tw.om d 1 (3 * m) with hω
  have hw : G.N 1 (omc 1 (3 * m)) ω := G.om d 1 (3 * m) (by omega)
  have hw0 := G.omc_nonneg (show 0 < 3 * m by omega) 1
  set ya := pow3Helper tw d p q m x xo (si * 3) y yo so with hya
  set yb := pow3Helper tw d p q m x (xo + si) (si * 3) ya (yo + m * so) so with hyb
  set yc := pow3Helper tw d p q m x (xo + 2 * si) (si * 3) yb (yo + 2 * m * so) so with hyc
  intro b τ hb
  obtain ⟨hs, hfr⟩ := blocks_graded G (r := 3) (m := m) (x := x) (g := 1) (c := c) (xo := fun q => xo + q * si) (si := si * 3) (yo := yo) hso
    (fun q => match q with | 0 => y | 1 => ya | 2 => yb | _ => yc) (by
      intro q hq
      have hq' : q = 0 ∨ q = 1 ∨ q = 2 := by omega
      rcases hq' with rfl | rfl | rfl
      · simpa using ih xo (si * 3) y yo
      · simpa [hyb] using ih (xo + si) (si * 3) ya (yo + m * so)
      · simpa [hyc] using ih (xo + 2 * si) (si * 3) yb (yo + 2 * m * so)) (fun q n => b (q + 3 * n)) τ (by
      intro q hq k hk
      have := hb (q + 3 * k) (by omega)
      rwa [show xo + (q + 3 * k) * si = xo + q * si + k * (si * 3) by ring] at this)
  set B : Nat → ℝ := fun q => ∑ n ∈ range m, b (q + 3 * n) with hB
  have hS : 1 * ∑ j ∈ range (3 * m), b j = B 0 + B 1 + B 2 := by
    rw [one_mul, ← sum_radix, sum_range_succ, sum_range_succ, sum_range_succ, sum_range_zero, zero_add]
  replace hs : ∀ q < 3, ∀ k < m, G.N (B q) (τ + c) (yc (yo + (k + q * m) * so)) := fun q hq k hk => by
    have := hs q hq k hk
    rwa [one_mul] at this
  rw [hS]
  clear_value B
  have s0 := hs 0 (by omega) 0 (by omega)
  have s1 := hs 1 (by omega) 0 (by omega)
  have s2 := hs 2 (by omega) 0 (by omega)
  simp only [zero_mul, add_zero, zero_add, one_mul] at s0 s1 s2
  have hm2 : (2 : ℝ) ≤ m := by exact_mod_cast hm
  have hmw : 6 ≤ (m : ℝ) * (omc 1 (3 * m) + 3) := by nlinarith
  have reorder : ∀ {σ : ℝ} {z : K}, G.N (B 2 + (B 1 + B 0)) σ z → G.N (B 0 + B 1 + B 2) σ z := fun h => G.mono h (by linarith) le_rfl
  have key := radix_graded G (r := 3) (yo := yo) (σ := τ + (c + 2 * (m : ℝ) * (omc 1 (3 * m) + 3) + 1)) (S := B 0 + B 1 + B 2) (m := m) hso (by omega)
    (fun k (w : K × K) => G.N 1 ((k : ℝ) * (omc 1 (3 * m) + 3) - 3) w.1 ∧ G.N 1 (2 * (k : ℝ) * (omc 1 (3 * m) + 3) - 3) w.2)
    (fun k (s : Arr K × K × K) =>
      (st (st (st s.1 (yo + k * so) (s.2.2 * s.1 (yo + (2 * m + k) * so) + (s.2.1 * s.1 (yo + (m + k) * so) + s.1 (yo + k * so))))
        (yo + (m + k) * so) (s.2.2 * (q * s.1 (yo + (2 * m + k) * so)) + (s.2.1 * (p * s.1 (yo + (m + k) * so)) + s.1 (yo + k * so))))
        (yo + (2 * m + k) * so) (s.2.2 * (p * s.1 (yo + (2 * m + k) * so)) + (s.2.1 * (q * s.1 (yo + (m + k) * so)) + s.1 (yo + k * so))),
       s.2.1 * ω, s.2.2 * (ω * ω)))
    yc (st (st (st yc yo (yc (yo + 2 * m * so) + yc (yo + m * so) + yc yo))
        (yo + m * so) (q * yc (yo + 2 * m * so) + (p * yc (yo + m * so) + yc yo)))
        (yo + 2 * m * so) (p * yc (yo + 2 * m * so) + (q * yc (yo + m * so) + yc yo)))
    (ω, ω * ω) B ?_ hs ?_ ?_ ?_
  · exact ⟨key.1, fun a ha => (key.2 a ha).trans (hfr a ha)⟩
  · exact ⟨G.mono hw le_rfl (by push_cast; linarith), G.mul_le hw hw (by push_cast; linarith)⟩
  · have d1 : yo ≠ yo + m * so := fun h => hm0 ((adr_zero' hso).1 h)
    have d2 : yo ≠ yo + 2 * m * so := fun h => by have := (adr_zero' hso).1 h; omega
    have d3 : yo + m * so ≠ yo + 2 * m * so := by rw [Ne, adr_inj hso]; omega
    intro i hi
    have hi' : i = 0 ∨ i = 1 ∨ i = 2 := by omega
    rcases hi' with rfl | rfl | rfl
    · rw [zero_mul, zero_mul, add_zero, st_ne _ _ d2, st_ne _ _ d1, st_same]
      refine G.mono (G.add_le (G.add s2 s1) s0 le_rfl (by linarith)) (by linarith) (by linarith)
    · rw [one_mul, st_ne _ _ d3, st_same]
      exact reorder (G.add_le (G.mul_le hq s2 le_rfl) (G.add_le (σ := τ + c + 7) (G.mul_le hp s1 le_rfl) s0 (by linarith) (by linarith))
        (by linarith) (by linarith))
    · rw [st_same]
      exact reorder (G.add_le (G.mul_le hp s2 le_rfl) (G.add_le (σ := τ + c + 7) (G.mul_le hq s1 le_rfl) s0 (by linarith) (by linarith))
        (by linarith) (by linarith))
  · intro a ha
    rw [st_ne _ _ (by simpa using ha 2 (by simp)), st_ne _ _ (by simpa using ha 1 (by simp)), st_ne _ _ (by simpa using ha 0 (by simp))]
  · rintro k u ⟨t1, t2⟩ hk0 hkm ⟨ht1, ht2⟩ hu
    dsimp only at ht1 ht2
    have u0 := hu 0 (by omega)
    have u1 := hu 1 (by omega)
    have u2 := hu 2 (by omega)
    simp only [zero_mul, add_zero, one_mul] at u0 u1 u2
    rw [add_comm k m] at u1
    rw [add_comm k (2 * m)] at u2
    have hk := step_le hw0 hkm
    have hk1 : (1 : ℝ) ≤ k := by exact_mod_cast hk0
    have hkw : omc 1 (3 * m) + 3 ≤ (k : ℝ) * (omc 1 (3 * m) + 3) := by nlinarith
    have d1 : yo + k * so ≠ yo + (m + k) * so := by rw [Ne, adr_inj hso]; omega
    have d2 : yo + k * so ≠ yo + (2 * m + k) * so := by rw [Ne, adr_inj hso]; omega
    have d3 : yo + (m + k) * so ≠ yo + (2 * m + k) * so := by rw [Ne, adr_inj hso]; omega
    refine ⟨⟨?_, ?_⟩, ?_, ?_⟩
    · exact G.pow_mul ht1 (b := 1) (G.mono hw le_rfl (by linarith)) (by push_cast; ring)
    · exact G.pow_mul ht2 (b := 2) (G.mul_le hw hw (by linarith)) (by push_cast; ring)
    · intro i hi
      have hi' : i = 0 ∨ i = 1 ∨ i = 2 := by omega
      dsimp only
      rcases hi' with rfl | rfl | rfl
      · rw [zero_mul, add_zero, st_ne _ _ d2, st_ne _ _ d1, st_same]
        exact reorder (G.add_le (G.mul_le ht2 u2 le_rfl)
          (G.add_le (σ := τ + c + k * (omc 1 (3 * m) + 3) + 1) (G.mul_le ht1 u1 le_rfl) u0 (by linarith) (by linarith))
          (by linarith) (by linarith))
      · rw [one_mul, add_comm k m, st_ne _ _ d3, st_same]
        exact reorder (G.add_le (G.mul_le ht2 (G.mul_le hq u2 le_rfl) le_rfl)
          (G.add_le (σ := τ + c + k * (omc 1 (3 * m) + 3) + 7) (G.mul_le ht1 (G.mul_le hp u1 le_rfl) le_rfl) u0 (by linarith) (by linarith))
          (by linarith) (by linarith))
      · rw [add_comm k (2 * m), st_same]
        exact reorder (G.add_le (G.mul_le ht2 (G.mul_le hp u2 le_rfl) le_rfl)
          (G.add_le (σ := τ + c + k * (omc 1 (3 * m) + 3) + 7) (G.mul_le ht1 (G.mul_le hq u1 le_rfl) le_rfl) u0 (by linarith) (by linarith))
          (by linarith) (by linarith))
    · intro a ha
      dsimp only
      rw [st_ne _ _ (by simpa [add_comm] using ha 2 (by simp)), st_ne _ _ (by simpa [add_comm] using ha 1 (by simp)),
        st_ne _ _ (by simpa using ha 0 (by simp))]

theorem pow3_graded (G : Graded tw omc) (d : Bool) (x : Arr K) {so : Nat} (hso : 0 < so) {p q : K} (hp : G.N 1 3 p) (hq : G.N 1 3 q) :
    ∀ e xo si y yo, Spread G (3 ^ (e + 1)) 1 (pow3Cost omc e) x xo si y (pow3Helper tw d p q (3 ^ (e + 1)) x xo si y yo so) yo so
  | 0 => fun xo si y yo => pow3_base_graded G d x hso hp hq xo si y yo
  | e + 1 => fun xo si y yo => by
    have hm : 2 ≤ 3 ^ (e + 1) := by
      calc 2 ≤ 3 ^ 1 := by omega
        _ ≤ 3 ^ (e + 1) := Nat.pow_le_pow_right (by omega) (by omega)
    have := pow3_step_graded G d x hso hm hp hq (pow3_graded G d x hso hp hq e) xo si y yo
    rw [pow_succ 3 (e + 1), mul_comm _ 3]
    exact this

/-! ## Powers of 4 -/

/-- The roundings of `pow4_FFT_helper`. -/
noncomputable def pow4Cost (omc : Nat → Nat → ℝ) : Nat → ℝ
  | 0 => 5
  | e + 1 => pow4Cost omc e + 3 * ((4 ^ (e + 1) : Nat) : ℝ) * (omc 1 (4 * 4 ^ (e + 1)) + 3)

theorem butterfly4_graded (G : Graded tw omc) (d flat : Bool) {so : Nat} (hso : 0 < so) (c : Nat) (hc : 0 < c) (yo : Nat) (y : Arr K)
    {a0 a1 a2 a3 : K} {b0 b1 b2 b3 τ : ℝ} (h0 : G.N b0 τ a0) (h1 : G.N b1 τ a1) (h2 : G.N b2 τ a2) (h3 : G.N b3 τ a3) :
    (∀ i < 4, G.N (b0 + b1 + b2 + b3) (τ + 5)
      (butterfly4 tw d flat y yo (yo + c * so) (yo + 2 * c * so) (yo + 3 * c * so) a0 a1 a2 a3 (yo + i * c * so))) ∧
    ∀ b, (∀ i < 4, b ≠ yo + i * c * so) →
      butterfly4 tw d flat y yo (yo + c * so) (yo + 2 * c * so) (yo + 3 * c * so) a0 a1 a2 a3 b = y b := by
  have hs : G.N (b1 + b3) (τ + 4) (tw.i * (a1 - a3)) := G.mul_le G.i (G.sub h1 h3) (by linarith)
  have d1 : yo ≠ yo + c * so := fun h => by have := (adr_zero' hso).1 h; omega
  have d2 : yo ≠ yo + 2 * c * so := fun h => by have := (adr_zero' hso).1 h; omega
  have d3 : yo ≠ yo + 3 * c * so := fun h => by have := (adr_zero' hso).1 h; omega
  have d4 : yo + c * so ≠ yo + 2 * c * so := by rw [Ne, adr_inj hso]; omega
  have d5 : yo + c * so ≠ yo + 3 * c * so := by rw [Ne, adr_inj hso]; omega
  have d6 : yo + 2 * c * so ≠ yo + 3 * c * so := by rw [Ne, adr_inj hso]; omega
  unfold butterfly4
  constructor
  · intro i hi
    have hi' : i = 0 ∨ i = 1 ∨ i = 2 ∨ i = 3 := by omega
    rcases hi' with rfl | rfl | rfl | rfl
    · rw [zero_mul, zero_mul, add_zero, st_ne _ _ d3, st_ne _ _ d2, st_ne _ _ d1, st_same]
      cases flat
      · exact G.mono (G.add (G.add h0 h2) (G.add h1 h3)) (by linarith) (by linarith)
      · exact G.mono (G.add_le (σ := τ + 3) (G.add_le (σ := τ + 2) (G.add h0 h2) h1 (by linarith) (by linarith)) h3 (by linarith) (by linarith))
          (by linarith) (by linarith)
    · rw [one_mul, st_ne _ _ d5, st_ne _ _ d4, st_same]
      cases d
      · exact G.mono (G.add_le (σ := τ + 5) (G.sub h0 h2) hs (by linarith) (by linarith)) (by linarith) (by linarith)
      · exact G.mono (G.add_le (σ := τ + 5) (G.sub h0 h2) (G.neg hs) (by linarith) (by linarith)) (by linarith) (by linarith)
    · rw [st_ne _ _ d6, st_same]
      cases flat
      · exact G.mono (G.sub (G.add h0 h2) (G.add h1 h3)) (by linarith) (by linarith)
      · exact G.mono (G.sub_le (σ := τ + 3) (G.sub_le (σ := τ + 2) (G.add h0 h2) h1 (by linarith) (by linarith)) h3 (by linarith) (by linarith))
          (by linarith) (by linarith)
    · rw [st_same]
      cases d
      · exact G.mono (G.add_le (σ := τ + 5) (G.sub h0 h2) (G.neg hs) (by linarith) (by linarith)) (by linarith) (by linarith)
      · exact G.mono (G.add_le (σ := τ + 5) (G.sub h0 h2) hs (by linarith) (by linarith)) (by linarith) (by linarith)
  · intro a ha
    rw [st_ne _ _ (by simpa using ha 3 (by simp)), st_ne _ _ (by simpa using ha 2 (by simp)), st_ne _ _ (by simpa using ha 1 (by simp)),
      st_ne _ _ (by simpa using ha 0 (by simp))]

theorem pow4_base_graded (G : Graded tw omc) (d : Bool) (x : Arr K) {so : Nat} (hso : 0 < so) (xo si : Nat) (y : Arr K) (yo : Nat) :
    Spread G 4 1 5 x xo si y (pow4Helper tw d 4 x xo si y yo so) yo so := by
  unfold pow4Helper
  rw [if_pos rfl]
  intro b τ hb
  have b0 := hb 0 (by omega)
  have b1 := hb 1 (by omega)
  rw [zero_mul, add_zero] at b0
  rw [one_mul] at b1
  obtain ⟨h1, h2⟩ := butterfly4_graded G d false hso 1 (by omega) yo y b0 b1 (hb 2 (by omega)) (hb 3 (by omega))
  simp only [mul_one] at h1 h2 ⊢
  refine ⟨fun k hk => ?_, h2⟩
  rw [one_mul, sum_range_succ, sum_range_succ, sum_range_succ, sum_range_succ, sum_range_zero, zero_add]
  exact h1 k hk

theorem pow4_step_graded (G : Graded tw omc) (d : Bool) (x : Arr K) {so m : Nat} {c : ℝ} (hso : 0 < so) (hm : 2 ≤ m)
    (ih : ∀ xo si y yo, Spread G m 1 c x xo si y (pow4Helper tw d m x xo si y yo so) yo so) (xo si : Nat) (y : Arr K) (yo : Nat) :
    Spread G (4 * m) 1 (c + 3 * (m : ℝ) * (omc 1 (4 * m) + 3)) x xo si y (pow4Helper tw d (4 * m) x xo si y yo so) yo so := by
  unfold pow4Helper
  rw [if_neg (by omega), dif_neg (by omega), Nat.mul_div_cancel_left m (by omega : 0 < 4)]
  dsimp only
  have hm0 : m ≠ 0 := by omega
  set ω := tw.om d 1 (4 * m) with hω
  have hw : G.N 1 (omc 1 (4 * m)) ω := G.om d 1 (4 * m) (by omega)
  have hw0 := G.omc_nonneg (show 0 < 4 * m by omega) 1
  set ya := pow4Helper tw d m x xo (si * 4) y yo so with hya
  set yb := pow4Helper tw d m x (xo + si) (si * 4) ya (yo + so * m) so with hyb
  set yc := pow4Helper tw d m x (xo + 2 * si) (si * 4) yb (yo + 2 * so * m) so with hyc
  set yd := pow4Helper tw d m x (xo + 3 * si) (si * 4) yc (yo + 3 * so * m) so with hyd
  have e1 : so * m = m * so := mul_comm _ _
  have e2 : 2 * so * m = 2 * m * so := by ring
  have e3 : 3 * so * m = 3 * m * so := by ring
  intro b τ hb
  obtain ⟨hs, hfr⟩ := blocks_graded G (r := 4) (m := m) (x := x) (g := 1) (c := c) (xo := fun q => xo + q * si) (si := si * 4) (yo := yo) hso
    (fun q => match q with | 0 => y | 1 => ya | 2 => yb | 3 => yc | _ => yd) (by
      intro q hq
      have hq' : q = 0 ∨ q = 1 ∨ q = 2 ∨ q = 3 := by omega
      rw [e1] at hyb
      rw [e2] at hyc
      rw [e3] at hyd
      rcases hq' with rfl | rfl | rfl | rfl
      · simpa using ih xo (si * 4) y yo
      · simpa [hyb] using ih (xo + si) (si * 4) ya (yo + m * so)
      · simpa [hyc] using ih (xo + 2 * si) (si * 4) yb (yo + 2 * m * so)
      · simpa [hyd] using ih (xo + 3 * si) (si * 4) yc (yo + 3 * m * so)) (fun q n => b (q + 4 * n)) τ (by
      intro q hq k hk
      have := hb (q + 4 * k) (by omega)
      rwa [show xo + (q + 4 * k) * si = xo + q * si + k * (si * 4) by ring] at this)
  set B : Nat → ℝ := fun q => ∑ n ∈ range m, b (q + 4 * n) with hB
  have hS : 1 * ∑ j ∈ range (4 * m), b j = B 0 + B 1 + B 2 + B 3 := by
    rw [one_mul, ← sum_radix, sum_range_succ, sum_range_succ, sum_range_succ, sum_range_succ, sum_range_zero, zero_add]
  replace hs : ∀ q < 4, ∀ k < m, G.N (B q) (τ + c) (yd (yo + (k + q * m) * so)) := fun q hq k hk => by
    have := hs q hq k hk
    rwa [one_mul] at this
  rw [hS]
  clear_value B
  have s0 := hs 0 (by omega) 0 (by omega)
  have s1 := hs 1 (by omega) 0 (by omega)
  have s2 := hs 2 (by omega) 0 (by omega)
  have s3 := hs 3 (by omega) 0 (by omega)
  simp only [zero_mul, add_zero, zero_add, one_mul] at s0 s1 s2 s3
  have hm2 : (2 : ℝ) ≤ m := by exact_mod_cast hm
  have hmw : 6 ≤ (m : ℝ) * (omc 1 (4 * m) + 3) := by nlinarith
  obtain ⟨hb1, hb2⟩ := butterfly4_graded G d (!d) hso m (by omega) yo yd s0 s1 s2 s3
  have reorder : ∀ {σ : ℝ} {z : K}, G.N (B 2 + B 0 + (B 1 + B 3)) σ z → G.N (B 0 + B 1 + B 2 + B 3) σ z := fun h => G.mono h (by linarith) le_rfl
  have key := radix_graded G (r := 4) (yo := yo) (σ := τ + (c + 3 * (m : ℝ) * (omc 1 (4 * m) + 3))) (S := B 0 + B 1 + B 2 + B 3) (m := m) hso (by omega)
    (fun k (w : K × K × K) => G.N 1 ((k : ℝ) * (omc 1 (4 * m) + 3) - 3) w.1 ∧ G.N 1 (2 * (k : ℝ) * (omc 1 (4 * m) + 3) - 3) w.2.1 ∧
      G.N 1 (3 * (k : ℝ) * (omc 1 (4 * m) + 3) - 3) w.2.2)
    (fun k (s : Arr K × K × K × K) =>
      (st (st (st (st s.1
        (yo + k * so) (s.2.2.1 * s.1 (yo + (k + 2 * m) * so) + s.1 (yo + k * so) + (s.2.1 * s.1 (yo + (k + m) * so) + s.2.2.2 * s.1 (yo + (k + 3 * m) * so))))
        (yo + (k + m) * so) (s.2.2.1 * (- s.1 (yo + (k + 2 * m) * so)) + s.1 (yo + k * so) +
          if d then tw.i * (s.2.2.2 * s.1 (yo + (k + 3 * m) * so) - s.2.1 * s.1 (yo + (k + m) * so))
          else tw.i * (s.2.1 * s.1 (yo + (k + m) * so) - s.2.2.2 * s.1 (yo + (k + 3 * m) * so))))
        (yo + (k + 2 * m) * so) (s.2.2.1 * s.1 (yo + (k + 2 * m) * so) + s.1 (yo + k * so) - (s.2.1 * s.1 (yo + (k + m) * so) + s.2.2.2 * s.1 (yo + (k + 3 * m) * so))))
        (yo + (k + 3 * m) * so) (s.2.2.1 * (- s.1 (yo + (k + 2 * m) * so)) + s.1 (yo + k * so) +
          if d then tw.i * (s.2.1 * s.1 (yo + (k + m) * so) - s.2.2.2 * s.1 (yo + (k + 3 * m) * so))
          else tw.i * (s.2.2.2 * s.1 (yo + (k + 3 * m) * so) - s.2.1 * s.1 (yo + (k + m) * so))),
       s.2.1 * ω, s.2.2.1 * (ω * ω), s.2.2.2 * (ω * ω * ω)))
    yd _ (ω, ω * ω, ω * ω * ω) B ?_ hs (fun i hi => G.mono (hb1 i hi) le_rfl (by linarith)) hb2 ?_
  · exact ⟨key.1, fun a ha => (key.2 a ha).trans (hfr a ha)⟩
  · exact ⟨G.mono hw le_rfl (by push_cast; linarith), G.mul_le hw hw (by push_cast; linarith),
      G.mul_le (G.mul_le hw hw le_rfl) hw (by push_cast; linarith)⟩
  · rintro k u ⟨t1, t2, t3⟩ hk0 hkm ⟨ht1, ht2, ht3⟩ hu
    dsimp only at ht1 ht2 ht3
    have u0 := hu 0 (by omega)
    have u1 := hu 1 (by omega)
    have u2 := hu 2 (by omega)
    have u3 := hu 3 (by omega)
    simp only [zero_mul, add_zero, one_mul] at u0 u1 u2 u3
    have hk := step_le hw0 hkm
    have hk1 : (1 : ℝ) ≤ k := by exact_mod_cast hk0
    have hkw : omc 1 (4 * m) + 3 ≤ (k : ℝ) * (omc 1 (4 * m) + 3) := by nlinarith
    have d1 : yo + k * so ≠ yo + (k + m) * so := by rw [Ne, adr_inj hso]; omega
    have d2 : yo + k * so ≠ yo + (k + 2 * m) * so := by rw [Ne, adr_inj hso]; omega
    have d3 : yo + k * so ≠ yo + (k + 3 * m) * so := by rw [Ne, adr_inj hso]; omega
    have d4 : yo + (k + m) * so ≠ yo + (k + 2 * m) * so := by rw [Ne, adr_inj hso]; omega
    have d5 : yo + (k + m) * so ≠ yo + (k + 3 * m) * so := by rw [Ne, adr_inj hso]; omega
    have d6 : yo + (k + 2 * m) * so ≠ yo + (k + 3 * m) * so := by rw [Ne, adr_inj hso]; omega
    have p1 := G.mul_le ht1 u1 (σ := τ + c + 3 * k * (omc 1 (4 * m) + 3)) (by linarith)
    have p3 := G.mul_le ht3 u3 (σ := τ + c + 3 * k * (omc 1 (4 * m) + 3)) (by linarith)
    have p2 := G.add_le (G.mul_le ht2 u2 le_rfl) u0 (σ := τ + c + 3 * k * (omc 1 (4 * m) + 3) + 1) (by linarith) (by linarith)
    have n2 := G.add_le (G.mul_le ht2 (G.neg u2) le_rfl) u0 (σ := τ + c + 3 * k * (omc 1 (4 * m) + 3) + 1) (by linarith) (by linarith)
    have up := G.mul_le G.i (G.sub p3 p1) (σ := τ + c + 3 * k * (omc 1 (4 * m) + 3) + 4) (by linarith)
    have dn := G.mul_le G.i (G.sub p1 p3) (σ := τ + c + 3 * k * (omc 1 (4 * m) + 3) + 4) (by linarith)
    refine ⟨⟨?_, ?_, ?_⟩, ?_, ?_⟩
    · exact G.pow_mul ht1 (b := 1) (G.mono hw le_rfl (by linarith)) (by push_cast; ring)
    · exact G.pow_mul ht2 (b := 2) (G.mul_le hw hw (by linarith)) (by push_cast; ring)
    · exact G.pow_mul ht3 (b := 3) (G.mul_le (G.mul_le hw hw le_rfl) hw (by linarith)) (by push_cast; ring)
    · intro i hi
      have hi' : i = 0 ∨ i = 1 ∨ i = 2 ∨ i = 3 := by omega
      dsimp only
      rcases hi' with rfl | rfl | rfl | rfl
      · rw [zero_mul, add_zero, st_ne _ _ d3, st_ne _ _ d2, st_ne _ _ d1, st_same]
        exact reorder (G.add_le p2 (G.add p1 p3) (by linarith) (by linarith))
      · rw [one_mul, st_ne _ _ d5, st_ne _ _ d4, st_same]
        cases d
        · exact reorder (G.add_le n2 dn (by linarith) (by linarith))
        · exact G.mono (G.add_le (σ := τ + (c + 3 * (m : ℝ) * (omc 1 (4 * m) + 3))) n2 up (by linarith) (by linarith)) (by linarith) le_rfl
      · rw [st_ne _ _ d6, st_same]
        exact reorder (G.sub_le p2 (G.add p1 p3) (by linarith) (by linarith))
      · rw [st_same]
        cases d
        · exact G.mono (G.add_le (σ := τ + (c + 3 * (m : ℝ) * (omc 1 (4 * m) + 3))) n2 up (by linarith) (by linarith)) (by linarith) le_rfl
        · exact reorder (G.add_le n2 dn (by linarith) (by linarith))
    · intro a ha
      dsimp only
      rw [st_ne _ _ (by simpa using ha 3 (by simp)), st_ne _ _ (by simpa using ha 2 (by simp)), st_ne _ _ (by simpa using ha 1 (by simp)),
        st_ne _ _ (by simpa using ha 0 (by simp))]

theorem pow4_graded (G : Graded tw omc) (d : Bool) (x : Arr K) {so : Nat} (hso : 0 < so) :
    ∀ e xo si y yo, Spread G (4 ^ (e + 1)) 1 (pow4Cost omc e) x xo si y (pow4Helper tw d (4 ^ (e + 1)) x xo si y yo so) yo so
  | 0 => fun xo si y yo => pow4_base_graded G d x hso xo si y yo
  | e + 1 => fun xo si y yo => by
    have hm : 2 ≤ 4 ^ (e + 1) := by
      calc 2 ≤ 4 ^ 1 := by omega
        _ ≤ 4 ^ (e + 1) := Nat.pow_le_pow_right (by omega) (by omega)
    have := pow4_step_graded G d x hso hm (pow4_graded G d x hso e) xo si y yo
    rw [pow_succ 4 (e + 1), mul_comm _ 4]
    exact this

/-! ## The direct sum -/

/-- The roundings of `DFT_helper`. -/
noncomputable def dftCost (omc : Nat → Nat → ℝ) (N : Nat) : ℝ :=
  if N = 1 then 0 else ((N - 1 : Nat) : ℝ) * ((N - 1 : Nat) : ℝ) * (omc 1 N + 3) + 4 * ((N - 1 : Nat) : ℝ)

theorem dft_inner_graded (G : Graded tw omc) {x : Arr K} {xo si N : Nat} {b : Nat → ℝ} {τ : ℝ}
    (hb : ∀ k < N, G.N (b k) τ (x (xo + k * si))) {w : K} {κ ω : ℝ} (hκ : 0 ≤ κ) (hω : 0 ≤ ω) (hw : G.N 1 (κ * (ω + 3) - 3) w) :
    ∀ c, c < N → G.N (∑ j ∈ range (c + 1), b j) (τ + (c * κ * (ω + 3) + 4 * c))
        (forRange 1 c (fun n (r : K × K) => (r.2 * x (xo + n * si) + r.1, r.2 * w)) (x xo, w)).1 ∧
      G.N 1 (((c + 1 : Nat) : ℝ) * κ * (ω + 3) - 3) (forRange 1 c (fun n (r : K × K) => (r.2 * x (xo + n * si) + r.1, r.2 * w)) (x xo, w)).2
  | 0, h => by
    have b0 := hb 0 h
    rw [zero_mul, add_zero] at b0
    refine ⟨?_, ?_⟩
    · rw [zero_add, sum_range_succ, sum_range_zero, zero_add]
      exact G.mono b0 le_rfl (by simp)
    · exact G.mono hw le_rfl (by simp)
  | c + 1, h => by
    obtain ⟨h1, h2⟩ := dft_inner_graded G hb hκ hω hw c (by omega)
    rw [forRange]
    have hx := hb (1 + c) (by omega)
    have hc : (0 : ℝ) ≤ c := Nat.cast_nonneg c
    have hkw : 0 ≤ κ * (ω + 3) := by positivity
    refine ⟨?_, ?_⟩
    · rw [sum_range_succ, add_comm (∑ j ∈ range (c + 1), b j)]
      rw [add_comm 1 c] at hx ⊢
      refine G.add_le (G.mul_le h2 hx le_rfl) h1 ?_ ?_
      · push_cast; nlinarith
      · push_cast; nlinarith
    · exact G.mul_le h2 hw (by push_cast; linarith)

theorem sum_graded (G : Graded tw omc) {f : Nat → K} {z : K} {b : Nat → ℝ} {b0 τ : ℝ} (hz : G.N b0 τ z) :
    ∀ c, (∀ k < c, G.N (b k) τ (f (1 + k))) → G.N (b0 + ∑ j ∈ range c, b j) (τ + c) (forRange 1 c (fun n t => t + f n) z)
  | 0, _ => by simpa [forRange] using hz
  | c + 1, h => by
    rw [forRange, sum_range_succ, ← add_assoc]
    have hc : (0 : ℝ) ≤ c := Nat.cast_nonneg c
    refine G.add_le (sum_graded G hz c fun k hk => h k (by omega)) (h c (by omega)) ?_ ?_
    · push_cast; linarith
    · push_cast; linarith

theorem dft_graded (G : Graded tw omc) (d : Bool) (x : Arr K) {so : Nat} (hso : 0 < so) {N : Nat} (hN : 0 < N) (xo si : Nat) (y : Arr K) (yo : Nat) :
    Spread G N 1 (dftCost omc N) x xo si y (dftHelper tw d N x xo si y yo so) yo so := by
  unfold dftHelper dftCost
  split
  · rename_i h1
    subst h1
    intro b τ hb
    have b0 := hb 0 (by omega)
    rw [zero_mul, add_zero] at b0
    constructor
    · intro k hk
      have : k = 0 := by omega
      subst this
      rw [zero_mul, add_zero yo, st_same]
      exact G.mono b0 (by simp) (by simp)
    · intro a ha
      rw [st_ne _ _ (by simpa using ha 0 (by simp))]
  · rename_i h1
    dsimp only
    set ω := tw.om d 1 N with hω
    have hw : G.N 1 (omc 1 N) ω := G.om d 1 N hN
    have hw0 := G.omc_nonneg hN 1
    obtain ⟨n, rfl⟩ : ∃ n, N = n + 1 := ⟨N - 1, by omega⟩
    rw [Nat.add_sub_cancel]
    intro b τ hb
    rw [one_mul]
    have hn : (1 : ℝ) ≤ n := by exact_mod_cast (by omega : 1 ≤ n)
    have inv := forRange_inv (fun c (s : Arr K × K × K) => s.2.1 = s.2.2 ∧ G.N 1 (((c + 1 : Nat) : ℝ) * (omc 1 (n + 1) + 3) - 3) s.2.1 ∧
        (∀ k < c + 1, G.N (∑ j ∈ range (n + 1), b j) (τ + (n * n * (omc 1 (n + 1) + 3) + 4 * n)) (s.1 (yo + k * so))) ∧
        ∀ a, (∀ k < c + 1, a ≠ yo + k * so) → s.1 a = y a) 1
      (fun k (s : Arr K × K × K) =>
        (st s.1 (yo + k * so) (forRange 1 n (fun n (r : K × K) => (r.2 * x (xo + n * si) + r.1, r.2 * s.2.1)) (x xo, s.2.2)).1,
          s.2.1 * ω, s.2.1 * ω))
      (st y yo (forRange 1 n (fun n tmp => tmp + x (xo + n * si)) (x xo)), ω, ω) n ?_ ?_
    · exact ⟨inv.2.2.1, inv.2.2.2⟩
    · refine ⟨rfl, G.mono hw le_rfl (by simp), ?_, ?_⟩
      · intro k hk
        have : k = 0 := by omega
        subst this
        have b0 := hb 0 (by omega)
        rw [zero_mul, add_zero] at b0
        dsimp only
        rw [zero_mul, add_zero, st_same, sum_range_succ', add_comm (∑ j ∈ range n, b (j + 1))]
        refine G.mono (sum_graded G (f := fun n => x (xo + n * si)) (b := fun k => b (k + 1)) b0 n fun k hk => ?_) le_rfl ?_
        · rw [add_comm 1 k]; exact hb (k + 1) (by omega)
        · have : 0 ≤ (n : ℝ) * n * (omc 1 (n + 1) + 3) := by positivity
          linarith
      · intro a ha
        exact st_ne _ _ (by simpa using ha 0 (by simp))
    · rintro c hc ⟨u, t, t'⟩ ⟨ht, h1, h2, h3⟩
      dsimp only at ht h1 h2 h3
      subst ht
      rw [add_comm 1 c]
      dsimp only
      have hcn : ((c + 1 : Nat) : ℝ) ≤ n := by exact_mod_cast hc
      refine ⟨rfl, G.mul_le h1 hw (by push_cast; linarith), ?_, ?_⟩
      · intro k hk
        rcases Nat.lt_or_ge k (c + 1) with hlt | hge
        · rw [st_ne _ _ (by rw [Ne, adr_inj hso]; omega)]
          exact h2 k hlt
        · have : k = c + 1 := by omega
          subst this
          rw [st_same]
          refine G.mono (dft_inner_graded G hb (Nat.cast_nonneg _) hw0 h1 n (by omega)).1 le_rfl ?_
          have : (n : ℝ) * ((c + 1 : Nat) : ℝ) * (omc 1 (n + 1) + 3) ≤ n * n * (omc 1 (n + 1) + 3) :=
            mul_le_mul_of_nonneg_right (mul_le_mul_of_nonneg_left hcn (by linarith)) (by linarith)
          linarith
      · intro a ha
        rw [st_ne _ _ (ha _ (by omega))]
        exact h3 a fun k hk => ha k (by omega)

/-! ## The composite lengths -/

/-- A function with the interface of `Fourier_Transform::operator()` for a fixed node and direction. -/
def Spreads (G : Graded tw omc) (N : Nat) (g c : ℝ) (f : Arr K → Nat → Nat → Arr K → Nat → Nat → (Nat → Arr K) → Out K) : Prop :=
  ∀ x xo si y yo so W, 0 < so → Spread G N g c x xo si y (f x xo si y yo so W).1 yo so

/-- The roundings of the twiddle factors of `composite_FFT`. -/
noncomputable def compositeCost (omc : Nat → Nat → ℝ) (N1 N2 : Nat) : ℝ :=
  ((N1 * N2 : Nat) : ℝ) * (omc 1 (N1 * N2) + 3) + 3 * (N2 : ℝ)

theorem composite_graded (G : Graded tw omc) (d : Bool) {N1 N2 n : Nat} {gl cl gr cr : ℝ} (h1 : 0 < N1) (h2 : 0 < N2)
    {left right : Arr K → Nat → Nat → Arr K → Nat → Nat → (Nat → Arr K) → Out K}
    (hl : Spreads G N1 gl cl left) (hr : Spreads G N2 gr cr right) :
    Spreads G (N1 * N2) (gl * gr) (cl + cr + compositeCost omc N1 N2) (compositeFFT tw (N1 * N2) N1 N2 n left right d) := by
  intro x xo si y yo so W hso b τ hb
  unfold compositeFFT
  dsimp only
  set ω := tw.om d 1 (N1 * N2) with hω
  have hw : G.N 1 (omc 1 (N1 * N2)) ω := G.om d 1 (N1 * N2) (by positivity)
  have hw0 := G.omc_nonneg (show 0 < N1 * N2 by positivity) 1
  set κ := omc 1 (N1 * N2) with hκ
  have hE : compositeCost omc N1 N2 = (N1 : ℝ) * N2 * (κ + 3) + 3 * (N2 : ℝ) := by rw [compositeCost, Nat.cast_mul]
  rw [hE]
  set body := fun j1 (s : Arr K × K × (Nat → Arr K)) =>
    ((if 0 < j1 then
        (forRange 1 (N2 - 1) (fun k2 (t : Arr K × K) => (st t.1 (j1 * N2 + k2) (t.1 (j1 * N2 + k2) * t.2), t.2 * s.2.1))
          ((right x (xo + j1 * si) (N1 * si) s.1 (N2 * j1) 1 s.2.2).1, s.2.1)).1
      else (right x (xo + j1 * si) (N1 * si) s.1 (N2 * j1) 1 s.2.2).1),
      s.2.1 * ω, (right x (xo + j1 * si) (N1 * si) s.1 (N2 * j1) 1 s.2.2).2) with hbody
  set B : Nat → ℝ := fun j => gr * ∑ m ∈ range N2, b (j + N1 * m) with hB
  set σ := τ + cr + ((N1 : ℝ) * N2 * (κ + 3) + 3 * (N2 : ℝ)) with hσ
  have hN1 : (0 : ℝ) ≤ N1 := Nat.cast_nonneg _
  have hN2 : (1 : ℝ) ≤ N2 := by exact_mod_cast h2
  -- the rows
  have rows := forRange_inv (fun c (s : Arr K × K × (Nat → Arr K)) => G.N 1 ((c : ℝ) * (κ + 3)) s.2.1 ∧
      ∀ j < c, ∀ k < N2, G.N (B j) σ (s.1 (k + j * N2))) 0 body (W n, 1, W) N1 ?_ ?_
  rotate_left
  · exact ⟨G.mono G.one le_rfl (by simp), fun j hj => absurd hj (by omega)⟩
  · rintro c hc ⟨z, w, V⟩ ⟨hwc, hz⟩
    dsimp only at hwc hz
    rw [zero_add, hbody]
    dsimp only
    refine ⟨G.mul_le hwc hw (by push_cast; linarith), ?_⟩
    obtain ⟨g1, g2⟩ := hr x (xo + c * si) (N1 * si) z (N2 * c) 1 V (by omega) (fun m => b (c + N1 * m)) τ (by
      intro k hk
      have := hb (c + N1 * k) (by rw [Nat.mul_comm N1 N2, Nat.mul_comm N1 k]; exact blk_lt hc hk)
      rwa [show xo + (c + N1 * k) * si = xo + c * si + k * (N1 * si) by ring] at this)
    set o := (right x (xo + c * si) (N1 * si) z (N2 * c) 1 V).1 with ho
    have hold : ∀ j < c, ∀ k < N2, o (k + j * N2) = z (k + j * N2) := by
      intro j hj k hk
      refine g2 _ fun q hq h => ?_
      have : k + j * N2 = q + c * N2 := by rw [h]; ring
      rw [blk_inj hk hq] at this
      omega
    have hnew : ∀ k < N2, G.N (B c) (τ + cr) (o (k + c * N2)) := by
      intro k hk
      have := g1 k hk
      rwa [show N2 * c + k * 1 = k + c * N2 by ring] at this
    have hcN : (c : ℝ) + 1 ≤ N1 := by exact_mod_cast hc
    have hc0' : (0 : ℝ) ≤ c := Nat.cast_nonneg c
    by_cases hc0 : 0 < c
    · rw [if_pos hc0]
      have inner := forRange_inv (fun e (t : Arr K × K) => G.N 1 (((e + 1 : Nat) : ℝ) * (c * (κ + 3)) + 3 * e) t.2 ∧
          (∀ k < e + 1, G.N (B c) σ (t.1 (k + c * N2))) ∧
          ∀ a, (∀ k < e + 1, a ≠ k + c * N2) → t.1 a = o a) 1
        (fun k2 (t : Arr K × K) => (st t.1 (c * N2 + k2) (t.1 (c * N2 + k2) * t.2), t.2 * w)) (o, w) (N2 - 1) ?_ ?_
      · obtain ⟨-, i1, i2⟩ := inner
        rw [Nat.sub_add_cancel h2] at i1 i2
        intro j hj k hk
        by_cases hjc : j = c
        · subst hjc
          exact i1 k hk
        · rw [i2 _ fun q hq h => by rw [blk_inj hk hq] at h; omega, hold j (by omega) k hk]
          exact hz j (by omega) k hk
      · refine ⟨G.mono hwc le_rfl (by simp), fun k hk => ?_, fun a ha => rfl⟩
        have : k = 0 := by omega
        subst this
        refine G.mono (hnew 0 h2) le_rfl ?_
        have : 0 ≤ (N1 : ℝ) * N2 * (κ + 3) := by positivity
        linarith
      · rintro e he ⟨t, v⟩ ⟨hv, i1, i2⟩
        dsimp only at hv i1 i2
        dsimp only
        have hcomm : c * N2 + (1 + e) = e + 1 + c * N2 := by ring
        rw [hcomm]
        refine ⟨G.mul_le hv hwc (by push_cast; linarith), ?_, ?_⟩
        · intro k hk
          rcases Nat.lt_or_ge k (e + 1) with hlt | hge
          · rw [st_ne _ _ (by omega)]
            exact i1 k hlt
          · have : k = e + 1 := by omega
            subst this
            rw [st_same, i2 _ fun k hk => by omega]
            refine G.mul_le' (hnew (e + 1) (by omega)) hv ?_
            have he2 : ((e + 1 : Nat) : ℝ) + 1 ≤ N2 := by exact_mod_cast (by omega : e + 1 + 1 ≤ N2)
            have he0 : (0 : ℝ) ≤ ((e + 1 : Nat) : ℝ) := Nat.cast_nonneg _
            have h3 : ((e + 1 : Nat) : ℝ) * (c * (κ + 3)) ≤ N1 * N2 * (κ + 3) := by
              have : ((e + 1 : Nat) : ℝ) * c ≤ N2 * N1 := mul_le_mul (by linarith) (by linarith) hc0' (by linarith)
              nlinarith
            push_cast at he2 h3 ⊢
            linarith
        · intro a ha
          rw [st_ne _ _ (ha _ (by omega))]
          exact i2 a fun k hk => ha k (by omega)
    · rw [if_neg hc0]
      intro j hj k hk
      have hj0 : j = c := by omega
      subst hj0
      refine G.mono (hnew k hk) le_rfl ?_
      have : 0 ≤ (N1 : ℝ) * N2 * (κ + 3) := by positivity
      linarith
  -- the columns
  obtain ⟨-, hz⟩ := rows
  set s := forRange 0 N1 body (W n, 1, W) with hs
  have hgain : gl * gr * ∑ j ∈ range (N1 * N2), b j = gl * ∑ j ∈ range N1, B j := by
    rw [mul_assoc, ← sum_radix N1 N2 b, Finset.mul_sum]
  rw [hgain]
  have cols := forRange_inv (fun c (o : Out K) =>
      (∀ k2 < c, ∀ k1 < N1, G.N (gl * ∑ j ∈ range N1, B j) (σ + cl) (o.1 (yo + (k2 + k1 * N2) * so))) ∧
      ∀ a, (∀ k2 < c, ∀ k1 < N1, a ≠ yo + (k2 + k1 * N2) * so) → o.1 a = y a) 0
    (fun k2 (o : Out K) => left s.1 k2 N2 o.1 (yo + k2 * so) (N2 * so) o.2) (y, setWs s.2.2 n s.1) N2 ?_ ?_
  · obtain ⟨c1, c2⟩ := cols
    constructor
    · intro k hk
      obtain ⟨k2, k1, hk2, hk1, rfl⟩ := blk_split hk
      exact G.mono (c1 k2 hk2 k1 hk1) le_rfl (by rw [hσ]; linarith)
    · intro a ha
      exact c2 a fun k2 hk2 k1 hk1 => ha _ (blk_lt hk2 hk1)
  · exact ⟨fun k hk => absurd hk (by omega), fun _ _ => rfl⟩
  · rintro c hc ⟨u, V⟩ ⟨c1, c2⟩
    dsimp only at c1 c2
    rw [zero_add]
    dsimp only
    obtain ⟨g1, g2⟩ := hl s.1 c N2 u (yo + c * so) (N2 * so) V (by positivity) B σ fun k hk => hz k hk c hc
    have hadr : ∀ k1, yo + (c + k1 * N2) * so = yo + c * so + k1 * (N2 * so) := fun k1 => by ring
    constructor
    · intro k2 hk2 k1 hk1
      rcases Nat.lt_or_ge k2 c with hlt | hge
      · rw [g2 _ fun q hq h => ?_]
        · exact c1 k2 hlt k1 hk1
        · rw [← hadr, adr_inj hso, blk_inj (by omega) (by omega)] at h
          omega
      · have : k2 = c := by omega
        subst this
        rw [hadr]
        exact g1 k1 hk1
    · intro a ha
      rw [g2 _ fun q hq h => ha c (by omega) q hq (by rw [hadr]; exact h)]
      exact c2 a fun k2 hk2 k1 hk1 => ha k2 (by omega) k1 hk1

/-! ## Rader's algorithm -/

/-- The roundings of `rader_FFT`, without those of the two transforms of length `p - 1`. -/
noncomputable def raderCost (omc : Nat → Nat → ℝ) (p : Nat) : ℝ :=
  omc 1 p + omc (p * ((p - 1) * (p - 1) + p)) (p * (p - 1)) + p + 6

theorem rader_graded (G : Graded tw omc) (homc : ∀ m m' n, m ≤ m' → omc m n ≤ omc m' n) {p a b n : Nat} {g c : ℝ} (h : RaderNode p a b) (hg : 1 ≤ g) (hc : 0 ≤ c)
    {sub : Bool → Arr K → Nat → Nat → Arr K → Nat → Nat → (Nat → Arr K) → Out K} (hs : ∀ d, Spreads G (p - 1) g c (sub d)) (d : Bool) :
    Spreads G p (g * g * ((p - 1 : Nat) : ℝ)) (2 * c + raderCost omc p) (raderFFT tw p a b n sub d) := by
  intro x xo si y yo so W hso β τ hβ
  have h2 := h.odd
  obtain ⟨M, hM⟩ : ∃ M, p = M + 1 := ⟨p - 1, by omega⟩
  have hM1 : p - 1 = M := by omega
  have hMpos : 0 < M := by omega
  have hMr : (1 : ℝ) ≤ M := by exact_mod_cast hMpos
  have hpr : (p : ℝ) = M + 1 := by rw [hM]; push_cast; ring
  unfold raderFFT raderCost
  simp only [hM1] at hs ⊢
  set R := omc 1 p + omc (p * (M * M + p)) (p * M) with hR
  have hp0 : 0 < p := by omega
  have hpM : 0 < p * M := by positivity
  have hR1 : omc 1 p ≤ R := by have := G.omc_nonneg hpM (p * (M * M + p)); linarith
  have hR2 : omc (p * (M * M + p)) (p * M) ≤ R := by have := G.omc_nonneg hp0 1; linarith
  have hR0 : 0 ≤ R := le_trans (G.omc_nonneg hp0 1) hR1
  have hb1 : ∀ k, b ^ k % p < p := fun k => Nat.mod_lt _ hp0
  have hx0 := hβ 0 hp0
  rw [zero_mul, add_zero] at hx0
  -- the sizes
  obtain ⟨hinB, himB⟩ := h.image (c := b) (Or.inr rfl)
  rw [hM1] at himB hinB
  set S := ∑ k ∈ range M, β (b ^ k % p) with hS
  have reindex : ∑ n ∈ range p, β n = β 0 + S := by
    rw [range_eq_Ico, sum_eq_sum_Ico_succ_bot hp0, ← himB, sum_image]
    intro j hj k hk hjk
    exact hinB j (mem_range.1 hj) k (mem_range.1 hk) hjk
  rw [reindex]
  have hβ0 : 0 ≤ β 0 := G.size hx0
  have hS0 : 0 ≤ S := sum_nonneg fun k _ => G.size (hβ _ (hb1 k))
  have hgM : 1 ≤ g * g * (M : ℝ) := by
    have : 1 ≤ g * g := by nlinarith
    nlinarith
  -- the shuffle
  have L1 := forRange_inv (fun e (s : Arr K × K × Nat) => s.2.2 = b ^ e % p ∧
      G.N (β 0 + ∑ k ∈ range e, β (b ^ k % p)) (τ + e) s.2.1 ∧
      (∀ k < e, s.1 (yo + k * so) = x (xo + (b ^ k % p) * si)) ∧
      ∀ e', (∀ k < e, e' ≠ yo + k * so) → s.1 e' = y e') 0
    (fun k (s : Arr K × K × Nat) => (st s.1 (yo + k * so) (x (xo + s.2.2 * si)),
      s.2.1 + st s.1 (yo + k * so) (x (xo + s.2.2 * si)) (yo + k * so), s.2.2 * b % p)) (y, x xo, 1) M ?_ ?_
  rotate_left
  · refine ⟨?_, ?_, fun k hk => absurd hk (by omega), fun _ _ => rfl⟩
    · rw [pow_zero, Nat.mod_eq_of_lt (by omega)]
    · exact G.mono hx0 (by simp) (by simp)
  · rintro e he ⟨u, v, w⟩ ⟨i1, i2, i3, i4⟩
    dsimp only at i1 i2 i3 i4 ⊢
    subst i1
    rw [zero_add]
    refine ⟨?_, ?_, ?_, ?_⟩
    · rw [pow_succ, Nat.mul_mod, Nat.mod_mod, ← Nat.mul_mod]
    · rw [st_same, sum_range_succ, ← add_assoc]
      have he0 : (0 : ℝ) ≤ e := Nat.cast_nonneg e
      exact G.add_le i2 (hβ _ (hb1 e)) (by push_cast; linarith) (by push_cast; linarith)
    · intro k hk
      by_cases hkc : k = e
      · subst hkc; rw [st_same]
      · rw [st_ne _ _ (by rw [Ne, adr_inj hso]; exact hkc)]
        exact i3 k (by omega)
    · intro e' he'
      rw [st_ne _ _ (he' e (by omega))]
      exact i4 e' fun k hk => he' k (by omega)
  set s := forRange 0 M (fun k (s : Arr K × K × Nat) => (st s.1 (yo + k * so) (x (xo + s.2.2 * si)),
      s.2.1 + st s.1 (yo + k * so) (x (xo + s.2.2 * si)) (yo + k * so), s.2.2 * b % p)) (y, x xo, 1) with hsdef
  obtain ⟨-, l2, l3, l4⟩ := L1
  -- the transform of the shuffled input
  have hz := (hs d s.1 yo so (W n) 0 1 W (by omega) (fun k => β (b ^ k % p)) τ fun k hk => by rw [l3 k hk]; exact hβ _ (hb1 k)).1
  set o := sub d s.1 yo so (W n) 0 1 W with ho
  -- the coefficients
  have coef : ∀ m < M, G.N (M : ℝ) (R + M) (forRange 1 (M - 1) (fun k (c : K × Nat) =>
      (c.1 + tw.om d (p * (k * m + c.2) - c.2) (p * M), c.2 * a % p)) (tw.om d 1 p, a)).1 := by
    intro m hm
    have L := forRange_inv (fun e (c : K × Nat) => c.2 < p ∧ G.N ((e : ℝ) + 1) (R + e) c.1) 1
      (fun k (c : K × Nat) => (c.1 + tw.om d (p * (k * m + c.2) - c.2) (p * M), c.2 * a % p)) (tw.om d 1 p, a) (M - 1) ?_ ?_
    · have hcast : ((M - 1 : Nat) : ℝ) = M - 1 := by rw [Nat.cast_sub hMpos]; simp
      exact G.mono L.2 (by rw [hcast]; linarith) (by rw [hcast]; linarith)
    · exact ⟨h.a_lt, G.mono (G.om d 1 p hp0) (by simp) (by simpa using hR1)⟩
    · rintro e he ⟨u, w⟩ ⟨j1, j2⟩
      dsimp only at j1 j2 ⊢
      refine ⟨Nat.mod_lt _ hp0, ?_⟩
      have hom := G.om d (p * ((1 + e) * m + w) - w) (p * M) hpM
      have hle : p * ((1 + e) * m + w) - w ≤ p * (M * M + p) := by
        refine (Nat.sub_le _ _).trans (Nat.mul_le_mul_left p (Nat.add_le_add (Nat.mul_le_mul (by omega) hm.le) j1.le))
      have he0 : (0 : ℝ) ≤ e := Nat.cast_nonneg e
      have := homc _ _ (p * M) hle
      refine G.mono (G.add_le (σ := R + e + 1) j2 hom (by linarith) (by linarith)) (by push_cast; linarith) (by push_cast; linarith)
  -- the products
  set T := τ + c + (R + M) + 3 with hT
  have L2 := forRange_inv (fun e (u : Arr K) => (∀ m < e, G.N (g * S * M) T (u (yo + m * so))) ∧
      ∀ e', (∀ k < e, e' ≠ yo + k * so) → u e' = s.1 e') 0
    (fun m (u : Arr K) => st u (yo + m * so) (o.1 m * (forRange 1 (M - 1) (fun k (c : K × Nat) =>
      (c.1 + tw.om d (p * (k * m + c.2) - c.2) (p * M), c.2 * a % p)) (tw.om d 1 p, a)).1)) s.1 M ?_ ?_
  rotate_left
  · exact ⟨fun k hk => absurd hk (by omega), fun _ _ => rfl⟩
  · rintro e he u ⟨i1, i2⟩
    rw [zero_add]
    refine ⟨?_, ?_⟩
    · intro m hm
      by_cases hmc : m = e
      · subst hmc
        rw [st_same]
        have := hz m he
        rw [zero_add, mul_one] at this
        exact G.mul this (coef m he)
      · rw [st_ne _ _ (by rw [Ne, adr_inj hso]; exact hmc)]
        exact i1 m (by omega)
    · intro e' he'
      rw [st_ne _ _ (he' e (by omega))]
      exact i2 e' fun k hk => he' k (by omega)
  set y2 := forRange 0 M (fun m (u : Arr K) => st u (yo + m * so) (o.1 m * (forRange 1 (M - 1) (fun k (c : K × Nat) =>
      (c.1 + tw.om d (p * (k * m + c.2) - c.2) (p * M), c.2 * a % p)) (tw.om d 1 p, a)).1)) s.1 with hy2
  obtain ⟨m1, m2⟩ := L2
  -- back
  have hz2 := (hs (!d) y2 yo so o.1 0 1 o.2 (by omega) (fun _ => g * S * M) T m1).1
  set o2 := sub (!d) y2 yo so o.1 0 1 o.2 with ho2
  have hval : ∀ m < M, G.N (g * g * M * (β 0 + S)) (τ + (2 * c + (R + p + 6))) (x xo + o2.1 m / (M : K)) := by
    intro m hm
    have := hz2 m hm
    rw [zero_add, mul_one, sum_const, card_range, nsmul_eq_mul] at this
    have hd := G.div M hMpos this
    refine G.mono (G.add_le (σ := τ + (2 * c + (R + p + 6))) hx0 hd (by linarith) (by rw [hT, hpr]; linarith)) ?_ le_rfl
    have : g * (M * (g * S * M)) / M = g * g * M * S := by
      field_simp
    rw [this]
    nlinarith
  -- the last loop
  have L3 := forRange_inv (fun e (r : Arr K × Nat) => r.2 = a ^ e % p ∧
      (∀ m < e, r.1 (yo + (a ^ m % p) * so) = x xo + o2.1 m / (M : K)) ∧
      ∀ e', (∀ m < e, e' ≠ yo + (a ^ m % p) * so) → r.1 e' = st y2 yo s.2.1 e') 0
    (fun m (r : Arr K × Nat) => (st r.1 (yo + r.2 * so) (x xo + o2.1 m / (M : K)), r.2 * a % p)) (st y2 yo s.2.1, 1) M ?_ ?_
  rotate_left
  · refine ⟨?_, fun k hk => absurd hk (by omega), fun _ _ => rfl⟩
    rw [pow_zero, Nat.mod_eq_of_lt (by omega)]
  · rintro e he ⟨u, w⟩ ⟨i1, i2, i3⟩
    dsimp only at i1 i2 i3 ⊢
    subst i1
    rw [zero_add]
    refine ⟨?_, ?_, ?_⟩
    · rw [pow_succ, Nat.mul_mod, Nat.mod_mod, ← Nat.mul_mod]
    · intro m hm
      by_cases hmc : m = e
      · subst hmc; rw [st_same]
      · rw [st_ne _ _ ?_]
        · exact i2 m (by omega)
        · rw [Ne, adr_inj hso]
          exact fun he' => hmc ((h.image (Or.inl rfl)).1 m (by omega) e (by omega) he')
    · intro e' he'
      rw [st_ne _ _ (he' e (by omega))]
      exact i3 e' fun k hk => he' k (by omega)
  obtain ⟨-, n1, n2⟩ := L3
  obtain ⟨-, himA⟩ := h.image (c := a) (Or.inl rfl)
  rw [hM1] at himA
  constructor
  · intro k hk
    by_cases hk0 : k = 0
    · subst hk0
      rw [n2 _ fun m hm he => ?_]
      · rw [zero_mul, add_zero, st_same]
        refine G.mono l2 ?_ (by rw [hpr]; linarith)
        nlinarith
      · rw [adr_inj hso] at he
        have : a ^ m % p ∈ Ico 1 p := by
          rw [← himA]; exact mem_image_of_mem _ (mem_range.2 hm)
        rw [mem_Ico] at this
        omega
    · have hmem : k ∈ Ico 1 p := mem_Ico.2 ⟨by omega, hk⟩
      rw [← himA, mem_image] at hmem
      obtain ⟨m, hm, rfl⟩ := hmem
      rw [mem_range] at hm
      rw [n1 m hm]
      exact hval m hm
  · intro e he
    rw [n2 e fun m hm => he _ (Nat.mod_lt _ hp0)]
    rw [st_ne _ _ (by simpa using he 0 (by omega)), m2 e fun k hk => he k (by omega)]
    exact l4 e fun k hk => he k (by omega)

/-! ## The whole tree -/

/-- The gain of the transform: only Rader's algorithm goes through numbers that are larger than the result. -/
noncomputable def Tree.gain : Tree → ℝ
  | .leaf _ _ => 1
  | .composite _ l r => l.gain * r.gain
  | .rader p _ _ l => l.gain * l.gain * ((p - 1 : Nat) : ℝ)

/-- The number of roundings of the transform. -/
noncomputable def Tree.cost (omc : Nat → Nat → ℝ) : Tree → ℝ
  | .leaf .pow2 N => pow2Cost omc (Nat.log 2 N - 1)
  | .leaf .pow3 N => pow3Cost omc (Nat.log 3 N - 1)
  | .leaf .pow4 N => pow4Cost omc (Nat.log 4 N - 1)
  | .leaf .discrete N => dftCost omc N
  | .leaf _ _ => 0
  | .composite _ l r => l.cost omc + r.cost omc + compositeCost omc l.sz r.sz
  | .rader p _ _ l => 2 * l.cost omc + raderCost omc p

theorem Tree.one_le_gain : ∀ t : Tree, t.Good → 1 ≤ t.gain
  | .leaf _ _, _ => le_rfl
  | .composite _ l r, h => by
    obtain ⟨-, -, -, hl, hr⟩ := h
    have h1 := l.one_le_gain hl
    have h2 := r.one_le_gain hr
    rw [Tree.gain]
    nlinarith
  | .rader p _ _ l, h => by
    obtain ⟨hn, -, hl⟩ := h
    have h1 := l.one_le_gain hl
    have := hn.odd
    have h2 : (1 : ℝ) ≤ ((p - 1 : Nat) : ℝ) := by exact_mod_cast (by omega : 1 ≤ p - 1)
    rw [Tree.gain]
    have : 1 ≤ l.gain * l.gain := by nlinarith
    nlinarith

theorem tree_graded (G : Graded tw omc) (homc : ∀ m m' n, m ≤ m' → omc m n ≤ omc m' n) :
    ∀ t : Tree, t.Good → 0 ≤ t.cost omc ∧ ∀ n d, Spreads G t.sz t.gain (t.cost omc) (t.fft tw n d) := by
  have h0 : ∀ n, 0 < n → ∀ m, 0 ≤ omc m n := fun n hn m => G.omc_nonneg hn m
  intro t
  induction t with
  | leaf type N =>
    intro hg
    cases type with
    | pow2 =>
      obtain ⟨e, rfl⟩ := hg
      have he : Nat.log 2 (2 ^ (e + 1)) - 1 = e := by rw [Nat.log_pow (by omega), Nat.add_sub_cancel]
      refine ⟨?_, fun n d x xo si y yo so W hso => ?_⟩
      · rw [Tree.cost, he]
        induction e with
        | zero => simp [pow2Cost]
        | succ e ih =>
          have := ih (by rw [Nat.log_pow (by omega), Nat.add_sub_cancel])
          have := h0 (2 * 2 ^ (e + 1)) (by positivity) 1
          rw [pow2Cost]
          positivity
      · rw [Tree.cost, he]
        exact pow2_graded G d x hso e xo si y yo
    | pow3 =>
      obtain ⟨e, rfl⟩ := hg
      have he : Nat.log 3 (3 ^ (e + 1)) - 1 = e := by rw [Nat.log_pow (by omega), Nat.add_sub_cancel]
      refine ⟨?_, fun n d x xo si y yo so W hso => ?_⟩
      · rw [Tree.cost, he]
        induction e with
        | zero => simp [pow3Cost]
        | succ e ih =>
          have := ih (by rw [Nat.log_pow (by omega), Nat.add_sub_cancel])
          have := h0 (3 * 3 ^ (e + 1)) (by positivity) 1
          rw [pow3Cost]
          positivity
      · rw [Tree.cost, he]
        cases d with
        | true => exact pow3_graded G true x hso G.plus120 G.minus120 e xo si y yo
        | false => exact pow3_graded G false x hso G.minus120 G.plus120 e xo si y yo
    | pow4 =>
      obtain ⟨e, rfl⟩ := hg
      have he : Nat.log 4 (4 ^ (e + 1)) - 1 = e := by rw [Nat.log_pow (by omega), Nat.add_sub_cancel]
      refine ⟨?_, fun n d x xo si y yo so W hso => ?_⟩
      · rw [Tree.cost, he]
        induction e with
        | zero => simp [pow4Cost]
        | succ e ih =>
          have := ih (by rw [Nat.log_pow (by omega), Nat.add_sub_cancel])
          have := h0 (4 * 4 ^ (e + 1)) (by positivity) 1
          rw [pow4Cost]
          positivity
      · rw [Tree.cost, he]
        exact pow4_graded G d x hso e xo si y yo
    | discrete =>
      refine ⟨?_, fun n d x xo si y yo so W hso => dft_graded G d x hso hg xo si y yo⟩
      have := h0 N hg 1
      rw [Tree.cost, dftCost]
      split
      · exact le_rfl
      · positivity
    | composite => exact hg.elim
    | rader => exact hg.elim
  | composite N l r hl hr =>
    rintro ⟨h1, h2, rfl, g1, g2⟩
    obtain ⟨l1, l2⟩ := hl g1
    obtain ⟨r1, r2⟩ := hr g2
    refine ⟨?_, fun n d => composite_graded G d h1 h2 (l2 _ d) (r2 _ d)⟩
    have := h0 (l.sz * r.sz) (by positivity) 1
    rw [Tree.cost, compositeCost]
    positivity
  | rader p a b l hl =>
    rintro ⟨h1, h2, g⟩
    obtain ⟨l1, l2⟩ := hl g
    have hp := h1.odd
    refine ⟨?_, fun n d => ?_⟩
    · have := h0 p (by omega) 1
      have := h0 (p * (p - 1)) (Nat.mul_pos (by omega) (by omega)) (p * ((p - 1) * (p - 1) + p))
      rw [Tree.cost, raderCost]
      positivity
    · refine rader_graded G homc h1 (l.one_le_gain g) l1 (fun d => ?_) d
      rw [← h2]
      exact l2 (n + 1) d

end Verif.Stock
