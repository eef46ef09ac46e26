import Verif.StockFFT
import Mathlib.Algebra.BigOperators.Intervals
import Mathlib.RingTheory.RootsOfUnity.PrimitiveRoots
import Mathlib.Tactic.FieldSimp
import Mathlib.Tactic.LinearCombination

set_option linter.unusedSimpArgs false

namespace Verif.Stock
open Finset
variable {K : Type} [Field K]

theorem forRange_inv {σ : Type} (P : Nat → σ → Prop) (lo : Nat) (f : Nat → σ → σ) (s : σ) :
    ∀ cnt, P 0 s → (∀ k, k < cnt → ∀ s, P k s → P (k + 1) (f (lo + k) s)) → P cnt (forRange lo cnt f s)
  | 0, h0, _ => h0
  | n + 1, h0, h => h n (by omega) _ (forRange_inv P lo f s n h0 fun k hk => h k (by omega))

theorem forRange_sum (lo : Nat) (g : Nat → K) (s : K) : ∀ cnt,
    forRange lo cnt (fun n t => t + g n) s = s + ∑ n ∈ range cnt, g (lo + n)
  | 0 => by simp [forRange]
  | n + 1 => by rw [forRange, forRange_sum lo g s n, sum_range_succ, add_assoc]

/-- A sum in two levels, with remainders modulo `r` outside. -/
theorem sum_mod (r : Nat) (g : Nat → K) : ∀ m, ∑ n ∈ range (r * m), g n = ∑ q ∈ range r, ∑ n ∈ range m, g (q + r * n)
  | 0 => by simp
  | m + 1 => by
    rw [Nat.mul_succ, sum_range_add, sum_mod r g m, ← sum_add_distrib]
    refine sum_congr rfl fun q _ => ?_
    rw [sum_range_succ, add_comm q]

/-- `y'` is `y` with the transform of length `N` of the input written at the addresses `yo + k * so`. -/
def IsDft (ω : K) (N : Nat) (x : Arr K) (xo si : Nat) (y y' : Arr K) (yo so : Nat) : Prop :=
  (∀ k < N, y' (yo + k * so) = ∑ n ∈ range N, x (xo + n * si) * ω ^ (n * k)) ∧
  ∀ a, (∀ k < N, a ≠ yo + k * so) → y' a = y a

theorem adr_inj {yo so j k : Nat} (hso : 0 < so) : yo + j * so = yo + k * so ↔ j = k := by
  constructor
  · intro h
    exact Nat.eq_of_mul_eq_mul_right hso (by omega)
  · rintro rfl; rfl

theorem blk_inj {m j k p q : Nat} (hj : j < m) (hk : k < m) : j + p * m = k + q * m ↔ j = k ∧ p = q := by
  constructor
  · intro h
    have h1 : (j + p * m) % m = (k + q * m) % m := by rw [h]
    rw [Nat.add_mul_mod_self_right, Nat.add_mul_mod_self_right, Nat.mod_eq_of_lt hj, Nat.mod_eq_of_lt hk] at h1
    subst h1
    exact ⟨rfl, Nat.eq_of_mul_eq_mul_right (by omega : 0 < m) (by omega)⟩
  · rintro ⟨rfl, rfl⟩; rfl

theorem blk_lt {r m k q : Nat} (hk : k < m) (hq : q < r) : k + q * m < r * m := by
  calc k + q * m < m + q * m := by omega
    _ = (q + 1) * m := by ring
    _ ≤ r * m := Nat.mul_le_mul_right m hq

theorem blk_split {r m a : Nat} (ha : a < r * m) : ∃ k q, k < m ∧ q < r ∧ a = k + q * m := by
  have hm : 0 < m := by
    rcases Nat.eq_zero_or_pos m with h | h
    · subst h; omega
    · exact h
  refine ⟨a % m, a / m, Nat.mod_lt _ hm, ?_, ?_⟩
  · exact Nat.div_lt_of_lt_mul (by rw [mul_comm]; exact ha)
  · rw [mul_comm]; exact (Nat.mod_add_div a m).symm

/-- Decimation in time with radix `r`. -/
theorem dft_radix (ω : K) (r m : Nat) (g : Nat → K) (k : Nat) :
    ∑ n ∈ range (r * m), g n * ω ^ (n * k) =
      ∑ q ∈ range r, (∑ n ∈ range m, g (q + r * n) * (ω ^ r) ^ (n * k)) * ω ^ (q * k) := by
  rw [sum_mod]
  refine sum_congr rfl fun q _ => ?_
  rw [sum_mul]
  refine sum_congr rfl fun n _ => ?_
  rw [← pow_mul, mul_assoc, ← pow_add]
  congr 2
  ring

/-- Several transforms of length `m` written one after the other. -/
theorem blocks {ω : K} {r m : Nat} {x : Arr K} {xo : Nat → Nat} {si yo so : Nat} (hso : 0 < so) (Y : Nat → Arr K)
    (h : ∀ q < r, IsDft ω m x (xo q) si (Y q) (Y (q + 1)) (yo + q * m * so) so) :
    (∀ q < r, ∀ k < m, Y r (yo + (k + q * m) * so) = ∑ n ∈ range m, x (xo q + n * si) * ω ^ (n * k)) ∧
    ∀ a, (∀ k < r * m, a ≠ yo + k * so) → Y r a = Y 0 a := by
  induction r with
  | zero => exact ⟨fun q hq => absurd hq (by omega), fun _ _ => rfl⟩
  | succ r ih =>
    obtain ⟨h1, h2⟩ := ih fun q hq => h q (by omega)
    obtain ⟨g1, g2⟩ := h r (by omega)
    constructor
    · intro q hq k hk
      by_cases hqr : q = r
      · subst hqr
        rw [← g1 k hk]
        congr 1; ring
      · rw [g2 _ ?_]
        · exact h1 q (by omega) k hk
        · intro j hj hadr
          have : yo + (k + q * m) * so = yo + (j + r * m) * so := by rw [hadr]; ring
          rw [adr_inj hso, blk_inj hk hj] at this
          omega
    · intro a ha
      rw [g2 _ ?_]
      · exact h2 a fun k hk => ha k (by have : r * m ≤ (r + 1) * m := Nat.mul_le_mul_right m (by omega); omega)
      · intro j hj hadr
        refine ha (j + r * m) (blk_lt hj (by omega)) ?_
        rw [hadr]; ring

/-- One level of the radix `r` algorithms: the values after the transforms of the parts, the first step and the loop. -/
theorem radix_step {τ : Type} {ω : K} {r m : Nat} {x : Arr K} {xo si yo so : Nat} (hso : 0 < so) (hm : 0 < m) (hω : ω ^ (r * m) = 1)
    (T : Nat → τ) (f : Nat → Arr K × τ → Arr K × τ) (y y0 y1 : Arr K)
    (hsub : ∀ q < r, ∀ k < m, y0 (yo + (k + q * m) * so) = ∑ n ∈ range m, x (xo + q * si + n * (si * r)) * (ω ^ r) ^ (n * k))
    (hfr : ∀ a, (∀ k < r * m, a ≠ yo + k * so) → y0 a = y a)
    (h0 : ∀ i < r, y1 (yo + (i * m) * so) = ∑ q ∈ range r, y0 (yo + (q * m) * so) * ω ^ (q * (i * m)))
    (h0' : ∀ a, (∀ i < r, a ≠ yo + (i * m) * so) → y1 a = y0 a)
    (hf : ∀ k u, 0 < k → k < m → (f k (u, T k)).2 = T (k + 1) ∧
      (∀ i < r, (f k (u, T k)).1 (yo + (k + i * m) * so) = ∑ q ∈ range r, u (yo + (k + q * m) * so) * ω ^ (q * (k + i * m))) ∧
      ∀ a, (∀ i < r, a ≠ yo + (k + i * m) * so) → (f k (u, T k)).1 a = u a) :
    IsDft ω (r * m) x xo si y (forRange 1 (m - 1) f (y1, T 1)).1 yo so := by
  have inv := forRange_inv (fun c (s : Arr K × τ) => s.2 = T (c + 1) ∧
      (∀ k < c + 1, ∀ i < r, s.1 (yo + (k + i * m) * so) = ∑ q ∈ range r, y0 (yo + (k + q * m) * so) * ω ^ (q * (k + i * m))) ∧
      ∀ a, (∀ k < c + 1, ∀ i < r, a ≠ yo + (k + i * m) * so) → s.1 a = y0 a) 1 f (y1, T 1) (m - 1) ?_ ?_
  · obtain ⟨-, h1, h2⟩ := inv
    rw [Nat.sub_add_cancel hm] at h1 h2
    constructor
    · intro a ha
      obtain ⟨k, i, hk, hi, rfl⟩ := blk_split ha
      rw [h1 k hk i hi, dft_radix ω r m (fun n => x (xo + n * si)) (k + i * m)]
      refine sum_congr rfl fun q hq => ?_
      rw [hsub q (mem_range.1 hq) k hk]
      congr 1
      refine sum_congr rfl fun n hn => ?_
      congr 1
      · congr 1; ring
      · rw [mul_add, pow_add, ← pow_mul, ← pow_mul]
        have : r * (n * (i * m)) = r * m * (n * i) := by ring
        rw [this, pow_mul ω (r * m), hω, one_pow, mul_one]
    · intro a ha
      rw [h2 a fun k hk i hi => ha _ (blk_lt hk hi)]
      exact hfr a ha
  · refine ⟨rfl, ?_, ?_⟩
    · intro k hk i hi
      have : k = 0 := by omega
      subst this
      simpa using h0 i hi
    · intro a ha
      exact h0' a fun i hi => by simpa using ha 0 (by omega) i hi
  · rintro c hc ⟨u, t⟩ ⟨ht, h1, h2⟩
    dsimp only at ht h1 h2
    subst ht
    have hk : 1 + c = c + 1 := by omega
    rw [hk]
    obtain ⟨g1, g2, g3⟩ := hf (c + 1) u (by omega) (by omega)
    refine ⟨g1, ?_, ?_⟩
    · intro k hk i hi
      rcases Nat.lt_or_ge k (c + 1) with hlt | hge
      · rw [g3 _ ?_]
        · exact h1 k hlt i hi
        · intro j hj h
          rw [adr_inj hso, blk_inj (by omega) (by omega)] at h
          omega
      · have : k = c + 1 := by omega
        subst this
        rw [g2 i hi]
        refine sum_congr rfl fun q hq => ?_
        congr 1
        refine h2 _ fun k hk j hj h => ?_
        rw [adr_inj hso, blk_inj (by omega) (by omega)] at h
        omega
    · intro a ha
      rw [g3 _ fun i hi => ha _ (by omega) i hi]
      exact h2 a fun k hk i hi => ha k (by omega) i hi

/-- The facts about the constants that make the algorithms work. -/
structure Tw.OK (tw : Tw K) : Prop where
  pow : ∀ d m N, tw.om d m N = tw.om d 1 N ^ m
  sub : ∀ d m n, 0 < m → 0 < n → tw.om d 1 (m * n) ^ m = tw.om d 1 n
  prim : ∀ d N, 0 < N → IsPrimitiveRoot (tw.om d 1 N) N
  rev : ∀ d N, 0 < N → tw.om d 1 N * tw.om (!d) 1 N = 1
  four_fwd : tw.om true 1 4 = - tw.i
  four_bwd : tw.om false 1 4 = tw.i
  three_fwd : tw.om true 1 3 = tw.plus120
  three_bwd : tw.om false 1 3 = tw.minus120

theorem Tw.OK.one_pow {tw : Tw K} (h : tw.OK) (d : Bool) {N : Nat} (hN : 0 < N) : tw.om d 1 N ^ N = 1 :=
  (h.prim d N hN).pow_eq_one

theorem Tw.OK.two {tw : Tw K} (h : tw.OK) (d : Bool) : tw.om d 1 2 = -1 :=
  (h.prim d 2 (by omega)).eq_neg_one_of_two_right

theorem Tw.OK.ii {tw : Tw K} (h : tw.OK) : tw.i * tw.i = -1 := by
  have := h.sub false 2 2 (by omega) (by omega)
  rw [h.two] at this
  change tw.om false 1 4 ^ 2 = -1 at this
  rw [h.four_bwd, sq] at this
  exact this

omit [Field K] in
@[simp] theorem st_same (y : Arr K) (a : Nat) (v : K) : st y a v a = v := if_pos rfl

omit [Field K] in
theorem st_ne (y : Arr K) {a b : Nat} (v : K) (h : b ≠ a) : st y a v b = y b := if_neg h

theorem adr_zero {yo so k : Nat} (hso : 0 < so) : yo + k * so = yo ↔ k = 0 := by
  have := adr_inj (yo := yo) (j := k) (k := 0) hso
  simpa using this

theorem adr_zero' {yo so k : Nat} (hso : 0 < so) : yo = yo + k * so ↔ k = 0 := by
  rw [eq_comm]; exact adr_zero hso

theorem pow2_base {tw : Tw K} (ok : tw.OK) (d : Bool) (x : Arr K) {so : Nat} (hso : 0 < so) (xo si : Nat) (y : Arr K) (yo : Nat) :
    IsDft (tw.om d 1 2) 2 x xo si y (pow2Helper tw d 2 x xo si y yo so) yo so := by
  unfold pow2Helper
  rw [if_pos rfl]
  dsimp only
  have h01 : yo ≠ yo + so := by omega
  constructor
  · intro k hk
    have hk' : k = 0 ∨ k = 1 := by omega
    simp only [ok.two, sum_range_succ, range_zero, sum_empty]
    rcases hk' with rfl | rfl
    · simp [st_ne _ _ h01]
    · simp [sub_eq_add_neg]
  · intro a ha
    rw [st_ne _ _ (by simpa using ha 1 (by simp)), st_ne _ _ (by simpa using ha 0 (by simp))]

theorem pow2_step {tw : Tw K} (ok : tw.OK) (d : Bool) (x : Arr K) {so m : Nat} (hso : 0 < so) (hm : 2 ≤ m)
    (ih : ∀ xo si y yo, IsDft (tw.om d 1 m) m x xo si y (pow2Helper tw d m x xo si y yo so) yo so)
    (xo si : Nat) (y : Arr K) (yo : Nat) :
    IsDft (tw.om d 1 (2 * m)) (2 * m) x xo si y (pow2Helper tw d (2 * m) x xo si y yo so) yo so := by
  unfold pow2Helper
  rw [if_neg (by omega), dif_neg (by omega), Nat.mul_div_cancel_left m (by omega : 0 < 2)]
  dsimp only
  have hm0 : m ≠ 0 := by omega
  set ω := tw.om d 1 (2 * m) with hω
  have hwr : ω ^ 2 = tw.om d 1 m := ok.sub d 2 m (by omega) (by omega)
  have hwm : ω ^ m = -1 := by
    rw [hω, mul_comm 2 m, ok.sub d m 2 (by omega) (by omega), ok.two]
  set ya := pow2Helper tw d m x xo (si * 2) y yo so with hya
  set yb := pow2Helper tw d m x (xo + si) (si * 2) ya (yo + so * m) so with hyb
  have hblk := blocks (ω := tw.om d 1 m) (r := 2) (m := m) (x := x) (xo := fun q => xo + q * si) (si := si * 2) (yo := yo) hso
    (fun q => match q with | 0 => y | 1 => ya | _ => yb) (by
      intro q hq
      have hq' : q = 0 ∨ q = 1 := by omega
      rcases hq' with rfl | rfl
      · simpa using ih xo (si * 2) y yo
      · rw [mul_comm so m] at hyb
        simpa [hyb] using ih (xo + si) (si * 2) ya (yo + m * so))
  rw [← hwr] at hblk
  have key := radix_step (ω := ω) (τ := K) (r := 2) (m := m) (x := x) (xo := xo) (si := si) (yo := yo) hso (by omega)
    (ok.one_pow d (by omega)) (fun k => ω ^ k)
    (fun j (s : Arr K × K) =>
      (st (st s.1 (yo + j * so) (s.1 (yo + j * so) + s.2 * s.1 (yo + (j + m) * so))) (yo + (j + m) * so)
        (s.1 (yo + j * so) - s.2 * (st s.1 (yo + j * so) (s.1 (yo + j * so) + s.2 * s.1 (yo + (j + m) * so))) (yo + (j + m) * so)),
       s.2 * ω)) y yb
    (st (st yb yo (yb yo + yb (yo + m * so))) (yo + m * so) (yb yo - (st yb yo (yb yo + yb (yo + m * so))) (yo + m * so)))
    hblk.1 hblk.2 ?_ ?_ ?_
  · simpa only [pow_one] using key
  · intro i hi
    have hi' : i = 0 ∨ i = 1 := by omega
    rcases hi' with rfl | rfl
    · simp [st, hso.ne', hm0, sum_range_succ]
    · simp [st, hso.ne', hm0, sum_range_succ, hwm, sub_eq_add_neg]
  · intro a ha
    rw [st_ne _ _ (by simpa using ha 1 (by simp)), st_ne _ _ (by simpa using ha 0 (by simp))]
  · intro k u hk0 hkm
    refine ⟨(pow_succ ω k).symm, ?_, ?_⟩
    · intro i hi
      have hi' : i = 0 ∨ i = 1 := by omega
      rcases hi' with rfl | rfl
      · simp [st, hso.ne', hm0, sum_range_succ]
        ring
      · simp [st, hso.ne', hm0, sum_range_succ, pow_add, hwm]
        ring
    · intro a ha
      dsimp only
      rw [st_ne _ _ (by simpa using ha 1 (by simp)), st_ne _ _ (by simpa using ha 0 (by simp))]

theorem pow2_dft {tw : Tw K} (ok : tw.OK) (d : Bool) (x : Arr K) {so : Nat} (hso : 0 < so) :
    ∀ e xo si y yo, IsDft (tw.om d 1 (2 ^ (e + 1))) (2 ^ (e + 1)) x xo si y (pow2Helper tw d (2 ^ (e + 1)) x xo si y yo so) yo so
  | 0 => fun xo si y yo => by simpa using pow2_base ok d x hso xo si y yo
  | e + 1 => fun xo si y yo => by
    have hm : 2 ≤ 2 ^ (e + 1) := by
      calc 2 = 2 ^ 1 := rfl
        _ ≤ 2 ^ (e + 1) := Nat.pow_le_pow_right (by omega) (by omega)
    have := pow2_step ok d x hso hm (pow2_dft ok d x hso e) xo si y yo
    rwa [show 2 * 2 ^ (e + 1) = 2 ^ (e + 1 + 1) by rw [pow_succ 2 (e + 1), mul_comm]] at this

theorem pow3_base {tw : Tw K} (d : Bool) (x : Arr K) {so : Nat} (hso : 0 < so) {p q : K} (hq : p * p = q) (hp : p ^ 3 = 1)
    (xo si : Nat) (y : Arr K) (yo : Nat) :
    IsDft p 3 x xo si y (pow3Helper tw d p q 3 x xo si y yo so) yo so := by
  unfold pow3Helper
  rw [if_pos rfl]
  dsimp only
  subst hq
  constructor
  · intro k hk
    have hk' : k = 0 ∨ k = 1 ∨ k = 2 := by omega
    rcases hk' with rfl | rfl | rfl
    · simp [st, hso.ne', sum_range_succ]
    · have : ¬ (so = 2 * so) := by omega
      simp [st, hso.ne', sum_range_succ, this]
      ring
    · simp [st, hso.ne', sum_range_succ]
      linear_combination (-(x (xo + 2 * si) * p)) * hp
  · intro a ha
    rw [st_ne _ _ (by simpa using ha 2 (by simp)), st_ne _ _ (by simpa using ha 1 (by simp)), st_ne _ _ (by simpa using ha 0 (by simp))]

theorem pow3_step {tw : Tw K} (ok : tw.OK) (d : Bool) (x : Arr K) {so m : Nat} (hso : 0 < so) (hm : 2 ≤ m)
    {p q : K} (hp1 : p = tw.om d 1 3) (hq : p * p = q)
    (ih : ∀ xo si y yo, IsDft (tw.om d 1 m) m x xo si y (pow3Helper tw d p q m x xo si y yo so) yo so)
    (xo si : Nat) (y : Arr K) (yo : Nat) :
    IsDft (tw.om d 1 (3 * m)) (3 * m) x xo si y (pow3Helper tw d p q (3 * m) x xo si y yo so) yo so := by
  unfold pow3Helper
  rw [if_neg (by omega), dif_neg (by omega), Nat.mul_div_cancel_left m (by omega : 0 < 3)]
  dsimp only
  have hm0 : m ≠ 0 := by omega
  have hp : p ^ 3 = 1 := by rw [hp1]; exact ok.one_pow d (by omega)
  set ω := tw.om d 1 (3 * m) with hω
  have hwr : ω ^ 3 = tw.om d 1 m := ok.sub d 3 m (by omega) (by omega)
  have hwm : ω ^ m = p := by
    rw [hω, mul_comm 3 m, ok.sub d m 3 (by omega) (by omega), hp1]
  set ya := pow3Helper tw d p q m x xo (si * 3) y yo so with hya
  set yb := pow3Helper tw d p q m x (xo + si) (si * 3) ya (yo + m * so) so with hyb
  set yc := pow3Helper tw d p q m x (xo + 2 * si) (si * 3) yb (yo + 2 * m * so) so with hyc
  have hblk := blocks (ω := tw.om d 1 m) (r := 3) (m := m) (x := x) (xo := fun q => xo + q * si) (si := si * 3) (yo := yo) hso
    (fun q => match q with | 0 => y | 1 => ya | 2 => yb | _ => yc) (by
      intro q hq
      have hq' : q = 0 ∨ q = 1 ∨ q = 2 := by omega
      rcases hq' with rfl | rfl | rfl
      · simpa using ih xo (si * 3) y yo
      · simpa [hyb] using ih (xo + si) (si * 3) ya (yo + m * so)
      · simpa [hyc] using ih (xo + 2 * si) (si * 3) yb (yo + 2 * m * so))
  rw [← hwr] at hblk
  have key := radix_step (ω := ω) (τ := K × K) (r := 3) (m := m) (x := x) (xo := xo) (si := si) (yo := yo) hso (by omega)
    (ok.one_pow d (by omega)) (fun k => (ω ^ k, (ω * ω) ^ k))
    (fun k (s : Arr K × K × K) =>
      (st (st (st s.1 (yo + k * so) (s.2.2 * s.1 (yo + (2 * m + k) * so) + (s.2.1 * s.1 (yo + (m + k) * so) + s.1 (yo + k * so))))
        (yo + (m + k) * so) (s.2.2 * (q * s.1 (yo + (2 * m + k) * so)) + (s.2.1 * (p * s.1 (yo + (m + k) * so)) + s.1 (yo + k * so))))
        (yo + (2 * m + k) * so) (s.2.2 * (p * s.1 (yo + (2 * m + k) * so)) + (s.2.1 * (q * s.1 (yo + (m + k) * so)) + s.1 (yo + k * so))),
       s.2.1 * ω, s.2.2 * (ω * ω))) y yc
    (st (st (st yc yo (yc (yo + 2 * m * so) + yc (yo + m * so) + yc yo))
        (yo + m * so) (q * yc (yo + 2 * m * so) + (p * yc (yo + m * so) + yc yo)))
        (yo + 2 * m * so) (p * yc (yo + 2 * m * so) + (q * yc (yo + m * so) + yc yo)))
    hblk.1 hblk.2 ?_ ?_ ?_
  · simpa only [pow_one] using key
  · intro i hi
    have hi' : i = 0 ∨ i = 1 ∨ i = 2 := by omega
    have E : ∀ a b, ω ^ (a * (b * m)) = p ^ (a * b) := by
      intro a b
      rw [← hwm, ← pow_mul]; congr 1; ring
    have h2 : ¬ (m = 2 * m) := by omega
    simp only [sum_range_succ, range_zero, sum_empty, E]
    subst hq
    rcases hi' with rfl | rfl | rfl
    · simp [st, hso.ne', hm0]
      ring
    · simp [st, hso.ne', hm0, h2]
      ring
    · simp [st, hso.ne', hm0]
      linear_combination (-(yc (yo + 2 * m * so) * p)) * hp
  · intro a ha
    rw [st_ne _ _ (by simpa using ha 2 (by simp)), st_ne _ _ (by simpa using ha 1 (by simp)), st_ne _ _ (by simpa using ha 0 (by simp))]
  · intro k u hk0 hkm
    refine ⟨by dsimp only; rw [pow_succ, pow_succ], ?_, ?_⟩
    · intro i hi
      have hi' : i = 0 ∨ i = 1 ∨ i = 2 := by omega
      have E : ∀ a b, ω ^ (a * (k + b * m)) = (ω ^ k) ^ a * p ^ (a * b) := by
        intro a b
        rw [← hwm, ← pow_mul, ← pow_mul, ← pow_add]; congr 1; ring
      have h2 : ¬ (m = 2 * m) := by omega
      have h3 : ¬ (k = 2 * m + k) := by omega
      have h4 : ¬ (k = m + k) := by omega
      simp only [sum_range_succ, range_zero, sum_empty, E]
      simp only [add_comm k]
      subst hq
      rcases hi' with rfl | rfl | rfl
      · simp [st, hso.ne', hm0, h3, h4]
        ring
      · simp [st, hso.ne', hm0, h2]
        ring
      · simp [st, hso.ne', hm0]
        linear_combination (-(u (yo + (2 * m + k) * so) * p * (ω ^ k) ^ 2)) * hp
    · intro a ha
      dsimp only
      rw [st_ne _ _ (by simpa [add_comm] using ha 2 (by simp)), st_ne _ _ (by simpa [add_comm] using ha 1 (by simp)),
        st_ne _ _ (by simpa using ha 0 (by simp))]

theorem pow3_dft {tw : Tw K} (ok : tw.OK) (d : Bool) (x : Arr K) {so : Nat} (hso : 0 < so) {p q : K}
    (hp : p = tw.om d 1 3) (hq : p * p = q) :
    ∀ e xo si y yo, IsDft (tw.om d 1 (3 ^ (e + 1))) (3 ^ (e + 1)) x xo si y (pow3Helper tw d p q (3 ^ (e + 1)) x xo si y yo so) yo so
  | 0 => fun xo si y yo => by
    have h3 : p ^ 3 = 1 := by rw [hp]; exact ok.one_pow d (by omega)
    have := pow3_base (tw := tw) d x hso hq h3 xo si y yo
    rw [hp] at this
    simpa [hp] using this
  | e + 1 => fun xo si y yo => by
    have hm : 2 ≤ 3 ^ (e + 1) := by
      calc 2 ≤ 3 ^ 1 := by omega
        _ ≤ 3 ^ (e + 1) := Nat.pow_le_pow_right (by omega) (by omega)
    have := pow3_step ok d x hso hm hp hq (pow3_dft ok d x hso hp hq e) xo si y yo
    rwa [show 3 * 3 ^ (e + 1) = 3 ^ (e + 1 + 1) by rw [pow_succ 3 (e + 1), mul_comm]] at this

/-- The four values written by the butterfly: `J` is `-i` forward and `i` backward. -/
theorem butterfly4_dft {tw : Tw K} (ok : tw.OK) (d flat : Bool) {so : Nat} (hso : 0 < so) (c : Nat) (hc : 0 < c) (yo : Nat) (y : Arr K)
    (a : Nat → K) :
    (∀ i < 4, butterfly4 tw d flat y yo (yo + c * so) (yo + 2 * c * so) (yo + 3 * c * so) (a 0) (a 1) (a 2) (a 3) (yo + i * c * so) =
      ∑ q ∈ range 4, a q * tw.om d 1 4 ^ (q * i)) ∧
    ∀ b, (∀ i < 4, b ≠ yo + i * c * so) →
      butterfly4 tw d flat y yo (yo + c * so) (yo + 2 * c * so) (yo + 3 * c * so) (a 0) (a 1) (a 2) (a 3) b = y b := by
  have hJ : ∃ J, tw.om d 1 4 = J ∧ J * J = -1 ∧ (if d then - tw.i else tw.i) = J := by
    cases d
    · exact ⟨_, ok.four_bwd, ok.ii, by simp⟩
    · exact ⟨_, ok.four_fwd, by rw [neg_mul_neg]; exact ok.ii, by simp⟩
  obtain ⟨J, hJ, hJJ, hJd⟩ := hJ
  have hs : (if d then - (tw.i * (a 1 - a 3)) else tw.i * (a 1 - a 3)) = J * (a 1 - a 3) := by
    rw [← hJd]; cases d <;> simp
  have ht : (if d then tw.i * (a 1 - a 3) else - (tw.i * (a 1 - a 3))) = - (J * (a 1 - a 3)) := by
    rw [← hJd]; cases d <;> simp
  have hplus : (if flat then a 0 + a 2 + a 1 + a 3 else a 0 + a 2 + (a 1 + a 3)) = a 0 + a 2 + (a 1 + a 3) := by
    cases flat <;> simp [add_assoc]
  have hminus : (if flat then a 0 + a 2 - a 1 - a 3 else a 0 + a 2 - (a 1 + a 3)) = a 0 + a 2 - (a 1 + a 3) := by
    cases flat <;> simp [sub_sub]
  unfold butterfly4
  rw [hs, ht, hplus, hminus, hJ]
  have hc0 : c ≠ 0 := by omega
  have h1 : ¬ (c = 2 * c) := by omega
  have h2 : ¬ (c = 3 * c) := by omega
  constructor
  · intro i hi
    have hi' : i = 0 ∨ i = 1 ∨ i = 2 ∨ i = 3 := by omega
    rcases hi' with rfl | rfl | rfl | rfl
    · simp [st, hso.ne', hc0, sum_range_succ]
      ring
    · simp [st, hso.ne', hc0, sum_range_succ, h1, h2]
      linear_combination (-(a 2) - a 3 * J) * hJJ
    · simp [st, hso.ne', hc0, sum_range_succ]
      linear_combination (-(a 1) - a 2 * (J ^ 2 - 1) - a 3 * (J ^ 4 - J ^ 2 + 1)) * hJJ
    · simp [st, hso.ne', hc0, sum_range_succ]
      linear_combination (-(a 1) * J - a 2 * (J ^ 4 - J ^ 2 + 1) - a 3 * (J ^ 7 - J ^ 5 + J ^ 3 - J)) * hJJ
  · intro b hb
    rw [st_ne _ _ (by simpa using hb 3 (by simp)), st_ne _ _ (by simpa using hb 2 (by simp)), st_ne _ _ (by simpa using hb 1 (by simp)),
      st_ne _ _ (by simpa using hb 0 (by simp))]

theorem pow4_base {tw : Tw K} (ok : tw.OK) (d : Bool) (x : Arr K) {so : Nat} (hso : 0 < so) (xo si : Nat) (y : Arr K) (yo : Nat) :
    IsDft (tw.om d 1 4) 4 x xo si y (pow4Helper tw d 4 x xo si y yo so) yo so := by
  unfold pow4Helper
  rw [if_pos rfl]
  obtain ⟨h1, h2⟩ := butterfly4_dft ok d false hso 1 (by omega) yo y fun q => x (xo + q * si)
  simp only [mul_one, zero_mul, add_zero, one_mul] at h1 h2 ⊢
  exact ⟨h1, h2⟩

theorem pow4_step {tw : Tw K} (ok : tw.OK) (d : Bool) (x : Arr K) {so m : Nat} (hso : 0 < so) (hm : 2 ≤ m)
    (ih : ∀ xo si y yo, IsDft (tw.om d 1 m) m x xo si y (pow4Helper tw d m x xo si y yo so) yo so)
    (xo si : Nat) (y : Arr K) (yo : Nat) :
    IsDft (tw.om d 1 (4 * m)) (4 * m) x xo si y (pow4Helper tw d (4 * m) x xo si y yo so) yo so := by
  unfold pow4Helper
  rw [if_neg (by omega), dif_neg (by omega), Nat.mul_div_cancel_left m (by omega : 0 < 4)]
  dsimp only
  have hm0 : m ≠ 0 := by omega
  have hJ : ∃ J, tw.om d 1 4 = J ∧ J * J = -1 ∧ (if d then - tw.i else tw.i) = J := by
    cases d
    · exact ⟨_, ok.four_bwd, ok.ii, by simp⟩
    · exact ⟨_, ok.four_fwd, by rw [neg_mul_neg]; exact ok.ii, by simp⟩
  obtain ⟨J, hJ, hJJ, hJd⟩ := hJ
  have hup : ∀ u v : K, (if d then tw.i * (v - u) else tw.i * (u - v)) = J * (u - v) := by
    intro u v
    rw [← hJd]
    cases d
    · simp
    · simp only [if_true]; ring
  set ω := tw.om d 1 (4 * m) with hω
  have hwr : ω ^ 4 = tw.om d 1 m := ok.sub d 4 m (by omega) (by omega)
  have hwm : ω ^ m = J := by
    rw [hω, mul_comm 4 m, ok.sub d m 4 (by omega) (by omega), hJ]
  set ya := pow4Helper tw d m x xo (si * 4) y yo so with hya
  set yb := pow4Helper tw d m x (xo + si) (si * 4) ya (yo + so * m) so with hyb
  set yc := pow4Helper tw d m x (xo + 2 * si) (si * 4) yb (yo + 2 * so * m) so with hyc
  set yd := pow4Helper tw d m x (xo + 3 * si) (si * 4) yc (yo + 3 * so * m) so with hyd
  have e1 : so * m = m * so := mul_comm _ _
  have e2 : 2 * so * m = 2 * m * so := by ring
  have e3 : 3 * so * m = 3 * m * so := by ring
  have hblk := blocks (ω := tw.om d 1 m) (r := 4) (m := m) (x := x) (xo := fun q => xo + q * si) (si := si * 4) (yo := yo) hso
    (fun q => match q with | 0 => y | 1 => ya | 2 => yb | 3 => yc | _ => yd) (by
      intro q hq
      have hq' : q = 0 ∨ q = 1 ∨ q = 2 ∨ q = 3 := by omega
      rw [e1] at hyb
      rw [e2] at hyc
      rw [e3] at hyd
      rcases hq' with rfl | rfl | rfl | rfl
      · simpa using ih xo (si * 4) y yo
      · simpa [hyb] using ih (xo + si) (si * 4) ya (yo + m * so)
      · simpa [hyc] using ih (xo + 2 * si) (si * 4) yb (yo + 2 * m * so)
      · simpa [hyd] using ih (xo + 3 * si) (si * 4) yc (yo + 3 * m * so))
  rw [← hwr] at hblk
  obtain ⟨hb1, hb2⟩ := butterfly4_dft ok d (!d) hso m (by omega) yo yd fun q => yd (yo + q * m * so)
  simp only [zero_mul, one_mul, add_zero, hJ] at hb1 hb2
  have key := radix_step (ω := ω) (τ := K × K × K) (r := 4) (m := m) (x := x) (xo := xo) (si := si) (yo := yo) hso (by omega)
    (ok.one_pow d (by omega)) (fun k => (ω ^ k, (ω * ω) ^ k, (ω * ω * ω) ^ k))
    (fun k (s : Arr K × K × K × K) =>
      (st (st (st (st s.1
        (yo + k * so) (s.2.2.1 * s.1 (yo + (k + 2 * m) * so) + s.1 (yo + k * so) + (s.2.1 * s.1 (yo + (k + m) * so) + s.2.2.2 * s.1 (yo + (k + 3 * m) * so))))
        (yo + (k + m) * so) (s.2.2.1 * (- s.1 (yo + (k + 2 * m) * so)) + s.1 (yo + k * so) +
          if d then tw.i * (s.2.2.2 * s.1 (yo + (k + 3 * m) * so) - s.2.1 * s.1 (yo + (k + m) * so))
          else tw.i * (s.2.1 * s.1 (yo + (k + m) * so) - s.2.2.2 * s.1 (yo + (k + 3 * m) * so))))
        (yo + (k + 2 * m) * so) (s.2.2.1 * s.1 (yo + (k + 2 * m) * so) + s.1 (yo + k * so) - (s.2.1 * s.1 (yo + (k + m) * so) + s.2.2.2 * s.1 (yo + (k + 3 * m) * so))))
        (yo + (k + 3 * m) * so) (s.2.2.1 * (- s.1 (yo + (k + 2 * m) * so)) + s.1 (yo + k * so) +
          if d then tw.i * (s.2.1 * s.1 (yo + (k + m) * so) - s.2.2.2 * s.1 (yo + (k + 3 * m) * so))
          else tw.i * (s.2.2.2 * s.1 (yo + (k + 3 * m) * so) - s.2.1 * s.1 (yo + (k + m) * so))),
       s.2.1 * ω, s.2.2.1 * (ω * ω), s.2.2.2 * (ω * ω * ω))) y yd _
    hblk.1 hblk.2 ?_ hb2 ?_
  · simpa only [pow_one] using key
  · intro i hi
    rw [hb1 i hi]
    refine sum_congr rfl fun q _ => ?_
    rw [← hwm, ← pow_mul]
    congr 2; ring
  · intro k u hk0 hkm
    refine ⟨by dsimp only; rw [pow_succ, pow_succ, pow_succ], ?_, ?_⟩
    · intro i hi
      have hi' : i = 0 ∨ i = 1 ∨ i = 2 ∨ i = 3 := by omega
      have E : ∀ a b, ω ^ (a * (k + b * m)) = (ω ^ k) ^ a * J ^ (a * b) := by
        intro a b
        rw [← hwm, ← pow_mul, ← pow_mul, ← pow_add]; congr 1; ring
      have h2 : ¬ (m = 2 * m) := by omega
      have h3 : ¬ (m = 3 * m) := by omega
      simp only [sum_range_succ, range_zero, sum_empty, E, hup]
      generalize ha0 : u (yo + (k + 0 * m) * so) = a0
      generalize ha1 : u (yo + (k + 1 * m) * so) = a1
      generalize ha2 : u (yo + (k + 2 * m) * so) = a2
      generalize ha3 : u (yo + (k + 3 * m) * so) = a3
      rw [zero_mul, add_zero] at ha0
      rw [one_mul] at ha1
      rw [ha0, ha1]
      rcases hi' with rfl | rfl | rfl | rfl
      · simp [st, hso.ne', hm0]
        ring
      · simp [st, hso.ne', hm0, h2, h3]
        linear_combination (-(a2) * ω ^ (2 * k) - a3 * ω ^ (3 * k) * J) * hJJ
      · simp [st, hso.ne', hm0]
        linear_combination (-(a1) * ω ^ k - a2 * ω ^ (2 * k) * (J ^ 2 - 1) - a3 * ω ^ (3 * k) * (J ^ 4 - J ^ 2 + 1)) * hJJ
      · simp [st, hso.ne', hm0]
        linear_combination (-(a1) * ω ^ k * J - a2 * ω ^ (2 * k) * (J ^ 4 - J ^ 2 + 1) - a3 * ω ^ (3 * k) * (J ^ 7 - J ^ 5 + J ^ 3 - J)) * hJJ
    · intro a ha
      dsimp only
      rw [st_ne _ _ (by simpa using ha 3 (by simp)), st_ne _ _ (by simpa using ha 2 (by simp)), st_ne _ _ (by simpa using ha 1 (by simp)),
        st_ne _ _ (by simpa using ha 0 (by simp))]

theorem pow4_dft {tw : Tw K} (ok : tw.OK) (d : Bool) (x : Arr K) {so : Nat} (hso : 0 < so) :
    ∀ e xo si y yo, IsDft (tw.om d 1 (4 ^ (e + 1))) (4 ^ (e + 1)) x xo si y (pow4Helper tw d (4 ^ (e + 1)) x xo si y yo so) yo so
  | 0 => fun xo si y yo => by simpa using pow4_base ok d x hso xo si y yo
  | e + 1 => fun xo si y yo => by
    have hm : 2 ≤ 4 ^ (e + 1) := by
      calc 2 ≤ 4 ^ 1 := by omega
        _ ≤ 4 ^ (e + 1) := Nat.pow_le_pow_right (by omega) (by omega)
    have := pow4_step ok d x hso hm (pow4_dft ok d x hso e) xo si y yo
    rwa [show 4 * 4 ^ (e + 1) = 4 ^ (e + 1 + 1) by rw [pow_succ 4 (e + 1), mul_comm]] at this

theorem dft_dft {tw : Tw K} (d : Bool) (x : Arr K) {so : Nat} (hso : 0 < so) {N : Nat} (hN : 0 < N)
    (xo si : Nat) (y : Arr K) (yo : Nat) :
    IsDft (tw.om d 1 N) N x xo si y (dftHelper tw d N x xo si y yo so) yo so := by
  unfold dftHelper
  split
  · rename_i h1
    subst h1
    constructor
    · intro k hk
      have : k = 0 := by omega
      subst this
      simp
    · intro a ha
      rw [st_ne _ _ (by simpa using ha 0 (by simp))]
  · rename_i h1
    dsimp only
    set ω := tw.om d 1 N with hω
    obtain ⟨n, rfl⟩ : ∃ n, N = n + 1 := ⟨N - 1, by omega⟩
    rw [Nat.add_sub_cancel]
    -- the inner loop
    have inner : ∀ (w : K) (c : Nat), forRange 1 c (fun n (r : K × K) => (r.2 * x (xo + n * si) + r.1, r.2 * w)) (x xo, w) =
        (∑ n ∈ range (c + 1), x (xo + n * si) * w ^ n, w ^ (c + 1)) := by
      intro w c
      induction c with
      | zero => simp [forRange]
      | succ c ih =>
        rw [forRange, ih, sum_range_succ _ (c + 1)]
        ext
        · dsimp only; rw [add_comm 1 c]; ring
        · dsimp only; ring
    have inv := forRange_inv (fun c (s : Arr K × K × K) => s.2 = (ω ^ (c + 1), ω ^ (c + 1)) ∧
        (∀ k < c + 1, s.1 (yo + k * so) = ∑ n ∈ range (n + 1), x (xo + n * si) * ω ^ (n * k)) ∧
        ∀ a, (∀ k < c + 1, a ≠ yo + k * so) → s.1 a = y a) 1
      (fun k (s : Arr K × K × K) =>
        (st s.1 (yo + k * so) (forRange 1 n (fun n (r : K × K) => (r.2 * x (xo + n * si) + r.1, r.2 * s.2.1)) (x xo, s.2.2)).1,
          s.2.1 * ω, s.2.1 * ω))
      (st y yo (forRange 1 n (fun n tmp => tmp + x (xo + n * si)) (x xo)), ω, ω) n ?_ ?_
    · exact ⟨inv.2.1, inv.2.2⟩
    · refine ⟨by simp, ?_, ?_⟩
      · intro k hk
        have : k = 0 := by omega
        subst this
        simp only [zero_mul, add_zero, st_same, mul_zero, pow_zero, mul_one]
        rw [forRange_sum 1 (fun n => x (xo + n * si)), sum_range_succ', zero_mul, add_zero, add_comm]
        simp only [add_comm 1]
      · intro a ha
        exact st_ne _ _ (by simpa using ha 0 (by simp))
    · rintro c hc ⟨u, t⟩ ⟨ht, h2, h3⟩
      dsimp only at ht h2 h3
      subst ht
      rw [add_comm 1 c]
      dsimp only
      rw [inner]
      refine ⟨by rw [pow_succ ω (c + 1)], ?_, ?_⟩
      · intro k hk
        rcases Nat.lt_or_ge k (c + 1) with hlt | hge
        · rw [st_ne _ _ (by rw [Ne, adr_inj hso]; omega)]
          exact h2 k hlt
        · have : k = c + 1 := by omega
          subst this
          rw [st_same]
          dsimp only
          refine sum_congr rfl fun n _ => ?_
          rw [← pow_mul, mul_comm n (c + 1)]
      · intro a ha
        rw [st_ne _ _ (ha _ (by omega))]
        exact h3 a fun k hk => ha k (by omega)

end Verif.Stock
