import Verif.FFTLemmas
import Verif.StockTreeLemmas
import Mathlib.Tactic.NormNum.Prime

namespace Verif.Stock
open Finset
variable {K : Type} [Field K]

/-- A function with the interface of `Fourier_Transform::operator()` for a fixed node and direction computes the transform
of length `N`. -/
def Computes (ω : K) (N : Nat) (f : Arr K → Nat → Nat → Arr K → Nat → Nat → (Nat → Arr K) → Out K) : Prop :=
  ∀ x xo si y yo so W, 0 < so → IsDft ω N x xo si y (f x xo si y yo so W).1 yo so

theorem composite_dft {tw : Tw K} (ok : tw.OK) (d : Bool) {N1 N2 n : Nat} (h1 : 0 < N1) (h2 : 0 < N2)
    {left right : Arr K → Nat → Nat → Arr K → Nat → Nat → (Nat → Arr K) → Out K}
    (hl : Computes (tw.om d 1 N1) N1 left) (hr : Computes (tw.om d 1 N2) N2 right) :
    Computes (tw.om d 1 (N1 * N2)) (N1 * N2) (compositeFFT tw (N1 * N2) N1 N2 n left right d) := by
  intro x xo si y yo so W hso
  unfold compositeFFT
  dsimp only
  set ω := tw.om d 1 (N1 * N2) with hω
  have hw1 : ω ^ N1 = tw.om d 1 N2 := ok.sub d N1 N2 h1 h2
  have hw2 : ω ^ N2 = tw.om d 1 N1 := by rw [hω, mul_comm]; exact ok.sub d N2 N1 h2 h1
  rw [← hw1] at hr
  rw [← hw2] at hl
  set body := fun j1 (s : Arr K × K × (Nat → Arr K)) =>
    ((if 0 < j1 then
        (forRange 1 (N2 - 1) (fun k2 (t : Arr K × K) => (st t.1 (j1 * N2 + k2) (t.1 (j1 * N2 + k2) * t.2), t.2 * s.2.1))
          ((right x (xo + j1 * si) (N1 * si) s.1 (N2 * j1) 1 s.2.2).1, s.2.1)).1
      else (right x (xo + j1 * si) (N1 * si) s.1 (N2 * j1) 1 s.2.2).1),
      s.2.1 * ω, (right x (xo + j1 * si) (N1 * si) s.1 (N2 * j1) 1 s.2.2).2) with hbody
  -- the rows
  have rows := forRange_inv (fun c (s : Arr K × K × (Nat → Arr K)) => s.2.1 = ω ^ c ∧
      ∀ j < c, ∀ k < N2, s.1 (k + j * N2) =
        (∑ m ∈ range N2, x (xo + j * si + m * (N1 * si)) * (ω ^ N1) ^ (m * k)) * ω ^ (j * k)) 0 body (W n, 1, W) N1 ?_ ?_
  rotate_left
  · exact ⟨(pow_zero ω).symm, fun j hj => absurd hj (by omega)⟩
  · rintro c hc ⟨z, w, V⟩ ⟨hw, hz⟩
    dsimp only at hw hz
    subst hw
    rw [zero_add, hbody]
    dsimp only
    refine ⟨(pow_succ ω c).symm, ?_⟩
    obtain ⟨g1, g2⟩ := hr x (xo + c * si) (N1 * si) z (N2 * c) 1 V (by omega)
    set o := (right x (xo + c * si) (N1 * si) z (N2 * c) 1 V).1 with ho
    have hold : ∀ j < c, ∀ k < N2, o (k + j * N2) = z (k + j * N2) := by
      intro j hj k hk
      refine g2 _ fun q hq h => ?_
      have : k + j * N2 = q + c * N2 := by rw [h]; ring
      rw [blk_inj hk hq] at this
      omega
    have hnew : ∀ k < N2, o (k + c * N2) = ∑ m ∈ range N2, x (xo + c * si + m * (N1 * si)) * (ω ^ N1) ^ (m * k) := by
      intro k hk
      rw [← g1 k hk]
      congr 1; ring
    by_cases hc0 : 0 < c
    · rw [if_pos hc0]
      have inner := forRange_inv (fun e (t : Arr K × K) => t.2 = (ω ^ c) ^ (e + 1) ∧
          (∀ k < e + 1, t.1 (k + c * N2) = o (k + c * N2) * ω ^ (c * k)) ∧
          ∀ a, (∀ k < e + 1, a ≠ k + c * N2) → t.1 a = o a) 1
        (fun k2 (t : Arr K × K) => (st t.1 (c * N2 + k2) (t.1 (c * N2 + k2) * t.2), t.2 * ω ^ c)) (o, ω ^ c) (N2 - 1) ?_ ?_
      · obtain ⟨-, i1, i2⟩ := inner
        rw [Nat.sub_add_cancel h2] at i1 i2
        intro j hj k hk
        by_cases hjc : j = c
        · subst hjc
          rw [i1 k hk, hnew k hk]
        · rw [i2 _ fun q hq h => by rw [blk_inj hk hq] at h; omega, hold j (by omega) k hk]
          exact hz j (by omega) k hk
      · refine ⟨by simp, fun k hk => ?_, fun a ha => rfl⟩
        have : k = 0 := by omega
        subst this
        simp
      · rintro e he ⟨t, v⟩ ⟨hv, i1, i2⟩
        dsimp only at hv i1 i2
        subst hv
        dsimp only
        have hcomm : c * N2 + (1 + e) = e + 1 + c * N2 := by ring
        rw [hcomm]
        refine ⟨(pow_succ (ω ^ c) (e + 1)).symm, ?_, ?_⟩
        · intro k hk
          rcases Nat.lt_or_ge k (e + 1) with hlt | hge
          · rw [st_ne _ _ (by omega)]
            exact i1 k hlt
          · have : k = e + 1 := by omega
            subst this
            rw [st_same, i2 _ fun k hk => by omega, pow_mul]
        · intro a ha
          rw [st_ne _ _ (ha _ (by omega))]
          exact i2 a fun k hk => ha k (by omega)
    · rw [if_neg hc0]
      intro j hj k hk
      have hj0 : j = c := by omega
      subst hj0
      rw [hnew k hk]
      have : j = 0 := by omega
      subst this
      simp
  -- the columns
  obtain ⟨-, hz⟩ := rows
  set s := forRange 0 N1 body (W n, 1, W) with hs
  have cols := forRange_inv (fun c (o : Out K) =>
      (∀ k2 < c, ∀ k1 < N1, o.1 (yo + (k2 + k1 * N2) * so) = ∑ j ∈ range N1, s.1 (k2 + j * N2) * (ω ^ N2) ^ (j * k1)) ∧
      ∀ a, (∀ k2 < c, ∀ k1 < N1, a ≠ yo + (k2 + k1 * N2) * so) → o.1 a = y a) 0
    (fun k2 (o : Out K) => left s.1 k2 N2 o.1 (yo + k2 * so) (N2 * so) o.2) (y, setWs s.2.2 n s.1) N2 ?_ ?_
  · obtain ⟨c1, c2⟩ := cols
    constructor
    · intro k hk
      obtain ⟨k2, k1, hk2, hk1, rfl⟩ := blk_split hk
      rw [c1 k2 hk2 k1 hk1, dft_radix ω N1 N2 (fun m => x (xo + m * si)) (k2 + k1 * N2)]
      refine sum_congr rfl fun j hj => ?_
      rw [hz j (mem_range.1 hj) k2 hk2, mul_assoc]
      congr 1
      · refine sum_congr rfl fun m _ => ?_
        congr 1
        · congr 1; ring
        · rw [← pow_mul, ← pow_mul, mul_add, mul_add, pow_add]
          have : N1 * (m * (k1 * N2)) = N1 * N2 * (m * k1) := by ring
          rw [this, pow_mul ω (N1 * N2), hω, ok.one_pow d (by positivity), one_pow, mul_one]
      · rw [← pow_mul, ← pow_add]
        congr 1; ring
    · intro a ha
      exact c2 a fun k2 hk2 k1 hk1 => ha _ (blk_lt hk2 hk1)
  · exact ⟨fun k hk => absurd hk (by omega), fun _ _ => rfl⟩
  · rintro c hc ⟨u, V⟩ ⟨c1, c2⟩
    dsimp only at c1 c2
    rw [zero_add]
    dsimp only
    obtain ⟨g1, g2⟩ := hl s.1 c N2 u (yo + c * so) (N2 * so) V (by positivity)
    have hadr : ∀ k1, yo + (c + k1 * N2) * so = yo + c * so + k1 * (N2 * so) := fun k1 => by ring
    constructor
    · intro k2 hk2 k1 hk1
      rcases Nat.lt_or_ge k2 c with hlt | hge
      · rw [g2 _ fun q hq h => ?_]
        · exact c1 k2 hlt k1 hk1
        · rw [← hadr, adr_inj hso, blk_inj (by omega) (by omega)] at h
          omega
      · have : k2 = c := by omega
        subst this
        rw [hadr, g1 k1 hk1]
    · intro a ha
      rw [g2 _ fun q hq h => ha c (by omega) q hq (by rw [hadr]; exact h)]
      exact c2 a fun k2 hk2 k1 hk1 => ha k2 (by omega) k1 hk1

/-! ## Rader's algorithm -/

/-- The convolution theorem. -/
theorem convolution {M : Nat} (hM : 0 < M) {ω υ : K} (hω : IsPrimitiveRoot ω M) (hυ : ω * υ = 1) (u b : Nat → K) {m : Nat} (hm : m < M) :
    ∑ j ∈ range M, (∑ k ∈ range M, u k * ω ^ (k * j)) * (∑ l ∈ range M, b l * ω ^ (l * j)) * υ ^ (j * m) =
      M * ∑ k ∈ range M, u k * b ((m + (M - k)) % M) := by
  have hυm : υ ^ m = ω ^ (M - m) := by
    have h1 : ω ^ m * υ ^ m = 1 := by rw [← mul_pow, hυ, one_pow]
    have h2 : ω ^ m * ω ^ (M - m) = 1 := by rw [← pow_add, Nat.add_sub_cancel' hm.le, hω.pow_eq_one]
    have h0 : ω ^ m ≠ 0 := left_ne_zero_of_mul_eq_one h1
    exact mul_left_cancel₀ h0 (h1.trans h2.symm)
  have inner : ∀ k < M, ∀ l < M, ∑ j ∈ range M, ω ^ (k * j) * ω ^ (l * j) * υ ^ (j * m) =
      if l = (m + (M - k)) % M then (M : K) else 0 := by
    intro k hk l hl
    have hterm : ∀ j, ω ^ (k * j) * ω ^ (l * j) * υ ^ (j * m) = (ω ^ (k + l + (M - m))) ^ j := by
      intro j
      rw [mul_comm j m, pow_mul υ m j, hυm, ← pow_mul, ← pow_mul, ← pow_add, ← pow_add]
      congr 1; ring
    simp only [hterm]
    have hiff : ω ^ (k + l + (M - m)) = 1 ↔ l = (m + (M - k)) % M := by
      rw [hω.pow_eq_one_iff_dvd]
      constructor
      · rintro ⟨c, hc⟩
        have hc1 : 0 < c := by
          rcases Nat.eq_zero_or_pos c with h | h
          · subst h; omega
          · exact h
        have : m + (M - k) + (c - 1) * M = l + M := by
          have : (c - 1) * M + M = M * c := by
            rw [← Nat.succ_mul, Nat.succ_eq_add_one, Nat.sub_add_cancel hc1, mul_comm]
          omega
        have h2 := congrArg (· % M) this
        simp only [Nat.add_mul_mod_self_right, Nat.add_mod_right, Nat.mod_eq_of_lt hl] at h2
        exact h2.symm
      · intro h
        have := Nat.mod_add_div (m + (M - k)) M
        rw [← h] at this
        refine ⟨2 - (m + (M - k)) / M, ?_⟩
        have hle : (m + (M - k)) / M ≤ 1 := by
          have : (m + (M - k)) / M < 2 := Nat.div_lt_of_lt_mul (by omega)
          omega
        rw [Nat.mul_sub]
        omega
    split
    · rename_i h
      rw [hiff.2 h]
      simp
    · rename_i h
      have h1 : ω ^ (k + l + (M - m)) ≠ 1 := fun hc => h (hiff.1 hc)
      have := mul_neg_geom_sum (ω ^ (k + l + (M - m))) M
      rw [← pow_mul, mul_comm _ M, pow_mul, hω.pow_eq_one, one_pow, sub_self] at this
      exact (mul_eq_zero.1 this).resolve_left (sub_ne_zero.2 (Ne.symm h1))
  calc ∑ j ∈ range M, (∑ k ∈ range M, u k * ω ^ (k * j)) * (∑ l ∈ range M, b l * ω ^ (l * j)) * υ ^ (j * m)
      = ∑ j ∈ range M, ∑ k ∈ range M, ∑ l ∈ range M, u k * b l * (ω ^ (k * j) * ω ^ (l * j) * υ ^ (j * m)) := by
        refine sum_congr rfl fun j _ => ?_
        rw [sum_mul_sum, sum_mul]
        refine sum_congr rfl fun k _ => ?_
        rw [sum_mul]
        refine sum_congr rfl fun l _ => ?_
        ring
    _ = ∑ k ∈ range M, ∑ l ∈ range M, u k * b l * ∑ j ∈ range M, ω ^ (k * j) * ω ^ (l * j) * υ ^ (j * m) := by
        rw [sum_comm]
        refine sum_congr rfl fun k _ => ?_
        rw [sum_comm]
        refine sum_congr rfl fun l _ => ?_
        rw [mul_sum]
    _ = ∑ k ∈ range M, u k * b ((m + (M - k)) % M) * M := by
        refine sum_congr rfl fun k hk => ?_
        rw [sum_eq_single ((m + (M - k)) % M)]
        · rw [inner k (mem_range.1 hk) _ (Nat.mod_lt _ hM), if_pos rfl]
        · intro l hl hne
          rw [inner k (mem_range.1 hk) l (mem_range.1 hl), if_neg hne, mul_zero]
        · intro h
          exact absurd (mem_range.2 (Nat.mod_lt _ hM)) h
    _ = M * ∑ k ∈ range M, u k * b ((m + (M - k)) % M) := by rw [← sum_mul, mul_comm]

/-- What the numbers stored in a Rader node have to satisfy. -/
structure RaderNode (p a b : Nat) : Prop where
  prime : p.Prime
  odd : 2 < p
  a_lt : a < p
  order : orderOf (a : ZMod p) = p - 1
  inv : (a : ZMod p) * b = 1

theorem RaderNode.a_pow {p a b : Nat} (h : RaderNode p a b) : (a : ZMod p) ^ (p - 1) = 1 := by
  rw [← h.order]; exact pow_orderOf_eq_one _

theorem RaderNode.mod_eq {p a b : Nat} (_ : RaderNode p a b) {u v : Nat} : u % p = v % p ↔ (u : ZMod p) = v :=
  (ZMod.natCast_eq_natCast_iff' u v p).symm

/-- The powers of the root are the non-zero residues. -/
theorem RaderNode.image {p a b : Nat} (h : RaderNode p a b) {c : Nat} (hc : c = a ∨ c = b) :
    (∀ j < p - 1, ∀ k < p - 1, c ^ j % p = c ^ k % p → j = k) ∧ (range (p - 1)).image (fun k => c ^ k % p) = Ico 1 p := by
  have : Fact p.Prime := ⟨h.prime⟩
  have h2 := h.odd
  have hinj : ∀ j < p - 1, ∀ k < p - 1, c ^ j % p = c ^ k % p → j = k := by
    intro j hj k hk hjk
    rw [h.mod_eq] at hjk
    push_cast at hjk
    have hinja : ∀ j < p - 1, ∀ k < p - 1, (a : ZMod p) ^ j = (a : ZMod p) ^ k → j = k := by
      intro j hj k hk hjk
      exact pow_injOn_Iio_orderOf (by rw [h.order]; exact hj) (by rw [h.order]; exact hk) hjk
    rcases hc with rfl | rfl
    · exact hinja j hj k hk hjk
    · have h3 := congrArg (fun t => t * (a : ZMod p) ^ j * (a : ZMod p) ^ k) hjk
      have e1 : (c : ZMod p) ^ j * (a : ZMod p) ^ j = 1 := by rw [← mul_pow, mul_comm, h.inv, one_pow]
      have e2 : (c : ZMod p) ^ k * (a : ZMod p) ^ k = 1 := by rw [← mul_pow, mul_comm, h.inv, one_pow]
      rw [e1, one_mul, mul_right_comm, e2, one_mul] at h3
      exact (hinja k hk j hj h3).symm
  refine ⟨hinj, ?_⟩
  refine eq_of_subset_of_card_le ?_ ?_
  · intro n hn
    rw [mem_image] at hn
    obtain ⟨k, hk, rfl⟩ := hn
    rw [mem_Ico]
    refine ⟨?_, Nat.mod_lt _ (by omega)⟩
    rw [Nat.one_le_iff_ne_zero]
    intro h0
    have hz : ((c ^ k : Nat) : ZMod p) = 0 := by
      rw [ZMod.natCast_eq_zero_iff]
      exact Nat.dvd_of_mod_eq_zero h0
    push_cast at hz
    have hcz : (c : ZMod p) ≠ 0 := by
      rcases hc with rfl | rfl
      · exact left_ne_zero_of_mul_eq_one h.inv
      · exact right_ne_zero_of_mul_eq_one h.inv
    exact pow_ne_zero k hcz hz
  · rw [card_image_of_injOn, card_range, Nat.card_Ico]
    intro j hj k hk hjk
    simp only [coe_range, Set.mem_Iio] at hj hk
    exact hinj j hj k hk hjk

theorem rader_dft [CharZero K] {tw : Tw K} (ok : tw.OK) {p a b n : Nat} (h : RaderNode p a b)
    {sub : Bool → Arr K → Nat → Nat → Arr K → Nat → Nat → (Nat → Arr K) → Out K}
    (hs : ∀ d, Computes (tw.om d 1 (p - 1)) (p - 1) (sub d)) (d : Bool) :
    Computes (tw.om d 1 p) p (raderFFT tw p a b n sub d) := by
  intro x xo si y yo so W hso
  have h2 := h.odd
  obtain ⟨M, hM⟩ : ∃ M, p = M + 1 := ⟨p - 1, by omega⟩
  have hM1 : p - 1 = M := by omega
  have hMpos : 0 < M := by omega
  unfold raderFFT
  simp only [hM1] at hs ⊢
  set ω := tw.om d 1 M with hω
  set ζ := tw.om d 1 p with hζ
  have hζp : ζ ^ p = 1 := ok.one_pow d (by omega)
  -- the shuffle
  have L1 := forRange_inv (fun c (s : Arr K × K × Nat) => s.2.2 = b ^ c % p ∧
      s.2.1 = x xo + ∑ k ∈ range c, x (xo + (b ^ k % p) * si) ∧
      (∀ k < c, s.1 (yo + k * so) = x (xo + (b ^ k % p) * si)) ∧
      ∀ e, (∀ k < c, e ≠ yo + k * so) → s.1 e = y e) 0
    (fun k (s : Arr K × K × Nat) => (st s.1 (yo + k * so) (x (xo + s.2.2 * si)),
      s.2.1 + st s.1 (yo + k * so) (x (xo + s.2.2 * si)) (yo + k * so), s.2.2 * b % p)) (y, x xo, 1) M ?_ ?_
  rotate_left
  · refine ⟨?_, by simp, fun k hk => absurd hk (by omega), fun _ _ => rfl⟩
    rw [pow_zero, Nat.mod_eq_of_lt (by omega)]
  · rintro c hc ⟨u, v, w⟩ ⟨i1, i2, i3, i4⟩
    dsimp only at i1 i2 i3 i4 ⊢
    subst i1 i2
    rw [zero_add]
    refine ⟨?_, ?_, ?_, ?_⟩
    · rw [pow_succ, Nat.mul_mod, Nat.mod_mod, ← Nat.mul_mod]
    · rw [st_same, sum_range_succ, add_assoc]
    · intro k hk
      by_cases hkc : k = c
      · subst hkc; rw [st_same]
      · rw [st_ne _ _ (by rw [Ne, adr_inj hso]; exact hkc)]
        exact i3 k (by omega)
    · intro e he
      rw [st_ne _ _ (he c (by omega))]
      exact i4 e fun k hk => he k (by omega)
  set s := forRange 0 M (fun k (s : Arr K × K × Nat) => (st s.1 (yo + k * so) (x (xo + s.2.2 * si)),
      s.2.1 + st s.1 (yo + k * so) (x (xo + s.2.2 * si)) (yo + k * so), s.2.2 * b % p)) (y, x xo, 1) with hsdef
  obtain ⟨-, l2, l3, l4⟩ := L1
  -- the transform of the shuffled input
  have hz := (hs d s.1 yo so (W n) 0 1 W (by omega)).1
  set o := sub d s.1 yo so (W n) 0 1 W with ho
  -- the coefficients
  set B : Nat → K := fun l => ζ ^ (a ^ l % p) with hB
  have coef : ∀ m, (forRange 1 (M - 1) (fun k (c : K × Nat) =>
      (c.1 + tw.om d (p * (k * m + c.2) - c.2) (p * M), c.2 * a % p)) (ζ, a)).1 = ∑ l ∈ range M, B l * ω ^ (l * m) := by
    intro m
    have L := forRange_inv (fun e (c : K × Nat) => c.2 = a ^ (e + 1) % p ∧ c.1 = ∑ l ∈ range (e + 1), B l * ω ^ (l * m)) 1
      (fun k (c : K × Nat) => (c.1 + tw.om d (p * (k * m + c.2) - c.2) (p * M), c.2 * a % p)) (ζ, a) (M - 1) ?_ ?_
    · rw [Nat.sub_add_cancel hMpos] at L
      exact L.2
    · refine ⟨?_, ?_⟩
      · rw [zero_add, pow_one, Nat.mod_eq_of_lt h.a_lt]
      · simp [hB, Nat.mod_eq_of_lt (by omega : 1 < p)]
    · rintro e he ⟨c, w⟩ ⟨j1, j2⟩
      dsimp only at j1 j2 ⊢
      subst j1 j2
      refine ⟨?_, ?_⟩
      · rw [pow_succ a (e + 1), Nat.mul_mod, Nat.mod_mod, ← Nat.mul_mod]
      · rw [sum_range_succ _ (e + 1), add_comm 1 e]
        congr 1
        rw [ok.pow, hB]
        dsimp only
        have hΩ1 : tw.om d 1 (p * M) ^ p = ω := ok.sub d p M (by omega) hMpos
        have hΩ2 : tw.om d 1 (p * M) ^ M = ζ := by rw [mul_comm]; exact ok.sub d M p hMpos (by omega)
        have hexp : p * ((e + 1) * m + a ^ (e + 1) % p) - a ^ (e + 1) % p = p * ((e + 1) * m) + M * (a ^ (e + 1) % p) := by
          rw [hM]
          generalize a ^ (e + 1) % (M + 1) = q
          have : (M + 1) * ((e + 1) * m + q) = (M + 1) * ((e + 1) * m) + M * q + q := by ring
          omega
        rw [hexp, pow_add, pow_mul, hΩ1, pow_mul (tw.om d 1 (p * M)) M, hΩ2, mul_comm]
  -- the products
  have L2 := forRange_inv (fun c (u : Arr K) =>
      (∀ m < c, u (yo + m * so) = o.1 m * ∑ l ∈ range M, B l * ω ^ (l * m)) ∧
      ∀ e, (∀ k < c, e ≠ yo + k * so) → u e = s.1 e) 0
    (fun m (u : Arr K) => st u (yo + m * so) (o.1 m * (forRange 1 (M - 1) (fun k (c : K × Nat) =>
      (c.1 + tw.om d (p * (k * m + c.2) - c.2) (p * M), c.2 * a % p)) (ζ, a)).1)) s.1 M ?_ ?_
  rotate_left
  · exact ⟨fun k hk => absurd hk (by omega), fun _ _ => rfl⟩
  · rintro c hc u ⟨i1, i2⟩
    rw [zero_add, coef]
    refine ⟨?_, ?_⟩
    · intro m hm
      by_cases hmc : m = c
      · subst hmc; rw [st_same]
      · rw [st_ne _ _ (by rw [Ne, adr_inj hso]; exact hmc)]
        exact i1 m (by omega)
    · intro e he
      rw [st_ne _ _ (he c (by omega))]
      exact i2 e fun k hk => he k (by omega)
  set y2 := forRange 0 M (fun m (u : Arr K) => st u (yo + m * so) (o.1 m * (forRange 1 (M - 1) (fun k (c : K × Nat) =>
      (c.1 + tw.om d (p * (k * m + c.2) - c.2) (p * M), c.2 * a % p)) (ζ, a)).1)) s.1 with hy2
  obtain ⟨m1, m2⟩ := L2
  -- back
  have hz2 := (hs (!d) y2 yo so o.1 0 1 o.2 (by omega)).1
  set o2 := sub (!d) y2 yo so o.1 0 1 o.2 with ho2
  have hconv : ∀ m < M, o2.1 m = M * ∑ k ∈ range M, x (xo + (b ^ k % p) * si) * B ((m + (M - k)) % M) := by
    intro m hm
    rw [← convolution hMpos (ok.prim d M hMpos) (ok.rev d M hMpos) (fun k => x (xo + (b ^ k % p) * si)) B hm]
    have := hz2 m hm
    rw [zero_add, mul_one] at this
    rw [this]
    refine sum_congr rfl fun j hj => ?_
    rw [m1 j (mem_range.1 hj)]
    have := hz j (mem_range.1 hj)
    rw [zero_add, mul_one] at this
    rw [this]
    congr 2
    refine sum_congr rfl fun k hk => ?_
    rw [l3 k (mem_range.1 hk)]
  -- the last loop
  have L3 := forRange_inv (fun c (r : Arr K × Nat) => r.2 = a ^ c % p ∧
      (∀ m < c, r.1 (yo + (a ^ m % p) * so) = x xo + o2.1 m / (M : K)) ∧
      ∀ e, (∀ m < c, e ≠ yo + (a ^ m % p) * so) → r.1 e = st y2 yo s.2.1 e) 0
    (fun m (r : Arr K × Nat) => (st r.1 (yo + r.2 * so) (x xo + o2.1 m / (M : K)), r.2 * a % p)) (st y2 yo s.2.1, 1) M ?_ ?_
  rotate_left
  · refine ⟨?_, fun k hk => absurd hk (by omega), fun _ _ => rfl⟩
    rw [pow_zero, Nat.mod_eq_of_lt (by omega)]
  · rintro c hc ⟨u, w⟩ ⟨i1, i2, i3⟩
    dsimp only at i1 i2 i3 ⊢
    subst i1
    rw [zero_add]
    refine ⟨?_, ?_, ?_⟩
    · rw [pow_succ, Nat.mul_mod, Nat.mod_mod, ← Nat.mul_mod]
    · intro m hm
      by_cases hmc : m = c
      · subst hmc; rw [st_same]
      · rw [st_ne _ _ ?_]
        · exact i2 m (by omega)
        · rw [Ne, adr_inj hso]
          exact fun he => hmc ((h.image (Or.inl rfl)).1 m (by omega) c (by omega) he)
    · intro e he
      rw [st_ne _ _ (he c (by omega))]
      exact i3 e fun k hk => he k (by omega)
  obtain ⟨-, n1, n2⟩ := L3
  obtain ⟨-, himA⟩ := h.image (c := a) (Or.inl rfl)
  obtain ⟨hinB, himB⟩ := h.image (c := b) (Or.inr rfl)
  rw [hM1] at himA himB hinB
  have reindex : ∀ f : Nat → K, ∑ n ∈ range p, f n = f 0 + ∑ k ∈ range M, f (b ^ k % p) := by
    intro f
    rw [range_eq_Ico, sum_eq_sum_Ico_succ_bot (by omega), ← himB, sum_image]
    intro j hj k hk hjk
    exact hinB j (mem_range.1 hj) k (mem_range.1 hk) hjk
  constructor
  · intro k hk
    rw [reindex]
    by_cases hk0 : k = 0
    · subst hk0
      rw [n2 _ fun m hm he => ?_]
      · simp only [zero_mul, add_zero, st_same, mul_zero, pow_zero, mul_one]
        exact l2
      · rw [adr_inj hso] at he
        have : a ^ m % p ∈ Ico 1 p := by
          rw [← himA]; exact mem_image_of_mem _ (mem_range.2 hm)
        rw [mem_Ico] at this
        omega
    · have hmem : k ∈ Ico 1 p := mem_Ico.2 ⟨by omega, hk⟩
      rw [← himA, mem_image] at hmem
      obtain ⟨m, hm, rfl⟩ := hmem
      rw [mem_range] at hm
      rw [n1 m hm, hconv m hm, mul_div_cancel_left₀ _ (Nat.cast_ne_zero.2 (by omega))]
      simp only [zero_mul, add_zero, pow_zero, mul_one]
      congr 1
      refine sum_congr rfl fun j hj => ?_
      rw [mem_range] at hj
      congr 1
      rw [hB]
      dsimp only
      rw [← pow_mod_orderOf, ← pow_mod_orderOf ζ (b ^ j % p * (a ^ m % p))]
      have hord : orderOf ζ = p := (ok.prim d p (by omega)).eq_orderOf.symm
      rw [hord, ← Nat.mul_mod, Nat.mod_mod]
      congr 1
      rw [h.mod_eq]
      push_cast
      have haM : (a : ZMod p) ^ M = 1 := by rw [← hM1]; exact h.a_pow
      have hred : ∀ e, (a : ZMod p) ^ (e % M) = (a : ZMod p) ^ e := by
        intro e
        conv_rhs => rw [← Nat.mod_add_div e M, pow_add, pow_mul, haM, one_pow, mul_one]
      rw [hred]
      have e1 : (b : ZMod p) ^ j * (a : ZMod p) ^ j = 1 := by rw [← mul_pow, mul_comm, h.inv, one_pow]
      calc (a : ZMod p) ^ (m + (M - j)) = (b : ZMod p) ^ j * (a : ZMod p) ^ j * (a : ZMod p) ^ (m + (M - j)) := by rw [e1, one_mul]
        _ = (b : ZMod p) ^ j * (a : ZMod p) ^ (m + M) := by
          rw [mul_assoc, ← pow_add]; congr 2; omega
        _ = (b : ZMod p) ^ j * (a : ZMod p) ^ m := by rw [pow_add, haM, mul_one]
  · intro e he
    rw [n2 e fun m hm => ?_]
    · rw [st_ne _ _ (by simpa using he 0 (by omega)), m2 e fun k hk => he k (by omega)]
      exact l4 e fun k hk => he k (by omega)
    · refine he _ ?_
      exact Nat.mod_lt _ (by omega)

/-! ## The whole tree -/

/-- The call graphs that compute the transform. -/
def Tree.Good : Tree → Prop
  | .leaf .pow2 N => ∃ e, N = 2 ^ (e + 1)
  | .leaf .pow3 N => ∃ e, N = 3 ^ (e + 1)
  | .leaf .pow4 N => ∃ e, N = 4 ^ (e + 1)
  | .leaf .discrete N => 0 < N
  | .leaf _ _ => False
  | .composite N l r => 0 < l.sz ∧ 0 < r.sz ∧ N = l.sz * r.sz ∧ l.Good ∧ r.Good
  | .rader p a b l => RaderNode p a b ∧ l.sz = p - 1 ∧ l.Good

theorem Tw.OK.three {tw : Tw K} (ok : tw.OK) : tw.plus120 * tw.plus120 = tw.minus120 ∧ tw.minus120 * tw.minus120 = tw.plus120 := by
  have h3 := ok.one_pow true (by omega : 0 < 3)
  have hr := ok.rev true 3 (by omega)
  simp only [Bool.not_true, ok.three_fwd, ok.three_bwd] at h3 hr
  constructor
  · linear_combination tw.minus120 * h3 - tw.plus120 ^ 2 * hr
  · have h3' := ok.one_pow false (by omega : 0 < 3)
    rw [ok.three_bwd] at h3'
    linear_combination tw.plus120 * h3' - tw.minus120 ^ 2 * hr

theorem tree_dft [CharZero K] {tw : Tw K} (ok : tw.OK) : ∀ (t : Tree), t.Good → ∀ n d, Computes (tw.om d 1 t.sz) t.sz (t.fft tw n d) := by
  intro t
  induction t with
  | leaf type N =>
    intro hg n d x xo si y yo so W hso
    cases type with
    | pow2 =>
      obtain ⟨e, rfl⟩ := hg
      exact pow2_dft ok d x hso e xo si y yo
    | pow3 =>
      obtain ⟨e, rfl⟩ := hg
      obtain ⟨h1, h2⟩ := ok.three
      cases d with
      | true => exact pow3_dft ok true x hso ok.three_fwd.symm h1 e xo si y yo
      | false => exact pow3_dft ok false x hso ok.three_bwd.symm h2 e xo si y yo
    | pow4 =>
      obtain ⟨e, rfl⟩ := hg
      exact pow4_dft ok d x hso e xo si y yo
    | discrete => exact dft_dft d x hso hg xo si y yo
    | composite => exact hg.elim
    | rader => exact hg.elim
  | composite N l r hl hr =>
    rintro ⟨h1, h2, rfl, g1, g2⟩ n d
    exact composite_dft ok d h1 h2 (hl g1 _ d) (hr g2 _ d)
  | rader p a b l hl =>
    rintro ⟨h1, h2, g⟩ n d
    refine rader_dft ok h1 (fun d => ?_) d
    have := hl g (n + 1) d
    rwa [h2] at this

/-- The numbers that the planning reaches from `N`: divisors, and divisors of `p - 1` for the prime factors `p` above 100000. -/
inductive Reach : Nat → Nat → Prop
  | dvd {N M : Nat} (h : M ∣ N) : Reach N M
  | rader {N p M : Nat} (hp : p.Prime) (h : 100000 < p) (hd : p ∣ N) (hr : Reach (p - 1) M) : Reach N M

theorem Reach.of_dvd {N N' M : Nat} (hd : N' ∣ N) (h : Reach N' M) : Reach N M := by
  cases h with
  | dvd h => exact .dvd (h.trans hd)
  | rader hp h1 h2 h3 => exact .rader hp h1 (h2.trans hd) h3

theorem good_initTree : ∀ N, 0 < N → (∀ q, q.Prime → 1213 < q → ¬ Reach N (q * q)) → (initTree N).Good := by
  intro N
  induction N using Nat.strong_induction_on with
  | _ N ih =>
    intro hN hq
    unfold initTree
    split
    · rename_i k h
      obtain ⟨h1, h2, h3⟩ := helper_composite h
      have hlo : getLeftover N k = N / k := by
        unfold getLeftover
        rw [if_neg]
        intro hk
        obtain ⟨c, hc⟩ := h3
        have : c ≠ 0 := by rintro rfl; omega
        have : c ≠ 1 := by rintro rfl; omega
        have : k * 2 ≤ k * c := Nat.mul_le_mul_left k (by omega)
        omega
      have hpos : 0 < N / k := Nat.div_pos h2.le (by omega)
      rw [hlo]
      refine ⟨by rw [tree_sz]; omega, by rw [tree_sz]; omega, ?_, ?_, ?_⟩
      · rw [tree_sz, tree_sz]; exact (Nat.mul_div_cancel' h3).symm
      · exact ih k h2 (by omega) fun q hp hl hr => hq q hp hl (hr.of_dvd h3)
      · exact ih (N / k) (Nat.div_lt_self hN h1) hpos fun q hp hl hr => hq q hp hl (hr.of_dvd (Nat.div_dvd_of_dvd h3))
    · rename_i k h
      obtain ⟨h1, rfl, h3⟩ := helper_rader h
      have hprime : N.Prime := by
        rcases (factor_self_iff (by omega)).1 h3 with hp | h4 | ⟨q, hqp, hql, hqq⟩
        · exact hp
        · omega
        · exact absurd (Reach.dvd (by rw [hqq])) (hq q hqp hql)
      obtain ⟨r1, r2, r3⟩ := primeRoot_spec hprime (by omega)
      refine ⟨⟨hprime, by omega, r2, r3, ?_⟩, tree_sz _, ?_⟩
      · have : Fact N.Prime := ⟨hprime⟩
        rw [modPow_eq (by omega), ZMod.natCast_mod]
        push_cast
        rw [← pow_succ', show N - 2 + 1 = N - 1 by omega, ← r3]
        exact pow_orderOf_eq_one _
      · exact ih (N - 1) (by omega) (by omega) fun q hp hl hr => hq q hp hl (.rader hprime h1 dvd_rfl hr)
    · rename_i t k hc hr h
      unfold fptrFactorHelper at h
      dsimp only at h
      split_ifs at h with h0 h4 h2 h3 g4 g2 g3 hk hr' <;> simp only [Prod.mk.injEq] at h <;> obtain ⟨rfl, rfl⟩ := h
      · omega
      · exact (powerOf_iff hN (by omega)).1 h4
      · exact (powerOf_iff hN (by omega)).1 h2
      · exact (powerOf_iff hN (by omega)).1 h3
      · exact (hc rfl).elim
      · exact (hc rfl).elim
      · exact (hc rfl).elim
      · exact (hr rfl).elim
      · exact hN
      · exact (hc rfl).elim

/-- Nothing below 1217² is affected by the search that stops too early. -/
theorem reach_lt {N M : Nat} (hN : 0 < N) (h : Reach N M) : M ≤ N := by
  induction h with
  | dvd h => exact Nat.le_of_dvd hN h
  | rader hp h1 h2 h3 ih =>
    have := Nat.le_of_dvd hN h2
    have := ih (by omega)
    omega

theorem reach_small {N : Nat} (hN : 0 < N) (hlt : N < 1481089) : ∀ q, q.Prime → 1213 < q → ¬ Reach N (q * q) := by
  intro q hp hq hr
  have := reach_lt hN hr
  have h17 : 1217 ≤ q := by
    by_contra hc
    have : q = 1214 ∨ q = 1215 ∨ q = 1216 := by omega
    rcases this with rfl | rfl | rfl <;> revert hp <;> norm_num
  have := Nat.mul_le_mul h17 h17
  omega

/-! ## Rader's algorithm for a number that is not a prime -/

/-- The first output of Rader's algorithm adds up the inputs at the powers of the stored inverse only. -/
theorem rader_zero {tw : Tw K} {p a b n : Nat} (hp : 1 < p) (ha : ∀ m, a ^ m % p ≠ 0)
    (sub : Bool → Arr K → Nat → Nat → Arr K → Nat → Nat → (Nat → Arr K) → Out K) (d : Bool)
    (x : Arr K) (xo si : Nat) (y : Arr K) (yo so : Nat) (hso : 0 < so) (W : Nat → Arr K) :
    (raderFFT tw p a b n sub d x xo si y yo so W).1 yo = x xo + ∑ k ∈ range (p - 1), x (xo + (b ^ k % p) * si) := by
  unfold raderFFT
  dsimp only
  have L1 := forRange_inv (fun c (s : Arr K × K × Nat) => s.2.2 = b ^ c % p ∧
      s.2.1 = x xo + ∑ k ∈ range c, x (xo + (b ^ k % p) * si)) 0
    (fun k (s : Arr K × K × Nat) => (st s.1 (yo + k * so) (x (xo + s.2.2 * si)),
      s.2.1 + st s.1 (yo + k * so) (x (xo + s.2.2 * si)) (yo + k * so), s.2.2 * b % p)) (y, x xo, 1) (p - 1) ?_ ?_
  rotate_left
  · refine ⟨?_, by simp⟩
    rw [pow_zero, Nat.mod_eq_of_lt hp]
  · rintro c hc ⟨u, v, w⟩ ⟨i1, i2⟩
    dsimp only at i1 i2 ⊢
    subst i1 i2
    refine ⟨?_, ?_⟩
    · rw [pow_succ, Nat.mul_mod, Nat.mod_mod, ← Nat.mul_mod]
    · rw [st_same, sum_range_succ, add_assoc]
  rw [← L1.2]
  set s := forRange 0 (p - 1) (fun k (s : Arr K × K × Nat) => (st s.1 (yo + k * so) (x (xo + s.2.2 * si)),
      s.2.1 + st s.1 (yo + k * so) (x (xo + s.2.2 * si)) (yo + k * so), s.2.2 * b % p)) (y, x xo, 1) with hs
  generalize (sub (!d) _ yo so _ 0 1 _) = o
  have L3 := forRange_inv (fun c (r : Arr K × Nat) => r.2 = a ^ c % p ∧ r.1 yo = s.2.1) 0
    (fun m (r : Arr K × Nat) => (st r.1 (yo + r.2 * so) (x xo + o.1 m / ((p - 1 : Nat) : K)), r.2 * a % p))
  refine (L3 _ _ ?_ ?_).2
  · exact ⟨by rw [pow_zero, Nat.mod_eq_of_lt hp], st_same _ _ _⟩
  · rintro c hc ⟨u, w⟩ ⟨i1, i2⟩
    dsimp only at i1 i2 ⊢
    subst i1
    refine ⟨?_, ?_⟩
    · rw [pow_succ, Nat.mul_mod, Nat.mod_mod, ← Nat.mul_mod]
    · rw [st_ne _ _ ?_]
      · exact i2
      · rw [Ne, adr_zero' hso]; exact ha c

theorem initTree_square : initTree 1481089 = .rader 1481089 (primeRoot 1481089) (modPow (primeRoot 1481089) (1481089 - 2) 1481089) (initTree (1481089 - 1)) := by
  have hf : factor 1481089 = 1481089 := (factor_self_iff (by omega)).2 (Or.inr (Or.inr ⟨1217, by norm_num, by omega, rfl⟩))
  have hh : fptrFactorHelper 1481089 = (.rader, 1481089 - 1) := by
    have h4 : powerOf 1481089 4 = false := by decide +kernel
    have h2 : powerOf 1481089 2 = false := by decide +kernel
    have h3 : powerOf 1481089 3 = false := by decide +kernel
    unfold fptrFactorHelper
    simp [h4, h2, h3, hf]
  conv_lhs => unfold initTree
  split
  · rename_i k h
    rw [hh] at h
    simp at h
  · rename_i k h
    rw [hh] at h
    simp only [Prod.mk.injEq, true_and] at h
    rw [← h]
  · rename_i t k hc hr h
    rw [hh] at h
    simp only [Prod.mk.injEq] at h
    exact (hr h.1.symm).elim

theorem primeRoot_square : primeRoot 1481089 = 2 := by decide +kernel

/-! ## The workspaces -/

/-- The entries of the workspaces that the transform of the node `n` may write: entry `a` of the workspace of the node `m`. -/
def Tree.Owns : Tree → Nat → Nat → Nat → Prop
  | .leaf _ _, _, _, _ => False
  | .composite N l r, n, m, a => (m = n ∧ a < N) ∨ l.Owns (n + 1) m a ∨ r.Owns (n + (1 + l.count)) m a
  | .rader N _ _ l, n, m, a => (m = n ∧ a < N) ∨ l.Owns (n + 1) m a

theorem owns_in_bounds : ∀ (t : Tree) (n m a : Nat), t.Owns n m a → n ≤ m ∧ ∃ nd, t.nodes[m - n]? = some nd ∧ a < nd.sz := by
  intro t
  induction t with
  | leaf ty N => intro n m a h; exact h.elim
  | composite N l r hl hr =>
    intro n m a h
    rcases h with ⟨rfl, h⟩ | h | h
    · exact ⟨le_rfl, ⟨N, .composite, 0, 0, 1, 1 + l.count⟩, by simp [Tree.nodes], h⟩
    · obtain ⟨h1, nd, h2, h3⟩ := hl _ _ _ h
      refine ⟨by omega, nd, ?_, h3⟩
      obtain ⟨k, rfl⟩ : ∃ k, m = n + 1 + k := ⟨m - (n + 1), by omega⟩
      rw [show n + 1 + k - (n + 1) = k by omega] at h2
      rw [show n + 1 + k - n = k + 1 by omega, Tree.nodes, List.getElem?_cons_succ, List.getElem?_append_left (List.getElem?_eq_some_iff.1 h2).1]
      exact h2
    · obtain ⟨h1, nd, h2, h3⟩ := hr _ _ _ h
      refine ⟨by omega, nd, ?_, h3⟩
      obtain ⟨k, rfl⟩ : ∃ k, m = n + (1 + l.count) + k := ⟨m - (n + (1 + l.count)), by omega⟩
      rw [show n + (1 + l.count) + k - (n + (1 + l.count)) = k by omega] at h2
      rw [show n + (1 + l.count) + k - n = (l.count + k) + 1 by omega, Tree.nodes, List.getElem?_cons_succ,
        List.getElem?_append_right (by rw [nodes_length]; omega), nodes_length, show l.count + k - l.count = k by omega]
      exact h2
  | rader N b c l hl =>
    intro n m a h
    rcases h with ⟨rfl, h⟩ | h
    · exact ⟨le_rfl, ⟨N, .rader, b, c, 1, 1 + l.count⟩, by simp [Tree.nodes], h⟩
    · obtain ⟨h1, nd, h2, h3⟩ := hl _ _ _ h
      refine ⟨by omega, nd, ?_, h3⟩
      obtain ⟨k, rfl⟩ : ∃ k, m = n + 1 + k := ⟨m - (n + 1), by omega⟩
      rw [show n + 1 + k - (n + 1) = k by omega] at h2
      rw [show n + 1 + k - n = k + 1 by omega, Tree.nodes, List.getElem?_cons_succ]
      exact h2

/-- The transform leaves the workspace entries outside of `P` alone. -/
def Frames (P : Nat → Nat → Prop) (f : Arr K → Nat → Nat → Arr K → Nat → Nat → (Nat → Arr K) → Out K) : Prop :=
  ∀ x xo si y yo so W m a, 0 < so → ¬ P m a → (f x xo si y yo so W).2 m a = W m a

theorem composite_frames {tw : Tw K} (d : Bool) {N1 N2 n : Nat} (h2 : 0 < N2) {ω : K}
    {left right : Arr K → Nat → Nat → Arr K → Nat → Nat → (Nat → Arr K) → Out K} {L R : Nat → Nat → Prop}
    (hl : Frames L left) (hr : Frames R right) (hc : Computes ω N2 right) :
    Frames (fun m a => (m = n ∧ a < N1 * N2) ∨ L m a ∨ R m a) (compositeFFT tw (N1 * N2) N1 N2 n left right d) := by
  intro x xo si y yo so W m a hso hP
  simp only [not_or, not_and, not_lt] at hP
  obtain ⟨hP1, hP2, hP3⟩ := hP
  unfold compositeFFT
  dsimp only
  set w1 := tw.om d 1 (N1 * N2)
  have rows := forRange_inv (fun c (s : Arr K × K × (Nat → Arr K)) =>
      (∀ e, N1 * N2 ≤ e → s.1 e = W n e) ∧ s.2.2 m a = W m a) 0
    (fun j1 (s : Arr K × K × (Nat → Arr K)) =>
      ((if 0 < j1 then
          (forRange 1 (N2 - 1) (fun k2 (t : Arr K × K) => (st t.1 (j1 * N2 + k2) (t.1 (j1 * N2 + k2) * t.2), t.2 * s.2.1))
            ((right x (xo + j1 * si) (N1 * si) s.1 (N2 * j1) 1 s.2.2).1, s.2.1)).1
        else (right x (xo + j1 * si) (N1 * si) s.1 (N2 * j1) 1 s.2.2).1),
        s.2.1 * w1, (right x (xo + j1 * si) (N1 * si) s.1 (N2 * j1) 1 s.2.2).2)) (W n, 1, W) N1 ⟨fun _ _ => rfl, rfl⟩ ?_
  · have cols := forRange_inv (fun c (o : Out K) => o.2 m a = W m a) 0
    refine cols _ _ _ ?_ ?_
    · dsimp only
      unfold setWs
      split
      · rename_i hm
        subst hm
        exact rows.1 a (hP1 rfl)
      · exact rows.2
    · intro k hk o ho
      rw [hl _ _ _ _ _ _ _ m a (by positivity) hP2]
      exact ho
  · rintro c hc' ⟨z, w, V⟩ ⟨i1, i2⟩
    dsimp only at i1 i2 ⊢
    rw [zero_add]
    refine ⟨?_, ?_⟩
    · intro e he
      have hlt : ∀ k < N2, k + c * N2 < N1 * N2 := fun k hk => blk_lt hk hc'
      have ho : (right x (xo + c * si) (N1 * si) z (N2 * c) 1 V).1 e = W n e := by
        rw [(hc x (xo + c * si) (N1 * si) z (N2 * c) 1 V (by omega)).2 e fun k hk h => ?_]
        · exact i1 e he
        · have := hlt k hk
          have : N2 * c = c * N2 := mul_comm _ _
          omega
      split
      · have inner := forRange_inv (fun _ (t : Arr K × K) => t.1 e = W n e) 1
          (fun k2 (t : Arr K × K) => (st t.1 (c * N2 + k2) (t.1 (c * N2 + k2) * t.2), t.2 * w))
        refine inner _ _ ho ?_
        intro k hk t ht
        dsimp only
        rw [st_ne _ _ ?_]
        · exact ht
        · have := hlt (1 + k) (by omega)
          omega
      · exact ho
    · rw [hr _ _ _ _ _ _ _ m a (by omega) hP3]
      exact i2

theorem rader_frames {tw : Tw K} (d : Bool) {p a b n : Nat} {ω : Bool → K} (hp : 0 < p)
    {sub : Bool → Arr K → Nat → Nat → Arr K → Nat → Nat → (Nat → Arr K) → Out K} {L : Nat → Nat → Prop}
    (hl : ∀ d, Frames L (sub d)) (hc : ∀ d, Computes (ω d) (p - 1) (sub d)) :
    Frames (fun m a => (m = n ∧ a < p) ∨ L m a) (raderFFT tw p a b n sub d) := by
  intro x xo si y yo so W m e hso hP
  simp only [not_or, not_and, not_lt] at hP
  obtain ⟨hP1, hP2⟩ := hP
  unfold raderFFT
  dsimp only
  generalize (forRange 0 (p - 1) _ (y, x xo, 1)).1 = y1
  generalize forRange 0 (p - 1) _ y1 = y2
  have f1 := hl d y1 yo so (W n) 0 1 W m e (by omega) hP2
  have c1 := (hc d y1 yo so (W n) 0 1 W (by omega)).2
  set o := sub d y1 yo so (W n) 0 1 W
  have f2 := hl (!d) y2 yo so o.1 0 1 o.2 m e (by omega) hP2
  have c2 := (hc (!d) y2 yo so o.1 0 1 o.2 (by omega)).2
  unfold setWs
  split
  · rename_i hm
    subst hm
    have := hP1 rfl
    rw [c2 e (by intro k hk; omega), c1 e (by intro k hk; omega)]
  · rw [f2, f1]

theorem tree_frames [CharZero K] {tw : Tw K} (ok : tw.OK) : ∀ (t : Tree), t.Good → ∀ n d, Frames (t.Owns n) (t.fft tw n d) := by
  intro t
  induction t with
  | leaf type N =>
    intro hg n d x xo si y yo so W m a _ _
    cases type <;> rfl
  | composite N l r hl hr =>
    rintro ⟨h1, h2, rfl, g1, g2⟩ n d
    exact composite_frames d h2 (hl g1 _ d) (hr g2 _ d) (tree_dft ok r g2 _ d)
  | rader p a b l hl =>
    rintro ⟨h1, h2, g⟩ n d
    refine rader_frames (ω := fun d => tw.om d 1 (p - 1)) d (by have := h1.odd; omega) (fun d => hl g _ d) (fun d => ?_)
    have := tree_dft ok l g (n + 1) d
    rwa [h2] at this

end Verif.Stock
