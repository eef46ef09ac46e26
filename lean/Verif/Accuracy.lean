import Verif.RoundLemmas
import Verif.SimdFft
import Mathlib.Data.Int.Log

/-!
# The rounding errors of the stock FFT

The transform of the pairs of computed and exact values is both transforms; with `Graded.lean` that bounds their distance.
-/

namespace Verif.Stock
open Finset

theorem pair_fst (A : Arith) : LaneMap (Prod.fst : Flt A × ℂ → Flt A) (pairTw A) (fltTw A) :=
  ⟨rfl, rfl, fun _ _ => rfl, fun _ _ => rfl, fun _ _ => rfl, fun _ => rfl, fun _ _ => rfl, fun _ _ _ => rfl, rfl, rfl, rfl⟩

theorem pair_snd (A : Arith) : LaneMap (Prod.snd : Flt A × ℂ → ℂ) (pairTw A) complexTw :=
  ⟨rfl, rfl, fun _ _ => rfl, fun _ _ => rfl, fun _ _ => rfl, fun _ => rfl, fun _ _ => rfl, fun _ _ _ => rfl, rfl, rfl, rfl⟩

theorem omCost_mono (m m' n : Nat) (h : m ≤ m') : omCost m n ≤ omCost m' n := by
  unfold omCost
  have : (m : ℝ) ≤ m' := by exact_mod_cast h
  have : (m : ℝ) / n ≤ m' / n := div_le_div_of_nonneg_right this (Nat.cast_nonneg n)
  linarith

/-- The error of the transform of a tree, for all strides. -/
theorem tree_error (A : Arith) {t : Tree} (ht : t.Good) (n : Nat) (d : Bool) (x : Arr (Flt A)) (xo si : Nat) (y : Arr (Flt A)) (yo so : Nat)
    (hso : 0 < so) (W : Nat → Arr (Flt A)) :
    (∀ k < t.sz, ‖((t.fft (fltTw A) n d x xo si y yo so W).1 (yo + k * so)).val - ∑ j ∈ range t.sz, (x (xo + j * si)).val * complexTw.om d 1 t.sz ^ (j * k)‖ ≤
      (Real.exp (t.cost omCost * A.u) - 1) * (t.gain * ∑ j ∈ range t.sz, ‖(x (xo + j * si)).val‖)) ∧
    ∀ a, (∀ k < t.sz, a ≠ yo + k * so) → (t.fft (fltTw A) n d x xo si y yo so W).1 a = y a := by
  set X : Arr (Flt A × ℂ) := fun a => (x a, (x a).val) with hX
  set Y : Arr (Flt A × ℂ) := fun a => (y a, 0) with hY
  set V : Nat → Arr (Flt A × ℂ) := fun i a => (W i a, 0) with hV
  have e1 := congrArg Prod.fst (fft_map (pair_fst A) t n d X xo si Y yo so V)
  have e2 := congrArg Prod.fst (fft_map (pair_snd A) t n d X xo si Y yo so V)
  obtain ⟨-, h⟩ := tree_graded (nearGraded A) omCost_mono t ht
  obtain ⟨h1, h2⟩ := h n d X xo si Y yo so V hso (fun j => ‖(x (xo + j * si)).val‖) 0 (fun k _ => ⟨le_rfl, le_rfl, by simp [hX]⟩)
  have f1 : ∀ a, ((t.fft (pairTw A) n d X xo si Y yo so V).1 a).1 = (t.fft (fltTw A) n d x xo si y yo so W).1 a := fun a => congrFun e1 a
  have f2 : ∀ a, ((t.fft (pairTw A) n d X xo si Y yo so V).1 a).2 = (t.fft complexTw n d (mapA Prod.snd X) xo si (mapA Prod.snd Y) yo so (mapW Prod.snd V)).1 a :=
    fun a => congrFun e2 a
  have hd := tree_dft complexTw_ok t ht n d (mapA Prod.snd X) xo si (mapA Prod.snd Y) yo so (mapW Prod.snd V) hso
  refine ⟨fun k hk => ?_, fun a ha => ?_⟩
  · have := (h1 k hk).2.2
    rw [f1, f2, hd.1 k hk, zero_add] at this
    exact this
  · rw [← f1, h2 a ha]

theorem stockFFT_tree {K : Type} [Zero K] [One K] [Add K] [Sub K] [Mul K] [Neg K] [Div K] [NatCast K] (tw : Tw K) {N : Nat} (hN : 0 < N)
    (fwd : Bool) (v : List K) (hv : v.length = N) (out0 : Arr K) (W : Nat → Arr K) :
    stockFFT tw N fwd v out0 W =
      .ok ((List.range N).map ((initTree N).fft tw 0 fwd (fun n => v.getD n 0) 0 1 out0 0 1 W).1) := by
  unfold stockFFT
  rw [stockPlan_eq hN]
  simp only [bind, Except.bind]
  rw [if_neg (by simpa using hv), loadTree_root (initTree_proper N)]

/-! ## How many roundings -/

theorem pow2Cost_le (e : Nat) : pow2Cost omCost e ≤ 120 * ((2 ^ (e + 1) : Nat) - 1 : ℝ) := by
  induction e with
  | zero => norm_num [pow2Cost]
  | succ e ih =>
    rw [pow2Cost, pow_succ 2 (e + 1)]
    set m := 2 ^ (e + 1) with hm
    have hm0 : (1 : ℝ) ≤ m := by exact_mod_cast Nat.one_le_two_pow
    have e1 : (m : ℝ) * (omCost 1 (2 * m) + 3) = 6 * m + 44 := by
      unfold omCost
      push_cast
      field_simp
      ring
    rw [e1]
    push_cast
    linarith

theorem pow3Cost_le (e : Nat) : pow3Cost omCost e ≤ 120 * ((3 ^ (e + 1) : Nat) - 1 : ℝ) := by
  induction e with
  | zero => norm_num [pow3Cost]
  | succ e ih =>
    rw [pow3Cost, pow_succ 3 (e + 1)]
    set m := 3 ^ (e + 1) with hm
    have hm0 : (1 : ℝ) ≤ m := by exact_mod_cast Nat.one_le_pow _ _ (by omega)
    have e1 : 2 * (m : ℝ) * (omCost 1 (3 * m) + 3) = 12 * m + 176 / 3 := by
      unfold omCost
      push_cast
      field_simp
      ring
    rw [e1]
    push_cast
    linarith

theorem pow4Cost_le (e : Nat) : pow4Cost omCost e ≤ 120 * ((4 ^ (e + 1) : Nat) - 1 : ℝ) := by
  induction e with
  | zero => norm_num [pow4Cost]
  | succ e ih =>
    rw [pow4Cost, pow_succ 4 (e + 1)]
    set m := 4 ^ (e + 1) with hm
    have hm0 : (1 : ℝ) ≤ m := by exact_mod_cast Nat.one_le_pow _ _ (by omega)
    have e1 : 3 * (m : ℝ) * (omCost 1 (4 * m) + 3) = 18 * m + 66 := by
      unfold omCost
      push_cast
      field_simp
      ring
    rw [e1]
    push_cast
    linarith

theorem dftCost_le {N q : Nat} (hN : 2 ≤ N) (hq : N ≤ q) : dftCost omCost N ≤ 60 * q * (N - 1) := by
  unfold dftCost
  rw [if_neg (by omega), Nat.cast_sub (by omega)]
  have h2 : (2 : ℝ) ≤ N := by exact_mod_cast hN
  have hq' : (N : ℝ) ≤ q := by exact_mod_cast hq
  have h88 : (88 : ℝ) * (1 / N) * (N - 1) ≤ 88 := by
    rw [mul_one_div, div_mul_eq_mul_div, div_le_iff₀ (by linarith)]
    linarith
  unfold omCost
  push_cast
  have : ((N : ℝ) - 1) * (3 + 88 * (1 / N) + 3) + 4 ≤ 60 * q := by nlinarith
  have := mul_le_mul_of_nonneg_right this (show (0 : ℝ) ≤ N - 1 by linarith)
  linarith

theorem compositeCost_le {a b q : Nat} (ha : 2 ≤ a) (hb : 2 ≤ b) (hq : 2 ≤ q) :
    60 * q * ((a : ℝ) - 1) + 60 * q * (b - 1) + compositeCost omCost a b ≤ 60 * q * ((a * b : Nat) - 1) := by
  unfold compositeCost
  have ha' : (2 : ℝ) ≤ a := by exact_mod_cast ha
  have hb' : (2 : ℝ) ≤ b := by exact_mod_cast hb
  have hq' : (2 : ℝ) ≤ q := by exact_mod_cast hq
  have e1 : ((a * b : Nat) : ℝ) * (omCost 1 (a * b) + 3) = 6 * (a * b) + 88 := by
    unfold omCost
    have : ((a * b : Nat) : ℝ) ≠ 0 := by
      push_cast
      positivity
    push_cast at this ⊢
    field_simp
    ring
  rw [e1]
  push_cast
  obtain ⟨x, hx⟩ : ∃ x : ℝ, x = a - 2 := ⟨_, rfl⟩
  obtain ⟨y, hy⟩ : ∃ y : ℝ, y = b - 2 := ⟨_, rfl⟩
  have hx0 : 0 ≤ x := by linarith
  have hy0 : 0 ≤ y := by linarith
  have ea : (a : ℝ) = x + 2 := by linarith
  have eb : (b : ℝ) = y + 2 := by linarith
  rw [ea, eb]
  have h1 : 120 * ((1 + x) * (1 + y)) ≤ 60 * q * ((1 + x) * (1 + y)) := mul_le_mul_of_nonneg_right (by linarith) (by positivity)
  have h2 := mul_nonneg hx0 hy0
  nlinarith

theorem tree_cost {q : Nat} (hq2 : 2 ≤ q) (hq : q ≤ 100000) : ∀ N, 0 < N → (∀ p, p.Prime → p ∣ N → p ≤ q) →
    (∀ p, p.Prime → 1213 < p → ¬ p * p ∣ N) → (initTree N).gain = 1 ∧ (initTree N).cost omCost ≤ 60 * q * ((N : ℝ) - 1) := by
  have hq2' : (2 : ℝ) ≤ q := by exact_mod_cast hq2
  intro N
  induction N using Nat.strong_induction_on with
  | _ N ih =>
    intro hN hp hs
    unfold initTree
    split
    · rename_i k h
      obtain ⟨h1, h2, h3⟩ := helper_composite h
      have hlo : getLeftover N k = N / k := by
        unfold getLeftover
        rw [if_neg]
        intro hk
        obtain ⟨c, hc⟩ := h3
        have : c ≠ 0 := by rintro rfl; omega
        have : c ≠ 1 := by rintro rfl; omega
        have : k * 2 ≤ k * c := Nat.mul_le_mul_left k (by omega)
        omega
      have hpos : 0 < N / k := Nat.div_pos h2.le (by omega)
      have hd : k * (N / k) = N := Nat.mul_div_cancel' h3
      have hk2 : 2 ≤ N / k := by
        by_contra hlt
        have : N / k = 1 := by omega
        rw [this] at hd
        omega
      rw [hlo]
      obtain ⟨g1, c1⟩ := ih k h2 (by omega) (fun p hpp hpd => hp p hpp (hpd.trans h3))
        fun p hpp hl hpd => hs p hpp hl (hpd.trans h3)
      obtain ⟨g2, c2⟩ := ih (N / k) (Nat.div_lt_self hN h1) hpos (fun p hpp hpd => hp p hpp (hpd.trans (Nat.div_dvd_of_dvd h3)))
        fun p hpp hl hpd => hs p hpp hl (hpd.trans (Nat.div_dvd_of_dvd h3))
      refine ⟨by rw [Tree.gain, g1, g2, one_mul], ?_⟩
      rw [Tree.cost, tree_sz, tree_sz]
      have := compositeCost_le (a := k) (b := N / k) (by omega) hk2 hq2
      rw [hd] at this
      linarith
    · rename_i k h
      obtain ⟨h1, rfl, h3⟩ := helper_rader h
      exfalso
      rcases (factor_self_iff (by omega)).1 h3 with hpr | h4 | ⟨r, hr, hrl, hrr⟩
      · have := hp N hpr dvd_rfl
        omega
      · omega
      · exact hs r hr hrl (by rw [hrr])
    · rename_i t k hc hr h
      refine ⟨rfl, ?_⟩
      have hN1 : (1 : ℝ) ≤ N := by exact_mod_cast hN
      have h120 : 120 * ((N : ℝ) - 1) ≤ 60 * q * ((N : ℝ) - 1) := mul_le_mul_of_nonneg_right (by linarith) (by linarith)
      refine le_trans ?_ (le_refl (60 * (q : ℝ) * (N - 1)))
      unfold fptrFactorHelper at h
      dsimp only at h
      split_ifs at h with h0 h4 h2 h3 g4 g2 g3 hk hr' <;> simp only [Prod.mk.injEq] at h <;> obtain ⟨rfl, rfl⟩ := h
      · omega
      · obtain ⟨e, rfl⟩ := (powerOf_iff hN (by omega)).1 h4
        rw [Tree.cost, Nat.log_pow (by omega), Nat.add_sub_cancel]
        exact (pow4Cost_le e).trans h120
      · obtain ⟨e, rfl⟩ := (powerOf_iff hN (by omega)).1 h2
        rw [Tree.cost, Nat.log_pow (by omega), Nat.add_sub_cancel]
        exact (pow2Cost_le e).trans h120
      · obtain ⟨e, rfl⟩ := (powerOf_iff hN (by omega)).1 h3
        rw [Tree.cost, Nat.log_pow (by omega), Nat.add_sub_cancel]
        exact (pow3Cost_le e).trans h120
      · exact (hc rfl).elim
      · exact (hc rfl).elim
      · exact (hc rfl).elim
      · exact (hr rfl).elim
      · rw [Tree.cost]
        by_cases h1 : N = 1
        · rw [dftCost, if_pos (by omega)]
          exact mul_nonneg (by linarith) (by linarith)
        have hpr : N.Prime := by
          rcases (factor_self_iff (by omega)).1 hk with hpr | h4' | ⟨r, hr, hrl, hrr⟩
          · exact hpr
          · omega
          · exact absurd (by rw [hrr]) (hs r hr hrl)
        exact dftCost_le hpr.two_le (hp N hpr dvd_rfl)
      · exact (hc rfl).elim

theorem raderCost_le {p : Nat} (hp : 100000 < p) : raderCost omCost p ≤ 90 * p := by
  unfold raderCost omCost
  have h : (100000 : ℝ) < p := by exact_mod_cast hp
  have hp1 : ((p - 1 : Nat) : ℝ) = p - 1 := by rw [Nat.cast_sub (by omega), Nat.cast_one]
  have e1 : ((1 : Nat) : ℝ) / p ≤ 1 := by
    rw [div_le_iff₀ (by linarith)]
    push_cast
    linarith
  have e2 : ((p * ((p - 1) * (p - 1) + p) : Nat) : ℝ) / ((p * (p - 1) : Nat) : ℝ) ≤ p + 1 := by
    push_cast
    rw [hp1, div_le_iff₀ (by nlinarith)]
    nlinarith
  linarith

/-- The planner on a prime. -/
theorem helper_prime {p : Nat} (hp : p.Prime) (h5 : 5 ≤ p) :
    (100000 < p → fptrFactorHelper p = (.rader, p - 1)) ∧ (p ≤ 100000 → fptrFactorHelper p = (.discrete, p)) := by
  have hk : factor p = p := (factor_self_iff (by omega)).2 (Or.inl hp)
  have hnd : ∀ r, 1 < r → r < p → ¬ p % r = 0 := fun r h1 h2 hm => by
    rcases hp.eq_one_or_self_of_dvd r (Nat.dvd_of_mod_eq_zero hm) with h | h <;> omega
  have hpow : ∀ r, 1 < r → r < p → powerOf p r = false := fun r h1 h2 => by
    by_contra hb
    obtain ⟨e, he⟩ := (powerOf_iff (show 0 < p by omega) h1).1 (by simpa using hb)
    exact hnd r h1 h2 (by rw [he, pow_succ]; exact Nat.mul_mod_left _ _)
  have hh : fptrFactorHelper p = if p > 100000 then (.rader, p - 1) else (.discrete, p) := by
    unfold fptrFactorHelper
    rw [if_neg (by omega), hpow 4 (by omega) (by omega), hpow 2 (by omega) (by omega), hpow 3 (by omega) (by omega),
      if_neg (by simp), if_neg (by simp), if_neg (by simp), if_neg (hnd 4 (by omega) (by omega)), if_neg (hnd 2 (by omega) (by omega)),
      if_neg (hnd 3 (by omega) (by omega))]
    dsimp only
    rw [if_pos hk, hk]
  exact ⟨fun h => by rw [hh, if_pos h], fun h => by rw [hh, if_neg (by omega)]⟩

theorem tree_prime {p : Nat} (hp : p.Prime) (h5 : 5 ≤ p) (h : p ≤ 100000) : initTree p = .leaf .discrete p := by
  have hh := (helper_prime hp h5).2 h
  unfold initTree
  split
  · rename_i k h; rw [hh] at h; simp at h
  · rename_i k h; rw [hh] at h; simp at h
  · rename_i t k hc hr h; rw [hh] at h; simp only [Prod.mk.injEq] at h; rw [h.1]

/-- Rader's algorithm on a prime above 100000. -/
theorem tree_cost_prime {q : Nat} (hq2 : 2 ≤ q) (hq : q ≤ 100000) {p : Nat} (hp : p.Prime) (h : 100000 < p)
    (hf : ∀ r, r.Prime → r ∣ p - 1 → r ≤ q) (hs : ∀ r, r.Prime → 1213 < r → ¬ r * r ∣ p - 1) :
    (initTree p).gain = p - 1 ∧ (initTree p).cost omCost ≤ (120 * q + 90) * p := by
  obtain ⟨g, c⟩ := tree_cost hq2 hq (p - 1) (by omega) hf hs
  have hh := (helper_prime hp (by omega)).1 h
  have ht : initTree p = .rader p (primeRoot p) (modPow (primeRoot p) (p - 2) p) (initTree (p - 1)) := by
    conv_lhs => unfold initTree
    split
    · rename_i k h; rw [hh] at h; simp at h
    · rename_i k h; rw [hh] at h; simp only [Prod.mk.injEq, true_and] at h; rw [h]
    · rename_i t k hc hr h; rw [hh] at h; simp only [Prod.mk.injEq] at h; exact (hr h.1.symm).elim
  have hp1 : ((p - 1 : Nat) : ℝ) = p - 1 := by rw [Nat.cast_sub (by omega), Nat.cast_one]
  rw [ht, Tree.gain, Tree.cost, g, one_mul, one_mul, hp1]
  refine ⟨rfl, ?_⟩
  have := raderCost_le h
  rw [hp1] at c
  have hq0 : (0 : ℝ) ≤ q := Nat.cast_nonneg q
  nlinarith

/-! ## Whatever the memory holds -/

section
variable {K : Type} [Zero K] [One K] [Add K] [Sub K] [Mul K] [Neg K] [Div K] [NatCast K]

/-- Integers as pairs. -/
local instance twinCast : NatCast (K × K) := ⟨fun n => ((n : K), (n : K))⟩

/-- The constants of two runs. -/
def twinTw (tw : Tw K) : Tw (K × K) where
  om d m N := (tw.om d m N, tw.om d m N)
  i := (tw.i, tw.i)
  plus120 := (tw.plus120, tw.plus120)
  minus120 := (tw.minus120, tw.minus120)

theorem twin_fst (tw : Tw K) : LaneMap (Prod.fst : K × K → K) (twinTw tw) tw :=
  ⟨rfl, rfl, fun _ _ => rfl, fun _ _ => rfl, fun _ _ => rfl, fun _ => rfl, fun _ _ => rfl, fun _ _ _ => rfl, rfl, rfl, rfl⟩

theorem twin_snd (tw : Tw K) : LaneMap (Prod.snd : K × K → K) (twinTw tw) tw :=
  ⟨rfl, rfl, fun _ _ => rfl, fun _ _ => rfl, fun _ _ => rfl, fun _ => rfl, fun _ _ => rfl, fun _ _ _ => rfl, rfl, rfl, rfl⟩

/-- Two runs on the same values. -/
def sameGraded (tw : Tw K) : Graded (twinTw tw) (fun _ _ => 0) where
  N b τ z := 0 ≤ b ∧ 0 ≤ τ ∧ z.1 = z.2
  size h := h.1
  count h := h.2.1
  mono h hb hτ := ⟨h.1.trans hb, h.2.1.trans hτ, h.2.2⟩
  add h h' := ⟨add_nonneg h.1 h'.1, by have := h.2.1; linarith, congrArg₂ (· + ·) h.2.2 h'.2.2⟩
  sub h h' := ⟨add_nonneg h.1 h'.1, by have := h.2.1; linarith, congrArg₂ (· - ·) h.2.2 h'.2.2⟩
  neg h := ⟨h.1, h.2.1, congrArg (- ·) h.2.2⟩
  mul h h' := ⟨mul_nonneg h.1 h'.1, by have := h.2.1; have := h'.2.1; linarith, congrArg₂ (· * ·) h.2.2 h'.2.2⟩
  div n hn h := ⟨div_nonneg h.1 (Nat.cast_nonneg n), by have := h.2.1; linarith, congrArg (· / (n : K)) h.2.2⟩
  one := ⟨zero_le_one, le_rfl, rfl⟩
  om _ _ _ _ := ⟨zero_le_one, le_rfl, rfl⟩
  i := ⟨zero_le_one, le_rfl, rfl⟩
  plus120 := ⟨zero_le_one, by norm_num, rfl⟩
  minus120 := ⟨zero_le_one, by norm_num, rfl⟩

/-- The result depends only on the entries of the input, in any arithmetic. -/
theorem tree_det (tw : Tw K) {t : Tree} (ht : t.Good) (n : Nat) (d : Bool) (x x' : Arr K) (xo si : Nat) (hx : ∀ k < t.sz, x (xo + k * si) = x' (xo + k * si))
    (y y' : Arr K) (yo so : Nat) (hso : 0 < so) (W W' : Nat → Arr K) :
    ∀ k < t.sz, (t.fft tw n d x xo si y yo so W).1 (yo + k * so) = (t.fft tw n d x' xo si y' yo so W').1 (yo + k * so) := by
  set X : Arr (K × K) := fun a => (x a, x' a) with hX
  set Y : Arr (K × K) := fun a => (y a, y' a) with hY
  set V : Nat → Arr (K × K) := fun i a => (W i a, W' i a) with hV
  have e1 := congrArg Prod.fst (fft_map (twin_fst tw) t n d X xo si Y yo so V)
  have e2 := congrArg Prod.fst (fft_map (twin_snd tw) t n d X xo si Y yo so V)
  obtain ⟨-, h⟩ := tree_graded (sameGraded tw) (fun _ _ _ _ => le_rfl) t ht
  obtain ⟨h1, -⟩ := h n d X xo si Y yo so V hso (fun j => 0) 0 (fun k hk => ⟨le_rfl, le_rfl, hx k hk⟩)
  intro k hk
  have f1 : ((t.fft (twinTw tw) n d X xo si Y yo so V).1 (yo + k * so)).1 = (t.fft tw n d x xo si y yo so W).1 (yo + k * so) := congrFun e1 _
  have f2 : ((t.fft (twinTw tw) n d X xo si Y yo so V).1 (yo + k * so)).2 = (t.fft tw n d x' xo si y' yo so W').1 (yo + k * so) := congrFun e2 _
  rw [← f1, ← f2]
  exact (h1 k hk).2.2

end

/-! ## The growth of the error -/

/-- The arithmetic that always rounds away from zero, as far as the unit roundoff permits. -/
noncomputable def awayArith (u : ℝ) (h0 : 0 ≤ u) (h1 : u ≤ 1 / 8) : Arith where
  u := u
  u_nonneg := h0
  u_le := h1
  rnd x := (1 + u) * x
  rnd_err x := by
    rw [show (1 + u) * x - x = u * x by ring, abs_mul, abs_of_nonneg h0]
  rndA x := x
  rndA_err x := by
    rw [sub_self, abs_zero]
    positivity
  pi2 := 2 * Real.pi
  pi2_err := by
    rw [sub_self, abs_zero]
    have := Real.pi_pos
    positivity
  cosF := Real.cos
  cosF_err a := by
    rw [sub_self, abs_zero]
    linarith
  sinF := Real.sin
  sinF_err a := by
    rw [sub_self, abs_zero]
    linarith
  fused := none

section
variable {u : ℝ} {h0 : 0 ≤ u} {h1 : u ≤ 1 / 8}

theorem away_mul (x y : Flt (awayArith u h0 h1)) : (x * y).val = ((1 + u : ℝ) : ℂ) ^ 2 * (x.val * y.val) := by
  have e : (x * y).val = (⟨(1 + u) * ((1 + u) * (x.val.re * y.val.re) + -1 * ((1 + u) * (x.val.im * y.val.im))),
    (1 + u) * ((1 + u) * (x.val.re * y.val.im) + 1 * ((1 + u) * (x.val.im * y.val.re)))⟩ : ℂ) := rfl
  rw [e, ← Complex.ofReal_pow]
  apply Complex.ext
  · rw [Complex.re_ofReal_mul, Complex.mul_re]
    ring
  · rw [Complex.im_ofReal_mul, Complex.mul_im]
    ring

theorem away_add (x y : Flt (awayArith u h0 h1)) : (x + y).val = ((1 + u : ℝ) : ℂ) * (x.val + y.val) := by
  have e : (x + y).val = (⟨(1 + u) * (x.val.re + y.val.re), (1 + u) * (x.val.im + y.val.im)⟩ : ℂ) := rfl
  rw [e]
  apply Complex.ext
  · rw [Complex.re_ofReal_mul, Complex.add_re]
  · rw [Complex.im_ofReal_mul, Complex.add_im]

theorem away_om (d : Bool) (m N : Nat) : ‖((fltTw (awayArith u h0 h1)).om d m N).val‖ = 1 := by
  set a := (awayArith u h0 h1).angle m N with ha
  have e : ((fltTw (awayArith u h0 h1)).om d m N).val = (⟨Real.cos a, (if d then -1 else 1) * Real.sin a⟩ : ℂ) := rfl
  rw [e, Complex.norm_def, Complex.normSq_apply, Real.sqrt_eq_one]
  have := Real.sin_sq_add_cos_sq a
  cases d <;> dsimp only <;> simp <;> linarith

theorem away_size {x y : Flt (awayArith u h0 h1)} {a b : Nat} (hx : ‖x.val‖ = (1 + u) ^ a) (hy : ‖y.val‖ = (1 + u) ^ b) : ‖(x * y).val‖ = (1 + u) ^ (a + b + 2) := by
  rw [away_mul, norm_mul, norm_mul, norm_pow, Complex.norm_real, Real.norm_of_nonneg (by linarith), hx, hy]
  ring

/-- The last output of `DFT_helper` for a unit vector: all the roundings of the powers of the twiddle factor add up. -/
theorem away_dft (d : Bool) (M : Nat) (x y : Arr (Flt (awayArith u h0 h1))) (hx : ∀ n < M + 1, (x n).val = 0) (hl : (x (M + 1)).val = 1) :
    ‖(dftHelper (fltTw (awayArith u h0 h1)) d (M + 2) x 0 1 y 0 1 (M + 1)).val‖ = (1 + u) ^ (2 * M * (M + 2) + 3) := by
  unfold dftHelper
  rw [if_neg (by omega)]
  dsimp only
  set w0 := (fltTw (awayArith u h0 h1)).om d 1 (M + 2) with hw0
  have hw : ‖w0.val‖ = 1 := away_om d 1 (M + 2)
  rw [show M + 2 - 1 = M + 1 by omega]
  simp only [zero_add, mul_one]
  set f := fun (k : Nat) (s : Arr (Flt (awayArith u h0 h1)) × Flt (awayArith u h0 h1) × Flt (awayArith u h0 h1)) =>
    (st s.1 k (forRange 1 (M + 1) (fun n (r : Flt (awayArith u h0 h1) × Flt (awayArith u h0 h1)) => (r.2 * x n + r.1, r.2 * s.2.1)) (x 0, s.2.2)).1,
      s.2.1 * w0, s.2.1 * w0) with hf
  set y0 := st y 0 (forRange 1 (M + 1) (fun n tmp => tmp + x n) (x 0)) with hy0
  have hout : ∀ j, ‖(forRange 1 j f (y0, w0, w0)).2.1.val‖ = (1 + u) ^ (2 * j) ∧ (forRange 1 j f (y0, w0, w0)).2.2 = (forRange 1 j f (y0, w0, w0)).2.1 := by
    intro j
    refine forRange_inv (fun j (s : Arr (Flt (awayArith u h0 h1)) × Flt (awayArith u h0 h1) × Flt (awayArith u h0 h1)) =>
      ‖s.2.1.val‖ = (1 + u) ^ (2 * j) ∧ s.2.2 = s.2.1) 1 f _ j ⟨by simpa using hw, rfl⟩ ?_
    rintro k - s ⟨hs, -⟩
    refine ⟨?_, rfl⟩
    have := away_size (b := 0) hs (by rw [hw, pow_zero])
    rw [show 2 * (k + 1) = 2 * k + 0 + 2 by ring]
    exact this
  rw [forRange]
  obtain ⟨hn, he⟩ := hout M
  set s := forRange 1 M f (y0, w0, w0) with hs
  rw [hf]
  dsimp only
  rw [show 1 + M = M + 1 by omega, st_same, he]
  set w := s.2.1 with hwk
  set g := fun (n : Nat) (r : Flt (awayArith u h0 h1) × Flt (awayArith u h0 h1)) => (r.2 * x n + r.1, r.2 * w) with hg
  have hin := forRange_inv (fun j (r : Flt (awayArith u h0 h1) × Flt (awayArith u h0 h1)) => r.1.val = 0 ∧ ‖r.2.val‖ = (1 + u) ^ (2 * M * (j + 1) + 2 * j)) 1 g (x 0, w) M
    ⟨hx 0 (by omega), by simpa using hn⟩ (by
      rintro k hk r ⟨r1, r2⟩
      refine ⟨?_, ?_⟩
      · rw [hg]
        dsimp only
        rw [away_add, away_mul, hx (1 + k) (by omega), r1, mul_zero, mul_zero, add_zero, mul_zero]
      · rw [show 2 * M * (k + 1 + 1) + 2 * (k + 1) = (2 * M * (k + 1) + 2 * k) + 2 * M + 2 by ring]
        exact away_size r2 hn)
  rw [forRange]
  obtain ⟨r1, r2⟩ := hin
  set r := forRange 1 M g (x 0, w) with hr
  rw [hg]
  dsimp only
  rw [show 1 + M = M + 1 by omega, away_add, away_mul, hl, r1, add_zero, mul_one, norm_mul, norm_mul, norm_pow, Complex.norm_real,
    Real.norm_of_nonneg (by linarith), r2]
  ring

end

/-! ## Rounding to the nearest number with `p` binary digits -/

/-- The nearest number with `p` binary digits, for all exponents. -/
noncomputable def nearest (p : Nat) (x : ℝ) : ℝ := (round (x / 2 ^ (Int.log 2 |x| - p + 1)) : ℝ) * 2 ^ (Int.log 2 |x| - p + 1)

theorem nearest_err (p : Nat) (x : ℝ) : |nearest p x - x| ≤ (1 / 2) ^ p * |x| := by
  by_cases hx : x = 0
  · subst hx
    simp [nearest]
  have hx' : 0 < |x| := abs_pos.2 hx
  unfold nearest
  set q : ℝ := 2 ^ (Int.log 2 |x| - p + 1) with hq
  have hq0 : 0 < q := by positivity
  have h1 := abs_sub_round (x / q)
  have h2 : (round (x / q) : ℝ) * q - x = - (x / q - round (x / q)) * q := by
    field_simp
    ring
  rw [h2, abs_mul, abs_neg, abs_of_pos hq0]
  have h3 : (2 : ℝ) ^ Int.log 2 |x| ≤ |x| := Int.zpow_log_le_self (by norm_num) hx'
  have h4 : q / 2 = (1 / 2) ^ p * 2 ^ Int.log 2 |x| := by
    rw [hq, zpow_add₀ (by norm_num), zpow_sub₀ (by norm_num)]
    simp
    ring
  calc _ ≤ 1 / 2 * q := mul_le_mul_of_nonneg_right h1 hq0.le
    _ = q / 2 := by ring
    _ ≤ _ := by rw [h4]; exact mul_le_mul_of_nonneg_left h3 (by positivity)

/-- The arithmetic with `p` binary digits, for `float` 24 and for `double` 53, with correctly rounded `cos` and `sin`; the constants are in `double`. -/
noncomputable def binary (p : Nat) (h1 : 3 ≤ p) (h2 : p ≤ 53) (fused : Option Bool) : Arith where
  u := (1 / 2) ^ p
  u_nonneg := by positivity
  u_le := by
    calc ((1 : ℝ) / 2) ^ p ≤ (1 / 2) ^ 3 := pow_le_pow_of_le_one (by norm_num) (by norm_num) h1
      _ = 1 / 8 := by norm_num
  rnd := nearest p
  rnd_err := nearest_err p
  rndA := nearest 53
  rndA_err x := (nearest_err 53 x).trans (mul_le_mul_of_nonneg_right (pow_le_pow_of_le_one (by norm_num) (by norm_num) h2) (abs_nonneg x))
  pi2 := nearest 53 (2 * Real.pi)
  pi2_err := by
    have := (nearest_err 53 (2 * Real.pi)).trans (mul_le_mul_of_nonneg_right (pow_le_pow_of_le_one (by norm_num) (by norm_num) h2) (abs_nonneg _))
    rwa [abs_of_pos (by have := Real.pi_pos; positivity : 0 < 2 * Real.pi)] at this
  cosF a := nearest p (Real.cos a)
  cosF_err a := by
    refine (nearest_err p _).trans ?_
    have := Real.abs_cos_le_one a
    have : (0 : ℝ) ≤ (1 / 2) ^ p := by positivity
    nlinarith
  sinF a := nearest p (Real.sin a)
  sinF_err a := by
    refine (nearest_err p _).trans ?_
    have := Real.abs_sin_le_one a
    have : (0 : ℝ) ≤ (1 / 2) ^ p := by positivity
    nlinarith
  fused := fused

/-- Arithmetic without rounding. -/
noncomputable def exactArith : Arith where
  u := 0
  u_nonneg := le_rfl
  u_le := by norm_num
  rnd x := x
  rnd_err x := by simp
  rndA x := x
  rndA_err x := by simp
  pi2 := 2 * Real.pi
  pi2_err := by simp
  cosF := Real.cos
  cosF_err a := by simp
  sinF := Real.sin
  sinF_err a := by simp
  fused := none

/-- The product with `i` does not round: `a * std::complex<F>{0, 1}` is `-im, re` for numbers that are exact in `F`. -/
theorem mulI_exact (A : Arith) (x : Flt A) (hr : A.rnd x.val.re = x.val.re) (hi : A.rnd x.val.im = x.val.im) (hn : A.rnd (- x.val.im) = - x.val.im) :
    ((fltTw A).i * x).val = Complex.I * x.val := by
  have h0 : A.rnd 0 = 0 := by
    have := A.rnd_err 0
    simpa using this
  have e : ((fltTw A).i * x).val = (⟨Flt.dot A (-1) 0 x.val.re 1 x.val.im, Flt.dot A 1 0 x.val.im 1 x.val.re⟩ : ℂ) := rfl
  rw [e]
  apply Complex.ext
  · unfold Flt.dot
    rw [Complex.I_mul_re]
    cases A.fused with
    | none => simp [h0, hi, hn]
    | some b => cases b <;> simp [h0, hi, hn]
  · unfold Flt.dot
    rw [Complex.I_mul_im]
    cases A.fused with
    | none => simp [h0, hr]
    | some b => cases b <;> simp [h0, hr]

end Verif.Stock
