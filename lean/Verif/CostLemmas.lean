import Verif.Cost
import Mathlib.Algebra.BigOperators.Intervals

/-!
# Costs: the counted programs are the programs, and what they cost
-/

namespace Verif.Stock

section
variable {α β : Type}

@[simp] theorem val_pure (a : α) : (pure a : Tick α).val = a := rfl
@[simp] theorem cost_pure (a : α) : (pure a : Tick α).cost = 0 := rfl
@[simp] theorem val_bind (x : Tick α) (f : α → Tick β) : (x >>= f).val = (f x.val).val := rfl
@[simp] theorem cost_bind (x : Tick α) (f : α → Tick β) : (x >>= f).cost = x.cost + (f x.val).cost := rfl
theorem val_ite {P : Prop} [Decidable P] (x y : Tick α) : (if P then x else y).val = if P then x.val else y.val := apply_ite _ _ _ _
theorem cost_ite {P : Prop} [Decidable P] (x y : Tick α) : (if P then x else y).cost = if P then x.cost else y.cost := apply_ite _ _ _ _

theorem forTick_val {σ : Type} (lo : Nat) (f : Nat → σ → Tick σ) (s : σ) : ∀ n, (forTick lo n f s).val = forRange lo n (fun k s => (f k s).val) s
  | 0 => rfl
  | n + 1 => by
    show (f (lo + n) (forTick lo n f s).val).val = _
    rw [forTick_val lo f s n]; rfl

theorem forTick_cost {σ : Type} {lo : Nat} {f : Nat → σ → Tick σ} {s : σ} {g : Nat → Nat} : ∀ n, (∀ k < n, ∀ s, (f (lo + k) s).cost = g k) →
    (forTick lo n f s).cost = ∑ k ∈ Finset.range n, g k
  | 0, _ => rfl
  | n + 1, h => by
    show (forTick lo n f s).cost + (f (lo + n) (forTick lo n f s).val).cost = _
    rw [Finset.sum_range_succ, h n (by omega), forTick_cost n fun k hk => h k (by omega)]

theorem forTick_const {σ : Type} {lo n d : Nat} {f : Nat → σ → Tick σ} {s : σ} (h : ∀ k s, (f k s).cost = d) : (forTick lo n f s).cost = n * d := by
  rw [forTick_cost (g := fun _ => d) n fun k _ s => h _ s]
  simp

end

variable {K : Type} [Zero K] [One K] [Add K] [Sub K] [Mul K] [Neg K] [Div K] [NatCast K] (tw : Tw K) (c : Price)

section
variable (a b x : K) (n m : Nat) (d : Bool)
@[simp] theorem addT_val : (addT c a b).val = a + b := rfl
@[simp] theorem subT_val : (subT c a b).val = a - b := rfl
@[simp] theorem mulT_val : (mulT c a b).val = a * b := rfl
@[simp] theorem negT_val : (negT c a).val = -a := rfl
@[simp] theorem divT_val : (divT c a n).val = a / (n : K) := rfl
@[simp] theorem mulIT_val : (mulIT tw c a).val = tw.i * a := rfl
@[simp] theorem mulNegIT_val : (mulNegIT tw c a).val = -(tw.i * a) := rfl
@[simp] theorem fmaddT_val : (fmaddT c a x b).val = a * x + b := rfl
@[simp] theorem fmsubT_val : (fmsubT c a x b).val = a * x - b := rfl
@[simp] theorem omT_val : (omT tw c d n m).val = tw.om d n m := rfl
@[simp] theorem addT_cost : (addT c a b).cost = c.arith := rfl
@[simp] theorem subT_cost : (subT c a b).cost = c.arith := rfl
@[simp] theorem mulT_cost : (mulT c a b).cost = c.arith := rfl
@[simp] theorem negT_cost : (negT c a).cost = c.arith := rfl
@[simp] theorem divT_cost : (divT c a n).cost = c.arith := rfl
@[simp] theorem mulIT_cost : (mulIT tw c a).cost = c.arith := rfl
@[simp] theorem mulNegIT_cost : (mulNegIT tw c a).cost = c.arith := rfl
@[simp] theorem fmaddT_cost : (fmaddT c a x b).cost = 2 * c.arith := rfl
@[simp] theorem fmsubT_cost : (fmsubT c a x b).cost = 2 * c.arith := rfl
@[simp] theorem omT_cost : (omT tw c d n m).cost = c.trig := rfl
end

/-! ## The values -/

theorem dftT_val (dir : Bool) (N : Nat) (x : Arr K) (xo si : Nat) (y : Arr K) (yo so : Nat) :
    (dftT tw c dir N x xo si y yo so).val = dftHelper tw dir N x xo si y yo so := by
  unfold dftT dftHelper
  by_cases h : N = 1
  · rw [if_pos h, if_pos h]; rfl
  · rw [if_neg h, if_neg h]
    simp only [val_bind, val_pure, forTick_val, addT_val, fmaddT_val, mulT_val, omT_val]

theorem pow2T_val (dir : Bool) (x : Arr K) (so : Nat) : ∀ (N xo si : Nat) (y : Arr K) (yo : Nat),
    (pow2T tw c dir N x xo si y yo so).val = pow2Helper tw dir N x xo si y yo so := by
  intro N
  induction N using Nat.strong_induction_on with
  | _ N ih =>
    intro xo si y yo
    rw [pow2T, pow2Helper]
    by_cases h : N = 2
    · rw [if_pos h, if_pos h]; rfl
    · rw [if_neg h, if_neg h]
      by_cases h2 : N < 2
      · rw [dif_pos h2, dif_pos h2]; rfl
      · rw [dif_neg h2, dif_neg h2]
        have := ih (N / 2) (by omega)
        simp only [val_bind, val_pure, forTick_val, addT_val, subT_val, mulT_val, omT_val, this]

theorem butterflyT_val (dir flat : Bool) (y : Arr K) (k0 k1 k2 k3 : Nat) (a0 a1 a2 a3 : K) :
    (butterflyT tw c dir flat y k0 k1 k2 k3 a0 a1 a2 a3).val = butterfly4 tw dir flat y k0 k1 k2 k3 a0 a1 a2 a3 := by
  cases dir <;> cases flat <;> rfl

theorem pow4T_val (dir : Bool) (x : Arr K) (so : Nat) : ∀ (N xo si : Nat) (y : Arr K) (yo : Nat),
    (pow4T tw c dir N x xo si y yo so).val = pow4Helper tw dir N x xo si y yo so := by
  intro N
  induction N using Nat.strong_induction_on with
  | _ N ih =>
    intro xo si y yo
    rw [pow4T, pow4Helper]
    by_cases h : N = 4
    · rw [if_pos h, if_pos h]; exact butterflyT_val ..
    · rw [if_neg h, if_neg h]
      by_cases h2 : N < 4
      · rw [dif_pos h2, dif_pos h2]; rfl
      · rw [dif_neg h2, dif_neg h2]
        have := ih (N / 4) (by omega)
        cases dir <;> simp only [val_bind, val_pure, forTick_val, addT_val, subT_val, mulT_val, omT_val, this, butterflyT_val, fmaddT_val, fmsubT_val, negT_val, mulIT_val,
          if_true, if_false, Bool.false_eq_true]

theorem pow3T_val (dir : Bool) (p q : K) (x : Arr K) (so : Nat) : ∀ (N xo si : Nat) (y : Arr K) (yo : Nat),
    (pow3T tw c dir p q N x xo si y yo so).val = pow3Helper tw dir p q N x xo si y yo so := by
  intro N
  induction N using Nat.strong_induction_on with
  | _ N ih =>
    intro xo si y yo
    rw [pow3T, pow3Helper]
    by_cases h : N = 3
    · rw [if_pos h, if_pos h]; rfl
    · rw [if_neg h, if_neg h]
      by_cases h2 : N < 3
      · rw [dif_pos h2, dif_pos h2]; rfl
      · rw [dif_neg h2, dif_neg h2]
        have := ih (N / 3) (by omega)
        simp only [val_bind, val_pure, forTick_val, addT_val, mulT_val, omT_val, this, fmaddT_val]

theorem fftT_val : ∀ (t : Tree) (n : Nat) (dir : Bool) (x : Arr K) (xo si : Nat) (y : Arr K) (yo so : Nat) (W : Nat → Arr K),
    (t.fftT tw c n dir x xo si y yo so W).val = t.fft tw n dir x xo si y yo so W := by
  intro t
  induction t with
  | leaf ty N =>
    intro n dir x xo si y yo so W
    cases ty with
    | pow2 => simp only [Tree.fftT, Tree.fft, val_bind, val_pure, pow2T_val]
    | pow3 => simp only [Tree.fftT, Tree.fft, val_bind, val_pure, val_ite, pow3T_val]
    | pow4 => simp only [Tree.fftT, Tree.fft, val_bind, val_pure, pow4T_val]
    | discrete => simp only [Tree.fftT, Tree.fft, val_bind, val_pure, dftT_val]
    | composite => rfl
    | rader => rfl
  | composite N l r hl hr =>
    intro n dir x xo si y yo so W
    simp only [Tree.fftT, Tree.fft, compositeT, compositeFFT, val_bind, val_pure, forTick_val, val_ite, mulT_val, omT_val, hl, hr]
  | rader p a b l hl =>
    intro n dir x xo si y yo so W
    simp only [Tree.fftT, Tree.fft, raderT, raderFFT, val_bind, val_pure, forTick_val, mulT_val, addT_val, divT_val, omT_val, hl]

/-! ## The costs -/

/-- The cost of the direct sum. -/
def dftPrice (c : Price) (N : Nat) : Nat := if N = 1 then 0 else c.trig + (N - 1) * c.arith + (N - 1) * ((N - 1) * (3 * c.arith) + c.arith)

def pow2Price (c : Price) (N : Nat) : Nat :=
  if N = 2 then 2 * c.arith
  else if _h : N < 2 then 0
  else 2 * pow2Price c (N / 2) + c.trig + 2 * c.arith + (N / 2 - 1) * (5 * c.arith)
termination_by N
decreasing_by omega

def pow4Price (c : Price) (N : Nat) : Nat :=
  if N = 4 then 14 * c.arith
  else if _h : N < 4 then 0
  else 4 * pow4Price c (N / 4) + c.trig + 16 * c.arith + (N / 4 - 1) * (31 * c.arith)
termination_by N
decreasing_by omega

def pow3Price (c : Price) (N : Nat) : Nat :=
  if N = 3 then 10 * c.arith
  else if _h : N < 3 then 0
  else 3 * pow3Price c (N / 3) + c.trig + 11 * c.arith + (N / 3 - 1) * (18 * c.arith)
termination_by N
decreasing_by omega

def Tree.price (c : Price) : Tree → Nat
  | .leaf .pow2 N => pow2Price c N
  | .leaf .pow3 N => pow3Price c N
  | .leaf .pow4 N => pow4Price c N
  | .leaf .discrete N => dftPrice c N
  | .leaf _ _ => 0
  | .composite _ l r => c.trig + l.sz * (r.price c + c.arith) + (l.sz - 1) * ((r.sz - 1) * (2 * c.arith)) + r.sz * l.price c
  | .rader p _ _ l => (p - 1) * c.arith + 2 * l.price c + (p - 1) * (c.trig + (p - 2) * (c.arith + c.trig) + c.arith) + (p - 1) * (2 * c.arith)

theorem dftT_cost (dir : Bool) (N : Nat) (x : Arr K) (xo si : Nat) (y : Arr K) (yo so : Nat) :
    (dftT tw c dir N x xo si y yo so).cost = dftPrice c N := by
  unfold dftT dftPrice
  by_cases h : N = 1
  · rw [if_pos h, if_pos h]; rfl
  · rw [if_neg h, if_neg h]
    simp only [cost_bind, cost_pure, omT_cost]
    rw [forTick_const (d := c.arith) fun k s => rfl, forTick_const (d := (N - 1) * (3 * c.arith) + c.arith)]
    · omega
    · intro k s
      simp only [cost_bind, cost_pure, mulT_cost]
      rw [forTick_const (d := 3 * c.arith)]
      · rfl
      · intro k s
        simp only [cost_bind, cost_pure, mulT_cost, fmaddT_cost]
        omega

theorem pow2T_cost (dir : Bool) (x : Arr K) (so : Nat) : ∀ (N xo si : Nat) (y : Arr K) (yo : Nat),
    (pow2T tw c dir N x xo si y yo so).cost = pow2Price c N := by
  intro N
  induction N using Nat.strong_induction_on with
  | _ N ih =>
    intro xo si y yo
    rw [pow2T, pow2Price]
    by_cases h : N = 2
    · rw [if_pos h, if_pos h]
      simp only [cost_bind, cost_pure, addT_cost, subT_cost]
      omega
    · rw [if_neg h, if_neg h]
      by_cases h2 : N < 2
      · rw [dif_pos h2, dif_pos h2]; rfl
      · rw [dif_neg h2, dif_neg h2]
        have := ih (N / 2) (by omega)
        simp only [cost_bind, cost_pure, addT_cost, subT_cost, omT_cost, this]
        rw [forTick_const (d := 5 * c.arith)]
        · omega
        · intro k s
          simp only [cost_bind, cost_pure, addT_cost, subT_cost, mulT_cost]
          omega

theorem butterflyT_cost (dir flat : Bool) (y : Arr K) (k0 k1 k2 k3 : Nat) (a0 a1 a2 a3 : K) :
    (butterflyT tw c dir flat y k0 k1 k2 k3 a0 a1 a2 a3).cost = 14 * c.arith := by
  cases dir <;> cases flat <;> simp [butterflyT] <;> omega

theorem pow4T_cost (dir : Bool) (x : Arr K) (so : Nat) : ∀ (N xo si : Nat) (y : Arr K) (yo : Nat),
    (pow4T tw c dir N x xo si y yo so).cost = pow4Price c N := by
  intro N
  induction N using Nat.strong_induction_on with
  | _ N ih =>
    intro xo si y yo
    rw [pow4T, pow4Price]
    by_cases h : N = 4
    · rw [if_pos h, if_pos h]
      exact butterflyT_cost ..
    · rw [if_neg h, if_neg h]
      by_cases h2 : N < 4
      · rw [dif_pos h2, dif_pos h2]; rfl
      · rw [dif_neg h2, dif_neg h2]
        have := ih (N / 4) (by omega)
        simp only [cost_bind, cost_pure, mulT_cost, omT_cost, this, butterflyT_cost]
        rw [forTick_const (d := 31 * c.arith)]
        · omega
        · intro k s
          cases dir <;> simp only [cost_bind, cost_pure, addT_cost, subT_cost, mulT_cost, fmaddT_cost, fmsubT_cost, negT_cost, mulIT_cost, if_true, if_false, Bool.false_eq_true] <;> omega

theorem pow3T_cost (dir : Bool) (p q : K) (x : Arr K) (so : Nat) : ∀ (N xo si : Nat) (y : Arr K) (yo : Nat),
    (pow3T tw c dir p q N x xo si y yo so).cost = pow3Price c N := by
  intro N
  induction N using Nat.strong_induction_on with
  | _ N ih =>
    intro xo si y yo
    rw [pow3T, pow3Price]
    by_cases h : N = 3
    · rw [if_pos h, if_pos h]
      simp only [cost_bind, cost_pure, addT_cost, mulT_cost]
      omega
    · rw [if_neg h, if_neg h]
      by_cases h2 : N < 3
      · rw [dif_pos h2, dif_pos h2]; rfl
      · rw [dif_neg h2, dif_neg h2]
        have := ih (N / 3) (by omega)
        simp only [cost_bind, cost_pure, mulT_cost, addT_cost, omT_cost, fmaddT_cost, this]
        rw [forTick_const (d := 18 * c.arith)]
        · omega
        · intro k s
          simp only [cost_bind, cost_pure, mulT_cost, fmaddT_cost]
          omega

/-- The cost of a transform does not depend on the data. -/
theorem fftT_cost : ∀ (t : Tree), t.Sized → ∀ (n : Nat) (dir : Bool) (x : Arr K) (xo si : Nat) (y : Arr K) (yo so : Nat) (W : Nat → Arr K),
    (t.fftT tw c n dir x xo si y yo so W).cost = t.price c := by
  intro t
  induction t with
  | leaf ty N =>
    intro hs n dir x xo si y yo so W
    cases ty with
    | pow2 => simp only [Tree.fftT, Tree.price, cost_bind, cost_pure, pow2T_cost]; rfl
    | pow3 => simp only [Tree.fftT, Tree.price, cost_bind, cost_pure, cost_ite, pow3T_cost, ite_self]; rfl
    | pow4 => simp only [Tree.fftT, Tree.price, cost_bind, cost_pure, pow4T_cost]; rfl
    | discrete => simp only [Tree.fftT, Tree.price, cost_bind, cost_pure, dftT_cost]; rfl
    | composite => rfl
    | rader => rfl
  | composite N l r hl hr =>
    intro hs n dir x xo si y yo so W
    obtain ⟨h1, h2, -, s1, s2⟩ := hs
    simp only [Tree.fftT, Tree.price, compositeT, cost_bind, omT_cost]
    rw [forTick_const (d := l.price c) fun k s => hl s1 .., forTick_cost (g := fun j => r.price c + c.arith + if j = 0 then 0 else (r.sz - 1) * (2 * c.arith))]
    · rw [Finset.sum_add_distrib, Finset.sum_const, Finset.card_range, smul_eq_mul]
      obtain ⟨u, hu⟩ : ∃ u, l.sz = u + 1 := ⟨l.sz - 1, by omega⟩
      rw [hu, Finset.sum_range_succ']
      simp only [Nat.add_eq_zero_iff, one_ne_zero, and_false, if_false, if_true, Finset.sum_const, Finset.card_range, smul_eq_mul, Nat.add_sub_cancel, Nat.add_zero]
      omega
    · intro k hk s
      simp only [cost_bind, cost_pure, mulT_cost, hr s2, cost_ite, Nat.zero_add]
      by_cases h0 : k = 0
      · rw [if_neg (by omega), if_pos h0]; omega
      · rw [if_pos (by omega), if_neg h0, forTick_const (d := 2 * c.arith)]
        · omega
        · intro k s
          simp only [cost_bind, cost_pure, mulT_cost]
          omega
  | rader p a b l hl =>
    intro hs n dir x xo si y yo so W
    simp only [Tree.fftT, Tree.price, raderT, cost_bind, cost_pure, hl hs.2]
    rw [forTick_const (d := c.arith), forTick_const (d := c.trig + (p - 2) * (c.arith + c.trig) + c.arith), forTick_const (d := 2 * c.arith)]
    · omega
    · intro k s
      simp only [cost_bind, cost_pure, addT_cost, divT_cost]
      omega
    · intro k s
      simp only [cost_bind, cost_pure, omT_cost, mulT_cost]
      rw [forTick_const (d := c.arith + c.trig), show p - 1 - 1 = p - 2 by omega]
      · omega
      · intro k s
        simp only [cost_bind, cost_pure, omT_cost, addT_cost]
        omega
    · intro k s
      simp only [cost_bind, cost_pure, addT_cost]
      omega

theorem stockT_eq {N : Nat} (hN : 0 < N) (dir : Bool) (v : List K) (hv : v.length = N) (out0 : Arr K) (W : Nat → Arr K) :
    ∃ t, stockFFTT tw c N dir v out0 W = .ok t ∧ stockFFT tw N dir v out0 W = .ok t.val ∧ t.cost = (initTree N).price c := by
  unfold stockFFTT stockFFT
  rw [stockPlan_eq hN]
  simp only [bind, Except.bind]
  rw [if_neg (by simpa using hv), if_neg (by simpa using hv), loadTree_root (initTree_proper N)]
  refine ⟨_, rfl, ?_, ?_⟩
  · rw [val_pure, fftT_val]
  · rw [cost_pure, fftT_cost tw c _ (initTree_sized N)]; rfl

end Verif.Stock
