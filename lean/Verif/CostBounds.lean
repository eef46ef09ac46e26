import Verif.CostLemmas
import Mathlib.Data.Nat.Factors
import Mathlib.Data.Nat.Log
import Mathlib.Data.Nat.Prime.Infinite

/-!
# Costs: bounds
-/

namespace Verif.Stock

/-- The prices that count the arithmetic and the evaluations of sine and cosine. -/
def Price.ops : Price := ⟨1, 0⟩
def Price.trigs : Price := ⟨0, 1⟩

theorem pow2Price_step (c : Price) (e : Nat) : pow2Price c (2 ^ (e + 2)) = 2 * pow2Price c (2 ^ (e + 1)) + c.trig + 2 * c.arith + (2 ^ (e + 1) - 1) * (5 * c.arith) := by
  have h : 2 ≤ 2 ^ (e + 1) := by rw [pow_succ]; have := Nat.one_le_two_pow (n := e); omega
  have hd : 2 ^ (e + 2) / 2 = 2 ^ (e + 1) := by rw [pow_succ 2 (e + 1)]; omega
  have h' : 2 ^ (e + 2) = 2 * 2 ^ (e + 1) := by rw [pow_succ 2 (e + 1)]; omega
  rw [pow2Price, if_neg (by omega), dif_neg (by omega), hd]

theorem pow4Price_step (c : Price) (e : Nat) : pow4Price c (4 ^ (e + 2)) = 4 * pow4Price c (4 ^ (e + 1)) + c.trig + 16 * c.arith + (4 ^ (e + 1) - 1) * (31 * c.arith) := by
  have h : 4 ≤ 4 ^ (e + 1) := by rw [pow_succ]; have := Nat.one_le_pow e 4 (by omega); omega
  have h' : 4 ^ (e + 2) = 4 * 4 ^ (e + 1) := by rw [pow_succ 4 (e + 1)]; omega
  have hd : 4 ^ (e + 2) / 4 = 4 ^ (e + 1) := by omega
  rw [pow4Price, if_neg (by omega), dif_neg (by omega), hd]

theorem pow3Price_step (c : Price) (e : Nat) : pow3Price c (3 ^ (e + 2)) = 3 * pow3Price c (3 ^ (e + 1)) + c.trig + 11 * c.arith + (3 ^ (e + 1) - 1) * (18 * c.arith) := by
  have h : 3 ≤ 3 ^ (e + 1) := by rw [pow_succ]; have := Nat.one_le_pow e 3 (by omega); omega
  have h' : 3 ^ (e + 2) = 3 * 3 ^ (e + 1) := by rw [pow_succ 3 (e + 1)]; omega
  have hd : 3 ^ (e + 2) / 3 = 3 ^ (e + 1) := by omega
  rw [pow3Price, if_neg (by omega), dif_neg (by omega), hd]

theorem pow2Price_base (c : Price) : pow2Price c (2 ^ 1) = 2 * c.arith := by rw [pow2Price, if_pos (by norm_num)]
theorem pow4Price_base (c : Price) : pow4Price c (4 ^ 1) = 14 * c.arith := by rw [pow4Price, if_pos (by norm_num)]
theorem pow3Price_base (c : Price) : pow3Price c (3 ^ 1) = 10 * c.arith := by rw [pow3Price, if_pos (by norm_num)]

/-! ## The arithmetic -/

theorem pow2_ops : ∀ e, pow2Price .ops (2 ^ (e + 1)) + 3 * 2 ^ (e + 1) ≤ 3 * 2 ^ (e + 1) * (2 * (e + 1))
  | 0 => by rw [pow2Price_base]; decide
  | e + 1 => by
    have ih := pow2_ops e
    rw [pow2Price_step]
    show 2 * pow2Price .ops (2 ^ (e + 1)) + 0 + 2 * 1 + (2 ^ (e + 1) - 1) * (5 * 1) + 3 * 2 ^ (e + 1 + 1) ≤ 3 * 2 ^ (e + 1 + 1) * (2 * (e + 1 + 1))
    rw [pow_succ 2 (e + 1)]
    have h1 : 1 ≤ 2 ^ (e + 1) := Nat.one_le_two_pow
    generalize 2 ^ (e + 1) = m at *
    obtain ⟨m, rfl⟩ : ∃ k, m = k + 1 := ⟨m - 1, by omega⟩
    rw [Nat.add_sub_cancel]
    nlinarith

theorem pow4_ops : ∀ e, pow4Price .ops (4 ^ (e + 1)) + 3 * 4 ^ (e + 1) ≤ 3 * 4 ^ (e + 1) * (4 * (e + 1))
  | 0 => by rw [pow4Price_base]; decide
  | e + 1 => by
    have ih := pow4_ops e
    rw [pow4Price_step]
    show 4 * pow4Price .ops (4 ^ (e + 1)) + 0 + 16 * 1 + (4 ^ (e + 1) - 1) * (31 * 1) + 3 * 4 ^ (e + 1 + 1) ≤ 3 * 4 ^ (e + 1 + 1) * (4 * (e + 1 + 1))
    rw [pow_succ 4 (e + 1)]
    have h1 : 1 ≤ 4 ^ (e + 1) := Nat.one_le_pow _ _ (by omega)
    generalize 4 ^ (e + 1) = m at *
    obtain ⟨m, rfl⟩ : ∃ k, m = k + 1 := ⟨m - 1, by omega⟩
    rw [Nat.add_sub_cancel]
    nlinarith

theorem pow3_ops : ∀ e, pow3Price .ops (3 ^ (e + 1)) + 3 * 3 ^ (e + 1) ≤ 3 * 3 ^ (e + 1) * (3 * (e + 1))
  | 0 => by rw [pow3Price_base]; decide
  | e + 1 => by
    have ih := pow3_ops e
    rw [pow3Price_step]
    show 3 * pow3Price .ops (3 ^ (e + 1)) + 0 + 11 * 1 + (3 ^ (e + 1) - 1) * (18 * 1) + 3 * 3 ^ (e + 1 + 1) ≤ 3 * 3 ^ (e + 1 + 1) * (3 * (e + 1 + 1))
    rw [pow_succ 3 (e + 1)]
    have h1 : 1 ≤ 3 ^ (e + 1) := Nat.one_le_pow _ _ (by omega)
    generalize 3 ^ (e + 1) = m at *
    obtain ⟨m, rfl⟩ : ∃ k, m = k + 1 := ⟨m - 1, by omega⟩
    rw [Nat.add_sub_cancel]
    nlinarith

/-! ## The evaluations of sine and cosine -/

theorem pow2_trigs : ∀ e, pow2Price .trigs (2 ^ (e + 1)) + 1 ≤ 2 ^ (e + 1)
  | 0 => by rw [pow2Price_base]; decide
  | e + 1 => by
    have ih := pow2_trigs e
    rw [pow2Price_step]
    show 2 * pow2Price .trigs (2 ^ (e + 1)) + 1 + 2 * 0 + (2 ^ (e + 1) - 1) * (5 * 0) + 1 ≤ 2 ^ (e + 1 + 1)
    rw [pow_succ 2 (e + 1)]
    omega

theorem pow4_trigs : ∀ e, pow4Price .trigs (4 ^ (e + 1)) + 1 ≤ 4 ^ (e + 1)
  | 0 => by rw [pow4Price_base]; decide
  | e + 1 => by
    have ih := pow4_trigs e
    rw [pow4Price_step]
    show 4 * pow4Price .trigs (4 ^ (e + 1)) + 1 + 16 * 0 + (4 ^ (e + 1) - 1) * (31 * 0) + 1 ≤ 4 ^ (e + 1 + 1)
    rw [pow_succ 4 (e + 1)]
    omega

theorem pow3_trigs : ∀ e, pow3Price .trigs (3 ^ (e + 1)) + 1 ≤ 3 ^ (e + 1)
  | 0 => by rw [pow3Price_base]; decide
  | e + 1 => by
    have ih := pow3_trigs e
    rw [pow3Price_step]
    show 3 * pow3Price .trigs (3 ^ (e + 1)) + 1 + 11 * 0 + (3 ^ (e + 1) - 1) * (18 * 0) + 1 ≤ 3 ^ (e + 1 + 1)
    rw [pow_succ 3 (e + 1)]
    omega

/-! ## Any length without Rader's algorithm -/

theorem factors_mul {a b : Nat} (ha : a ≠ 0) (hb : b ≠ 0) : (a * b).primeFactorsList.sum = a.primeFactorsList.sum + b.primeFactorsList.sum ∧
    (a * b).primeFactorsList.length = a.primeFactorsList.length + b.primeFactorsList.length := by
  have h := Nat.perm_primeFactorsList_mul ha hb
  exact ⟨by rw [h.sum_eq, List.sum_append], by rw [h.length_eq, List.length_append]⟩

theorem factors_pow {p : Nat} (hp : p.Prime) (k : Nat) : (p ^ k).primeFactorsList.sum = p * k ∧ (p ^ k).primeFactorsList.length = k := by
  rw [hp.primeFactorsList_pow]
  simp [Nat.mul_comm]

theorem factors_four (k : Nat) : (4 ^ k).primeFactorsList.sum = 4 * k ∧ (4 ^ k).primeFactorsList.length = 2 * k := by
  have h := factors_pow Nat.prime_two (2 * k)
  rw [show (4 : Nat) = 2 ^ 2 from rfl, ← pow_mul]
  exact ⟨by rw [h.1]; ring, h.2⟩

theorem composite_ops {a b x y S T : Nat} (ha : 1 ≤ a) (hb : 1 ≤ b) (hx : x + 3 * a ≤ 3 * a * S) (hy : y + 3 * b ≤ 3 * b * T) :
    0 + a * (y + 1) + (a - 1) * ((b - 1) * (2 * 1)) + b * x + 3 * (a * b) ≤ 3 * (a * b) * (S + T) := by
  obtain ⟨a, rfl⟩ : ∃ k, a = k + 1 := ⟨a - 1, by omega⟩
  obtain ⟨b, rfl⟩ : ∃ k, b = k + 1 := ⟨b - 1, by omega⟩
  rw [Nat.add_sub_cancel, Nat.add_sub_cancel]
  have h1 := Nat.mul_le_mul_left (b + 1) hx
  have h2 := Nat.mul_le_mul_left (a + 1) hy
  nlinarith

theorem composite_trigs {a b x y S T : Nat} (ha : 1 ≤ a) (hb : 1 ≤ b) (hx : x + a ≤ 2 * a * S) (hy : y + b ≤ 2 * b * T) :
    1 + a * (y + 0) + (a - 1) * ((b - 1) * (2 * 0)) + b * x + a * b ≤ 2 * (a * b) * (S + T) := by
  have h1 := Nat.mul_le_mul_left b hx
  have h2 := Nat.mul_le_mul_left a hy
  have h3 : 1 ≤ a * b := Nat.mul_pos ha hb
  nlinarith

/-- The cost of a call graph without a node of Rader's algorithm. -/
theorem price_le : ∀ N, 2 ≤ N → (∀ p, p.Prime → p ∣ N → p ≤ 100000) → (∀ q, q.Prime → 1213 < q → ¬ q * q ∣ N) →
    (initTree N).price .ops + 3 * N ≤ 3 * N * N.primeFactorsList.sum ∧ (initTree N).price .trigs + N ≤ 2 * N * N.primeFactorsList.length := by
  intro N
  induction N using Nat.strong_induction_on with
  | _ N ih =>
    intro hN hp hq
    unfold initTree
    split
    · rename_i k h
      obtain ⟨h1, h2, h3⟩ := helper_composite h
      obtain ⟨b, rfl⟩ := h3
      have hb : 2 ≤ b := by
        rcases Nat.lt_or_ge b 2 with hb | hb
        · have : b = 0 ∨ b = 1 := by omega
          rcases this with rfl | rfl <;> omega
        · exact hb
      have hlo : getLeftover (k * b) k = b := by
        unfold getLeftover
        rw [if_neg, Nat.mul_div_cancel_left _ (by omega)]
        have := Nat.mul_le_mul_left k hb
        omega
      rw [hlo]
      have hbk : b < k * b := by have := Nat.mul_le_mul_right b h1; omega
      obtain ⟨i1, i2⟩ := ih k h2 (by omega) (fun p pp hd => hp p pp (hd.mul_right _)) fun q qp ql hd => hq q qp ql (hd.mul_right _)
      obtain ⟨j1, j2⟩ := ih b hbk hb (fun p pp hd => hp p pp (hd.mul_left _)) fun q qp ql hd => hq q qp ql (hd.mul_left _)
      obtain ⟨f1, f2⟩ := factors_mul (a := k) (b := b) (by omega) (by omega)
      rw [f1, f2]
      simp only [Tree.price, tree_sz]
      exact ⟨composite_ops (by omega) (by omega) i1 j1, composite_trigs (by omega) (by omega) i2 j2⟩
    · rename_i k h
      obtain ⟨h1, -, h3⟩ := helper_rader h
      rcases (factor_self_iff hN).1 h3 with h | h | ⟨q, q1, q2, q3⟩
      · have := hp N h dvd_rfl; omega
      · omega
      · exact absurd (by rw [q3]) (hq q q1 q2)
    · rename_i t k hc hr h
      unfold fptrFactorHelper at h
      dsimp only at h
      split_ifs at h with h0 h4 h2 h3 g4 g2 g3 hk hr' <;> simp only [Prod.mk.injEq] at h <;> obtain ⟨rfl, rfl⟩ := h
      · omega
      · obtain ⟨e, rfl⟩ := (powerOf_iff (by omega) (by omega)).1 h4
        obtain ⟨f1, f2⟩ := factors_four (e + 1)
        rw [f1, f2]
        refine ⟨pow4_ops e, ?_⟩
        have := pow4_trigs e
        show pow4Price .trigs _ + _ ≤ _
        nlinarith
      · obtain ⟨e, rfl⟩ := (powerOf_iff (by omega) (by omega)).1 h2
        obtain ⟨f1, f2⟩ := factors_pow Nat.prime_two (e + 1)
        rw [f1, f2]
        refine ⟨pow2_ops e, ?_⟩
        have := pow2_trigs e
        show pow2Price .trigs _ + _ ≤ _
        nlinarith
      · obtain ⟨e, rfl⟩ := (powerOf_iff (by omega) (by omega)).1 h3
        obtain ⟨f1, f2⟩ := factors_pow Nat.prime_three (e + 1)
        rw [f1, f2]
        refine ⟨pow3_ops e, ?_⟩
        have := pow3_trigs e
        show pow3Price .trigs _ + _ ≤ _
        nlinarith
      · exact (hc rfl).elim
      · exact (hc rfl).elim
      · exact (hc rfl).elim
      · exact (hr rfl).elim
      · have hpr : N.Prime := by
          rcases (factor_self_iff hN).1 hk with h | h | ⟨q, q1, q2, q3⟩
          · exact h
          · omega
          · exact absurd (by rw [q3]) (hq q q1 q2)
        rw [Nat.primeFactorsList_prime hpr]
        simp only [Tree.price, dftPrice, if_neg (show N ≠ 1 by omega), Price.ops, Price.trigs, List.sum_cons, List.sum_nil, List.length_cons, List.length_nil]
        obtain ⟨m, rfl⟩ : ∃ m, N = m + 1 := ⟨N - 1, by omega⟩
        rw [Nat.add_sub_cancel]
        constructor <;> nlinarith
      · exact (hc rfl).elim

theorem factors_log {N P : Nat} (hN : 1 ≤ N) (hP : ∀ p, p.Prime → p ∣ N → p ≤ P) :
    N.primeFactorsList.sum ≤ P * Nat.log 2 N ∧ N.primeFactorsList.length ≤ Nat.log 2 N := by
  have hlen : N.primeFactorsList.length ≤ Nat.log 2 N := by
    refine Nat.le_log_of_pow_le (by omega) ?_
    have : ∀ l : List Nat, (∀ p ∈ l, 2 ≤ p) → 2 ^ l.length ≤ l.prod := by
      intro l
      induction l with
      | nil => intro _; simp
      | cons a l ih =>
        intro h
        rw [List.length_cons, List.prod_cons, pow_succ, Nat.mul_comm]
        exact Nat.mul_le_mul (h a List.mem_cons_self) (ih fun p hp => h p (List.mem_cons_of_mem _ hp))
    have := this N.primeFactorsList fun p hp => (Nat.prime_of_mem_primeFactorsList hp).two_le
    rwa [Nat.prod_primeFactorsList (by omega)] at this
  refine ⟨?_, hlen⟩
  have : N.primeFactorsList.sum ≤ N.primeFactorsList.length * P := by
    have := List.sum_le_card_nsmul N.primeFactorsList P fun p hp => hP p (Nat.prime_of_mem_primeFactorsList hp) (Nat.dvd_of_mem_primeFactorsList hp)
    simpa using this
  calc _ ≤ _ := this
    _ ≤ Nat.log 2 N * P := Nat.mul_le_mul_right _ hlen
    _ = _ := Nat.mul_comm ..

/-! ## Primes -/

/-- A large prime: Rader's algorithm computes the spectrum of its constants term by term. -/
theorem price_prime_large {p : Nat} (hp : p.Prime) (h : 100000 < p) : (p - 1) * (p - 1) ≤ (initTree p).price .trigs := by
  have hf := (factor_self_iff hp.two_le).2 (Or.inl hp)
  unfold initTree
  split
  · rename_i k h
    obtain ⟨h1, h2, h3⟩ := helper_composite h
    rcases (Nat.dvd_prime hp).1 h3 with h | h <;> omega
  · simp only [Tree.price, Price.trigs]
    obtain ⟨m, rfl⟩ : ∃ m, p = m + 2 := ⟨p - 2, by omega⟩
    simp only [show m + 2 - 1 = m + 1 by omega, Nat.add_sub_cancel]
    nlinarith [Nat.zero_le ((initTree (m + 1)).price ⟨0, 1⟩)]
  · rename_i t k hc hr h'
    have np : ∀ b, 1 < b → b < p → ∀ e, p ≠ b ^ (e + 1) := by
      intro b hb hlt e he
      have : b ∣ p := by rw [he]; exact Dvd.intro_left _ (pow_succ b e).symm
      rcases (Nat.dvd_prime hp).1 this with h | h <;> omega
    unfold fptrFactorHelper at h'
    dsimp only at h'
    split_ifs at h' with h0 h4 h2 h3 g4 g2 g3 hk <;> simp only [Prod.mk.injEq] at h' <;> obtain ⟨rfl, rfl⟩ := h'
    · omega
    · obtain ⟨e, he⟩ := (powerOf_iff (by omega) (by omega)).1 h4
      exact absurd he (np 4 (by omega) (by omega) e)
    · obtain ⟨e, he⟩ := (powerOf_iff (by omega) (by omega)).1 h2
      exact absurd he (np 2 (by omega) (by omega) e)
    · obtain ⟨e, he⟩ := (powerOf_iff (by omega) (by omega)).1 h3
      exact absurd he (np 3 (by omega) (by omega) e)
    all_goals first | exact (hc rfl).elim | exact (hr rfl).elim | skip

/-- A prime from 5 to 100000: the direct sum. -/
theorem price_prime_small {p : Nat} (hp : p.Prime) (h5 : 5 ≤ p) (h : p ≤ 100000) (c : Price) :
    (initTree p).price c = c.trig + (p - 1) * (3 * p - 1) * c.arith := by
  have hf := (factor_self_iff hp.two_le).2 (Or.inl hp)
  unfold initTree
  split
  · rename_i k h
    obtain ⟨h1, h2, h3⟩ := helper_composite h
    rcases (Nat.dvd_prime hp).1 h3 with h | h <;> omega
  · rename_i k h'
    have := (helper_rader h').1
    omega
  · rename_i t k hc hr h'
    have np : ∀ b, 1 < b → b < p → ∀ e, p ≠ b ^ (e + 1) := by
      intro b hb hlt e he
      have : b ∣ p := by rw [he]; exact Dvd.intro_left _ (pow_succ b e).symm
      rcases (Nat.dvd_prime hp).1 this with h | h <;> omega
    unfold fptrFactorHelper at h'
    dsimp only at h'
    split_ifs at h' with h0 h4 h2 h3 g4 g2 g3 hk <;> simp only [Prod.mk.injEq] at h' <;> obtain ⟨rfl, rfl⟩ := h'
    · omega
    · obtain ⟨e, he⟩ := (powerOf_iff (by omega) (by omega)).1 h4
      exact absurd he (np 4 (by omega) (by omega) e)
    · obtain ⟨e, he⟩ := (powerOf_iff (by omega) (by omega)).1 h2
      exact absurd he (np 2 (by omega) (by omega) e)
    · obtain ⟨e, he⟩ := (powerOf_iff (by omega) (by omega)).1 h3
      exact absurd he (np 3 (by omega) (by omega) e)
    all_goals first | exact (hc rfl).elim | exact (hr rfl).elim | skip
    simp only [Tree.price, dftPrice]
    rw [if_neg (by omega)]
    obtain ⟨m, rfl⟩ : ∃ m, p = m + 1 := ⟨p - 1, by omega⟩
    simp only [Nat.add_sub_cancel, show 3 * (m + 1) - 1 = 3 * m + 2 by omega]
    ring

theorem sq_lt_two_pow : ∀ L, 5 ≤ L → L * L < 2 ^ L := by
  intro L h
  induction L, h using Nat.le_induction with
  | base => decide
  | succ L h ih =>
    rw [pow_succ]
    nlinarith

end Verif.Stock
