import Verif.StockTree
import Mathlib.FieldTheory.Finite.Basic
import Mathlib.RingTheory.ZMod.UnitsCyclic
import Mathlib.GroupTheory.OrderOfElement
import Mathlib.Data.Nat.Prime.Basic

namespace Verif.Stock

/-! ## factor -/

theorem table_covers_bool : ((List.range 1214).all fun m => Nat.ble m 1 || factorTable.any fun k => Nat.beq (m % k) 0) = true := by
  decide +kernel

theorem table_covers : ∀ m, m < 1214 → 2 ≤ m → ∃ k ∈ factorTable, m % k = 0 := by
  intro m hm h2
  have h := List.all_eq_true.1 table_covers_bool m (List.mem_range.2 hm)
  rw [Bool.or_eq_true] at h
  rcases h with h | h
  · have := Nat.le_of_ble_eq_true h
    omega
  · obtain ⟨k, hk, hz⟩ := List.any_eq_true.1 h
    exact ⟨k, hk, Nat.eq_of_beq_eq_true hz⟩

theorem table_prime_bool : (factorTable.all fun k => Nat.beq k 4 || Nat.beq k 16 || (Nat.ble k 1213 &&
    (List.range 35).all fun m => Nat.ble m 1 || Nat.ble k m || Nat.ble 1 (k % m))) = true := by
  decide +kernel

theorem table_prime : ∀ k ∈ factorTable, k ≠ 4 → k ≠ 16 → ∀ m, m < k → 2 ≤ m → k % m ≠ 0 := by
  intro k hk h4 h16
  have h := List.all_eq_true.1 table_prime_bool k hk
  simp only [Bool.or_eq_true, Bool.and_eq_true, List.all_eq_true, List.mem_range] at h
  rcases h with (h | h) | ⟨hle, h⟩
  · exact absurd (Nat.eq_of_beq_eq_true h) h4
  · exact absurd (Nat.eq_of_beq_eq_true h) h16
  have hle := Nat.le_of_ble_eq_true hle
  have small : ∀ m, m < 35 → 2 ≤ m → m < k → k % m ≠ 0 := by
    intro m hm h2 hmk
    rcases h m hm with (h | h) | h
    · have := Nat.le_of_ble_eq_true h; omega
    · have := Nat.le_of_ble_eq_true h; omega
    · have := Nat.le_of_ble_eq_true h; omega
  intro m hmk h2 hz
  by_cases hm : m < 35
  · exact small m hm h2 hmk hz
  · have hmul : m * (k / m) = k := Nat.mul_div_cancel' (Nat.dvd_of_mod_eq_zero hz)
    have hq : k / m < 35 := by
      by_contra hge
      have : 35 * 35 ≤ m * (k / m) := Nat.mul_le_mul (by omega) (by omega)
      omega
    have hq2 : 2 ≤ k / m := by
      by_contra hlt
      generalize k / m = z at hmul hlt
      have : z = 0 ∨ z = 1 := by omega
      rcases this with h | h <;> rw [h] at hmul <;> omega
    have hqk : k / m < k := Nat.div_lt_self (by omega) (by omega)
    exact small _ hq hq2 hqk (Nat.mod_eq_zero_of_dvd ⟨m, by rw [mul_comm]; exact hmul.symm⟩)

theorem table_le : ∀ k ∈ factorTable, k ≤ 1213 := by
  decide +kernel

theorem table_sixteen : (factorTable.find? fun k => decide (16 % k = 0)) = some 4 := by
  decide +kernel

attribute [local irreducible] factorTable

theorem factorOdd_eq {f : Nat} : ∀ k, k % 2 = 1 → factorOdd f k = f →
    ∀ q, k ≤ q → q % 2 = 1 → q ∣ f → f ≤ q * q := by
  intro k
  induction hm : f - k using Nat.strong_induction_on generalizing k with
  | _ m ih =>
    intro hodd h q hq hqo hd
    unfold factorOdd at h
    have hle : k ≤ k * k := Nat.le_mul_self k
    split at h
    · rename_i hk
      split at h
      · omega
      · rename_i hnd
        rcases Nat.lt_or_ge k q with hlt | hge
        · exact ih (f - (k + 2)) (by omega) (k + 2) rfl (by omega) h q (by omega) hqo hd
        · have : q = k := by omega
          subst this
          exact absurd (Nat.mod_eq_zero_of_dvd hd) hnd
    · have := Nat.mul_le_mul hq hq
      omega

/-- When the search reports the number itself: primes, 4, and the squares of primes beyond the table. -/
theorem factor_self_iff {N : Nat} (hN : 2 ≤ N) :
    factor N = N ↔ N.Prime ∨ N = 4 ∨ ∃ q, q.Prime ∧ 1213 < q ∧ N = q * q := by
  constructor
  · intro h
    by_cases hp : N.Prime
    · exact Or.inl hp
    right
    unfold factor at h
    rw [if_neg (by omega)] at h
    split at h
    · rename_i k hk
      subst h
      have hm := List.mem_of_find?_eq_some hk
      left
      by_contra h4
      by_cases h16 : k = 16
      · subst h16
        rw [table_sixteen] at hk
        simp at hk
      · refine hp (Nat.prime_def_lt.2 ⟨hN, fun m hlt hd => ?_⟩)
        by_contra h1
        have h0 : 0 < m := Nat.pos_of_dvd_of_pos hd (by omega)
        exact table_prime k hm h4 h16 m hlt (by omega) (Nat.mod_eq_zero_of_dvd hd)
    · rename_i hnone
      right
      have hno : ∀ k ∈ factorTable, N % k ≠ 0 := by
        intro k hk
        have := List.find?_eq_none.1 hnone k hk
        simpa using this
      have hbig : ∀ m, 2 ≤ m → m ∣ N → 1213 < m := by
        intro m hm hd
        by_contra hle
        obtain ⟨k, hk, hmk⟩ := table_covers m (by omega) hm
        exact hno k hk (Nat.mod_eq_zero_of_dvd ((Nat.dvd_of_mod_eq_zero hmk).trans hd))
      have hq : N.minFac.Prime := Nat.minFac_prime (by omega)
      have hqd : N.minFac ∣ N := Nat.minFac_dvd N
      have hq1 := hbig _ hq.two_le hqd
      have hqo : N.minFac % 2 = 1 := by
        rcases hq.eq_two_or_odd with h2 | h2
        · omega
        · exact h2
      have h1 := factorOdd_eq 1213 (by omega) h N.minFac (by omega) hqo hqd
      have h2 := Nat.minFac_sq_le_self (by omega) hp
      exact ⟨N.minFac, hq, hq1, by rw [sq] at h2; omega⟩
  · rintro (hp | rfl | ⟨q, hq, hq1, rfl⟩)
    · rcases (Nat.dvd_prime hp).1 (factor_dvd (f := N)) with h | h
      · have := factor_gt_one (f := N) (by omega)
        omega
      · exact h
    · decide +kernel
    · have hdiv : ∀ m, m ∣ q * q → m = 1 ∨ m = q ∨ m = q * q := by
        intro m hm
        rw [← sq] at hm
        obtain ⟨i, hi, rfl⟩ := (Nat.dvd_prime_pow hq).1 hm
        interval_cases i
        · exact Or.inl (pow_zero _)
        · exact Or.inr (Or.inl (pow_one _))
        · exact Or.inr (Or.inr (sq q))
      have hgt := factor_gt_one (f := q * q) (by omega)
      have hqq : 1213 * 1213 ≤ q * q := Nat.mul_le_mul hq1.le hq1.le
      rcases hdiv _ (factor_dvd (f := q * q)) with h | h | h
      · omega
      · exfalso
        unfold factor at h
        rw [if_neg (by omega)] at h
        split at h
        · rename_i k hk
          subst h
          have := table_le _ (List.mem_of_find?_eq_some hk)
          omega
        · have : ∀ k, k ≤ q → factorOdd (q * q) k = q → False := by
            intro k
            induction hm : q * q - k using Nat.strong_induction_on generalizing k with
            | _ m ih =>
              intro hk he
              unfold factorOdd at he
              have hle : k ≤ k * k := Nat.le_mul_self k
              split at he
              · rename_i hlt
                have hkq : k < q := by
                  by_contra hge
                  have := Nat.mul_le_mul (by omega : q ≤ k) (by omega : q ≤ k)
                  omega
                split at he
                · omega
                · rcases Nat.lt_or_ge q (k + 2) with h3 | h3
                  · have : k + 2 = q + 1 := by omega
                    unfold factorOdd at he
                    rw [if_neg] at he
                    · have : q < q * q := by nlinarith
                      omega
                    · rw [this]; nlinarith
                  · exact ih (q * q - (k + 2)) (by omega) (k + 2) rfl h3 he
              · have : q < q * q := by nlinarith
                omega
          exact this 1213 (by omega) h
      · exact h

/-! ## modPow and primeRoot -/

theorem modPowLoop_spec {mod : Nat} : ∀ pow ret base, ret < mod →
    modPowLoop mod ret base pow = ret * base ^ pow % mod := by
  intro pow
  induction pow using Nat.strong_induction_on with
  | _ pow ih =>
    intro ret base hret
    unfold modPowLoop
    split
    · rename_i hp
      have hm : 0 < mod := by omega
      have hlt : (if pow % 2 ≠ 0 then ret * base % mod else ret) < mod := by
        split
        · exact Nat.mod_lt _ hm
        · exact hret
      rw [ih _ (Nat.div_lt_self hp (by omega)) _ _ hlt]
      have hpow : (base * base % mod) ^ (pow / 2) ≡ base ^ (2 * (pow / 2)) [MOD mod] := by
        rw [pow_mul, sq]
        exact (Nat.mod_modEq _ _).pow _
      split
      · rename_i h1
        have : pow = 2 * (pow / 2) + 1 := by omega
        conv_rhs => rw [this, pow_succ']
        rw [← mul_assoc]
        exact (Nat.mod_modEq _ _).mul hpow
      · rename_i h1
        have : pow = 2 * (pow / 2) := by omega
        conv_rhs => rw [this]
        exact (Nat.ModEq.refl ret).mul hpow
    · rename_i hp
      have : pow = 0 := by omega
      subst this
      rw [pow_zero, mul_one, Nat.mod_eq_of_lt hret]

theorem modPow_eq {base pow mod : Nat} (h : 1 < mod) : modPow base pow mod = base ^ pow % mod := by
  unfold modPow
  rw [modPowLoop_spec pow 1 base h, one_mul]

theorem raderOdd_sub (whole : Nat) : ∀ f k, 0 < f → f ∣ whole → 3 ≤ k → ∀ i ∈ raderOdd whole f k, ∃ d, 2 ≤ d ∧ d ∣ whole ∧ i = whole / d := by
  intro f k
  induction hm : f + 1 - k using Nat.strong_induction_on generalizing f k with
  | _ m ih =>
    intro hf hfw hk i hi
    unfold raderOdd at hi
    split at hi
    · split at hi
      · rename_i hkf hmod
        rcases List.mem_cons.1 hi with h | h
        · exact ⟨k, by omega, (Nat.dvd_of_mod_eq_zero hmod).trans hfw, h⟩
        · have hle := strip_le k f
          obtain ⟨e, he, -⟩ := strip_spec (k := k) (by omega) f hf
          exact ih _ (by omega) _ _ rfl (strip_pos k f hf) (Dvd.dvd.trans ⟨k ^ e, by rw [mul_comm]; exact he⟩ hfw) (by omega) i h
      · exact ih _ (by omega) _ _ rfl hf hfw (by omega) i hi
    · simp at hi

theorem raderOdd_mem (whole : Nat) : ∀ f k, 0 < f → 3 ≤ k → k % 2 = 1 →
    ∀ q, q.Prime → q % 2 = 1 → k ≤ q → q ∣ f → whole / q ∈ raderOdd whole f k := by
  intro f k
  induction hm : f + 1 - k using Nat.strong_induction_on generalizing f k with
  | _ m ih =>
    intro hf hk hodd q hq hqo hkq hd
    have hqf := Nat.le_of_dvd hf hd
    unfold raderOdd
    rw [if_pos (by omega)]
    split
    · rename_i hmod
      have hle := strip_le k f
      obtain ⟨e, he, hnd⟩ := strip_spec (k := k) (by omega) f hf
      by_cases hqk : q = k
      · subst hqk
        exact List.mem_cons_self
      · refine List.mem_cons_of_mem _ (ih _ (by omega) _ _ rfl (strip_pos k f hf) (by omega) (by omega) q hq hqo (by omega) ?_)
        rw [he] at hd
        rcases (Nat.Prime.dvd_mul hq).1 hd with h | h
        · have := Nat.le_of_dvd (by omega) (hq.dvd_of_dvd_pow h)
          omega
        · exact h
    · rename_i hmod
      refine ih _ (by omega) _ _ rfl hf (by omega) (by omega) q hq hqo ?_ hd
      have : q ≠ k := by
        rintro rfl
        exact hmod (Nat.mod_eq_zero_of_dvd hd)
      omega

/-- The list holds the quotients by every prime divisor, and only quotients by divisors above 1. -/
theorem findFactorRader_spec {n : Nat} (hn : 0 < n) :
    (∀ q, q.Prime → q ∣ n → n / q ∈ findFactorRader n) ∧
    ∀ i ∈ findFactorRader n, ∃ d, 2 ≤ d ∧ d ∣ n ∧ i = n / d := by
  unfold findFactorRader
  obtain ⟨e, he, hnd⟩ := strip_spec (k := 2) (by omega) n hn
  constructor
  · intro q hq hd
    split
    · rcases hq.eq_two_or_odd with h2 | h2
      · subst h2; exact List.mem_cons_self
      · refine List.mem_cons_of_mem _ (raderOdd_mem n _ 3 (strip_pos 2 n hn) le_rfl rfl q hq h2 ?_ ?_)
        · have := hq.two_le; omega
        · rw [he] at hd
          rcases (Nat.Prime.dvd_mul hq).1 hd with h | h
          · have := Nat.le_of_dvd (by omega) (hq.dvd_of_dvd_pow h)
            have := hq.two_le
            omega
          · exact h
    · rename_i hmod
      have h2 : q % 2 = 1 := by
        rcases hq.eq_two_or_odd with h2 | h2
        · subst h2; exact absurd (Nat.mod_eq_zero_of_dvd hd) hmod
        · exact h2
      exact raderOdd_mem n n 3 hn le_rfl rfl q hq h2 (by have := hq.two_le; omega) hd
  · intro i hi
    split at hi
    · rename_i hmod
      rcases List.mem_cons.1 hi with h | h
      · exact ⟨2, le_rfl, Nat.dvd_of_mod_eq_zero hmod, h⟩
      · exact raderOdd_sub n _ 3 (strip_pos 2 n hn) ⟨2 ^ e, by rw [mul_comm]; exact he⟩ le_rfl i h
    · exact raderOdd_sub n _ 3 hn dvd_rfl le_rfl i hi

/-- The search returns the first accepted candidate, if there is one before `p`. -/
theorem primeRootFrom_spec (p : Nat) (powers : List Nat) (hne : powers ≠ []) :
    ∀ curr g, curr ≤ g → g < p → (∀ i ∈ powers, modPow g i p ≠ 1) →
      curr ≤ primeRootFrom p powers curr ∧ primeRootFrom p powers curr ≤ g ∧
      ∀ i ∈ powers, modPow (primeRootFrom p powers curr) i p ≠ 1 := by
  intro curr g
  induction hm : p - curr using Nat.strong_induction_on generalizing curr with
  | _ m ih =>
    intro hle hgp hg
    unfold primeRootFrom
    split
    · rename_i h
      exact ⟨le_rfl, hle, h.2⟩
    · rename_i h
      rw [if_pos (by omega)]
      have hlt : curr ≠ g := by
        rintro rfl
        exact h ⟨hne, hg⟩
      have := ih (p - (curr + 1)) (by omega) (curr + 1) rfl (by omega) hgp hg
      exact ⟨by omega, this.2⟩

theorem zmod_pow_one {p a i : Nat} (hp : 1 < p) : ((a : ZMod p) ^ i = 1) ↔ modPow a i p = 1 := by
  rw [modPow_eq hp]
  have h1 : (1 : Nat) % p = 1 := Nat.mod_eq_of_lt hp
  have := (ZMod.natCast_eq_natCast_iff' (a ^ i) 1 p)
  rw [h1] at this
  push_cast at this
  exact this

/-- The result of the search is a primitive root. -/
theorem primeRoot_spec {p : Nat} (hp : p.Prime) (h2 : 2 < p) :
    1 < primeRoot p ∧ primeRoot p < p ∧ orderOf (primeRoot p : ZMod p) = p - 1 := by
  have : Fact p.Prime := ⟨hp⟩
  have hphi : 0 < p - 1 := by omega
  obtain ⟨hmem, hsub⟩ := findFactorRader_spec hphi
  have hne : findFactorRader (p - 1) ≠ [] := by
    have := hmem _ (Nat.minFac_prime (by omega : p - 1 ≠ 1)) (Nat.minFac_dvd _)
    exact List.ne_nil_of_mem this
  -- a generator exists
  obtain ⟨u, hu⟩ := IsCyclic.exists_generator (α := (ZMod p)ˣ)
  have hord : orderOf u = p - 1 := by
    rw [orderOf_eq_card_of_forall_mem_zpowers hu, Nat.card_eq_fintype_card, ZMod.card_units]
  set g := (u : ZMod p).val with hgdef
  have hgcast : (g : ZMod p) = u := ZMod.natCast_zmod_val _
  have hgp : g < p := ZMod.val_lt _
  have hgord : orderOf (g : ZMod p) = p - 1 := by rw [hgcast, orderOf_units, hord]
  have hg2 : 2 ≤ g := by
    by_contra hlt
    have : g = 0 ∨ g = 1 := by omega
    rcases this with h | h
    · rw [h] at hgcast
      exact u.ne_zero (by rw [← hgcast]; simp)
    · rw [h] at hgord
      simp at hgord
      omega
  have hgok : ∀ i ∈ findFactorRader (p - 1), modPow g i p ≠ 1 := by
    intro i hi h1
    obtain ⟨d, hd2, hdd, rfl⟩ := hsub i hi
    rw [← zmod_pow_one (by omega)] at h1
    have hdvd := orderOf_dvd_of_pow_eq_one h1
    rw [hgord] at hdvd
    have hpos : 0 < (p - 1) / d := Nat.div_pos (Nat.le_of_dvd hphi hdd) (by omega)
    have := Nat.le_of_dvd hpos hdvd
    have := Nat.div_lt_self hphi (by omega : 1 < d)
    omega
  obtain ⟨h1, h3, h4⟩ := primeRootFrom_spec p _ hne 2 g hg2 hgp hgok
  change 2 ≤ primeRoot p at h1
  change primeRoot p ≤ g at h3
  refine ⟨by omega, by omega, ?_⟩
  have hnz : ((primeRoot p : Nat) : ZMod p) ≠ 0 := by
    rw [Ne, ZMod.natCast_eq_zero_iff]
    intro hd
    have := Nat.le_of_dvd (by omega) hd
    omega
  refine orderOf_eq_of_pow_and_pow_div_prime hphi (ZMod.pow_card_sub_one_eq_one hnz) ?_
  intro q hq hd hone
  rw [zmod_pow_one (by omega)] at hone
  exact h4 _ (hmem q hq hd) hone

/-! ## The number of nodes -/

theorem nodes_length (t : Tree) : t.nodes.length = t.count := by
  induction t with
  | leaf => rfl
  | composite n l r h1 h2 => simp [Tree.nodes, Tree.count, h1, h2]; omega
  | rader n a b l h => simp [Tree.nodes, Tree.count, h]; omega

/-- The two decision procedures agree. -/
theorem helper_agree {N : Nat} :
    match fptrFactorHelper N with
    | (.composite, k) => numNodesFactorHelper N = k
    | (.rader, k) => numNodesFactorHelper N = k
    | _ => numNodesFactorHelper N = N := by
  have key : ∀ (r : FftType × Nat), fptrFactorHelper N = r → (match r with
    | (.composite, k) => numNodesFactorHelper N = k
    | (.rader, k) => numNodesFactorHelper N = k
    | _ => numNodesFactorHelper N = N) := by
    rintro ⟨t, k⟩ h
    unfold fptrFactorHelper at h
    unfold numNodesFactorHelper
    dsimp only at h ⊢
    split_ifs at h with h0 h4 h2 h3 g4 g2 g3 hk hr
    all_goals
      simp only [Prod.mk.injEq] at h
      obtain ⟨rfl, rfl⟩ := h
      simp_all
  exact key _ rfl

theorem getNumNodes_eq : ∀ N, 0 < N → getNumNodes N = (initTree N).count := by
  intro N
  induction N using Nat.strong_induction_on with
  | _ N ih =>
    intro hN
    have hag := helper_agree (N := N)
    unfold initTree
    unfold getNumNodes
    split
    · rename_i k h
      rw [h] at hag
      dsimp only at hag
      obtain ⟨h1, h2, h3⟩ := helper_composite h
      have hlo : getLeftover N k = N / k ∧ 0 < N / k ∧ N / k < N := by
        refine ⟨?_, Nat.div_pos h2.le (by omega), Nat.div_lt_self hN h1⟩
        unfold getLeftover
        rw [if_neg]
        intro hk
        obtain ⟨c, hc⟩ := h3
        have : c ≠ 0 := by rintro rfl; omega
        have : c ≠ 1 := by rintro rfl; omega
        have : k * 2 ≤ k * c := Nat.mul_le_mul_left k (by omega)
        omega
      dsimp only
      rw [hag, dif_pos ⟨hN, by omega⟩, hlo.1, if_neg (by omega), ih k h2 (by omega), ih _ hlo.2.2 hlo.2.1]
      rfl
    · rename_i k h
      rw [h] at hag
      dsimp only at hag
      obtain ⟨h1, rfl, h3⟩ := helper_rader h
      dsimp only
      rw [hag, dif_pos ⟨hN, by omega⟩]
      have : getLeftover N (N - 1) = 0 := by unfold getLeftover; rw [if_pos rfl]
      rw [this, if_pos rfl, ih (N - 1) (by omega) (by omega)]
      rfl
    · rename_i t k h1 h2 h
      rw [h] at hag
      have : numNodesFactorHelper N = N := by
        cases t <;> simp_all
      dsimp only
      rw [dif_neg (by rw [this]; simp)]
      rfl

theorem helper_leaf {N : Nat} : ∀ {t : FftType} {k : Nat}, fptrFactorHelper N = (t, k) →
    t ≠ .composite → t ≠ .rader → t = .pow2 ∨ t = .pow3 ∨ t = .pow4 ∨ t = .discrete := by
  intro t k _ h1 h2
  cases t <;> simp_all

/-- Trees whose leaves are not composite. -/
def Tree.Proper : Tree → Prop
  | .leaf t _ => t ≠ .composite ∧ t ≠ .rader
  | .composite _ l r => l.Proper ∧ r.Proper
  | .rader _ _ _ l => l.Proper

theorem initTree_proper : ∀ N, (initTree N).Proper := by
  intro N
  induction N using Nat.strong_induction_on with
  | _ N ih =>
    unfold initTree
    split
    · rename_i k h
      have hc := helper_composite h
      refine ⟨ih k hc.2.1, ih _ ?_⟩
      unfold getLeftover
      split
      · omega
      · exact Nat.div_lt_self (by omega) hc.1
    · rename_i k h
      have hr := helper_rader h
      exact ih _ (by omega)
    · rename_i t k hc hr h
      exact ⟨fun e => hc e, fun e => hr e⟩

/-- Following the links of the array gives back the tree. -/
theorem loadTree_nodes : ∀ (t : Tree), t.Proper → ∀ (pre post : List Node) fuel, t.count ≤ fuel →
    loadTree (pre ++ t.nodes ++ post) fuel pre.length = some t := by
  intro t
  induction t with
  | leaf ty N =>
    intro hp pre post fuel hf
    obtain ⟨f, rfl⟩ : ∃ f, fuel = f + 1 := ⟨fuel - 1, by simp [Tree.count] at hf; omega⟩
    have hget : (pre ++ (Tree.leaf ty N).nodes ++ post)[pre.length]? = some ⟨N, ty, 0, 0, 0, 0⟩ := by
      simp [Tree.nodes]
    unfold loadTree
    rw [hget]
    obtain ⟨h1, h2⟩ := hp
    cases ty <;> simp_all
  | composite N l r hl hr =>
    intro hp pre post fuel hf
    obtain ⟨f, rfl⟩ : ∃ f, fuel = f + 1 := ⟨fuel - 1, by simp [Tree.count] at hf; omega⟩
    simp only [Tree.count] at hf
    have hget : (pre ++ (Tree.composite N l r).nodes ++ post)[pre.length]? = some ⟨N, .composite, 0, 0, 1, 1 + l.count⟩ := by
      simp [Tree.nodes]
    have h1 := hl hp.1 (pre ++ [⟨N, .composite, 0, 0, 1, 1 + l.count⟩]) (r.nodes ++ post) f (by omega)
    have h2 := hr hp.2 (pre ++ [⟨N, .composite, 0, 0, 1, 1 + l.count⟩] ++ l.nodes) post f (by omega)
    have e1 : pre ++ [⟨N, .composite, 0, 0, 1, 1 + l.count⟩] ++ l.nodes ++ (r.nodes ++ post) =
        pre ++ (Tree.composite N l r).nodes ++ post := by simp [Tree.nodes]
    have e2 : pre ++ [⟨N, .composite, 0, 0, 1, 1 + l.count⟩] ++ l.nodes ++ r.nodes ++ post =
        pre ++ (Tree.composite N l r).nodes ++ post := by simp [Tree.nodes]
    rw [e1] at h1
    rw [e2] at h2
    simp only [List.length_append, List.length_singleton, nodes_length] at h1 h2
    rw [add_assoc pre.length 1 l.count] at h2
    unfold loadTree
    rw [hget]
    dsimp only
    rw [h1, h2]
  | rader N a b l hl =>
    intro hp pre post fuel hf
    obtain ⟨f, rfl⟩ : ∃ f, fuel = f + 1 := ⟨fuel - 1, by simp [Tree.count] at hf; omega⟩
    simp only [Tree.count] at hf
    have hget : (pre ++ (Tree.rader N a b l).nodes ++ post)[pre.length]? = some ⟨N, .rader, a, b, 1, 1 + l.count⟩ := by
      simp [Tree.nodes]
    have h1 := hl hp (pre ++ [⟨N, .rader, a, b, 1, 1 + l.count⟩]) post f (by omega)
    have e1 : pre ++ [⟨N, .rader, a, b, 1, 1 + l.count⟩] ++ l.nodes ++ post =
        pre ++ (Tree.rader N a b l).nodes ++ post := by simp [Tree.nodes]
    rw [e1] at h1
    simp only [List.length_append, List.length_singleton] at h1
    unfold loadTree
    rw [hget]
    dsimp only
    rw [h1]

theorem loadTree_root {t : Tree} (h : t.Proper) : loadTree t.nodes t.nodes.length 0 = some t := by
  have := loadTree_nodes t h [] [] t.nodes.length (by rw [nodes_length])
  simpa using this

theorem stockPlan_eq {N : Nat} (hN : 0 < N) : stockPlan N = .ok (initTree N).nodes := by
  unfold stockPlan
  rw [if_neg (by omega), nodes_length, getNumNodes_eq N hN, if_pos le_rfl]

/-- Trees whose children have the right sizes. -/
def Tree.Sized : Tree → Prop
  | .leaf t _ => t ≠ .composite ∧ t ≠ .rader
  | .composite N l r => 1 < l.sz ∧ 1 < r.sz ∧ l.sz * r.sz = N ∧ l.Sized ∧ r.Sized
  | .rader N _ _ l => l.sz = N - 1 ∧ l.Sized

theorem tree_sz (N : Nat) : (initTree N).sz = N := by
  unfold initTree
  split <;> rfl

theorem initTree_sized : ∀ N, (initTree N).Sized := by
  intro N
  induction N using Nat.strong_induction_on with
  | _ N ih =>
    unfold initTree
    split
    · rename_i k h
      obtain ⟨h1, h2, h3⟩ := helper_composite h
      obtain ⟨c, hc⟩ := h3
      have hdiv : N / k = c := by rw [hc]; exact Nat.mul_div_cancel_left c (by omega)
      have c0 : c ≠ 0 := by rintro rfl; omega
      have c1 : c ≠ 1 := by rintro rfl; omega
      have : k * 2 ≤ k * c := Nat.mul_le_mul_left k (by omega)
      have hlo : getLeftover N k = c := by
        unfold getLeftover
        rw [if_neg (by omega), hdiv]
      have hcN : c < N := by rw [← hdiv]; exact Nat.div_lt_self (by omega) h1
      refine ⟨by rw [tree_sz]; exact h1, by rw [tree_sz, hlo]; omega, by rw [tree_sz, tree_sz, hlo, hc], ih k h2, ?_⟩
      rw [hlo]; exact ih c hcN
    · rename_i k h
      have hr := helper_rader h
      exact ⟨by rw [tree_sz]; omega, ih _ (by omega)⟩
    · rename_i t k hc hr h
      exact ⟨fun e => hc e, fun e => hr e⟩

/-- The links of one node of an array. -/
def LinksOK (nodes : List Node) (i : Nat) (nd : Node) : Prop :=
  (nd.type = .composite → ∃ l r, nodes[i + nd.left]? = some l ∧ nodes[i + nd.right]? = some r ∧
    0 < nd.left ∧ 0 < nd.right ∧ 1 < l.sz ∧ 1 < r.sz ∧ l.sz * r.sz = nd.sz) ∧
  (nd.type = .rader → ∃ l, nodes[i + nd.left]? = some l ∧ 0 < nd.left ∧ l.sz = nd.sz - 1)

theorem head_sz : ∀ (t : Tree) (pre post : List Node), ∃ nd, (pre ++ t.nodes ++ post)[pre.length]? = some nd ∧ nd.sz = t.sz := by
  intro t pre post
  cases t with
  | leaf ty N => exact ⟨⟨N, ty, 0, 0, 0, 0⟩, by simp [Tree.nodes], rfl⟩
  | composite N l r => exact ⟨⟨N, .composite, 0, 0, 1, 1 + l.count⟩, by simp [Tree.nodes], rfl⟩
  | rader N a b l => exact ⟨⟨N, .rader, a, b, 1, 1 + l.count⟩, by simp [Tree.nodes], rfl⟩

theorem links_ok : ∀ (t : Tree), t.Sized → ∀ (pre post : List Node) (i : Nat) (nd : Node), pre.length ≤ i → i < pre.length + t.count →
    (pre ++ t.nodes ++ post)[i]? = some nd → LinksOK (pre ++ t.nodes ++ post) i nd := by
  intro t
  induction t with
  | leaf ty N =>
    intro hs pre post i nd h1 h2 hget
    simp only [Tree.count] at h2
    have : i = pre.length := by omega
    subst this
    have hnd : nd = ⟨N, ty, 0, 0, 0, 0⟩ := by simpa [Tree.nodes] using hget.symm
    subst hnd
    exact ⟨fun h => absurd h hs.1, fun h => absurd h hs.2⟩
  | composite N l r hl hr =>
    intro hs pre post i nd h1 h2 hget
    simp only [Tree.count] at h2
    obtain ⟨s1, s2, s3, s4, s5⟩ := hs
    have e1 : pre ++ (Tree.composite N l r).nodes ++ post =
        (pre ++ [⟨N, .composite, 0, 0, 1, 1 + l.count⟩]) ++ l.nodes ++ (r.nodes ++ post) := by simp [Tree.nodes]
    have e2 : pre ++ (Tree.composite N l r).nodes ++ post =
        (pre ++ [⟨N, .composite, 0, 0, 1, 1 + l.count⟩] ++ l.nodes) ++ r.nodes ++ post := by simp [Tree.nodes]
    by_cases hi : i = pre.length
    · subst hi
      have hnd : nd = ⟨N, .composite, 0, 0, 1, 1 + l.count⟩ := by simpa [Tree.nodes] using hget.symm
      subst hnd
      refine ⟨fun _ => ?_, fun h => by simp at h⟩
      obtain ⟨n1, g1, z1⟩ := head_sz l (pre ++ [⟨N, .composite, 0, 0, 1, 1 + l.count⟩]) (r.nodes ++ post)
      obtain ⟨n2, g2, z2⟩ := head_sz r (pre ++ [⟨N, .composite, 0, 0, 1, 1 + l.count⟩] ++ l.nodes) post
      rw [← e1] at g1
      rw [← e2] at g2
      simp only [List.length_append, List.length_singleton, nodes_length] at g1 g2
      rw [add_assoc pre.length 1 l.count] at g2
      exact ⟨n1, n2, g1, g2, by dsimp only; omega, by dsimp only; omega, by omega, by omega, by rw [z1, z2]; exact s3⟩
    · by_cases hlt : i < pre.length + (1 + l.count)
      · rw [e1] at hget ⊢
        exact hl s4 _ _ i nd (by simp; omega) (by simp; omega) hget
      · rw [e2] at hget ⊢
        exact hr s5 _ _ i nd (by simp [nodes_length]; omega) (by simp [nodes_length]; omega) hget
  | rader N a b l hl =>
    intro hs pre post i nd h1 h2 hget
    simp only [Tree.count] at h2
    obtain ⟨s1, s2⟩ := hs
    have e1 : pre ++ (Tree.rader N a b l).nodes ++ post =
        (pre ++ [⟨N, .rader, a, b, 1, 1 + l.count⟩]) ++ l.nodes ++ post := by simp [Tree.nodes]
    by_cases hi : i = pre.length
    · subst hi
      have hnd : nd = ⟨N, .rader, a, b, 1, 1 + l.count⟩ := by simpa [Tree.nodes] using hget.symm
      subst hnd
      refine ⟨fun h => by simp at h, fun _ => ?_⟩
      obtain ⟨n1, g1, z1⟩ := head_sz l (pre ++ [⟨N, .rader, a, b, 1, 1 + l.count⟩]) post
      rw [← e1] at g1
      simp only [List.length_append, List.length_singleton] at g1
      exact ⟨n1, g1, by dsimp only; omega, by rw [z1]; exact s1⟩
    · rw [e1] at hget ⊢
      exact hl s2 _ _ i nd (by simp; omega) (by simp; omega) hget

end Verif.Stock
