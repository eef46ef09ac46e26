import Verif.Simd
import Mathlib.Tactic.IntervalCases

namespace Verif.Simd
open Stock

variable {k : Kind} {j : Nat}

/-! ## The operations of a pack, in each lane -/

theorem get_zero (h : j < k.lanes / 2) : (0 : Pack k).get j = 0 := by
  show Pack.get ⟨mmZero k⟩ j = 0
  cases k <;> simp only [Kind.lanes] at h <;> interval_cases j <;> apply Complex.ext <;>
    simp [Pack.get, mmZero, ofComplex]

theorem get_pairSet (h : j < k.lanes / 2) (x y : ℝ) : Pack.get (⟨mmPairSet k x y⟩ : Pack k) j = ⟨x, y⟩ := by
  cases k <;> simp only [Kind.lanes] at h <;> interval_cases j <;> apply Complex.ext <;>
    simp [Pack.get, mmPairSet, ofComplex, setr]

theorem get_one (h : j < k.lanes / 2) : (1 : Pack k).get j = 1 := by
  show Pack.get ⟨mmPairSet k 1 0⟩ j = 1
  rw [get_pairSet h]; rfl

theorem set1_lane (h : j < k.lanes / 2) (x : ℝ) : mmSet1 k x (2 * j) = x ∧ mmSet1 k x (2 * j + 1) = x := by
  cases k <;> simp only [Kind.lanes] at h <;> interval_cases j <;> simp [mmSet1, ofComplex]

theorem get_add (h : j < k.lanes / 2) (x y : Pack k) : (x + y).get j = x.get j + y.get j := by
  show Pack.get ⟨mmAdd k x.reg y.reg⟩ j = _
  cases k <;> simp only [Kind.lanes] at h <;> interval_cases j <;> apply Complex.ext <;>
    simp [Pack.get, mmAdd, ofComplex, toComplex, addP]

theorem get_sub (h : j < k.lanes / 2) (x y : Pack k) : (x - y).get j = x.get j - y.get j := by
  show Pack.get ⟨mmSub k x.reg y.reg⟩ j = _
  cases k <;> simp only [Kind.lanes] at h <;> interval_cases j <;> apply Complex.ext <;>
    simp [Pack.get, mmSub, ofComplex, toComplex, subP]

theorem get_neg (h : j < k.lanes / 2) (x : Pack k) : (- x).get j = - x.get j := by
  show Pack.get ⟨mmNeg k x.reg⟩ j = _
  cases k <;> simp only [Kind.lanes] at h <;> interval_cases j <;> apply Complex.ext <;>
    simp [Pack.get, mmNeg, ofComplex, toComplex, xorSign]

theorem get_mul (h : j < k.lanes / 2) (x y : Pack k) : (x * y).get j = x.get j * y.get j := by
  show Pack.get ⟨mmComplexMul k x.reg y.reg⟩ j = _
  cases k <;> simp only [Kind.lanes] at h <;> interval_cases j <;> apply Complex.ext <;>
    simp [Pack.get, mmComplexMul, ofComplex, toComplex, permutePs, permutePd, fmaddsub, mulP] <;> ring

theorem get_fmadd (h : j < k.lanes / 2) (x y z : Pack k) : (x.fmadd y z).get j = x.get j * y.get j + z.get j := by
  cases k <;> simp only [Kind.lanes] at h <;> interval_cases j <;> apply Complex.ext <;>
    simp [Pack.get, Pack.fmadd, mmComplexFmadd, ofComplex, toComplex, permutePs, permutePd, fmaddsub, mulP] <;> ring

theorem get_fmsub (h : j < k.lanes / 2) (x y z : Pack k) : (x.fmsub y z).get j = x.get j * y.get j - z.get j := by
  cases k <;> simp only [Kind.lanes] at h <;> interval_cases j <;> apply Complex.ext <;>
    simp [Pack.get, Pack.fmsub, mmComplexFmsub, ofComplex, toComplex, permutePs, permutePd, fmaddsub, fmsubadd, mulP] <;> ring

theorem get_conjugate (h : j < k.lanes / 2) (x : Pack k) : x.conjugate.get j = ⟨(x.get j).re, -(x.get j).im⟩ := by
  cases k <;> simp only [Kind.lanes] at h <;> interval_cases j <;> apply Complex.ext <;>
    simp [Pack.get, Pack.conjugate, mmComplexConj, mmNeg, ofComplex, toComplex, blend, bit, xorSign]

theorem get_mulI (h : j < k.lanes / 2) (x : Pack k) : x.mulI.get j = Complex.I * x.get j := by
  cases k <;> simp only [Kind.lanes] at h <;> interval_cases j <;> apply Complex.ext <;>
    simp [Pack.get, Pack.mulI, mmComplexMulI, mmComplexConj, mmNeg, ofComplex, toComplex, blend, bit, xorSign, permutePs, permutePd]

theorem get_mulNegI (h : j < k.lanes / 2) (x : Pack k) : x.mulNegI.get j = - (Complex.I * x.get j) := by
  cases k <;> simp only [Kind.lanes] at h <;> interval_cases j <;> apply Complex.ext <;>
    simp [Pack.get, Pack.mulNegI, mmComplexMulNegI, mmComplexConj, mmNeg, ofComplex, toComplex, blend, bit, xorSign, permutePs, permutePd]

theorem get_addReal (h : j < k.lanes / 2) (x : Pack k) (o : ℝ) : (x.addReal o).get j = x.get j + o := by
  have := get_add h x ⟨mmPairSet k o 0⟩
  rw [get_pairSet h] at this
  exact this

theorem get_subReal (h : j < k.lanes / 2) (x : Pack k) (o : ℝ) : (x.subReal o).get j = x.get j - o := by
  have := get_sub h x ⟨mmPairSet k o 0⟩
  rw [get_pairSet h] at this
  exact this

theorem get_mulReal (h : j < k.lanes / 2) (x : Pack k) (o : ℝ) : (x.mulReal o).get j = x.get j * o := by
  cases k <;> simp only [Kind.lanes] at h <;> interval_cases j <;> apply Complex.ext <;>
    simp [Pack.get, Pack.mulReal, mmMul, mmSet1, ofComplex, toComplex, mulP]

theorem get_divReal (h : j < k.lanes / 2) (x : Pack k) (o : ℝ) : (x.divReal o).get j = x.get j / o := by
  cases k <;> simp only [Kind.lanes] at h <;> interval_cases j <;> apply Complex.ext <;>
    simp [Pack.get, Pack.divReal, mmDiv, mmSet1, ofComplex, toComplex, divP]

theorem sqMod_lane (h : j < k.lanes / 2) (x : Pack k) :
    mmComplexSqMod k x.reg (2 * j) = some (Complex.normSq (x.get j)) ∧
    mmComplexSqMod k x.reg (2 * j + 1) = some (Complex.normSq (x.get j)) := by
  cases k <;> simp only [Kind.lanes] at h <;> interval_cases j <;>
    simp [Pack.get, mmComplexSqMod, orP, dpPs, dpPd, bit, mmMul, mmAdd, mulP, addP, haddPd, permutePs, permutePd, ofComplex, toComplex,
      Complex.normSq_apply, List.range_succ] <;> (try constructor) <;> ring

theorem modulus_get (x : Pack k) : x.modulus = (List.range (k.lanes / 2)).map fun j => some ‖x.get j‖ := by
  unfold Pack.modulus
  apply List.map_congr_left
  intro j hj
  unfold mmComplexMod
  rw [mul_comm j 2, (sqMod_lane (List.mem_range.1 hj) x).1]
  rfl

theorem quotient_get (h : j < k.lanes / 2) (x y : Pack k) :
    x.quotient y j = if y.get j = 0 then none else some (x.get j / y.get j) := by
  have hm := get_mul h x y.conjugate
  rw [get_conjugate h] at hm
  have hre : (mmComplexMul k x.reg (mmComplexConj k y.reg)) (2 * j) = (x.get j * ⟨(y.get j).re, -(y.get j).im⟩).re := congrArg Complex.re hm
  have him : (mmComplexMul k x.reg (mmComplexConj k y.reg)) (2 * j + 1) = (x.get j * ⟨(y.get j).re, -(y.get j).im⟩).im := congrArg Complex.im hm
  obtain ⟨s1, s2⟩ := sqMod_lane h y
  have key : ∀ r : Nat → Option ℝ,
      r = (fun i => divO (some (mmComplexMul k x.reg (mmComplexConj k y.reg) i)) (mmComplexSqMod k y.reg i)) →
      (do let re ← r (2 * j)
          let im ← r (2 * j + 1)
          some (⟨re, im⟩ : ℂ)) = if y.get j = 0 then none else some (x.get j / y.get j) := by
    rintro r rfl
    dsimp only
    rw [hre, him, s1, s2]
    unfold divO
    dsimp only
    by_cases h0 : y.get j = 0
    · rw [if_pos (by rw [h0]; simp), if_pos h0]; rfl
    · rw [if_neg (by simpa using h0), if_neg (by simpa using h0), if_neg h0]
      simp only [bind, Option.bind]
      congr 1
      apply Complex.ext
      · rw [Complex.div_re]; simp; ring
      · rw [Complex.div_im]; simp; ring
  have one : k = .f1 ∨ k = .d1 → x.quotient y j = if y.get j = 0 then none else some (x.get j / y.get j) := by
    intro hk
    have hj : j = 0 := by
      rcases hk with rfl | rfl <;> simp [Kind.lanes] at h <;> omega
    subst hj
    have e1 : toComplex x.reg = x.get 0 := rfl
    have e2 : toComplex y.reg = y.get 0 := rfl
    rcases hk with rfl | rfl <;> simp only [Pack.quotient, mmComplexDiv, e1, e2] <;> by_cases h0 : y.get 0 = 0 <;>
      simp [h0, ofComplex]
  cases k
  case f1 => exact one (Or.inl rfl)
  case d1 => exact one (Or.inr rfl)
  all_goals exact key _ rfl

end Verif.Simd
