import Verif.SpecConv
import Verif.Dft3

/-!
# The transform of a convolution
-/

namespace Verif
open Finset Stock

/-- The index at the sum of two positions. -/
def indexSum (w : Box) (p q : A3 Int) : A3 Int := A3.of fun d => w.low.get d + (w.rel p d + w.rel q d : Nat) % (w.extent d : Int)

section
variable {w : Box} {p q : A3 Int}

theorem rel_of_mem (hp : p ∈ w) (d : Fin 3) : (w.rel p d : Int) = p.get d - w.low.get d ∧ w.rel p d < w.extent d := by
  have := Box.mem_def.1 hp d
  unfold Box.rel Box.extent
  omega

theorem difference_mem (hp : p ∈ w) : difference w p q ∈ w := by
  rw [Box.mem_def]
  intro d
  have h := (rel_of_mem hp d).2
  have h1 := Int.emod_nonneg (p.get d - q.get d) (show (w.extent d : Int) ≠ 0 by omega)
  have h2 := Int.emod_lt_of_pos (p.get d - q.get d) (show (0 : Int) < w.extent d by omega)
  unfold difference
  rw [A3.get_of]
  have : (w.extent d : Int) = w.high.get d - w.low.get d + 1 := by unfold Box.extent at h ⊢; omega
  omega

theorem indexSum_mem (hp : p ∈ w) : indexSum w p q ∈ w := by
  rw [Box.mem_def]
  intro d
  have h := (rel_of_mem hp d).2
  have h1 := Int.emod_nonneg ((w.rel p d + w.rel q d : Nat) : Int) (show (w.extent d : Int) ≠ 0 by omega)
  have h2 := Int.emod_lt_of_pos ((w.rel p d + w.rel q d : Nat) : Int) (show (0 : Int) < w.extent d by omega)
  unfold indexSum
  rw [A3.get_of]
  have : (w.extent d : Int) = w.high.get d - w.low.get d + 1 := by unfold Box.extent at h ⊢; omega
  omega

theorem difference_indexSum (hp : p ∈ w) (hq : q ∈ w) : difference w (indexSum w q p) q = p := by
  refine A3.ext' fun d => ?_
  obtain ⟨h1, h2⟩ := rel_of_mem hp d
  obtain ⟨h3, h4⟩ := rel_of_mem hq d
  unfold difference indexSum
  rw [A3.get_of, A3.get_of, show w.low.get d + ((w.rel q d + w.rel p d : Nat) : Int) % (w.extent d : Int) - q.get d
    = ((w.rel q d + w.rel p d : Nat) : Int) % (w.extent d : Int) - (w.rel q d : Int) by omega, Int.emod_sub_emod,
    show ((w.rel q d + w.rel p d : Nat) : Int) - w.rel q d = w.rel p d by omega, Int.emod_eq_of_lt (by omega) (by omega)]
  omega

theorem indexSum_difference (hp : p ∈ w) (hq : q ∈ w) : indexSum w q (difference w p q) = p := by
  refine A3.ext' fun d => ?_
  obtain ⟨h1, h2⟩ := rel_of_mem hp d
  obtain ⟨h3, h4⟩ := rel_of_mem hq d
  obtain ⟨h5, h6⟩ := rel_of_mem (difference_mem (q := q) hp) d
  have e : (difference w p q).get d - w.low.get d = (p.get d - q.get d) % (w.extent d : Int) := by
    unfold difference; rw [A3.get_of]; omega
  unfold indexSum
  rw [A3.get_of]
  push_cast
  rw [h5, e, Int.add_emod_emod, show (w.rel q d : Int) + (p.get d - q.get d) = w.rel p d by omega, Int.emod_eq_of_lt (by omega) (by omega)]
  omega

theorem root_mod (fwd : Bool) {N : Nat} (hN : 0 < N) (a k : Nat) : root fwd N (a % N * k) = root fwd N (a * k) := by
  conv_rhs => rw [← Nat.mod_add_div a N, Nat.add_mul, root_add, Nat.mul_assoc, root_full _ hN, mul_one]

/-- The wave of a sum of positions. -/
theorem wave_indexSum (fwd : Bool) (hp : p ∈ w) (q k : A3 Int) : wave fwd w (indexSum w p q) k = wave fwd w p k * wave fwd w q k := by
  unfold wave
  rw [← prod_mul_distrib]
  refine prod_congr rfl fun d _ => ?_
  have h := (rel_of_mem hp d).2
  have e : w.rel (indexSum w p q) d = (w.rel p d + w.rel q d) % w.extent d := by
    have h1 := (rel_of_mem (indexSum_mem (q := q) hp) d).1
    unfold indexSum at h1
    rw [A3.get_of] at h1
    have : (w.rel (indexSum w p q) d : Int) = ((w.rel p d + w.rel q d) % w.extent d : Nat) := by
      push_cast
      unfold indexSum
      rw [h1]
      push_cast
      omega
    exact_mod_cast this
  rw [e, root_mod _ (by omega), Nat.add_mul, root_add]

/-- The transform of a convolution is the product of the transforms. -/
theorem dft3_conv3 (fwd : Bool) (w : Box) (x y : A3 Int → ℂ) (k : A3 Int) :
    dft3 fwd w (conv3 w x y) k = dft3 fwd w x k * dft3 fwd w y k := by
  unfold dft3 conv3
  simp_rw [sum_mul]
  rw [sum_comm]
  refine sum_congr rfl fun q hq => ?_
  rw [Box.mem_points] at hq
  rw [Finset.mul_sum]
  refine sum_bij' (fun p _ => difference w p q) (fun p _ => indexSum w q p) ?_ ?_ ?_ ?_ ?_
  · intro p hp; rw [Box.mem_points] at hp ⊢; exact difference_mem hp
  · intro p hp; rw [Box.mem_points]; exact indexSum_mem hq
  · intro p hp; rw [Box.mem_points] at hp; exact indexSum_difference hp hq
  · intro p hp; rw [Box.mem_points] at hp; exact difference_indexSum hp hq
  · intro p hp
    rw [Box.mem_points] at hp
    conv_lhs => rw [← indexSum_difference hp hq, wave_indexSum fwd hq, indexSum_difference hp hq]
    ring

/-- The transform back of a product of two transforms. -/
theorem dft3_product (w : Box) (x y : A3 Int → ℂ) {p : A3 Int} (hp : p ∈ w) :
    dft3 false w (fun k => dft3 true w x k * dft3 true w y k) p = w.count * conv3 w x y p := by
  have h := dft3_inv true w (conv3 w x y) hp
  rw [Bool.not_true] at h
  rw [← h]
  congr 1
  funext k
  exact (dft3_conv3 true w x y k).symm

theorem conv3_ofReal (w : Box) (x y : A3 Int → ℝ) (p : A3 Int) : conv3 w (fun q => (x q : ℂ)) (fun q => (y q : ℂ)) p = ((conv3 w x y p : ℝ) : ℂ) := by
  unfold conv3
  push_cast
  rfl

/-- The same for real data, with the half of the spectrum. -/
theorem c2r3_product (w : Box) (d : Fin 3) (x y : A3 Int → ℝ) {p : A3 Int} (hp : p ∈ w) :
    c2r3 w d (fun k => dft3 true w (fun q => (x q : ℂ)) k * dft3 true w (fun q => (y q : ℂ)) k) p = w.count * conv3 w x y p := by
  rw [← c2r3_dft3 d (conv3 w x y) hp]
  congr 1
  funext k
  rw [← dft3_conv3]
  congr 1
  funext q
  exact conv3_ofReal w x y q

/-- Parseval's theorem. -/
theorem energy3_dft3 (fwd : Bool) (w : Box) (x : A3 Int → ℂ) : energy3 w (dft3 fwd w x) = w.count * energy3 w x := by
  have key : ((energy3 w (dft3 fwd w x) : ℝ) : ℂ) = ((w.count * energy3 w x : ℝ) : ℂ) := by
    unfold energy3
    push_cast
    have e : ∀ k, (Complex.normSq (dft3 fwd w x k) : ℂ) = ∑ q ∈ w.points, starRingEnd ℂ (x q) * (dft3 fwd w x k * wave (!fwd) w k q) := by
      intro k
      rw [← Complex.mul_conj]
      conv_lhs => enter [2]; unfold dft3
      rw [map_sum, Finset.mul_sum]
      refine sum_congr rfl fun q _ => ?_
      have : starRingEnd ℂ (wave fwd w q k) = wave (!fwd) w k q := by
        unfold wave
        rw [map_prod]
        refine prod_congr rfl fun d _ => ?_
        rw [root_conj, Nat.mul_comm]
      rw [map_mul, this]
      ring
    simp_rw [e]
    rw [sum_comm, Finset.mul_sum]
    refine sum_congr rfl fun q hq => ?_
    rw [← Finset.mul_sum]
    have h := dft3_inv fwd w x (Box.mem_points.1 hq)
    unfold dft3 at h ⊢
    rw [h, ← Complex.mul_conj]
    ring
  exact_mod_cast key

end

end Verif
