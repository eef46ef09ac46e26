import Verif.SpecLaws
import Verif.ConvLemmas

/-!
# Laws of the three dimensional transform
-/

namespace Verif
open Finset

variable {w w' : Box} {σ : Equiv.Perm (Fin 3)}

theorem moved_mem (h : SameExtents w w' σ) {p : A3 Int} (hp : p ∈ w) : moved w w' σ p ∈ w' := by
  rw [Box.mem_def]
  intro d
  have h1 := Box.mem_def.1 hp (σ d)
  have h2 := h d
  unfold Box.extent at h2
  rw [moved, A3.get_of]
  omega

theorem rel_moved (p : A3 Int) (d : Fin 3) : w'.rel (moved w w' σ p) d = w.rel p (σ d) := by
  unfold Box.rel
  rw [moved, A3.get_of]
  congr 1
  ring

theorem wave_moved (h : SameExtents w w' σ) (fwd : Bool) (q p : A3 Int) : wave fwd w' (moved w w' σ q) (moved w w' σ p) = wave fwd w q p := by
  unfold wave
  simp_rw [rel_moved, h _]
  exact Equiv.prod_comp σ fun d => root fwd (w.extent d) (w.rel q d * w.rel p d)

theorem shape_symm (h : SameExtents w w' σ) : SameExtents w' w σ.symm := fun d => by rw [h, Equiv.apply_symm_apply]

theorem moved_moved (p : A3 Int) : moved w' w σ.symm (moved w w' σ p) = p := by
  refine A3.ext' fun d => ?_
  rw [moved, A3.get_of, moved, A3.get_of, Equiv.apply_symm_apply]
  ring

theorem dft3_moved (h : SameExtents w w' σ) (fwd : Bool) {G G' : A3 Int → ℂ} (hG : ∀ q ∈ w, G' (moved w w' σ q) = G q) (p : A3 Int) :
    dft3 fwd w' G' (moved w w' σ p) = dft3 fwd w G p := by
  unfold dft3
  symm
  refine sum_nbij' (fun q => moved w w' σ q) (fun q => moved w' w σ.symm q) (fun q hq => ?_) (fun q hq => ?_) (fun q _ => moved_moved q) (fun q _ => ?_) fun q hq => ?_
  · exact Box.mem_points.2 (moved_mem h (Box.mem_points.1 hq))
  · exact Box.mem_points.2 (moved_mem (shape_symm h) (Box.mem_points.1 hq))
  · exact moved_moved (σ := σ.symm) q
  · rw [wave_moved h, hG q (Box.mem_points.1 hq)]

theorem dft3_linear (fwd : Bool) (a b : ℂ) (G H : A3 Int → ℂ) (p : A3 Int) :
    dft3 fwd w (fun q => a * G q + b * H q) p = a * dft3 fwd w G p + b * dft3 fwd w H p := by
  unfold dft3
  rw [Finset.mul_sum, Finset.mul_sum, ← sum_add_distrib]
  exact sum_congr rfl fun q _ => by ring

theorem dft3_shift (fwd : Bool) {t : A3 Int} (ht : t ∈ w) (x : A3 Int → ℂ) (k : A3 Int) :
    dft3 fwd w (fun p => x (difference w p t)) k = wave fwd w t k * dft3 fwd w x k := by
  unfold dft3
  rw [Finset.mul_sum]
  symm
  refine sum_nbij' (fun q => indexSum w t q) (fun q => difference w q t) (fun q _ => ?_) (fun q hq => ?_) (fun q hq => ?_) (fun q hq => ?_) fun q hq => ?_
  · exact Box.mem_points.2 (indexSum_mem ht)
  · exact Box.mem_points.2 (difference_mem (Box.mem_points.1 hq))
  · exact difference_indexSum (Box.mem_points.1 hq) ht
  · exact indexSum_difference (Box.mem_points.1 hq) ht
  · beta_reduce
    rw [difference_indexSum (Box.mem_points.1 hq) ht, wave_indexSum fwd ht]
    ring

theorem mirror_mem {q : A3 Int} (hq : q ∈ w) : mirror w q ∈ w := by
  rw [Box.mem_def]
  intro d
  have h := Box.mem_def.1 hq d
  rw [mirror, A3.get_of]
  have h1 : (w.extent d - w.rel q d) % w.extent d < w.extent d := Nat.mod_lt _ (by unfold Box.extent; omega)
  unfold Box.extent at h1 ⊢
  omega

theorem mirror_mirror {q : A3 Int} (hq : q ∈ w) : mirror w (mirror w q) = q := by
  refine A3.ext' fun d => ?_
  have h := rel_of_mem hq d
  rw [mirror, A3.get_of, rel_mirror]
  have e : (w.extent d - (w.extent d - w.rel q d) % w.extent d) % w.extent d = w.rel q d := by
    rcases Nat.eq_zero_or_pos (w.rel q d) with h0 | h0
    · rw [h0, Nat.sub_zero, Nat.mod_self, Nat.sub_zero, Nat.mod_self]
    · rw [Nat.mod_eq_of_lt (show w.extent d - w.rel q d < w.extent d by omega), show w.extent d - (w.extent d - w.rel q d) = w.rel q d by omega, Nat.mod_eq_of_lt h.2]
  rw [e]
  omega

theorem dft3_conj (fwd : Bool) (x : A3 Int → ℂ) {k : A3 Int} (hk : k ∈ w) :
    dft3 fwd w (fun p => starRingEnd ℂ (x p)) k = starRingEnd ℂ (dft3 fwd w x (mirror w k)) := by
  unfold dft3
  rw [map_sum]
  refine sum_congr rfl fun q _ => ?_
  rw [map_mul, wave_mirror fwd hk, Complex.conj_conj]

theorem wave_comm (fwd : Bool) (q p : A3 Int) : wave fwd w q p = wave fwd w p q := by
  unfold wave
  exact prod_congr rfl fun d _ => by rw [mul_comm]

theorem wave_rev (fwd : Bool) (q p : A3 Int) : starRingEnd ℂ (wave fwd w q p) = wave (!fwd) w q p := by
  unfold wave
  rw [map_prod]
  exact prod_congr rfl fun d _ => root_conj _ _ _

theorem dft3_reverse (fwd : Bool) {G G' : A3 Int → ℂ} (h : ∀ q ∈ w, G' (mirror w q) = G q) (k : A3 Int) : dft3 (!fwd) w G' k = dft3 fwd w G k := by
  unfold dft3
  symm
  refine sum_nbij' (fun q => mirror w q) (fun q => mirror w q) (fun q hq => ?_) (fun q hq => ?_) (fun q hq => ?_) (fun q hq => ?_) fun q hq => ?_
  · exact Box.mem_points.2 (mirror_mem (Box.mem_points.1 hq))
  · exact Box.mem_points.2 (mirror_mem (Box.mem_points.1 hq))
  · exact mirror_mirror (Box.mem_points.1 hq)
  · exact mirror_mirror (Box.mem_points.1 hq)
  · rw [h q (Box.mem_points.1 hq), wave_comm (!fwd), wave_mirror _ (Box.mem_points.1 hq), wave_rev, Bool.not_not, wave_comm]

theorem dft3_impulse (fwd : Bool) {t : A3 Int} (ht : t ∈ w) {G : A3 Int → ℂ} (h : ∀ q ∈ w, G q = if q = t then 1 else 0) (k : A3 Int) :
    dft3 fwd w G k = wave fwd w t k := by
  unfold dft3
  rw [sum_eq_single t (fun q hq hne => by rw [h q (Box.mem_points.1 hq), if_neg hne, zero_mul]) fun hn => absurd (Box.mem_points.2 ht) hn, h t ht, if_pos rfl, one_mul]

/-- The transform of a product of functions of one index each. -/
theorem dft3_separable (fwd : Bool) (f : Fin 3 → Nat → ℂ) {G : A3 Int → ℂ} (h : ∀ q ∈ w, G q = ∏ d, f d (w.rel q d)) (k : A3 Int) :
    dft3 fwd w G k = ∏ d, line fwd (w.extent d) (f d) (w.rel k d) := by
  have hA : AllDirs 0 1 2 := ⟨by decide, by decide, by decide⟩
  unfold dft3
  rw [sum_congr rfl (fun q hq => by rw [h q (Box.mem_points.1 hq)] :
    ∀ q ∈ w.points, G q * wave fwd w q k = (∏ d, f d (w.rel q d)) * wave fwd w q k), sum_points w hA k]
  have e : ∀ c i j : Nat, (∏ d, f d (w.rel (place w 0 1 2 k i j c) d)) * wave fwd w (place w 0 1 2 k i j c) k =
      (f 0 i * root fwd (w.extent 0) (i * w.rel k 0)) * ((f 1 j * root fwd (w.extent 1) (j * w.rel k 1)) * (f 2 c * root fwd (w.extent 2) (c * w.rel k 2))) := by
    intro c i j
    have ra : w.rel (place w 0 1 2 k i j c) 0 = i := by unfold Box.rel; rw [place_a]; omega
    have rb : w.rel (place w 0 1 2 k i j c) 1 = j := by unfold Box.rel; rw [place_b w hA]; omega
    have rc : w.rel (place w 0 1 2 k i j c) 2 = c := by unfold Box.rel; rw [place_c w hA]; omega
    unfold wave
    rw [Fin.prod_univ_three, Fin.prod_univ_three, ra, rb, rc]
    ring
  simp only [e]
  rw [sum_three, Fin.prod_univ_three]
  unfold line
  ring

end Verif
