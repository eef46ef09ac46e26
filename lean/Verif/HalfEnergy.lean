import Verif.SpecHalf
import Verif.SpecPlan
import Verif.Energy
import Verif.LawLemmas

/-!
# Sums over half spectra
-/

namespace Verif
open Finset

/-- The sum of the squares over all the entries of the arrays of all the ranks, each entry with the weight of its index. -/
noncomputable def weightedEnergy (weight : A3 Int → Nat) (boxes : List Box) (j : Nat) (data : Nat → Data ℂ ℝ) : ℝ :=
  ((List.range boxes.length).map fun r => ∑ p ∈ (boxAt boxes r).points,
    (weight p : ℝ) * entryEnergy ((data r).rd (j * (boxAt boxes r).points.card + (boxAt boxes r).offset p))).sum

theorem weightedEnergy_holds {weight : A3 Int → Nat} {boxes : List Box} {w : Box} (ht : Tiles boxes w) {j : Nat} {data : Nat → Data ℂ ℝ} {G : Field ℂ ℝ}
    (h : ∀ r, r < boxes.length → HoldsSlot (boxAt boxes r) j (data r) G) :
    weightedEnergy weight boxes j data = ∑ p ∈ w.points, (weight p : ℝ) * entryEnergy (some (G.val j p)) := by
  unfold weightedEnergy
  rw [← ht.sum_points]
  congr 1
  refine List.ext_getElem (by simp) fun r h1 h2 => ?_
  simp only [List.length_map] at h2
  simp only [List.getElem_map, List.getElem_range]
  have e : boxes[r] = boxAt boxes r := by
    have := boxAt_get h2
    rw [List.getElem?_eq_getElem h2] at this
    exact Option.some.inj this
  rw [e]
  exact sum_congr rfl fun p hp => by rw [h r h2 p (Box.mem_points.1 hp)]

/-- The indexes of the complex world are those in the first half of the shortened direction. -/
theorem half_points {wi wo : Box} {d : Fin 3} (h : ComplexWorld wi wo (some d)) (hne : ∃ p : A3 Int, p ∈ wi) : wo.points = wi.points.filter fun p => 2 * wi.rel p d ≤ wi.extent d := by
  obtain ⟨a, ha⟩ := hne
  have ha := Box.mem_def.1 ha d
  ext p
  rw [mem_filter, Box.mem_points, Box.mem_points, Box.mem_def, Box.mem_def]
  unfold Box.rel Box.extent
  constructor
  · intro hp
    refine ⟨fun e => ?_, ?_⟩
    · have h1 := h e
      have h2 := hp e
      by_cases hd : some d = some e
      · rw [if_pos hd] at h1
        obtain rfl := Option.some.inj hd
        omega
      · rw [if_neg hd] at h1; omega
    · have h1 := h d
      have h2 := hp d
      rw [if_pos rfl] at h1
      omega
  · rintro ⟨h1, h2⟩ e
    have h3 := h e
    have h4 := h1 e
    by_cases hd : some d = some e
    · rw [if_pos hd] at h3
      obtain rfl := Option.some.inj hd
      omega
    · rw [if_neg hd] at h3; omega

/-- Values with the symmetry of the spectrum of real data: the sum over the world is the weighted sum over its half. -/
theorem half_sum {wi wo : Box} {d : Fin 3} (h : ComplexWorld wi wo (some d)) (hne : ∃ p : A3 Int, p ∈ wi) {f : A3 Int → ℝ} (hf : ∀ p ∈ wi, f (mirror wi p) = f p) :
    ∑ p ∈ wo.points, (halfWeight wi d p : ℝ) * f p = ∑ p ∈ wi.points, f p := by
  rw [half_points h hne, ← sum_filter_add_sum_filter_not wi.points (fun p => 2 * wi.rel p d ≤ wi.extent d) f]
  have e1 : ∑ p ∈ wi.points.filter (fun p => ¬ 2 * wi.rel p d ≤ wi.extent d), f p =
      ∑ p ∈ wi.points.filter (fun p => 0 < wi.rel p d ∧ 2 * wi.rel p d < wi.extent d), f p := by
    refine sum_nbij' (mirror wi) (mirror wi) (fun p hp => ?_) (fun p hp => ?_) (fun p hp => ?_) (fun p hp => ?_) fun p hp => ?_
    all_goals
      rw [mem_filter, Box.mem_points] at hp
      obtain ⟨hp, hr⟩ := hp
      have hl := (rel_of_mem hp d).2
    · rw [mem_filter, Box.mem_points, rel_mirror, Nat.mod_eq_of_lt (by omega)]
      exact ⟨mirror_mem hp, by omega, by omega⟩
    · rw [mem_filter, Box.mem_points, rel_mirror, Nat.mod_eq_of_lt (by omega)]
      exact ⟨mirror_mem hp, by omega⟩
    · exact mirror_mirror hp
    · exact mirror_mirror hp
    · exact (hf p hp).symm
  have e2 : ∑ p ∈ wi.points.filter (fun p => 0 < wi.rel p d ∧ 2 * wi.rel p d < wi.extent d), f p =
      ∑ p ∈ wi.points.filter (fun p => 2 * wi.rel p d ≤ wi.extent d), if 0 < wi.rel p d ∧ 2 * wi.rel p d < wi.extent d then f p else 0 := by
    rw [← sum_filter, filter_filter]
    congr 1
    refine filter_congr fun p _ => ?_
    omega
  rw [e1, e2, ← sum_add_distrib]
  refine sum_congr rfl fun p hp => ?_
  rw [mem_filter] at hp
  unfold halfWeight
  by_cases hc : 0 < wi.rel p d ∧ 2 * wi.rel p d < wi.extent d
  · rw [if_pos hc, if_neg (by omega)]
    push_cast; ring
  · rw [if_neg hc, if_pos (by omega)]
    push_cast; ring

/-- The sizes in the spectrum of real data are symmetric. -/
theorem spectrum_symmetric {w : Box} (fwd : Bool) (x : A3 Int → ℝ) {p : A3 Int} (hp : p ∈ w) :
    Complex.normSq (dft3 fwd w (fun q => (x q : ℂ)) (mirror w p)) = Complex.normSq (dft3 fwd w (fun q => (x q : ℂ)) p) := by
  have := dft3_conj fwd (fun q => (x q : ℂ)) hp
  simp only [Complex.conj_ofReal] at this
  rw [this, Complex.normSq_conj]

end Verif
