import Verif.ConvLemmas
import Verif.CallData

/-!
# Sums over all the entries of distributed arrays
-/

namespace Verif
open Finset

/-- The square of the absolute value of an entry. -/
noncomputable def entryEnergy : Option (ℂ ⊕ ℝ) → ℝ
  | some (.inl z) => Complex.normSq z
  | some (.inr x) => x * x
  | none => 0

/-- The sum over the entries of the array of one rank that belong to entry `j` of the batch, for a box with `n` indexes. -/
noncomputable def arrayEnergy (n j : Nat) (x : Data ℂ ℝ) : ℝ := ∑ a ∈ range n, entryEnergy (x.rd ((j * n + a : Nat) : Int))

/-- The sum over all the ranks. -/
noncomputable def totalEnergy (boxes : List Box) (j : Nat) (data : Nat → Data ℂ ℝ) : ℝ :=
  ((List.range boxes.length).map fun r => arrayEnergy (boxAt boxes r).points.card j (data r)).sum

theorem sum_boxes {R : Type} [CommRing R] {f : A3 Int → R} (l : List Box) (s : Finset (A3 Int)) (h : ∀ b ∈ l, b.points ⊆ s) :
    (l.map fun b => ∑ p ∈ b.points, f p).sum = ∑ p ∈ s, (owners l p : R) * f p := by
  induction l with
  | nil => simp [owners]
  | cons b l ih =>
    have ih := ih fun b' hb' => h b' (List.mem_cons_of_mem _ hb')
    rw [List.map_cons, List.sum_cons, ih]
    have e : ∑ p ∈ b.points, f p = ∑ p ∈ s, (if p ∈ b then (1 : R) else 0) * f p := by
      rw [← sum_subset (h b (List.mem_cons_self ..)) fun p _ hp => by
        rw [Box.mem_points] at hp
        rw [if_neg hp, zero_mul]]
      refine sum_congr rfl fun p hp => ?_
      rw [Box.mem_points] at hp
      rw [if_pos hp, one_mul]
    rw [e, ← sum_add_distrib]
    refine sum_congr rfl fun p _ => ?_
    rw [owners_cons]
    by_cases hp : p ∈ b
    · simp only [hp, if_true]; push_cast; ring
    · simp only [hp, if_false]; push_cast; ring

theorem Tiles.sum_points {R : Type} [CommRing R] {l : List Box} {w : Box} (h : Tiles l w) (f : A3 Int → R) : (l.map fun b => ∑ p ∈ b.points, f p).sum = ∑ p ∈ w.points, f p := by
  rw [sum_boxes l w.points fun b hb p hp => by rw [Box.mem_points] at hp ⊢; exact h.mem_world hb hp]
  refine sum_congr rfl fun p hp => ?_
  rw [h p, if_pos (Box.mem_points.1 hp)]
  simp

theorem sum_offset {R : Type} [CommRing R] {b : Box} (ho : IsOrder b.order) {g : Nat → R} {f : A3 Int → R} (h : ∀ p : A3 Int, p ∈ b → g (b.offset p).toNat = f p) :
    ∑ a ∈ range b.points.card, g a = ∑ p ∈ b.points, f p := by
  symm
  refine sum_bij (fun p _ => (b.offset p).toNat) ?_ ?_ ?_ ?_
  · intro p hp
    have := Box.offset_range ho (Box.mem_points.1 hp)
    rw [Box.count_eq_card] at this
    rw [mem_range]; omega
  · intro p hp q hq e
    have h1 := Box.offset_range ho (Box.mem_points.1 hp)
    have h2 := Box.offset_range ho (Box.mem_points.1 hq)
    exact Box.offset_inj ho (Box.mem_points.1 hp) (Box.mem_points.1 hq) (by omega)
  · intro a ha
    rw [mem_range] at ha
    obtain ⟨p, hp, e⟩ := Box.offset_surj ho (show (0 : Int) ≤ a by omega) (by rw [Box.count_eq_card]; omega)
    exact ⟨p, Box.mem_points.2 hp, by rw [e]; omega⟩
  · intro p hp
    exact (h p (Box.mem_points.1 hp)).symm

theorem arrayEnergy_holds {b : Box} (ho : IsOrder b.order) {j : Nat} {x : Data ℂ ℝ} {G : Field ℂ ℝ} (h : HoldsSlot b j x G) :
    arrayEnergy b.points.card j x = ∑ p ∈ b.points, entryEnergy (some (G.val j p)) := by
  unfold arrayEnergy
  refine sum_offset ho fun p hp => ?_
  have h1 := Box.offset_range ho hp
  have e := h p hp
  rw [show ((j * b.points.card + (b.offset p).toNat : Nat) : Int) = j * b.points.card + b.offset p by push_cast; omega, e]

/-- The sum over all entries of the arrays is the sum over the indexes of the world. -/
theorem totalEnergy_holds {boxes : List Box} {w : Box} (ht : Tiles boxes w) (ho : ∀ b ∈ boxes, IsOrder b.order) {j : Nat} {data : Nat → Data ℂ ℝ} {G : Field ℂ ℝ}
    (h : ∀ r, r < boxes.length → HoldsSlot (boxAt boxes r) j (data r) G) :
    totalEnergy boxes j data = ∑ p ∈ w.points, entryEnergy (some (G.val j p)) := by
  unfold totalEnergy
  rw [← ht.sum_points]
  congr 1
  refine List.ext_getElem (by simp) fun r h1 h2 => ?_
  simp only [List.length_map] at h2
  simp only [List.getElem_map, List.getElem_range]
  have e : boxes[r] = boxAt boxes r := by
    have := boxAt_get h2
    rw [List.getElem?_eq_getElem h2] at this
    exact Option.some.inj this
  rw [e]
  exact arrayEnergy_holds (ho _ (boxAt_mem h2)) (h r h2)

end Verif
