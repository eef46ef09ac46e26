import Verif.HalfEnergy
import Verif.ConvLemmas
import Verif.Laws

/-!
# Inner products of distributed arrays
-/

namespace Verif
open Finset

/-- The number at the position `a` of the array of the rank `r`; 0 if there is none. -/
noncomputable def numberAt (data : List (Data ℂ ℝ)) (r : Nat) (a : Int) : ℂ := ((((data[r]?).bind fun x => x.rd a).map asComplex).getD 0)

/-- The inner product of the array `j` of one batch with the array `j'` of another: on each rank the entries at the same position are multiplied, the first one conjugated, and all the
products are added. -/
noncomputable def totalInner (boxes : List Box) (j j' : Nat) (x y : List (Data ℂ ℝ)) : ℂ :=
  ((List.range boxes.length).map fun r => ∑ a ∈ range (boxAt boxes r).points.card,
    starRingEnd ℂ (numberAt x r ((j * (boxAt boxes r).points.card + a : Nat) : Int)) * numberAt y r ((j' * (boxAt boxes r).points.card + a : Nat) : Int)).sum

/-- The same with a weight for each index. -/
noncomputable def weightedInner (weight : A3 Int → Nat) (boxes : List Box) (j j' : Nat) (x y : List (Data ℂ ℝ)) : ℂ :=
  ((List.range boxes.length).map fun r => ∑ p ∈ (boxAt boxes r).points, (weight p : ℂ) *
    (starRingEnd ℂ (numberAt x r (j * (boxAt boxes r).points.card + (boxAt boxes r).offset p)) * numberAt y r (j' * (boxAt boxes r).points.card + (boxAt boxes r).offset p))).sum

theorem numberAt_entry {boxes : List Box} {w : Box} (ht : Tiles boxes w) {j : Nat} {x : List (Data ℂ ℝ)} {G : A3 Int → ℂ} (h : ∀ p ∈ w, EntryAt boxes x j p (G p)) {r : Nat}
    (hr : r < boxes.length) {p : A3 Int} (hp : p ∈ boxAt boxes r) : numberAt x r (j * (boxAt boxes r).points.card + (boxAt boxes r).offset p) = G p := by
  obtain ⟨r', b, d, hb, hd, hpb, hv⟩ := h p (ht.mem_world (boxAt_mem hr) hp)
  have h1 := boxAt_get hr
  obtain rfl := ht.unique_get h1 hb hp hpb
  obtain rfl : boxAt boxes r = b := Option.some.inj (h1.symm.trans hb)
  unfold numberAt
  rw [hd, Option.bind_some, hv]
  rfl

theorem boxes_sum {boxes : List Box} {w : Box} (ht : Tiles boxes w) {f : A3 Int → ℂ} {g : Nat → ℂ} (h : ∀ r, r < boxes.length → g r = ∑ p ∈ (boxAt boxes r).points, f p) :
    ((List.range boxes.length).map g).sum = ∑ p ∈ w.points, f p := by
  rw [← ht.sum_points]
  congr 1
  refine List.ext_getElem (by simp) fun r h1 h2 => ?_
  simp only [List.length_map] at h2
  simp only [List.getElem_map, List.getElem_range]
  have e : boxes[r] = boxAt boxes r := by
    have := boxAt_get h2
    rw [List.getElem?_eq_getElem h2] at this
    exact Option.some.inj this
  rw [e, h r h2]

/-- The products of the entries at the same positions are the products at the same indexes. -/
theorem totalInner_entries {boxes : List Box} {w : Box} (ht : Tiles boxes w) (ho : ∀ b ∈ boxes, IsOrder b.order) {j j' : Nat} {x y : List (Data ℂ ℝ)} {G H : A3 Int → ℂ}
    (hx : ∀ p ∈ w, EntryAt boxes x j p (G p)) (hy : ∀ p ∈ w, EntryAt boxes y j' p (H p)) :
    totalInner boxes j j' x y = ∑ p ∈ w.points, starRingEnd ℂ (G p) * H p := by
  refine boxes_sum ht fun r hr => ?_
  have hb := ho _ (boxAt_mem hr)
  refine sum_offset hb fun p hp => ?_
  have h3 := Box.offset_range hb hp
  have e : ∀ i : Nat, ((i * (boxAt boxes r).points.card + ((boxAt boxes r).offset p).toNat : Nat) : Int) = i * (boxAt boxes r).points.card + (boxAt boxes r).offset p := fun i => by
    push_cast; omega
  rw [e, e, numberAt_entry ht hx hr hp, numberAt_entry ht hy hr hp]

theorem weightedInner_entries {weight : A3 Int → Nat} {boxes : List Box} {w : Box} (ht : Tiles boxes w) {j j' : Nat} {x y : List (Data ℂ ℝ)} {G H : A3 Int → ℂ}
    (hx : ∀ p ∈ w, EntryAt boxes x j p (G p)) (hy : ∀ p ∈ w, EntryAt boxes y j' p (H p)) :
    weightedInner weight boxes j j' x y = ∑ p ∈ w.points, (weight p : ℂ) * (starRingEnd ℂ (G p) * H p) := by
  refine boxes_sum ht fun r hr => sum_congr rfl fun p hp => ?_
  rw [numberAt_entry ht hx hr (Box.mem_points.1 hp), numberAt_entry ht hy hr (Box.mem_points.1 hp)]

/-- The boxes of a call tile the worlds. -/
theorem Performed.tiles {fwd : Bool} {s : Scaling} {w v : Box} {src dst : List Box} {nb : Nat} {input output : List (Data ℂ ℝ)} (P : Performed fwd s w v src dst nb input output) :
    (Tiles src w ∧ ∀ b ∈ src, IsOrder b.order) ∧ (Tiles dst v ∧ ∀ b ∈ dst, IsOrder b.order) ∧ ∃ p : A3 Int, p ∈ w := by
  cases P with
  | stock S => exact ⟨⟨src_tiles S.geo fwd, src_order S.geo fwd⟩, ⟨dst_tiles S.geo fwd, dst_order S.geo fwd⟩, S.geo.nonempty⟩
  | stockReal S => exact ⟨⟨src_tiles S.geo true, src_order S.geo true⟩, ⟨dst_tiles S.geo true, dst_order S.geo true⟩, S.geo.nonempty⟩
  | stockHalf S => exact ⟨⟨S.geo.tilesIn, src_order S.geo true⟩, ⟨S.geo.tilesOut, dst_order S.geo true⟩, S.geo.nonempty⟩
  | library S => exact ⟨⟨src_tiles S.geo fwd, src_order S.geo fwd⟩, ⟨dst_tiles S.geo fwd, dst_order S.geo fwd⟩, S.geo.nonempty⟩
  | libraryReal S => exact ⟨⟨src_tiles S.geo true, src_order S.geo true⟩, ⟨dst_tiles S.geo true, dst_order S.geo true⟩, S.geo.nonempty⟩
  | libraryHalf S => exact ⟨⟨S.geo.tilesIn, src_order S.geo true⟩, ⟨S.geo.tilesOut, dst_order S.geo true⟩, S.geo.nonempty⟩

/-- Plancherel's theorem. -/
theorem inner_dft3 (fwd : Bool) (w : Box) (x y : A3 Int → ℂ) :
    ∑ k ∈ w.points, starRingEnd ℂ (dft3 fwd w x k) * dft3 fwd w y k = (w.count : ℂ) * ∑ q ∈ w.points, starRingEnd ℂ (x q) * y q := by
  have e : ∀ k, starRingEnd ℂ (dft3 fwd w x k) * dft3 fwd w y k = ∑ q ∈ w.points, starRingEnd ℂ (x q) * (dft3 fwd w y k * wave (!fwd) w k q) := by
    intro k
    conv_lhs => enter [1]; unfold dft3
    rw [map_sum, Finset.sum_mul]
    refine sum_congr rfl fun q _ => ?_
    have : starRingEnd ℂ (wave fwd w q k) = wave (!fwd) w k q := by
      unfold wave
      rw [map_prod]
      refine prod_congr rfl fun d _ => ?_
      rw [root_conj, Nat.mul_comm]
    rw [map_mul, this]
    ring
  simp_rw [e]
  rw [sum_comm, Finset.mul_sum]
  refine sum_congr rfl fun q hq => ?_
  rw [← Finset.mul_sum]
  have h := dft3_inv fwd w y (Box.mem_points.1 hq)
  unfold dft3 at h ⊢
  rw [h]
  ring

end Verif
