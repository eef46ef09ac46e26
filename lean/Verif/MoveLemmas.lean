import Verif.Reshape
import Verif.PackLemmas

/-!
# Moves of one message

The packed position of an index in the message from the rank with box `s` to the rank with box `t` is its offset in
the overlap, in the order of `s`.  The moves of the plans are characterised by index triples.
-/

namespace Verif

/-- Position of an index in the message from box `s` to box `t`. -/
def msgOff (s t : Box) (p : A3 Int) : Int := (s.collide t).offset p

theorem collide_bounds {s t : Box} (h : (s.collide t).empty = false) :
    (s.collide t).order = s.order ∧ (∀ d, (s.collide t).low.get d = max (s.low.get d) (t.low.get d)) ∧
      ∀ d, (s.collide t).high.get d = min (s.high.get d) (t.high.get d) := by
  refine ⟨Box.collide_order h, ?_, ?_⟩ <;>
  · intro d
    unfold Box.collide at h ⊢
    split
    · rename_i hc; rw [if_pos hc] at h; simp [Box.none3_empty] at h
    · simp

theorem overlapOffset_eq (s ov : Box) : overlapOffset s ov = s.offset ov.low := by
  rw [Box.offset_eq]
  simp only [overlapOffset, A3.get_zero, A3.get_one, A3.get_two]
  ring

theorem msgOff_range {s t : Box} (ho : IsOrder s.order) {p : A3 Int} (hs : p ∈ s) (ht : p ∈ t) :
    0 ≤ msgOff s t p ∧ msgOff s t p < (s.collide t).count := by
  have hm := Box.mem_collide.2 ⟨hs, ht⟩
  have := Box.collide_order (Box.empty_false_of_mem hm)
  exact Box.offset_range (by rw [this]; exact ho) hm

theorem msgOff_inj {s t : Box} (ho : IsOrder s.order) {p q : A3 Int} (hs : p ∈ s) (ht : p ∈ t) (hs' : q ∈ s)
    (ht' : q ∈ t) (h : msgOff s t p = msgOff s t q) : p = q := by
  have hm := Box.mem_collide.2 ⟨hs, ht⟩
  have := Box.collide_order (Box.empty_false_of_mem hm)
  exact Box.offset_inj (by rw [this]; exact ho) hm (Box.mem_collide.2 ⟨hs', ht'⟩) h

theorem mem_packOverlap {s t : Box} (ho : IsOrder s.order) (h : (s.collide t).empty = false) (data buf : Int)
    (m : Int × Int) :
    m ∈ packMoves (directPlan s (s.collide t)) (overlapOffset s (s.collide t) + data) buf ↔
      ∃ p : A3 Int, p ∈ s ∧ p ∈ t ∧ m = (buf + msgOff s t p, data + s.offset p) := by
  have hord := (collide_bounds h).1
  have ho' : IsOrder (s.collide t).order := by rw [hord]; exact ho
  rw [mem_packMoves, overlapOffset_eq]
  simp only [directPlan, A3.get_zero, A3.get_one, A3.get_two]
  constructor
  · rintro ⟨i, j, k, hi, hj, hk, rfl⟩
    have hp := (Box.mem_at ho').2 ⟨i, j, k, hi, hj, hk, rfl⟩
    refine ⟨_, (Box.mem_collide.1 hp).1, (Box.mem_collide.1 hp).2, ?_⟩
    rw [msgOff, Box.offset_at_self ho', Box.offset_at ho' hord.symm]
    simp only [Prod.mk.injEq, true_and]; ring
  · rintro ⟨p, hs, ht, rfl⟩
    obtain ⟨i, j, k, hi, hj, hk, rfl⟩ := (Box.mem_at ho').1 (Box.mem_collide.2 ⟨hs, ht⟩)
    refine ⟨i, j, k, hi, hj, hk, ?_⟩
    rw [msgOff, Box.offset_at_self ho', Box.offset_at ho' hord.symm]
    simp only [Prod.mk.injEq, true_and]; ring

theorem offset_collide_comm {s t : Box} (ho : s.order = t.order) (h : (s.collide t).empty = false) (p : A3 Int) :
    (t.collide s).offset p = msgOff s t p := by
  have h' : (t.collide s).empty = false := by rw [Box.collide_empty_comm]; exact h
  obtain ⟨h1, h2, h3⟩ := collide_bounds h
  obtain ⟨g1, g2, g3⟩ := collide_bounds h'
  simp only [msgOff, Box.offset, h1, h2, h3, g1, g2, g3, ho]
  simp only [max_comm, min_comm]

theorem mem_unpackDirectOverlap {s t : Box} (ho : IsOrder t.order) (hst : s.order = t.order)
    (h : (s.collide t).empty = false) (data buf : Int) (m : Int × Int) :
    m ∈ unpackDirect (directPlan t (t.collide s)) buf (overlapOffset t (t.collide s) + data) ↔
      ∃ p : A3 Int, p ∈ s ∧ p ∈ t ∧ m = (data + t.offset p, buf + msgOff s t p) := by
  have h' : (t.collide s).empty = false := by rw [Box.collide_empty_comm]; exact h
  have hord := (collide_bounds h').1
  have ho' : IsOrder (t.collide s).order := by rw [hord]; exact ho
  rw [mem_unpackDirect, overlapOffset_eq]
  simp only [directPlan, A3.get_zero, A3.get_one, A3.get_two]
  constructor
  · rintro ⟨i, j, k, hi, hj, hk, rfl⟩
    have hp := (Box.mem_at ho').2 ⟨i, j, k, hi, hj, hk, rfl⟩
    refine ⟨_, (Box.mem_collide.1 hp).2, (Box.mem_collide.1 hp).1, ?_⟩
    rw [← offset_collide_comm hst h, Box.offset_at_self ho', Box.offset_at ho' hord.symm]
    simp only [Prod.mk.injEq, and_true]; ring
  · rintro ⟨p, hs, ht, rfl⟩
    obtain ⟨i, j, k, hi, hj, hk, rfl⟩ := (Box.mem_at ho').1 (Box.mem_collide.2 ⟨ht, hs⟩)
    refine ⟨i, j, k, hi, hj, hk, ?_⟩
    rw [← offset_collide_comm hst h, Box.offset_at_self ho', Box.offset_at ho' hord.symm]
    simp only [Prod.mk.injEq, and_true]; ring

/-- The six branches of the transposed unpack address the message in the order of its sender. -/
theorem bufIndex_eq {t ov : Box} {o : A3 (Fin 3)} (ho : IsOrder o) (ht : IsOrder t.order) (hov : ov.order = t.order)
    (i j k : Int) :
    bufIndex (transposePlan t ov o) i j k = (⟨ov.low, ov.high, o⟩ : Box).offset (ov.at i j k) := by
  obtain ⟨lo, hi, od⟩ := ov
  obtain ⟨tl, th, tord⟩ := t
  dsimp only at hov ht ⊢
  subst hov
  rcases ho.cases with rfl | rfl | rfl | rfl | rfl | rfl <;> rcases ht.cases with rfl | rfl | rfl | rfl | rfl | rfl <;>
    (simp [bufIndex, transposePlan, orderMap, dims, Box.offset, Box.at, Box.size, A3.of]; try ring)

theorem mem_unpackTransposeOverlap {stride : Nat} (hstr : 0 < stride) {s t : Box} (hs : IsOrder s.order)
    (ht : IsOrder t.order) (h : (s.collide t).empty = false) (data buf : Int) (m : Int × Int) :
    m ∈ unpackTranspose stride (transposePlan t (t.collide s) s.order) buf (overlapOffset t (t.collide s) + data) ↔
      ∃ p : A3 Int, p ∈ s ∧ p ∈ t ∧ m = (data + t.offset p, buf + msgOff s t p) := by
  have h' : (t.collide s).empty = false := by rw [Box.collide_empty_comm]; exact h
  have hord := (collide_bounds h').1
  have ho' : IsOrder (t.collide s).order := by rw [hord]; exact ht
  have hoff : ∀ p, (⟨(t.collide s).low, (t.collide s).high, s.order⟩ : Box).offset p = msgOff s t p := by
    intro p
    obtain ⟨h1, h2, h3⟩ := collide_bounds h
    obtain ⟨g1, g2, g3⟩ := collide_bounds h'
    simp only [msgOff, Box.offset, h1, h2, h3, g2, g3]
    simp only [max_comm, min_comm]
  rw [mem_unpackTranspose hstr, overlapOffset_eq]
  simp only [bufIndex_eq hs ht hord, hoff]
  simp only [transposePlan, A3.get_zero, A3.get_one, A3.get_two]
  constructor
  · rintro ⟨i, j, k, hi, hj, hk, rfl⟩
    have hp := (Box.mem_at ho').2 ⟨i, j, k, hi, hj, hk, rfl⟩
    refine ⟨_, (Box.mem_collide.1 hp).2, (Box.mem_collide.1 hp).1, ?_⟩
    rw [Box.offset_at ho' hord.symm]
    simp only [Prod.mk.injEq, and_true]; ring
  · rintro ⟨p, hs, ht, rfl⟩
    obtain ⟨i, j, k, hi, hj, hk, rfl⟩ := (Box.mem_at ho').1 (Box.mem_collide.2 ⟨ht, hs⟩)
    refine ⟨i, j, k, hi, hj, hk, ?_⟩
    rw [Box.offset_at ho' hord.symm]
    simp only [Prod.mk.injEq, and_true]; ring

/-- Both unpack operations; without a transpose the orders must agree. -/
theorem mem_unpackWith {direct : Bool} {stride : Nat} (hstr : 0 < stride) {s t : Box} (hs : IsOrder s.order)
    (ht : IsOrder t.order) (hd : direct = true → s.order = t.order) (h : (s.collide t).empty = false) (data buf : Int)
    (m : Int × Int) :
    m ∈ unpackWith direct stride (if direct then directPlan t (t.collide s) else transposePlan t (t.collide s) s.order)
        buf (overlapOffset t (t.collide s) + data) ↔
      ∃ p : A3 Int, p ∈ s ∧ p ∈ t ∧ m = (data + t.offset p, buf + msgOff s t p) := by
  cases direct with
  | true => exact mem_unpackDirectOverlap ht (hd rfl) h data buf m
  | false => exact mem_unpackTransposeOverlap hstr hs ht h data buf m

end Verif
