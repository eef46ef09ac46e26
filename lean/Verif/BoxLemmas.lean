import Verif.Geometry
import Verif.Spec
import Mathlib.Algebra.BigOperators.Group.Finset.Basic
import Mathlib.Algebra.Order.BigOperators.Group.Finset
import Mathlib.Algebra.BigOperators.Ring.Finset
import Mathlib.Tactic.Linarith
import Mathlib.Tactic.Ring

/-! # Lemmas about boxes -/

namespace Verif

theorem Box.empty_false_iff {b : Box} :
    b.empty = false ↔ ∀ d, b.low.get d ≤ b.high.get d := by
  rw [forall_fin3]
  simp only [Box.empty, Box.size, A3.get_of, Bool.or_eq_false_iff, decide_eq_false_iff_not]
  constructor
  · rintro ⟨⟨h0, h1⟩, h2⟩; refine ⟨?_, ?_, ?_⟩ <;> omega
  · rintro ⟨h0, h1, h2⟩; refine ⟨⟨?_, ?_⟩, ?_⟩ <;> omega

theorem Box.low_mem {b : Box} (h : b.empty = false) : b.low ∈ b := by
  rw [Box.empty_false_iff] at h
  exact fun d => ⟨le_refl _, h d⟩

theorem Box.empty_false_of_mem {b : Box} {p : A3 Int} (h : p ∈ b) : b.empty = false := by
  rw [Box.empty_false_iff]
  exact fun d => (h d).1.trans (h d).2

theorem Box.empty_iff {b : Box} : b.empty = true ↔ ∀ p : A3 Int, p ∉ b := by
  constructor
  · intro h p hp
    rw [Box.empty_false_of_mem hp] at h; cases h
  · intro h
    by_contra hc
    exact h b.low (Box.low_mem (by simpa using hc))

theorem Box.empty_false_iff_mem {b : Box} : b.empty = false ↔ ∃ p : A3 Int, p ∈ b :=
  ⟨fun h => ⟨b.low, Box.low_mem h⟩, fun ⟨_, hp⟩ => Box.empty_false_of_mem hp⟩

theorem Box.none3_empty : Box.none3.empty = true := by decide

theorem Box.not_mem_of_empty {b : Box} (h : b.empty = true) (p : A3 Int) : p ∉ b := Box.empty_iff.1 h p

theorem Box.mem_collide {a b : Box} {p : A3 Int} : p ∈ a.collide b ↔ p ∈ a ∧ p ∈ b := by
  unfold Box.collide
  split
  · rename_i h
    simp only [Box.not_mem_of_empty Box.none3_empty p, false_iff, not_and]
    intro ha hb
    simp [Box.empty_false_of_mem ha, Box.empty_false_of_mem hb] at h
  · simp only [Box.mem_def, A3.get_of, max_le_iff, le_min_iff]
    constructor
    · intro h; exact ⟨fun d => ⟨(h d).1.1, (h d).2.1⟩, fun d => ⟨(h d).1.2, (h d).2.2⟩⟩
    · rintro ⟨h1, h2⟩ d; exact ⟨⟨(h1 d).1, (h2 d).1⟩, (h1 d).2, (h2 d).2⟩

theorem Box.collide_empty_iff {a b : Box} :
    (a.collide b).empty = true ↔ ∀ p : A3 Int, p ∈ a → p ∉ b := by
  rw [Box.empty_iff]
  simp only [Box.mem_collide, not_and]

theorem Box.collide_empty_comm (a b : Box) : (a.collide b).empty = (b.collide a).empty := by
  rw [Bool.eq_iff_iff, Box.collide_empty_iff, Box.collide_empty_iff]
  exact ⟨fun h p hb ha => h p ha hb, fun h p ha hb => h p hb ha⟩

theorem Box.collide_order {a b : Box} (h : (a.collide b).empty = false) : (a.collide b).order = a.order := by
  unfold Box.collide at h ⊢
  split
  · rename_i hc; rw [if_pos hc] at h; simp [Box.none3_empty] at h
  · rfl

theorem Box.points_empty {b : Box} : b.points = ∅ ↔ b.empty = true := by
  rw [Box.empty_iff, Finset.eq_empty_iff_forall_notMem]
  simp

theorem Box.count_eq_card (b : Box) : b.count = b.points.card := by
  unfold Box.count
  split
  · rename_i h
    rw [Box.points_empty.2 h]; rfl
  · rename_i h
    have h := Box.empty_false_iff.1 (by simpa using h)
    rw [forall_fin3] at h
    obtain ⟨h0, h1, h2⟩ := h
    simp only [A3.get_zero, A3.get_one, A3.get_two] at h0 h1 h2
    simp only [Box.points, Finset.card_map, Finset.card_product, Int.card_Icc, Box.size, A3.of,
      A3.get_zero, A3.get_one, A3.get_two]
    push_cast
    rw [Int.toNat_of_nonneg (by omega), Int.toNat_of_nonneg (by omega), Int.toNat_of_nonneg (by omega)]
    ring

theorem Box.count_nonneg (b : Box) : 0 ≤ b.count := by rw [Box.count_eq_card]; positivity

theorem Box.count_pos_iff {b : Box} : 0 < b.count ↔ b.empty = false := by
  rw [Box.count_eq_card]
  constructor
  · intro h
    by_contra hc
    rw [Box.points_empty.2 (by simpa using hc)] at h; simp at h
  · intro h
    have : b.low ∈ b.points := by simpa using Box.low_mem h
    exact_mod_cast Finset.card_pos.2 ⟨_, this⟩

theorem Box.count_mono {a b : Box} (h : ∀ p : A3 Int, p ∈ a → p ∈ b) : a.count ≤ b.count := by
  rw [Box.count_eq_card, Box.count_eq_card]
  exact_mod_cast Finset.card_le_card (fun p hp => by simpa using h p (by simpa using hp))

theorem Box.count_congr {a b : Box} (h : ∀ p : A3 Int, p ∈ a ↔ p ∈ b) : a.count = b.count :=
  le_antisymm (Box.count_mono fun p => (h p).1) (Box.count_mono fun p => (h p).2)

theorem Box.collide_count_comm (a b : Box) : (a.collide b).count = (b.collide a).count :=
  Box.count_congr fun p => by rw [Box.mem_collide, Box.mem_collide, and_comm]

theorem Box.collide_count_le_left (a b : Box) : (a.collide b).count ≤ a.count :=
  Box.count_mono fun _ hp => (Box.mem_collide.1 hp).1

theorem Box.collide_count_le_right (a b : Box) : (a.collide b).count ≤ b.count :=
  Box.count_mono fun _ hp => (Box.mem_collide.1 hp).2

/-! ## Owners and tilings -/

@[simp] theorem owners_nil (p : A3 Int) : owners [] p = 0 := rfl

theorem owners_cons (b : Box) (l : List Box) (p : A3 Int) :
    owners (b :: l) p = owners l p + if p ∈ b then 1 else 0 := by
  simp [owners, List.countP_cons]

theorem owners_append (l m : List Box) (p : A3 Int) : owners (l ++ m) p = owners l p + owners m p := by
  simp [owners]

theorem owners_perm {l m : List Box} (h : l.Perm m) (p : A3 Int) : owners l p = owners m p :=
  h.countP_eq _

theorem owners_pos_iff {l : List Box} {p : A3 Int} : 0 < owners l p ↔ ∃ b ∈ l, p ∈ b := by
  simp [owners, List.countP_pos_iff]

theorem owners_map (f : Box → Box) (l : List Box) (p : A3 Int)
    (h : ∀ b ∈ l, (p ∈ f b ↔ p ∈ b)) : owners (l.map f) p = owners l p := by
  simp only [owners, List.countP_map]
  apply List.countP_congr
  intro b hb
  simp [h b hb]

theorem Tiles.perm {l m : List Box} {w : Box} (h : Tiles l w) (hp : l.Perm m) : Tiles m w :=
  fun p => by rw [← owners_perm hp]; exact h p

theorem Tiles.mem_world {l : List Box} {w : Box} (h : Tiles l w) {b : Box} (hb : b ∈ l) {p : A3 Int}
    (hp : p ∈ b) : p ∈ w := by
  have h1 := h p
  have h2 : 0 < owners l p := owners_pos_iff.2 ⟨b, hb, hp⟩
  by_contra hc
  rw [if_neg hc] at h1; omega

theorem Tiles.exists_box {l : List Box} {w : Box} (h : Tiles l w) {p : A3 Int} (hp : p ∈ w) :
    ∃ b ∈ l, p ∈ b := by
  have h1 := h p
  rw [if_pos hp] at h1
  exact owners_pos_iff.1 (by omega)

/-- Two positions holding a common index coincide when the owner count is at most one. -/
theorem owners_le_one_getElem {l : List Box} {p : A3 Int} (h : owners l p ≤ 1) {i j : Nat}
    (hi : i < l.length) (hj : j < l.length) (hpi : p ∈ l[i]) (hpj : p ∈ l[j]) : i = j := by
  induction l generalizing i j with
  | nil => simp at hi
  | cons b l ih =>
    rw [owners_cons] at h
    cases i with
    | zero =>
      cases j with
      | zero => rfl
      | succ j =>
        simp only [List.getElem_cons_zero] at hpi
        simp only [List.getElem_cons_succ] at hpj
        rw [if_pos hpi] at h
        have : 0 < owners l p := owners_pos_iff.2 ⟨_, List.getElem_mem _, hpj⟩
        omega
    | succ i =>
      simp only [List.getElem_cons_succ] at hpi
      have hpos : 0 < owners l p := owners_pos_iff.2 ⟨_, List.getElem_mem _, hpi⟩
      cases j with
      | zero =>
        simp only [List.getElem_cons_zero] at hpj
        rw [if_pos hpj] at h
        omega
      | succ j =>
        simp only [List.getElem_cons_succ] at hpj
        rw [ih (by omega) (by simpa using hi) (by simpa using hj) hpi hpj]

theorem owners_le_one_of_disjoint {l : List Box} {p : A3 Int}
    (h : ∀ i j, (hi : i < l.length) → (hj : j < l.length) → p ∈ l[i] → p ∈ l[j] → i = j) :
    owners l p ≤ 1 := by
  induction l with
  | nil => simp
  | cons b l ih =>
    rw [owners_cons]
    have ih' := ih fun i j hi hj hpi hpj => by
      have := h (i+1) (j+1) (by simpa using hi) (by simpa using hj) (by simpa using hpi) (by simpa using hpj)
      omega
    split
    · rename_i hb
      have : owners l p = 0 := by
        by_contra hc
        obtain ⟨b', hb', hp⟩ := owners_pos_iff.1 (Nat.pos_of_ne_zero hc)
        obtain ⟨i, hi, rfl⟩ := List.getElem_of_mem hb'
        have := h 0 (i+1) (by simp) (by simpa using hi) (by simpa using hb) (by simpa using hp)
        omega
      omega
    · omega

theorem Tiles.unique {l : List Box} {w : Box} (h : Tiles l w) {i j : Nat}
    (hi : i < l.length) (hj : j < l.length) {p : A3 Int} (hpi : p ∈ l[i]) (hpj : p ∈ l[j]) : i = j :=
  owners_le_one_getElem (by rw [h p]; split <;> omega) hi hj hpi hpj

theorem foldl_count_eq (l : List Box) (s : Int) :
    l.foldl (fun s b => s + b.count) s = s + (l.map Box.count).sum := by
  induction l generalizing s with
  | nil => simp
  | cons b l ih => simp [ih, add_assoc]

/-- Double counting: the sizes of boxes inside `w` add up to the sum of owners over `w`. -/
theorem sum_owners (l : List Box) (w : Finset (A3 Int)) (h : ∀ b ∈ l, b.points ⊆ w) :
    ∑ p ∈ w, (owners l p : Int) = (l.map Box.count).sum := by
  induction l with
  | nil => simp
  | cons b l ih =>
    have ih' := ih fun b' hb' => h b' (List.mem_cons_of_mem _ hb')
    simp only [owners_cons, List.map_cons, List.sum_cons]
    push_cast
    rw [Finset.sum_add_distrib, ih', add_comm, Box.count_eq_card]
    congr 1
    have h1 : b.points = w.filter (fun p => p ∈ b) := by
      ext p
      simp only [Finset.mem_filter, Box.mem_points]
      exact ⟨fun hp => ⟨h b (List.mem_cons_self ..) (by simpa using hp), hp⟩, fun hp => hp.2⟩
    rw [h1, Finset.sum_ite, Finset.sum_const, Finset.sum_const_zero]
    simp

theorem Tiles.sum_count {l : List Box} {w : Box} (h : Tiles l w) : (l.map Box.count).sum = w.count := by
  rw [← sum_owners l w.points (fun b hb p hp => by
    rw [Box.mem_points] at hp ⊢; exact h.mem_world hb hp), Box.count_eq_card]
  rw [Finset.sum_congr rfl (g := fun _ => (1 : Int))]
  · simp
  · intro p hp
    rw [h p, if_pos (by simpa using hp)]; rfl

end Verif
