import Verif.Pack
import Verif.SpecMem
import Verif.BoxLemmas

/-!
# Addresses of packed and unpacked entries
-/

namespace Verif

/-! ## Storage orders -/

theorem IsOrder.forall_iff {o : A3 (Fin 3)} (h : IsOrder o) {P : Fin 3 → Prop} :
    (∀ d, P d) ↔ P o.x ∧ P o.y ∧ P o.z := by
  constructor
  · intro h; exact ⟨h _, h _, h _⟩
  · rintro ⟨hx, hy, hz⟩ d
    have : d = o.x ∨ d = o.y ∨ d = o.z := by
      obtain ⟨x, y, z⟩ := o
      unfold IsOrder at h
      clear hx hy hz
      revert d x y z
      decide
    rcases this with rfl | rfl | rfl <;> assumption

theorem IsOrder.cases {o : A3 (Fin 3)} (h : IsOrder o) :
    o = ⟨0, 1, 2⟩ ∨ o = ⟨0, 2, 1⟩ ∨ o = ⟨1, 0, 2⟩ ∨ o = ⟨1, 2, 0⟩ ∨ o = ⟨2, 0, 1⟩ ∨ o = ⟨2, 1, 0⟩ := by
  obtain ⟨x, y, z⟩ := o
  revert h
  revert x y z
  decide

/-- The index triple at slow, middle and fast position `i, j, k` of a box. -/
def Box.at (b : Box) (i j k : Int) : A3 Int :=
  .of fun d => b.low.get d + if d = b.order.z then i else if d = b.order.y then j else k

theorem Box.at_z (b : Box) (i j k : Int) : (b.at i j k).get b.order.z = b.low.get b.order.z + i := by
  simp [Box.at]

theorem Box.at_y (b : Box) (h : IsOrder b.order) (i j k : Int) :
    (b.at i j k).get b.order.y = b.low.get b.order.y + j := by
  simp [Box.at, h.2.2]

theorem Box.at_x (b : Box) (h : IsOrder b.order) (i j k : Int) :
    (b.at i j k).get b.order.x = b.low.get b.order.x + k := by
  simp [Box.at, h.1, h.2.1]

theorem Box.size_get (b : Box) (d : Fin 3) : b.size.get d = b.high.get d - b.low.get d + 1 := by
  simp [Box.size]

theorem Box.mem_at {b : Box} (h : IsOrder b.order) {p : A3 Int} :
    p ∈ b ↔ ∃ i j k, (0 ≤ i ∧ i < b.osize 2) ∧ (0 ≤ j ∧ j < b.osize 1) ∧ (0 ≤ k ∧ k < b.osize 0) ∧ p = b.at i j k := by
  rw [Box.mem_def, h.forall_iff]
  simp only [Box.osize, Box.size_get, A3.get_zero, A3.get_one, A3.get_two]
  constructor
  · rintro ⟨hx, hy, hz⟩
    refine ⟨p.get b.order.z - b.low.get b.order.z, p.get b.order.y - b.low.get b.order.y,
      p.get b.order.x - b.low.get b.order.x, by omega, by omega, by omega, ?_⟩
    apply A3.ext'
    rw [h.forall_iff, b.at_z, b.at_y h, b.at_x h]
    omega
  · rintro ⟨i, j, k, hi, hj, hk, rfl⟩
    rw [b.at_z, b.at_y h, b.at_x h]
    omega

theorem Box.offset_eq (b : Box) (p : A3 Int) :
    b.offset p = ((p.get b.order.z - b.low.get b.order.z) * b.osize 1 + (p.get b.order.y - b.low.get b.order.y)) * b.osize 0 +
      (p.get b.order.x - b.low.get b.order.x) := by
  simp only [Box.offset, Box.osize, Box.size_get, A3.get_zero, A3.get_one]

theorem Box.offset_at {b c : Box} (h : IsOrder c.order) (ho : b.order = c.order) (i j k : Int) :
    b.offset (c.at i j k) = b.offset c.low + (i * (b.osize 1 * b.osize 0) + j * b.osize 0 + k) := by
  rw [Box.offset_eq, Box.offset_eq]
  rw [ho, c.at_z, c.at_y h, c.at_x h]
  ring

theorem Box.offset_low (b : Box) : b.offset b.low = 0 := by simp [Box.offset]

theorem Box.offset_at_self {b : Box} (h : IsOrder b.order) (i j k : Int) :
    b.offset (b.at i j k) = (i * b.osize 1 + j) * b.osize 0 + k := by
  rw [Box.offset_at h rfl, b.offset_low]; ring

/-! ## The layout is a bijection -/

theorem digits_inj {n a b c d : Int} (hb : 0 ≤ b ∧ b < n) (hd : 0 ≤ d ∧ d < n) (h : a * n + b = c * n + d) :
    a = c ∧ b = d := by
  have ha : (a * n + b) / n = a := by
    rw [Int.add_comm, Int.add_mul_ediv_right _ _ (by omega), Int.ediv_eq_zero_of_lt hb.1 hb.2]; omega
  have hc : (c * n + d) / n = c := by
    rw [Int.add_comm, Int.add_mul_ediv_right _ _ (by omega), Int.ediv_eq_zero_of_lt hd.1 hd.2]; omega
  have : a = c := by rw [← ha, h, hc]
  subst this
  omega

theorem digits_lt {n m a b : Int} (ha : 0 ≤ a ∧ a < m) (hb : 0 ≤ b ∧ b < n) : 0 ≤ a * n + b ∧ a * n + b < m * n := by
  constructor
  · have := mul_nonneg ha.1 (show 0 ≤ n by omega); omega
  · have : (a + 1) * n ≤ m * n := Int.mul_le_mul_of_nonneg_right (by omega) (by omega)
    rw [Int.add_mul] at this; omega

theorem Box.count_osize {b : Box} (h : IsOrder b.order) (hb : b.empty = false) :
    b.count = b.osize 2 * b.osize 1 * b.osize 0 := by
  rw [Box.count, hb]
  simp only [Box.osize]
  rcases h.cases with ho | ho | ho | ho | ho | ho <;> rw [ho] <;>
    simp only [A3.get, Bool.false_eq_true, if_false] <;> ring

theorem Box.offset_range {b : Box} (h : IsOrder b.order) {p : A3 Int} (hp : p ∈ b) :
    0 ≤ b.offset p ∧ b.offset p < b.count := by
  have he := Box.empty_false_of_mem hp
  obtain ⟨i, j, k, hi, hj, hk, rfl⟩ := (Box.mem_at h).1 hp
  rw [Box.offset_at_self h, Box.count_osize h he]
  exact digits_lt (digits_lt hi hj) hk

theorem Box.offset_inj {b : Box} (h : IsOrder b.order) {p q : A3 Int} (hp : p ∈ b) (hq : q ∈ b)
    (he : b.offset p = b.offset q) : p = q := by
  obtain ⟨i, j, k, hi, hj, hk, rfl⟩ := (Box.mem_at h).1 hp
  obtain ⟨i', j', k', hi', hj', hk', rfl⟩ := (Box.mem_at h).1 hq
  rw [Box.offset_at_self h, Box.offset_at_self h] at he
  obtain ⟨h1, h2⟩ := digits_inj hk hk' he
  obtain ⟨h3, h4⟩ := digits_inj hj hj' h1
  rw [h2, h3, h4]

theorem Box.offset_surj {b : Box} (h : IsOrder b.order) {a : Int} (h0 : 0 ≤ a) (h1 : a < b.count) :
    ∃ p : A3 Int, p ∈ b ∧ b.offset p = a := by
  have he : b.empty = false := Box.count_pos_iff.1 (by omega)
  rw [Box.count_osize h he] at h1
  have hpos : ∀ d, 0 < b.osize d := by
    intro d
    have := Box.empty_false_iff.1 he (b.order.get d)
    simp only [Box.osize, Box.size_get]; omega
  have p0 := hpos 0
  have p1 := hpos 1
  have e1 := Int.emod_add_mul_ediv a (b.osize 0)
  have e2 := Int.emod_add_mul_ediv (a / b.osize 0) (b.osize 1)
  refine ⟨b.at (a / b.osize 0 / b.osize 1) (a / b.osize 0 % b.osize 1) (a % b.osize 0), ?_, ?_⟩
  · rw [Box.mem_at h]
    refine ⟨_, _, _, ⟨?_, ?_⟩, ⟨Int.emod_nonneg _ (by omega), Int.emod_lt_of_pos _ p1⟩,
      ⟨Int.emod_nonneg _ (by omega), Int.emod_lt_of_pos _ p0⟩, rfl⟩
    · exact Int.ediv_nonneg (Int.ediv_nonneg h0 (by omega)) (by omega)
    · rw [Int.ediv_lt_iff_lt_mul p1, Int.ediv_lt_iff_lt_mul p0]; exact h1
  · rw [Box.offset_at_self h, mul_comm _ (b.osize 1), add_comm (b.osize 1 * _), e2, mul_comm, add_comm, e1]

/-! ## Sources of the packer -/

theorem getElem?_flatMap_const {α β : Type} (f : α → List β) (m : Nat) (l : List α) (h : ∀ a ∈ l, (f a).length = m)
    (q : Nat) (x : β) :
    (l.flatMap f)[q]? = some x ↔ ∃ i a r, l[i]? = some a ∧ q = i * m + r ∧ (f a)[r]? = some x := by
  induction l generalizing q with
  | nil => simp
  | cons a t ih =>
    have hlen := h a (by simp)
    rw [List.flatMap_cons]
    by_cases hq : q < m
    · rw [List.getElem?_append_left (by omega)]
      constructor
      · intro hx; exact ⟨0, a, q, by simp, by simp, hx⟩
      · rintro ⟨i, b, r, hb, rfl, hx⟩
        cases i with
        | zero => simp at hb; subst hb; simpa using hx
        | succ i => exfalso; rw [Nat.add_mul] at hq; omega
    · rw [List.getElem?_append_right (by omega), hlen, ih (fun b hb => h b (by simp [hb]))]
      constructor
      · rintro ⟨i, b, r, hb, he, hx⟩
        refine ⟨i + 1, b, r, by simpa using hb, ?_, hx⟩
        rw [Nat.add_mul]; omega
      · rintro ⟨i, b, r, hb, rfl, hx⟩
        cases i with
        | zero =>
          exfalso
          simp at hb; subst hb
          have := (List.getElem?_eq_some_iff.1 hx).1
          omega
        | succ i => exact ⟨i, b, r, by simpa using hb, by rw [Nat.add_mul]; omega, hx⟩

theorem packSources_get (p : PackPlan) (q : Nat) (s : Int) :
    (packSources p)[q]? = some s ↔ ∃ i j k : Int, (0 ≤ i ∧ i < p.size 2) ∧ (0 ≤ j ∧ j < p.size 1) ∧
      (0 ≤ k ∧ k < p.size 0) ∧ (q : Int) = (i * p.size 1 + j) * p.size 0 + k ∧
      s = i * p.planeStride + j * p.lineStride + k := by
  unfold packSources
  rw [getElem?_flatMap_const _ ((p.size 1).toNat * (p.size 0).toNat)]
  · constructor
    · rintro ⟨i, a, r, hi, rfl, hr⟩
      rw [loop_getElem?] at hi
      split at hi <;> cases hi
      rw [getElem?_flatMap_const _ (p.size 0).toNat _ (by intro a ha; simp [loop_length])] at hr
      obtain ⟨j, b, t, hj, rfl, ht⟩ := hr
      rw [loop_getElem?] at hj
      split at hj <;> cases hj
      rw [List.getElem?_map, loop_getElem?] at ht
      split at ht <;> cases ht
      refine ⟨i, j, t, by omega, by omega, by omega, ?_, rfl⟩
      have h1 : ((p.size 1).toNat : Int) = p.size 1 := by omega
      have h0 : ((p.size 0).toNat : Int) = p.size 0 := by omega
      push_cast
      rw [h1, h0]; ring
    · rintro ⟨i, j, k, hi, hj, hk, hq, rfl⟩
      have h1 : ((p.size 1).toNat : Int) = p.size 1 := by omega
      have h0 : ((p.size 0).toNat : Int) = p.size 0 := by omega
      obtain ⟨i, rfl⟩ := Int.eq_ofNat_of_zero_le hi.1
      obtain ⟨j, rfl⟩ := Int.eq_ofNat_of_zero_le hj.1
      obtain ⟨k, rfl⟩ := Int.eq_ofNat_of_zero_le hk.1
      refine ⟨i, i, j * (p.size 0).toNat + k, by rw [loop_getElem?, if_pos hi.2], ?_, ?_⟩
      · rw [← h1, ← h0] at hq
        have : q = (i * (p.size 1).toNat + j) * (p.size 0).toNat + k := by exact_mod_cast hq
        rw [this]; ring
      · rw [getElem?_flatMap_const _ (p.size 0).toNat _ (by intro a ha; simp [loop_length])]
        refine ⟨j, j, k, by rw [loop_getElem?, if_pos hj.2], rfl, ?_⟩
        rw [List.getElem?_map, loop_getElem?, if_pos hk.2]
        rfl
  · intro a ha
    simp only [List.length_flatMap, List.length_map, loop_length]
    simp [loop_length]

theorem mem_packMoves (p : PackPlan) (data buf : Int) (m : Int × Int) :
    m ∈ packMoves p data buf ↔ ∃ i j k : Int, (0 ≤ i ∧ i < p.size 2) ∧ (0 ≤ j ∧ j < p.size 1) ∧
      (0 ≤ k ∧ k < p.size 0) ∧ m = (buf + ((i * p.size 1 + j) * p.size 0 + k),
        data + (i * p.planeStride + j * p.lineStride + k)) := by
  unfold packMoves
  rw [List.mem_map]
  constructor
  · rintro ⟨⟨s, q⟩, hx, rfl⟩
    rw [List.mem_zipIdx_iff_getElem?] at hx
    obtain ⟨i, j, k, hi, hj, hk, hq, rfl⟩ := (packSources_get p q s).1 hx
    exact ⟨i, j, k, hi, hj, hk, by simp only [hq]⟩
  · rintro ⟨i, j, k, hi, hj, hk, rfl⟩
    have hnn : 0 ≤ (i * p.size 1 + j) * p.size 0 + k := (digits_lt (digits_lt hi hj) hk).1
    refine ⟨(i * p.planeStride + j * p.lineStride + k, ((i * p.size 1 + j) * p.size 0 + k).toNat), ?_, ?_⟩
    · rw [List.mem_zipIdx_iff_getElem?]
      exact (packSources_get p _ _).2 ⟨i, j, k, hi, hj, hk, by omega, rfl⟩
    · simp only [Prod.mk.injEq, and_true]; omega

theorem mem_unpackDirect (p : PackPlan) (buf data : Int) (m : Int × Int) :
    m ∈ unpackDirect p buf data ↔ ∃ i j k : Int, (0 ≤ i ∧ i < p.size 2) ∧ (0 ≤ j ∧ j < p.size 1) ∧
      (0 ≤ k ∧ k < p.size 0) ∧ m = (data + (i * p.planeStride + j * p.lineStride + k),
        buf + ((i * p.size 1 + j) * p.size 0 + k)) := by
  unfold unpackDirect
  simp only [List.mem_flatMap, List.mem_map, mem_loop]
  constructor
  · rintro ⟨i, hi, j, hj, k, hk, rfl⟩; exact ⟨i, j, k, hi, hj, hk, rfl⟩
  · rintro ⟨i, j, k, hi, hj, hk, rfl⟩; exact ⟨i, hi, j, hj, k, hk, rfl⟩

theorem mem_unpackTranspose {stride : Nat} (hs : 0 < stride) (p : PackPlan) (buf data : Int) (m : Int × Int) :
    m ∈ unpackTranspose stride p buf data ↔ ∃ i j k : Int, (0 ≤ i ∧ i < p.size 2) ∧ (0 ≤ j ∧ j < p.size 1) ∧
      (0 ≤ k ∧ k < p.size 0) ∧ m = (data + (i * p.planeStride + j * p.lineStride + k), buf + bufIndex p i j k) := by
  unfold unpackTranspose
  split
  · simp only [List.mem_flatMap, List.mem_map, mem_loop]
    constructor
    · rintro ⟨i, hi, j, hj, k, hk, rfl⟩; exact ⟨i, j, k, hi, hj, hk, rfl⟩
    · rintro ⟨i, j, k, hi, hj, hk, rfl⟩; exact ⟨i, hi, j, hj, k, hk, rfl⟩
  · simp only [List.mem_flatMap, List.mem_map]
    constructor
    · rintro ⟨bi, hbi, bj, hbj, bk, hbk, i, hi, j, hj, k, hk, rfl⟩
      exact ⟨i, j, k, (mem_blocks_zero hs _ _).1 ⟨bi, hbi, hi⟩, (mem_blocks_zero hs _ _).1 ⟨bj, hbj, hj⟩,
        (mem_blocks_zero hs _ _).1 ⟨bk, hbk, hk⟩, rfl⟩
    · rintro ⟨i, j, k, hi, hj, hk, rfl⟩
      obtain ⟨bi, hbi, hi⟩ := (mem_blocks_zero hs _ _).2 hi
      obtain ⟨bj, hbj, hj⟩ := (mem_blocks_zero hs _ _).2 hj
      obtain ⟨bk, hbk, hk⟩ := (mem_blocks_zero hs _ _).2 hk
      exact ⟨bi, hbi, bj, hbj, bk, hbk, i, hi, j, hj, k, hk, rfl⟩

end Verif
