import Verif.ReshapeInt
import Verif.ReshapeMain
import Verif.OverlapLemmas

/-!
# Reshape operations whose sizes fit
-/

namespace Verif

/-! ## Numbers that fit -/

theorem IndexType.bound_ge (t : IndexType) : (2 : Int) ^ 31 ≤ t.bound := by cases t <;> decide

theorem IndexType.fits_iff {t : IndexType} {x : Int} : t.fits x = true ↔ -t.bound ≤ x ∧ x < t.bound := by
  simp [IndexType.fits]

theorem IndexType.fits_of {t : IndexType} {x : Int} (h0 : 0 ≤ x) (h1 : x < 2 ^ 31) : t.fits x = true := by
  have := t.bound_ge
  rw [IndexType.fits_iff]
  constructor <;> omega

theorem IndexType.arith_fits {t : IndexType} {x : Int} (h : t.fits x = true) : t.arith x = .ok x := by
  unfold IndexType.arith; rw [if_pos h]

theorem IndexType.arith_of {t : IndexType} {x : Int} (h0 : 0 ≤ x) (h1 : x < 2 ^ 31) : t.arith x = .ok x :=
  IndexType.arith_fits (IndexType.fits_of h0 h1)

theorem intArith_of {x : Int} (h0 : 0 ≤ x) (h1 : x < 2 ^ 31) : intArith x = .ok x := IndexType.arith_of h0 h1

theorem toSize_of {x : Int} (h0 : 0 ≤ x) (h1 : x < 2 ^ 64) : toSize x = x := Int.emod_eq_of_lt h0 h1

theorem mpiCount_of {x : Int} (h : 0 ≤ x) : mpiCount x = .ok x := if_pos h

theorem res_bind {β γ : Type} (x : β) (f : β → Res γ) : (Except.ok x >>= f) = f x := rfl

theorem mapRes_map {β γ : Type} {F : β → γ} : ∀ (l : List β) (k : Nat) (f : Nat → β → Res γ),
    (∀ i, ∀ b ∈ l, f i b = .ok (F b)) → mapRes f k l = .ok (l.map F)
  | [], _, _, _ => rfl
  | b :: t, k, f, h => by
    simp only [mapRes, h k b (by simp), mapRes_map t (k + 1) f (fun i b hb => h i b (by simp [hb])), List.map_cons]

/-! ## The overlap of two boxes -/

/-- The overlap `ov` of the box `s` with another box, in numbers: sizes `A`, `B`, `C` from fast to slow of `s`, and
sizes and positions of the overlap. -/
structure Inside (s ov : Box) : Prop where
  order : ov.order = s.order
  pos : ∀ i : Fin 3, 0 < ov.osize i
  low : ∀ i : Fin 3, 0 ≤ ov.low (s.order i) - s.low (s.order i)
  high : ∀ i : Fin 3, ov.low (s.order i) - s.low (s.order i) + ov.osize i ≤ s.osize i

theorem collide_inside {s b : Box} (h : (s.collide b).empty = false) : Inside s (s.collide b) := by
  obtain ⟨h1, h2, h3⟩ := collide_bounds h
  refine ⟨h1, osize_pos h, ?_, ?_⟩
  · intro i
    have := h2 (s.order.get i)
    show 0 ≤ (s.collide b).low.get (s.order.get i) - s.low.get (s.order.get i)
    omega
  · intro i
    have e2 := h2 (s.order.get i)
    have e3 := h3 (s.order.get i)
    show (s.collide b).low.get (s.order.get i) - s.low.get (s.order.get i) + (s.collide b).osize i ≤ s.osize i
    simp only [Box.osize, h1, Box.size_get]
    omega

/-- Products of bounded numbers. -/
theorem room_products {A B C a b c N : Int} (ha : 0 ≤ a ∧ a < A) (hb : 0 ≤ b ∧ b < B) (hc : 0 ≤ c ∧ c < C)
    (h : C * B * A < N) :
    (0 ≤ c * A ∧ c * A < N) ∧ (0 ≤ c * A * B ∧ c * A * B < N) ∧ (0 ≤ b * A ∧ b * A < N) ∧
      (0 ≤ c * A * B + b * A ∧ c * A * B + b * A < N) ∧ (0 ≤ c * A * B + b * A + a ∧ c * A * B + b * A + a < N) ∧
      (0 ≤ B * A ∧ B * A < N) ∧ (0 ≤ a ∧ a < N) ∧ (0 ≤ b ∧ b < N) ∧ (0 ≤ c ∧ c < N) := by
  have h1 := digits_lt (digits_lt hc hb) ha
  have e : (c * B + b) * A + a = c * A * B + b * A + a := by ring
  rw [e] at h1
  have p1 : 0 ≤ c * A := mul_nonneg hc.1 (by omega)
  have p2 : 0 ≤ c * A * B := mul_nonneg p1 (by omega)
  have p3 : 0 ≤ b * A := mul_nonneg hb.1 (by omega)
  have p4 : c * A ≤ c * A * B := by nlinarith
  have p5 : b ≤ b * A := by nlinarith
  have p6 : c ≤ c * A := by nlinarith
  have p7 : 0 ≤ B * A := mul_nonneg (by omega) (by omega)
  have p8 : B * A ≤ C * B * A := by
    have := mul_le_mul_of_nonneg_right (show 1 ≤ C by omega) p7
    linarith [mul_assoc C B A]
  refine ⟨⟨p1, ?_⟩, ⟨p2, ?_⟩, ⟨p3, ?_⟩, ⟨?_, ?_⟩, ⟨?_, ?_⟩, ⟨p7, ?_⟩, ⟨ha.1, ?_⟩, ⟨hb.1, ?_⟩, ⟨hc.1, ?_⟩⟩ <;> omega

section
variable {s ov : Box} (t : IndexType) (hin : Inside s ov) (hn : s.osize 2 * s.osize 1 * s.osize 0 < 2 ^ 31)
include hin hn

theorem Inside.offsetM : overlapOffsetM t s ov = .ok (overlapOffset s ov) := by
  have h0 := hin.low 0
  have h1 := hin.low 1
  have h2 := hin.low 2
  have g0 := hin.high 0
  have g1 := hin.high 1
  have g2 := hin.high 2
  have q0 := hin.pos 0
  have q1 := hin.pos 1
  have q2 := hin.pos 2
  obtain ⟨r1, r2, r3, r4, r5, -, r7, r8, r9⟩ := room_products (A := s.osize 0) (B := s.osize 1) (C := s.osize 2)
    (a := ov.low (s.order 0) - s.low (s.order 0)) (b := ov.low (s.order 1) - s.low (s.order 1))
    (c := ov.low (s.order 2) - s.low (s.order 2)) ⟨h0, by omega⟩ ⟨h1, by omega⟩ ⟨h2, by omega⟩ hn
  unfold overlapOffsetM overlapOffset
  rw [IndexType.arith_of r9.1 r9.2, IndexType.arith_of r8.1 r8.2, IndexType.arith_of r7.1 r7.2]
  show (do
    let a ← t.arith _
    _) = _
  rw [IndexType.arith_of r1.1 r1.2]
  show (do
    let a ← t.arith _
    _) = _
  rw [IndexType.arith_of r2.1 r2.2]
  show (do
    let a ← t.arith _
    _) = _
  rw [IndexType.arith_of r3.1 r3.2]
  show (do
    let a ← t.arith _
    _) = _
  rw [IndexType.arith_of r4.1 r4.2]
  show (do
    let a ← t.arith _
    _) = _
  rw [IndexType.arith_of r5.1 r5.2]
  show Except.ok (toInt32 _) = _
  rw [toInt32_of_lt r5.1 r5.2]

theorem Inside.plane : 0 ≤ s.osize 1 * s.osize 0 ∧ s.osize 1 * s.osize 0 < 2 ^ 31 := by
  have h0 := hin.low 0
  have h1 := hin.low 1
  have h2 := hin.low 2
  have g0 := hin.high 0
  have g1 := hin.high 1
  have g2 := hin.high 2
  have q0 := hin.pos 0
  have q1 := hin.pos 1
  have q2 := hin.pos 2
  exact (room_products (A := s.osize 0) (B := s.osize 1) (C := s.osize 2)
    (a := ov.low (s.order 0) - s.low (s.order 0)) (b := ov.low (s.order 1) - s.low (s.order 1))
    (c := ov.low (s.order 2) - s.low (s.order 2)) ⟨h0, by omega⟩ ⟨h1, by omega⟩ ⟨h2, by omega⟩ hn).2.2.2.2.2.1

theorem Inside.directM : directPlanM t s ov = .ok (directPlan s ov) := by
  have := hin.plane hn
  unfold directPlanM directPlan
  rw [IndexType.arith_of this.1 this.2]
  rfl

/-- The sizes of the overlap are at most those of the box. -/
theorem Inside.sizes : ov.osize 2 * ov.osize 1 * ov.osize 0 ≤ s.osize 2 * s.osize 1 * s.osize 0 := by
  have h0 := hin.low 0
  have h1 := hin.low 1
  have h2 := hin.low 2
  have g0 := hin.high 0
  have g1 := hin.high 1
  have g2 := hin.high 2
  have q0 := hin.pos 0
  have q1 := hin.pos 1
  have q2 := hin.pos 2
  have e1 : ov.osize 2 * ov.osize 1 ≤ s.osize 2 * s.osize 1 :=
    mul_le_mul (by omega) (by omega) (by omega) (by omega)
  exact mul_le_mul e1 (by omega) (by omega) (mul_nonneg (by omega) (by omega))

/-- The loops over the lines of the plan. -/
theorem Inside.place {p : PackPlan} (hl : p.lineStride = s.osize 0) (hp : p.planeStride = s.osize 1 * s.osize 0) {i j k : Int}
    (hi : 0 ≤ i ∧ i < ov.osize 2) (hj : 0 ≤ j ∧ j < ov.osize 1) (hk : 0 ≤ k ∧ k < ov.osize 0) :
    placeFits t p i j = true ∧ t.fits (i * p.planeStride + j * p.lineStride + k) = true := by
  have h0 := hin.low 0
  have h1 := hin.low 1
  have h2 := hin.low 2
  have g0 := hin.high 0
  have g1 := hin.high 1
  have g2 := hin.high 2
  obtain ⟨r1, r2, r3, r4, r5, -⟩ := room_products (A := s.osize 0) (B := s.osize 1) (C := s.osize 2)
    (a := k) (b := j) (c := i) ⟨hk.1, by omega⟩ ⟨hj.1, by omega⟩ ⟨hi.1, by omega⟩ hn
  have e : i * (s.osize 1 * s.osize 0) = i * s.osize 0 * s.osize 1 := by ring
  unfold placeFits
  rw [hl, hp, e, IndexType.fits_of r2.1 r2.2, IndexType.fits_of r3.1 r3.2, IndexType.fits_of r4.1 r4.2,
    IndexType.fits_of r5.1 r5.2]
  exact ⟨rfl, rfl⟩

theorem Inside.packFits {p : PackPlan} (hl : p.lineStride = s.osize 0) (hp : p.planeStride = s.osize 1 * s.osize 0)
    (h2 : p.size 2 = ov.osize 2) (h1 : p.size 1 = ov.osize 1) : packFits t p = true := by
  unfold Verif.packFits
  rw [List.all_eq_true]
  intro i hi
  rw [List.all_eq_true]
  intro j hj
  rw [mem_loop, h2] at hi
  rw [mem_loop, h1] at hj
  exact (hin.place t hn hl hp hi hj (k := 0) ⟨le_refl _, hin.pos 0⟩).1

theorem Inside.unpackDirectFits : unpackDirectFits t (directPlan s ov) = true := by
  unfold Verif.unpackDirectFits
  rw [List.all_eq_true]
  intro i hi
  rw [List.all_eq_true]
  intro j hj
  rw [mem_loop] at hi hj
  have hi' : 0 ≤ i ∧ i < ov.osize 2 := hi
  have hj' : 0 ≤ j ∧ j < ov.osize 1 := hj
  have q0 := hin.pos 0
  have hsz := hin.sizes hn
  have d1 := digits_lt hi' hj'
  have d2 := digits_lt d1 (b := 0) ⟨le_refl _, q0⟩
  have p1 : 0 ≤ i * ov.osize 1 := mul_nonneg hi'.1 (by omega)
  have p2 : i * ov.osize 1 + j ≤ (i * ov.osize 1 + j) * ov.osize 0 := by nlinarith [d1.1]
  rw [(hin.place t hn (p := directPlan s ov) rfl rfl hi' hj' (k := 0) ⟨le_refl _, q0⟩).1]
  show (_ && t.fits (i * ov.osize 1) && t.fits (i * ov.osize 1 + j) && t.fits ((i * ov.osize 1 + j) * ov.osize 0)) = true
  rw [IndexType.fits_of p1 (by omega), IndexType.fits_of d1.1 (by omega), IndexType.fits_of (by omega) (by omega)]
  rfl

end

theorem bufIndex_counters (p : PackPlan) (i j k : Int) :
    bufIndex p i j k = (bufCounters p i j k) 0 * p.buffPlane + (bufCounters p i j k) 1 * p.buffLine + (bufCounters p i j k) 2 := by
  unfold bufIndex bufCounters
  split_ifs <;> rfl

theorem bufCounters_nonneg (p : PackPlan) {i j k : Int} (hi : 0 ≤ i) (hj : 0 ≤ j) (hk : 0 ≤ k) :
    0 ≤ (bufCounters p i j k) 0 ∧ 0 ≤ (bufCounters p i j k) 1 ∧ 0 ≤ (bufCounters p i j k) 2 := by
  unfold bufCounters
  split_ifs <;> exact ⟨by assumption, by assumption, by assumption⟩

theorem bufFits_of (t : IndexType) {p : PackPlan} {i j k : Int} (hi : 0 ≤ i) (hj : 0 ≤ j) (hk : 0 ≤ k) (hp : 0 ≤ p.buffPlane)
    (hl : 0 ≤ p.buffLine) (h : bufIndex p i j k < 2 ^ 31) : bufFits t p i j k = true := by
  obtain ⟨c0, c1, c2⟩ := bufCounters_nonneg p hi hj hk
  rw [bufIndex_counters] at h
  have p0 := mul_nonneg c0 hp
  have p1 := mul_nonneg c1 hl
  unfold bufFits
  dsimp only
  rw [IndexType.fits_of p0 (by omega), IndexType.fits_of p1 (by omega), IndexType.fits_of (by omega) (by omega),
    IndexType.fits_of (by omega) (by omega)]
  rfl

theorem mem_loopByI {stride : Nat} {n : Int} : ∀ (m : Nat) (s b : Int), (n - s).toNat ≤ m → b ∈ loopBy stride n s → s ≤ b ∧ b < n
  | 0, s, b, hm, hb => by
    unfold loopBy at hb
    rw [if_neg (by omega)] at hb
    simp at hb
  | m + 1, s, b, hm, hb => by
    unfold loopBy at hb
    split at hb
    · rename_i hc
      rcases List.mem_cons.1 hb with rfl | hb
      · omega
      · have := mem_loopByI m (s + stride) b (by omega) hb
        omega
    · simp at hb

theorem blocksFit_of (t : IndexType) {stride : Nat} {n : Int} (h : n + stride ≤ 2 ^ 31) : blocksFit t stride n = true := by
  unfold blocksFit
  rw [List.all_eq_true]
  intro b hb
  have := mem_loopByI _ 0 b (le_refl _) hb
  exact IndexType.fits_of (by omega) (by omega)

/-- The transposed plan of an overlap. -/
theorem Inside.transposeM {s b : Box} (t : IndexType) (hs : IsOrder s.order) (hb : IsOrder b.order)
    (h : (s.collide b).empty = false) (hn : s.count < 2 ^ 31) :
    transposePlanM t s (s.collide b) b.order = .ok (transposePlan s (s.collide b) b.order) := by
  have hin := collide_inside h
  have he : s.empty = false := by
    obtain ⟨p, hp⟩ := Box.empty_false_iff_mem.1 h
    exact Box.empty_false_of_mem (Box.mem_collide.1 hp).1
  rw [Box.count_osize hs he] at hn
  have hpl := hin.plane hn
  have hsz := hin.sizes hn
  have hpos : ∀ d : Fin 3, 0 < (s.collide b).size.get d := fun d =>
    osize_pos (b := ⟨(s.collide b).low, (s.collide b).high, ⟨d, d, d⟩⟩) h 0
  have hbuf : 0 ≤ (s.collide b).size (b.order 0) * (s.collide b).size (b.order 1) ∧
      (s.collide b).size (b.order 0) * (s.collide b).size (b.order 1) < 2 ^ 31 := by
    have hc : (⟨(s.collide b).low, (s.collide b).high, b.order⟩ : Box).count = (s.collide b).count := rfl
    have e1 := Box.count_osize (b := ⟨(s.collide b).low, (s.collide b).high, b.order⟩) hb h
    have e2 := Box.count_osize (b := s.collide b) (by rw [hin.order]; exact hs) h
    rw [hc, e2] at e1
    have x0 := hpos (b.order.get 0)
    have x1 := hpos (b.order.get 1)
    have x2 := hpos (b.order.get 2)
    have e3 : (s.collide b).osize 2 * (s.collide b).osize 1 * (s.collide b).osize 0 =
      (s.collide b).size.get (b.order.get 2) * (s.collide b).size.get (b.order.get 1) * (s.collide b).size.get (b.order.get 0) := e1
    show 0 ≤ (s.collide b).size.get (b.order.get 0) * (s.collide b).size.get (b.order.get 1) ∧
      (s.collide b).size.get (b.order.get 0) * (s.collide b).size.get (b.order.get 1) < 2 ^ 31
    have p : 0 < (s.collide b).size.get (b.order.get 0) * (s.collide b).size.get (b.order.get 1) := mul_pos x0 x1
    refine ⟨p.le, ?_⟩
    have : (s.collide b).size.get (b.order.get 0) * (s.collide b).size.get (b.order.get 1) ≤
        (s.collide b).size.get (b.order.get 2) * (s.collide b).size.get (b.order.get 1) * (s.collide b).size.get (b.order.get 0) := by
      have e : (s.collide b).size.get (b.order.get 2) * (s.collide b).size.get (b.order.get 1) * (s.collide b).size.get (b.order.get 0)
        = (s.collide b).size.get (b.order.get 2) * ((s.collide b).size.get (b.order.get 0) * (s.collide b).size.get (b.order.get 1)) := by ring
      rw [e]
      have := mul_le_mul_of_nonneg_right (show 1 ≤ (s.collide b).size.get (b.order.get 2) by omega) p.le
      linarith
    omega
  unfold transposePlanM transposePlan
  rw [IndexType.arith_of hpl.1 hpl.2, IndexType.arith_of hbuf.1 hbuf.2]
  rfl

theorem nonempty_left {s b : Box} (h : (s.collide b).empty = false) : s.empty = false := by
  obtain ⟨p, hp⟩ := Box.empty_false_iff_mem.1 h
  exact Box.empty_false_of_mem (Box.mem_collide.1 hp).1

theorem Inside.transposeFits {s b : Box} (t : IndexType) {stride : Nat} (hs : IsOrder s.order) (hb : IsOrder b.order)
    (h : (s.collide b).empty = false) (hn : s.count < 2 ^ 31) (hst : s.count + stride ≤ 2 ^ 31) :
    unpackTransposeFits t stride (transposePlan s (s.collide b) b.order) = true := by
  have hin := collide_inside h
  have ho : IsOrder (s.collide b).order := by rw [hin.order]; exact hs
  have hn' := hn
  rw [Box.count_osize hs (nonempty_left h)] at hn' hst
  have hsz := hin.sizes hn'
  have q0 := hin.pos 0
  have q1 := hin.pos 1
  have q2 := hin.pos 2
  have l0 : (s.collide b).osize 0 ≤ (s.collide b).osize 2 * (s.collide b).osize 1 * (s.collide b).osize 0 := by
    have : 0 < (s.collide b).osize 2 * (s.collide b).osize 1 := mul_pos q2 q1
    nlinarith
  have l1 : (s.collide b).osize 1 ≤ (s.collide b).osize 2 * (s.collide b).osize 1 * (s.collide b).osize 0 := by
    have : 0 < (s.collide b).osize 2 * (s.collide b).osize 0 := mul_pos q2 q0
    nlinarith
  have l2 : (s.collide b).osize 2 ≤ (s.collide b).osize 2 * (s.collide b).osize 1 * (s.collide b).osize 0 := by
    have : 0 < (s.collide b).osize 1 * (s.collide b).osize 0 := mul_pos q1 q0
    nlinarith
  have hpos : ∀ d : Fin 3, 0 < (s.collide b).size.get d := fun d =>
    osize_pos (b := ⟨(s.collide b).low, (s.collide b).high, ⟨d, d, d⟩⟩) h 0
  unfold unpackTransposeFits
  rw [Bool.and_eq_true]
  constructor
  · rw [show (transposePlan s (s.collide b) b.order).size 2 = (s.collide b).osize 2 from rfl,
      show (transposePlan s (s.collide b) b.order).size 1 = (s.collide b).osize 1 from rfl,
      show (transposePlan s (s.collide b) b.order).size 0 = (s.collide b).osize 0 from rfl,
      blocksFit_of t (by omega), blocksFit_of t (by omega), blocksFit_of t (by omega)]
    simp
  · rw [List.all_eq_true]
    intro i hi
    rw [List.all_eq_true]
    intro j hj
    rw [List.all_eq_true]
    intro k hk
    rw [mem_loop] at hi hj hk
    have hi' : 0 ≤ i ∧ i < (s.collide b).osize 2 := hi
    have hj' : 0 ≤ j ∧ j < (s.collide b).osize 1 := hj
    have hk' : 0 ≤ k ∧ k < (s.collide b).osize 0 := hk
    obtain ⟨f1, f2⟩ := hin.place t hn' (p := transposePlan s (s.collide b) b.order) rfl rfl hi' hj' hk'
    rw [f1, f2]
    have hp := (Box.mem_at ho).2 ⟨i, j, k, hi', hj', hk', rfl⟩
    have hr := Box.offset_range (b := ⟨(s.collide b).low, (s.collide b).high, b.order⟩) hb hp
    have hc : (⟨(s.collide b).low, (s.collide b).high, b.order⟩ : Box).count = (s.collide b).count := rfl
    rw [hc, Box.count_osize ho h] at hr
    rw [bufFits_of t hi'.1 hj'.1 hk'.1 (mul_nonneg (hpos _).le (hpos _).le) (hpos _).le (by
      rw [bufIndex_eq hb hs hin.order]; omega)]
    rfl

/-! ## The factories -/

/-- The plans made for the messages of a box: without or with a transpose. -/
def planOf (transpose : Bool) (target b ov : Box) : PackPlan :=
  if transpose then transposePlan target ov b.order else directPlan target ov

theorem planM_eq (t : IndexType) (transpose : Bool) {target b : Box} (ht : IsOrder target.order) (hb : IsOrder b.order)
    (h : (target.collide b).empty = false) (hn : target.count < 2 ^ 31) :
    planM t transpose target (target.collide b) b.order = .ok (planOf transpose target b (target.collide b)) := by
  unfold planOf planM
  cases transpose
  · rw [Box.count_osize ht (nonempty_left h)] at hn
    exact (collide_inside h).directM t hn
  · exact Inside.transposeM t ht hb h hn

theorem offsetM_eq (t : IndexType) {target b : Box} (ht : IsOrder target.order)
    (h : (target.collide b).empty = false) (hn : target.count < 2 ^ 31) :
    overlapOffsetM t target (target.collide b) = .ok (overlapOffset target (target.collide b)) := by
  rw [Box.count_osize ht (nonempty_left h)] at hn
  exact (collide_inside h).offsetM t hn

theorem count_collide_le {s b : Box} : (s.collide b).count ≤ s.count := by
  rw [Box.count_eq_card, Box.count_eq_card]
  norm_cast
  apply Finset.card_le_card
  intro p hp
  simp only [Box.mem_points, Box.mem_collide] at hp ⊢
  exact hp.1

theorem entryM_eq (t : IndexType) (transpose : Bool) {target : Box} {boxes : List Box} (ht : IsOrder target.order)
    (hb : ∀ b ∈ boxes, IsOrder b.order) (hn : target.count < 2 ^ 31) (r : Nat) :
    entryM t transpose target boxes r = .ok (entryAt (planOf transpose target) target boxes r) := by
  unfold entryM entryAt
  rcases hg : boxes[r]? with _ | b
  · rfl
  · dsimp only [Option.bind_some]
    have hbo := hb b (List.mem_of_getElem? hg)
    cases he : (target.collide b).empty with
    | true => rfl
    | false =>
      simp only [Bool.false_eq_true, if_false]
      rw [offsetM_eq t ht he hn, planM_eq t transpose ht hbo he hn,
        toInt32_of_lt (Box.count_nonneg _) (lt_of_le_of_lt count_collide_le hn)]
      rfl

theorem overlapMapM_eq (t : IndexType) (transpose : Bool) {target : Box} {boxes : List Box} (ht : IsOrder target.order)
    (hb : ∀ b ∈ boxes, IsOrder b.order) (hn : target.count < 2 ^ 31) (me : Nat) :
    overlapMapM t transpose me target boxes = .ok (overlapG (planOf transpose target) me target boxes) := by
  unfold overlapMapM
  rw [mapRes_map (F := fun i => entryAt (planOf transpose target) target boxes ((i + me + 1) % boxes.length)) _ _ _
    (fun _ i _ => entryM_eq t transpose ht hb hn _)]
  show Except.ok _ = _
  rw [overlapG_eq, rot, List.filterMap_map, List.filterMap_map]
  rfl

theorem sendEntriesM_eq (t : IndexType) {inbox : Box} {bout : List Box} (hi : IsOrder inbox.order)
    (ho : ∀ b ∈ bout, IsOrder b.order) (hn : inbox.count < 2 ^ 31) (me : Nat) :
    sendEntriesM t bout me inbox = .ok (sendEntries bout me inbox) := by
  unfold sendEntriesM sendEntries
  split
  · rw [overlapMapM_eq t false hi ho hn me]; rfl
  · rfl

theorem recvEntriesM_eq (t : IndexType) (direct : Bool) {outbox : Box} {bin : List Box} (ho : IsOrder outbox.order)
    (hi : ∀ b ∈ bin, IsOrder b.order) (hn : outbox.count < 2 ^ 31) (me : Nat) :
    recvEntriesM t direct bin me outbox = .ok (recvEntries direct bin me outbox) := by
  unfold recvEntriesM recvEntries
  split
  · rw [overlapMapM_eq t _ ho hi hn me]
    cases direct <;> rfl
  · rfl

theorem entryA2aM_eq (t : IndexType) (transpose : Bool) {target : Box} {boxes : List Box} (ht : IsOrder target.order)
    (hb : ∀ b ∈ boxes, IsOrder b.order) (hn : target.count < 2 ^ 31) (r : Nat) :
    entryA2aM t transpose target boxes r = .ok ((boxes[r]?).map fun b =>
      let overlap := target.collide b
      if overlap.empty then (0, ⟨⟨0, 0, 0⟩, 0, 0, 0, 0, ⟨0, 0, 0⟩⟩)
      else (overlapOffset target overlap,
        if transpose then transposePlan target overlap b.order else directPlan target overlap)) := by
  unfold entryA2aM
  rcases hg : boxes[r]? with _ | b
  · rfl
  · dsimp only [Option.map_some]
    have hbo := hb b (List.mem_of_getElem? hg)
    cases he : (target.collide b).empty with
    | true => rfl
    | false =>
      simp only [Bool.false_eq_true, if_false]
      rw [offsetM_eq t ht he hn, planM_eq t transpose ht hbo he hn]
      rfl

theorem overlapMapA2aM_eq (t : IndexType) (transpose : Bool) {target : Box} {boxes : List Box} (ht : IsOrder target.order)
    (hb : ∀ b ∈ boxes, IsOrder b.order) (hn : target.count < 2 ^ 31) (group : List Nat) :
    overlapMapA2aM t transpose group target boxes = .ok (overlapMapAll2all transpose group target boxes) := by
  unfold overlapMapA2aM overlapMapAll2all
  rw [mapRes_map _ _ _ (fun _ i _ => entryA2aM_eq t transpose ht hb hn i)]
  show Except.ok _ = _
  rw [List.filterMap_map]
  rfl

/-! ### Sums of sizes -/

theorem totalM_eq : ∀ (l : List Entry) (s : Int), (∀ e ∈ l, 0 ≤ e.size) → 0 ≤ s → s + (l.map Entry.size).sum < 2 ^ 31 →
    totalM l s = .ok (s + (l.map Entry.size).sum)
  | [], s, _, _, _ => by simp [totalM]
  | e :: t, s, hp, h0, h1 => by
    simp only [List.map_cons, List.sum_cons] at h1 ⊢
    have he := hp e (by simp)
    have ht : 0 ≤ (t.map Entry.size).sum := List.sum_nonneg (by
      intro x hx
      obtain ⟨a, ha, rfl⟩ := List.mem_map.1 hx
      exact hp a (by simp [ha]))
    unfold totalM
    rw [intArith_of (by omega) (by omega)]
    show totalM t (s + e.size) = _
    rw [totalM_eq t (s + e.size) (fun a ha => hp a (by simp [ha])) (by omega) (by omega)]
    congr 1; ring

theorem recvLocsM_eq : ∀ (l : List Int) (s : Int), (∀ x ∈ l, 0 ≤ x) → 0 ≤ s → s + l.sum < 2 ^ 31 →
    recvLocsM l s = .ok (recvLocs l s)
  | [], s, _, _, _ => rfl
  | [x], s, _, _, _ => rfl
  | x :: y :: t, s, hp, h0, h1 => by
    have hx := hp x (by simp)
    have hs : 0 ≤ (y :: t).sum := List.sum_nonneg (fun a ha => hp a (by simp only [List.mem_cons] at ha ⊢; exact .inr ha))
    rw [List.sum_cons] at h1
    unfold recvLocsM
    rw [intArith_of (by omega) (by omega)]
    show (do
      let l ← recvLocsM (y :: t) (s + x)
      _) = _
    rw [recvLocsM_eq (y :: t) (s + x) (fun a ha => hp a (by simp only [List.mem_cons] at ha ⊢; exact .inr ha)) (by omega)
      (by omega)]
    rfl

/-- The step of the constructor of `iotripple`. -/
abbrev ioStep (rank : Nat) (st : IoRow × Int) (e : Entry × Nat) : IoRow × Int :=
  if e.1.proc ≠ rank then st else (⟨e.1.size, st.2, some e.2⟩, st.2 + e.1.size)

theorem ioStep_ge (rank : Nat) : ∀ (l : List (Entry × Nat)) (st : IoRow × Int), (∀ e ∈ l, 0 ≤ e.1.size) →
    st.2 ≤ (l.foldl (ioStep rank) st).2
  | [], st, _ => le_refl _
  | e :: t, st, hp => by
    rw [List.foldl_cons]
    have := ioStep_ge rank t (ioStep rank st e) (fun a ha => hp a (by simp [ha]))
    have he := hp e (by simp)
    have : st.2 ≤ (ioStep rank st e).2 := by
      unfold ioStep
      split
      · exact le_refl _
      · show st.2 ≤ st.2 + e.1.size
        omega
    omega

theorem ioInnerM_eq (rank : Nat) : ∀ (l : List (Entry × Nat)) (st : IoRow × Int), (∀ e ∈ l, 0 ≤ e.1.size) → 0 ≤ st.2 →
    (l.foldl (ioStep rank) st).2 < 2 ^ 31 → ioInnerM rank l st = .ok (l.foldl (ioStep rank) st)
  | [], st, _, _, _ => rfl
  | e :: t, st, hp, h0, h1 => by
    rw [List.foldl_cons] at h1 ⊢
    have hg := ioStep_ge rank t (ioStep rank st e) (fun a ha => hp a (by simp [ha]))
    have he := hp e (by simp)
    unfold ioInnerM
    by_cases hc : e.1.proc ≠ rank
    · rw [if_pos hc]
      have hs : ioStep rank st e = st := if_pos hc
      rw [hs] at h1 ⊢
      exact ioInnerM_eq rank t st (fun a ha => hp a (by simp [ha])) h0 h1
    · rw [if_neg hc]
      have hs : ioStep rank st e = (⟨e.1.size, st.2, some e.2⟩, st.2 + e.1.size) := if_neg hc
      rw [hs] at h1 hg ⊢
      dsimp only at hg
      rw [intArith_of (by omega) (by omega)]
      exact ioInnerM_eq rank t _ (fun a ha => hp a (by simp [ha])) (by show 0 ≤ st.2 + e.1.size; omega) h1

theorem lookSize_nonneg {entries : List Entry} (hp : ∀ e ∈ entries, 0 ≤ e.size) (q : Nat) : 0 ≤ lookSize entries q := by
  unfold lookSize
  rcases h : look entries q with _ | e
  · simp
  · exact hp e (List.mem_of_find?_eq_some h)

theorem ioRowsM_eq {entries : List Entry} (hn : (entries.map Entry.proc).Nodup) (hp : ∀ e ∈ entries, 0 ≤ e.size) :
    ∀ (g : List Nat) (off : Int), 0 ≤ off → off + (g.map (lookSize entries)).sum < 2 ^ 31 →
      ioRowsM entries g off = .ok (ioRows entries g off)
  | [], _, _, _ => rfl
  | a :: t, off, h0, h1 => by
    rw [List.map_cons, List.sum_cons] at h1
    have ha := lookSize_nonneg hp a
    have ht : 0 ≤ (t.map (lookSize entries)).sum := List.sum_nonneg (by
      intro x hx
      obtain ⟨q, -, rfl⟩ := List.mem_map.1 hx
      exact lookSize_nonneg hp q)
    obtain ⟨row, e1, -⟩ := ioInner_eq hn a off
    have e2 : entries.zipIdx.foldl (ioStep a) (⟨0, 0, none⟩, off) = (row, off + lookSize entries a) := e1
    unfold ioRowsM
    rw [ioInnerM_eq a entries.zipIdx (⟨0, 0, none⟩, off) (fun e he => hp _ (by
        obtain ⟨e, i⟩ := e
        exact List.mem_of_getElem? (List.mem_zipIdx_iff_getElem?.1 he)))
      h0 (by rw [e2]; dsimp only; omega), e2]
    show (do
      let rows ← ioRowsM entries t (off + lookSize entries a)
      _) = _
    rw [ioRowsM_eq hn hp t (off + lookSize entries a) (by omega) (by omega)]
    have e3 : ioRows entries (a :: t) off = row :: ioRows entries t (off + lookSize entries a) := by
      simp only [ioRows, e1]
    rw [e3]
    rfl

/-! ## The loops over the batches -/

theorem packM_ok {t : IndexType} {p : PackPlan} (h : packFits t p = true) (data buf : Int) :
    packM t p data buf = .ok (packMoves p data buf) := if_pos h

/-- The computations of the unpack loops fit. -/
def unpackFits (t : IndexType) (direct : Bool) (stride : Nat) (p : PackPlan) : Bool :=
  if direct then unpackDirectFits t p else unpackTransposeFits t stride p

theorem unpackM_ok {t : IndexType} {direct : Bool} {stride : Nat} {p : PackPlan} (h : unpackFits t direct stride p = true)
    (buf data : Int) : unpackM t direct stride p buf data = .ok (unpackWith direct stride p buf data) := by
  unfold unpackM unpackWith
  unfold unpackFits at h
  cases direct
  · simp only [Bool.false_eq_true, if_false] at h ⊢
    rw [if_pos h]
  · simp only [if_true] at h ⊢
    rw [if_pos h]

theorem packBatches_eq {t : IndexType} {p : PackPlan} (hf : packFits t p = true) {src inSize step off : Int} (hi : 0 ≤ inSize)
    (hs : 0 ≤ step) (h0 : 0 ≤ off) : ∀ (n s : Nat), (s + n : Nat) * inSize < 2 ^ 31 → off + (s + n : Nat) * step < 2 ^ 31 →
      packBatches t p src inSize step (List.range' s n) (off + s * step) =
        .ok ((List.range' s n).flatMap (fun j : Nat => packMoves p (src + j * inSize) (off + j * step)), off + (s + n : Nat) * step)
  | 0, s, _, _ => rfl
  | n + 1, s, h1, h2 => by
    have e : off + s * step + step = off + (s + 1 : Nat) * step := by push_cast; ring
    have m1 : (s : Int) * inSize ≤ (s + (n + 1) : Nat) * inSize := mul_le_mul_of_nonneg_right (by push_cast; omega) hi
    have m2 : ((s + 1 : Nat) : Int) * step ≤ (s + (n + 1) : Nat) * step := mul_le_mul_of_nonneg_right (by push_cast; omega) hs
    have m3 : 0 ≤ (s : Int) * inSize := mul_nonneg (by omega) hi
    have m4 : 0 ≤ ((s + 1 : Nat) : Int) * step := mul_nonneg (by omega) hs
    have e2 : s + (n + 1) = s + 1 + n := by omega
    rw [List.range'_succ]
    unfold packBatches
    rw [IndexType.arith_of m3 (by omega), res_bind, packM_ok hf, e, intArith_of (by omega) (by omega)]
    show (do
      let r ← packBatches t p src inSize step (List.range' (s + 1) n) (off + (s + 1 : Nat) * step)
      _) = _
    rw [packBatches_eq hf hi hs h0 n (s + 1) (by rw [← e2]; exact h1) (by rw [← e2]; exact h2), ← e2]
    rfl

theorem unpackBatches_eq {t : IndexType} {direct : Bool} {stride : Nat} {p : PackPlan} (hf : unpackFits t direct stride p = true)
    {base dst outSize step off : Int} (hi : 0 ≤ outSize) (hs : 0 ≤ step) (h0 : 0 ≤ off) : ∀ (n s : Nat),
      (s + n : Nat) * outSize < 2 ^ 31 → off + (s + n : Nat) * step < 2 ^ 31 →
      unpackBatches t direct stride p base dst outSize step (List.range' s n) (off + s * step) =
        .ok ((List.range' s n).flatMap (fun j : Nat => unpackWith direct stride p (base + (off + j * step)) (dst + j * outSize)),
          off + (s + n : Nat) * step)
  | 0, s, _, _ => rfl
  | n + 1, s, h1, h2 => by
    have e : off + s * step + step = off + (s + 1 : Nat) * step := by push_cast; ring
    have m1 : (s : Int) * outSize ≤ (s + (n + 1) : Nat) * outSize := mul_le_mul_of_nonneg_right (by push_cast; omega) hi
    have m2 : ((s + 1 : Nat) : Int) * step ≤ (s + (n + 1) : Nat) * step := mul_le_mul_of_nonneg_right (by push_cast; omega) hs
    have m3 : 0 ≤ (s : Int) * outSize := mul_nonneg (by omega) hi
    have m4 : 0 ≤ ((s + 1 : Nat) : Int) * step := mul_nonneg (by omega) hs
    have e2 : s + (n + 1) = s + 1 + n := by omega
    rw [List.range'_succ]
    unfold unpackBatches
    rw [IndexType.arith_of m3 (by omega), res_bind, unpackM_ok hf, e, intArith_of (by omega) (by omega)]
    show (do
      let r ← unpackBatches t direct stride p base dst outSize step (List.range' (s + 1) n) (off + (s + 1 : Nat) * step)
      _) = _
    rw [unpackBatches_eq hf hi hs h0 n (s + 1) (by rw [← e2]; exact h1) (by rw [← e2]; exact h2), ← e2]
    rfl

theorem packBatches_range {t : IndexType} {p : PackPlan} (hf : packFits t p = true) {src inSize step off : Int} (hi : 0 ≤ inSize)
    (hs : 0 ≤ step) (h0 : 0 ≤ off) {nb : Nat} (h1 : nb * inSize < 2 ^ 31) (h2 : off + nb * step < 2 ^ 31) :
    packBatches t p src inSize step (List.range nb) off =
      .ok ((List.range nb).flatMap (fun j : Nat => packMoves p (src + j * inSize) (off + j * step)), off + nb * step) := by
  have := packBatches_eq (src := src) hf hi hs h0 nb 0 (by simpa using h1) (by simpa using h2)
  simpa [List.range_eq_range'] using this

theorem unpackBatches_range {t : IndexType} {direct : Bool} {stride : Nat} {p : PackPlan}
    (hf : unpackFits t direct stride p = true) {base dst outSize step off : Int} (hi : 0 ≤ outSize) (hs : 0 ≤ step)
    (h0 : 0 ≤ off) {nb : Nat} (h1 : nb * outSize < 2 ^ 31) (h2 : off + nb * step < 2 ^ 31) :
    unpackBatches t direct stride p base dst outSize step (List.range nb) off =
      .ok ((List.range nb).flatMap (fun j : Nat => unpackWith direct stride p (base + (off + j * step)) (dst + j * outSize)),
        off + nb * step) := by
  have := unpackBatches_eq (base := base) (dst := dst) hf hi hs h0 nb 0 (by simpa using h1) (by simpa using h2)
  simpa [List.range_eq_range'] using this

end Verif
