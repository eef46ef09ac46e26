import Verif.SpecTrigLaws
import Verif.LawLemmas
import Verif.R2RCalls

/-!
# Equations between the weights of the sine and cosine transforms
-/

namespace Verif
open Finset

/-! ## The weights -/

theorem weight_cos_true {n j : Nat} (hj : j < n) (k : Nat) : weight .cos true n j k = 2 * Real.cos (Real.pi * (j + 1 / 2) * k / n) := by
  simp [weight, trigOf, redft10, hj]

theorem weight_sin_true {n j : Nat} (hj : j < n) (k : Nat) : weight .sin true n j k = 2 * Real.sin (Real.pi * (j + 1 / 2) * (k + 1) / n) := by
  simp [weight, trigOf, rodft10, hj]

theorem weight_cos_false {n j : Nat} (hj : j < n) (k : Nat) :
    weight .cos false n j k = 2 * (if j = 0 then 1 else 2 * Real.cos (Real.pi * j * (k + 1 / 2) / n)) := by
  cases j with
  | zero => simp [weight, trigOf, redft01]
  | succ i =>
    have : i < n - 1 := by omega
    simp [weight, trigOf, redft01, this]

theorem weight_sin_false {n j : Nat} (hj : j < n) (k : Nat) :
    weight .sin false n j k = 2 * (if j = n - 1 then (-1) ^ k else 2 * Real.sin (Real.pi * (j + 1) * (k + 1 / 2) / n)) := by
  by_cases h : j = n - 1
  · subst h
    simp [weight, trigOf, rodft01]
  · have h1 : j < n - 1 := by omega
    have h2 : ¬ n - 1 = j := fun e => h e.symm
    simp [weight, trigOf, rodft01, h, h1, h2]

theorem redft00_one {n j : Nat} (hn : 2 ≤ n) (hj : j < n) (k : Nat) : redft00 n (fun i => if i = j then 1 else 0) k =
    if j = 0 then 1 else if j = n - 1 then (-1) ^ k else 2 * Real.cos (Real.pi * j * k / (n - 1 : Nat)) := by
  cases j with
  | zero =>
    have : ¬ n - 1 = 0 := by omega
    simp [redft00, this]
  | succ i =>
    by_cases h : i + 1 = n - 1
    · have h1 : ¬ i < n - 2 := by omega
      simp [redft00, h.symm, h1]
    · have h1 : i < n - 2 := by omega
      have h2 : ¬ n - 1 = i + 1 := fun e => h e.symm
      simp [redft00, h, h1, h2]

/-! ## Turning by a half wave -/

theorem cos_turn (m : Nat) (x : ℝ) : Real.cos (m * Real.pi - x) = (-1) ^ m * Real.cos x := by
  rw [Real.cos_sub, Real.cos_nat_mul_pi, Real.sin_nat_mul_pi]; ring

theorem sin_turn (m : Nat) (x : ℝ) : Real.sin ((m + 1) * Real.pi - x) = (-1) ^ m * Real.sin x := by
  have h1 := Real.cos_nat_mul_pi (m + 1)
  have h2 := Real.sin_nat_mul_pi (m + 1)
  push_cast at h1 h2
  rw [Real.sin_sub, h1, h2]; ring

theorem sin_half_turn (m : Nat) (x : ℝ) : Real.sin ((m + 1 / 2) * Real.pi - x) = (-1) ^ m * Real.cos x := by
  have e : (m + 1 / 2) * Real.pi - x = Real.pi / 2 - (x - m * Real.pi) := by ring
  rw [e, Real.sin_pi_div_two_sub, Real.cos_sub, Real.cos_nat_mul_pi, Real.sin_nat_mul_pi]; ring

theorem sign_sub {a b : Nat} (h : a ≤ b) : (-1 : ℝ) ^ (b - a) = (-1) ^ b * (-1) ^ a := by
  obtain ⟨c, rfl⟩ := Nat.exists_eq_add_of_le h
  rw [Nat.add_sub_cancel_left, pow_add, mul_comm ((-1 : ℝ) ^ a), mul_assoc, ← mul_pow]
  norm_num

theorem cast_back {n j : Nat} (hj : j < n) : ((n - 1 - j : Nat) : ℝ) = n - 1 - j := by
  rw [Nat.sub_sub, Nat.cast_sub (by omega)]; push_cast; ring

theorem redft00_back {n j : Nat} (hn : 2 ≤ n) (hj : j < n) (k : Nat) :
    redft00 n (fun i => if i = n - 1 - j then 1 else 0) k = (-1) ^ k * redft00 n (fun i => if i = j then 1 else 0) k := by
  rw [redft00_one hn (by omega), redft00_one hn hj]
  have hn' : ((n - 1 : Nat) : ℝ) ≠ 0 := by exact_mod_cast (by omega : n - 1 ≠ 0)
  by_cases h0 : j = 0
  · rw [if_neg (by omega), if_pos (by omega), if_pos h0, mul_one]
  · by_cases h1 : j = n - 1
    · rw [if_pos (by omega), if_neg h0, if_pos h1, ← mul_pow]; norm_num
    · rw [if_neg (by omega), if_neg (by omega), if_neg h0, if_neg h1, Nat.cast_sub (by omega : j ≤ n - 1)]
      have e : Real.pi * (((n - 1 : Nat) : ℝ) - j) * k / (n - 1 : Nat) = k * Real.pi - Real.pi * j * k / (n - 1 : Nat) := by field_simp
      rw [e, cos_turn]; ring

theorem redft00_front {n j k : Nat} (hn : 2 ≤ n) (hj : j < n) (hk : k < n) :
    redft00 n (fun i => if i = j then 1 else 0) (n - 1 - k) = (-1) ^ j * redft00 n (fun i => if i = j then 1 else 0) k := by
  rw [redft00_one hn hj, redft00_one hn hj]
  have hn' : ((n - 1 : Nat) : ℝ) ≠ 0 := by exact_mod_cast (by omega : n - 1 ≠ 0)
  by_cases h0 : j = 0
  · rw [if_pos h0, if_pos h0, h0]; simp
  · by_cases h1 : j = n - 1
    · rw [if_neg h0, if_pos h1, if_neg h0, if_pos h1, sign_sub (by omega), h1]
    · rw [if_neg h0, if_neg h1, if_neg h0, if_neg h1, Nat.cast_sub (by omega : k ≤ n - 1)]
      have e : Real.pi * j * (((n - 1 : Nat) : ℝ) - k) / (n - 1 : Nat) = j * Real.pi - Real.pi * j * k / (n - 1 : Nat) := by field_simp
      rw [e, cos_turn]; ring

/-- The input from the other end: the signs of the output alternate. -/
theorem weight_back (z : Trig) {n j : Nat} (hn : z.least ≤ n) (hj : j < n) (k : Nat) : weight z true n (n - 1 - j) k = (-1) ^ k * weight z true n j k := by
  have hn' : (n : ℝ) ≠ 0 := by exact_mod_cast (by omega : n ≠ 0)
  cases z with
  | cos =>
    rw [weight_cos_true (by omega), weight_cos_true hj, cast_back hj]
    have e : Real.pi * ((n : ℝ) - 1 - j + 1 / 2) * k / n = k * Real.pi - Real.pi * (j + 1 / 2) * k / n := by field_simp; ring
    rw [e, cos_turn]; ring
  | sin =>
    rw [weight_sin_true (by omega), weight_sin_true hj, cast_back hj]
    have e : Real.pi * ((n : ℝ) - 1 - j + 1 / 2) * (k + 1) / n = (k + 1) * Real.pi - Real.pi * (j + 1 / 2) * (k + 1) / n := by field_simp; ring
    rw [e, sin_turn]; ring
  | cos1 => exact redft00_back hn hj k

/-- The output from the other end: alternating signs of the input. -/
theorem weight_front (z : Trig) {n j k : Nat} (hn : z.least ≤ n) (hj : j < n) (hk : k < n) :
    weight z false n j (n - 1 - k) = (-1) ^ j * weight z false n j k := by
  have hn' : (n : ℝ) ≠ 0 := by exact_mod_cast (by omega : n ≠ 0)
  cases z with
  | cos =>
    rw [weight_cos_false hj, weight_cos_false hj, cast_back hk]
    by_cases h0 : j = 0
    · rw [if_pos h0, if_pos h0, h0]; simp
    · have e : Real.pi * j * ((n : ℝ) - 1 - k + 1 / 2) / n = j * Real.pi - Real.pi * j * (k + 1 / 2) / n := by field_simp; ring
      rw [if_neg h0, if_neg h0, e, cos_turn]; ring
  | sin =>
    rw [weight_sin_false hj, weight_sin_false hj, cast_back hk]
    by_cases h1 : j = n - 1
    · rw [if_pos h1, if_pos h1, sign_sub (by omega), h1]; ring
    · have e : Real.pi * (j + 1) * ((n : ℝ) - 1 - k + 1 / 2) / n = (j + 1) * Real.pi - Real.pi * (j + 1) * (k + 1 / 2) / n := by field_simp; ring
      rw [if_neg h1, if_neg h1, e, sin_turn]; ring
  | cos1 =>
    change 2 * redft00 n _ _ = _ * (2 * redft00 n _ _)
    rw [redft00_front hn hj hk]; ring

/-- The sine transform from the other end is the cosine transform with alternating signs of the input. -/
theorem weight_sin_cos {n j k : Nat} (hj : j < n) (hk : k < n) : weight .sin true n j (n - 1 - k) = (-1) ^ j * weight .cos true n j k := by
  have hn' : (n : ℝ) ≠ 0 := by exact_mod_cast (by omega : n ≠ 0)
  rw [weight_sin_true hj, weight_cos_true hj, cast_back hk]
  have e : Real.pi * (j + 1 / 2) * ((n : ℝ) - 1 - k + 1) / n = (j + 1 / 2) * Real.pi - Real.pi * (j + 1 / 2) * k / n := by field_simp; ring
  rw [e, sin_half_turn]; ring

/-- The same for the backward transforms, where the input is turned and the signs of the output alternate. -/
theorem weight_sin_cos_back {n j : Nat} (hj : j < n) (k : Nat) : weight .sin false n (n - 1 - j) k = (-1) ^ k * weight .cos false n j k := by
  have hn' : (n : ℝ) ≠ 0 := by exact_mod_cast (by omega : n ≠ 0)
  rw [weight_sin_false (by omega), weight_cos_false hj, cast_back hj]
  by_cases h0 : j = 0
  · rw [if_pos (by omega), if_pos h0]; ring
  · have e : Real.pi * ((n : ℝ) - 1 - j + 1) * (k + 1 / 2) / n = (k + 1 / 2) * Real.pi - Real.pi * j * (k + 1 / 2) / n := by field_simp; ring
    rw [if_neg (by omega), if_neg h0, e, sin_half_turn]; ring

/-! ## Three directions -/

section
variable {w w' : Box} {z z' : Trig} {fwd : Bool} {σ : Equiv.Perm (Fin 3)}

theorem fromEnd_mem {p : A3 Int} (hp : p ∈ w) : fromEnd w p ∈ w := by
  rw [Box.mem_def]
  intro d
  have := Box.mem_def.1 hp d
  rw [fromEnd, A3.get_of]
  omega

theorem fromEnd_fromEnd (p : A3 Int) : fromEnd w (fromEnd w p) = p := by
  refine A3.ext' fun d => ?_
  rw [fromEnd, A3.get_of, fromEnd, A3.get_of]
  ring

theorem rel_fromEnd {p : A3 Int} (hp : p ∈ w) (d : Fin 3) : w.rel (fromEnd w p) d = w.extent d - 1 - w.rel p d := by
  have := Box.mem_def.1 hp d
  unfold Box.rel Box.extent
  rw [fromEnd, A3.get_of]
  omega

theorem trig3_same {G G' : A3 Int → ℝ} (h : ∀ p ∈ w, G p = G' p) (z : Trig) (fwd : Bool) (p : A3 Int) : trig3 z fwd w G p = trig3 z fwd w G' p :=
  sum_congr rfl fun q hq => by rw [h q (Box.mem_points.1 hq)]

theorem trig3_linear (z : Trig) (fwd : Bool) (a b : ℝ) (G H : A3 Int → ℝ) (p : A3 Int) :
    trig3 z fwd w (fun q => a * G q + b * H q) p = a * trig3 z fwd w G p + b * trig3 z fwd w H p := by
  unfold trig3
  rw [Finset.mul_sum, Finset.mul_sum, ← sum_add_distrib]
  exact sum_congr rfl fun q _ => by ring

theorem trig3_moved (h : SameExtents w w' σ) (z : Trig) (fwd : Bool) {G G' : A3 Int → ℝ} (hG : ∀ q ∈ w, G' (moved w w' σ q) = G q) (p : A3 Int) :
    trig3 z fwd w' G' (moved w w' σ p) = trig3 z fwd w G p := by
  unfold trig3
  symm
  refine sum_nbij' (fun q => moved w w' σ q) (fun q => moved w' w σ.symm q) (fun q hq => ?_) (fun q hq => ?_) (fun q _ => moved_moved q) (fun q _ => ?_) fun q hq => ?_
  · exact Box.mem_points.2 (moved_mem h (Box.mem_points.1 hq))
  · exact Box.mem_points.2 (moved_mem (shape_symm h) (Box.mem_points.1 hq))
  · exact moved_moved (σ := σ.symm) q
  · rw [hG q (Box.mem_points.1 hq)]
    congr 1
    rw [← Equiv.prod_comp σ]
    exact prod_congr rfl fun d _ => by rw [rel_moved, rel_moved, h d]

/-- Input from the other end. -/
theorem trig3_fromEnd (hwt : ∀ d j k, j < w.extent d → weight z fwd (w.extent d) (w.extent d - 1 - j) k = (-1) ^ k * weight z' fwd (w.extent d) j k)
    {G G' : A3 Int → ℝ} (hG : ∀ q ∈ w, G' (fromEnd w q) = G q) (p : A3 Int) : trig3 z fwd w G' p = alternating w p * trig3 z' fwd w G p := by
  unfold trig3
  rw [Finset.mul_sum]
  symm
  refine sum_nbij' (fromEnd w) (fromEnd w) (fun q hq => ?_) (fun q hq => ?_) (fun q _ => fromEnd_fromEnd q) (fun q _ => fromEnd_fromEnd q) fun q hq => ?_
  · exact Box.mem_points.2 (fromEnd_mem (Box.mem_points.1 hq))
  · exact Box.mem_points.2 (fromEnd_mem (Box.mem_points.1 hq))
  · have hq' := Box.mem_points.1 hq
    have e : ∏ d : Fin 3, weight z fwd (w.extent d) (w.rel (fromEnd w q) d) (w.rel p d) =
        alternating w p * ∏ d : Fin 3, weight z' fwd (w.extent d) (w.rel q d) (w.rel p d) := by
      rw [alternating, ← prod_mul_distrib]
      exact prod_congr rfl fun d _ => by rw [rel_fromEnd hq', hwt d _ _ (rel_of_mem hq' d).2]
    rw [hG q hq', e]
    ring

/-- Output from the other end. -/
theorem trig3_alternating (hwt : ∀ d j k, j < w.extent d → k < w.extent d →
      weight z fwd (w.extent d) j (w.extent d - 1 - k) = (-1) ^ j * weight z' fwd (w.extent d) j k)
    {G G' : A3 Int → ℝ} (hG : ∀ q ∈ w, G' q = alternating w q * G q) {p : A3 Int} (hp : p ∈ w) : trig3 z fwd w G (fromEnd w p) = trig3 z' fwd w G' p := by
  unfold trig3
  refine sum_congr rfl fun q hq => ?_
  have hq' := Box.mem_points.1 hq
  have e : ∏ d : Fin 3, weight z fwd (w.extent d) (w.rel q d) (w.rel (fromEnd w p) d) =
      alternating w q * ∏ d : Fin 3, weight z' fwd (w.extent d) (w.rel q d) (w.rel p d) := by
    rw [alternating, ← prod_mul_distrib]
    exact prod_congr rfl fun d _ => by rw [rel_fromEnd hp, hwt d _ _ (rel_of_mem hq' d).2 (rel_of_mem hp d).2]
  rw [hG q hq', e]
  ring

theorem alternating_sq (p : A3 Int) : alternating w p * alternating w p = 1 := by
  unfold alternating
  rw [← prod_mul_distrib]
  refine prod_eq_one fun d _ => ?_
  rw [← mul_pow]
  norm_num

theorem trig3_separable (z : Trig) (fwd : Bool) (hn : ∀ d, z.least ≤ w.extent d) (f : Fin 3 → Nat → ℝ) {G : A3 Int → ℝ}
    (hG : ∀ q ∈ w, G q = ∏ d, f d (w.rel q d)) (p : A3 Int) : trig3 z fwd w G p = ∏ d, trigOf z fwd (w.extent d) (f d) (w.rel p d) := by
  have hA : AllDirs 0 1 2 := ⟨by decide, by decide, by decide⟩
  unfold trig3
  rw [sum_congr rfl (fun q hq => by rw [hG q (Box.mem_points.1 hq)] :
    ∀ q ∈ w.points, G q * ∏ d : Fin 3, weight z fwd (w.extent d) (w.rel q d) (w.rel p d) =
      (∏ d, f d (w.rel q d)) * ∏ d : Fin 3, weight z fwd (w.extent d) (w.rel q d) (w.rel p d)), sum_points w hA p]
  have e : ∀ c i j : Nat, (∏ d, f d (w.rel (place w 0 1 2 p i j c) d)) * ∏ d : Fin 3, weight z fwd (w.extent d) (w.rel (place w 0 1 2 p i j c) d) (w.rel p d) =
      (f 2 c * weight z fwd (w.extent 2) c (w.rel p 2)) * ((f 0 i * weight z fwd (w.extent 0) i (w.rel p 0)) * (f 1 j * weight z fwd (w.extent 1) j (w.rel p 1))) := by
    intro c i j
    have ra : w.rel (place w 0 1 2 p i j c) 0 = i := by unfold Box.rel; rw [place_a]; omega
    have rb : w.rel (place w 0 1 2 p i j c) 1 = j := by unfold Box.rel; rw [place_b w hA]; omega
    have rc : w.rel (place w 0 1 2 p i j c) 2 = c := by unfold Box.rel; rw [place_c w hA]; omega
    rw [Fin.prod_univ_three, Fin.prod_univ_three, ra, rb, rc]
    ring
  simp only [e]
  rw [Fin.prod_univ_three, trigOf_weight z fwd (hn 0), trigOf_weight z fwd (hn 1), trigOf_weight z fwd (hn 2)]
  simp only [← Finset.mul_sum, ← Finset.sum_mul]
  ring

end

end Verif
