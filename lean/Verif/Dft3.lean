import Verif.SpecDft
import Verif.ExecFields

/-!
# Three one dimensional transforms are the three dimensional transform
-/

namespace Verif
open Finset Stock

theorem prod_dirs {M : Type} [CommMonoid M] {a b c : Fin 3} (h : AllDirs a b c) (f : Fin 3 → M) : ∏ d : Fin 3, f d = f a * f b * f c := by
  obtain ⟨h1, h2, h3⟩ := h
  rw [Fin.prod_univ_three]
  have e : ∀ x y z : M, x * y * z = x * z * y := fun x y z => mul_right_comm x y z
  have e2 : ∀ x y z : M, x * y * z = y * x * z := fun x y z => by rw [mul_comm x y]
  match a, b, c with
  | 0, 1, 2 => rfl
  | 0, 2, 1 => exact e _ _ _
  | 1, 0, 2 => exact e2 _ _ _
  | 1, 2, 0 => rw [e2, e]
  | 2, 0, 1 => rw [e, e2]
  | 2, 1, 0 => rw [e, e2, e]
  | 0, 0, _ => exact absurd rfl h1
  | 1, 1, _ => exact absurd rfl h1
  | 2, 2, _ => exact absurd rfl h1
  | 0, 1, 0 => simp_all
  | 0, 1, 1 => simp_all
  | 0, 2, 0 => simp_all
  | 0, 2, 2 => simp_all
  | 1, 0, 0 => simp_all
  | 1, 0, 1 => simp_all
  | 1, 2, 1 => simp_all
  | 1, 2, 2 => simp_all
  | 2, 0, 0 => simp_all
  | 2, 0, 2 => simp_all
  | 2, 1, 1 => simp_all
  | 2, 1, 2 => simp_all

theorem AllDirs.cases {a b c : Fin 3} (h : AllDirs a b c) (d : Fin 3) : d = a ∨ d = b ∨ d = c := by
  obtain ⟨h1, h2, h3⟩ := h
  revert d; revert h1 h2 h3; revert a b c; decide

theorem extent_eq (w : Box) (d : Fin 3) : w.extent d = (w.size d).toNat := by
  unfold Box.extent; congr 1; exact (Box.size_get w d).symm

/-- The index with three given positions. -/
def place (w : Box) (a b c : Fin 3) (p : A3 Int) (i j k : Nat) : A3 Int :=
  ((p.set c (w.low.get c + k)).set b (w.low.get b + j)).set a (w.low.get a + i)

theorem place_a (w : Box) {a b c : Fin 3} (p : A3 Int) (i j k : Nat) : (place w a b c p i j k).get a = w.low.get a + i := by
  unfold place; rw [A3.get_set_self]

theorem place_b (w : Box) {a b c : Fin 3} (h : AllDirs a b c) (p : A3 Int) (i j k : Nat) : (place w a b c p i j k).get b = w.low.get b + j := by
  unfold place; rw [A3.get_set_ne _ _ (fun e => h.1 e.symm), A3.get_set_self]

theorem place_c (w : Box) {a b c : Fin 3} (h : AllDirs a b c) (p : A3 Int) (i j k : Nat) : (place w a b c p i j k).get c = w.low.get c + k := by
  obtain ⟨h1, h2, h3⟩ := h
  unfold place
  rw [A3.get_set_ne _ _ (by first | exact fun e => h2 e.symm | exact fun e => h3 e.symm),
    A3.get_set_ne _ _ (by first | exact fun e => h3 e.symm | exact fun e => h2 e.symm), A3.get_set_self]

theorem sum_points {M : Type} [AddCommMonoid M] (w : Box) {a b c : Fin 3} (h : AllDirs a b c) (p : A3 Int) (f : A3 Int → M) :
    ∑ q ∈ w.points, f q = ∑ k ∈ range (w.extent c), ∑ j ∈ range (w.extent b), ∑ i ∈ range (w.extent a), f (place w a b c p i j k) := by
  have e1 : ∑ k ∈ range (w.extent c), ∑ j ∈ range (w.extent b), ∑ i ∈ range (w.extent a), f (place w a b c p i j k) =
      ∑ x ∈ range (w.extent c) ×ˢ (range (w.extent b) ×ˢ range (w.extent a)), f (place w a b c p x.2.2 x.2.1 x.1) := by
    rw [sum_product]
    refine sum_congr rfl fun k _ => ?_
    rw [sum_product]
  rw [e1]
  symm
  have hmem : ∀ d q, q ∈ w → w.low.get d ≤ q.get d ∧ q.get d ≤ w.high.get d := fun d q hq => Box.mem_def.1 hq d
  refine sum_bij' (fun x _ => place w a b c p x.2.2 x.2.1 x.1) (fun q _ => (w.rel q c, w.rel q b, w.rel q a)) ?_ ?_ ?_ ?_ ?_
  · intro x hx
    simp only [mem_product, mem_range, Box.extent] at hx
    rw [Box.mem_points, Box.mem_def]
    intro d
    rcases h.cases d with rfl | rfl | rfl
    · rw [place_a]; omega
    · rw [place_b w h]; omega
    · rw [place_c w h]; omega
  · intro q hq
    rw [Box.mem_points] at hq
    have h1 := hmem a q hq
    have h2 := hmem b q hq
    have h3 := hmem c q hq
    simp only [mem_product, mem_range, Box.extent, Box.rel]
    omega
  · intro x hx
    ext
    · simp only [Box.rel]; rw [place_c w h]; omega
    · simp only [Box.rel]; rw [place_b w h]; omega
    · simp only [Box.rel]; rw [place_a w]; omega
  · intro q hq
    rw [Box.mem_points] at hq
    ext d
    have := hmem d q hq
    rcases h.cases d with rfl | rfl | rfl
    · rw [place_a]; simp only [Box.rel]; omega
    · rw [place_b w h]; simp only [Box.rel]; omega
    · rw [place_c w h]; simp only [Box.rel]; omega
  · intro x _; rfl

theorem along_dft (fwd : Bool) (w : Box) (d : Fin 3) (G : A3 Int → ℂ) (p : A3 Int) :
    along w d (dft fwd) G p = ∑ i ∈ range (w.extent d), G (p.set d (w.low.get d + i)) * root fwd (w.extent d) (i * w.rel p d) := by
  unfold along dft
  rw [lineOf_length, ← extent_eq]
  refine sum_congr rfl fun i hi => ?_
  rw [mem_range] at hi
  congr 1
  unfold lineOf
  rw [getD_range_map _ _ (show i < (w.high.get d - w.low.get d + 1).toNat from hi)]

theorem rel_set_ne (w : Box) (p : A3 Int) {d e : Fin 3} (v : Int) (h : e ≠ d) : w.rel (p.set d v) e = w.rel p e := by
  unfold Box.rel; rw [A3.get_set_ne _ _ h]

/-- Transforms of the lines in all three directions, in any order. -/
theorem alongAll_dft3 (fwd : Bool) (w : Box) {a b c : Fin 3} (h : AllDirs a b c) (G : A3 Int → ℂ) :
    alongAll w (dft fwd) [a, b, c] G = dft3 fwd w G := by
  funext p
  show along w c (dft fwd) (along w b (dft fwd) (along w a (dft fwd) G)) p = _
  unfold dft3
  rw [sum_points w h p, along_dft]
  refine sum_congr rfl fun k hk => ?_
  rw [along_dft, sum_mul]
  refine sum_congr rfl fun j hj => ?_
  rw [along_dft, sum_mul, sum_mul]
  refine sum_congr rfl fun i hi => ?_
  rw [mem_range] at hi hj hk
  obtain ⟨h1, h2, h3⟩ := h
  unfold wave
  rw [prod_dirs ⟨h1, h2, h3⟩]
  have ra : w.rel (place w a b c p i j k) a = i := by unfold Box.rel; rw [place_a]; omega
  have rb : w.rel (place w a b c p i j k) b = j := by unfold Box.rel; rw [place_b w ⟨h1, h2, h3⟩]; omega
  have rc : w.rel (place w a b c p i j k) c = k := by unfold Box.rel; rw [place_c w ⟨h1, h2, h3⟩]; omega
  rw [ra, rb, rc, rel_set_ne _ _ _ (by first | exact h1 | exact h2), rel_set_ne _ _ _ (by first | exact h2 | exact h3), rel_set_ne _ _ _ (by first | exact h3 | exact h2)]
  show G (place w a b c p i j k) * _ * _ * _ = _
  ring

theorem sum_three (s t u : Finset Nat) (A B C : Nat → ℂ) :
    ∑ k ∈ s, ∑ j ∈ t, ∑ i ∈ u, A i * (B j * C k) = (∑ i ∈ u, A i) * ((∑ j ∈ t, B j) * ∑ k ∈ s, C k) := by
  rw [Finset.mul_sum, Finset.mul_sum]
  refine sum_congr rfl fun k _ => ?_
  rw [show (∑ j ∈ t, B j) * C k = ∑ j ∈ t, B j * C k from sum_mul _ _ _, Finset.mul_sum]
  refine sum_congr rfl fun j _ => ?_
  rw [sum_mul]

/-- Fourier inversion in three dimensions. -/
theorem dft3_inv (fwd : Bool) (w : Box) (G : A3 Int → ℂ) {p : A3 Int} (hp : p ∈ w) :
    dft3 (!fwd) w (dft3 fwd w G) p = w.count * G p := by
  have hmem : ∀ q, q ∈ w → ∀ d, w.low.get d ≤ q.get d ∧ q.get d ≤ w.high.get d := fun q hq d => Box.mem_def.1 hq d
  have orth : ∀ s ∈ w.points, ∑ q ∈ w.points, wave fwd w s q * wave (!fwd) w q p = if s = p then (w.count : ℂ) else 0 := by
    intro s hs
    rw [Box.mem_points] at hs
    have hA : AllDirs 0 1 2 := ⟨by decide, by decide, by decide⟩
    have e1 : ∀ k i j : Nat, wave fwd w s (place w 0 1 2 p i j k) * wave (!fwd) w (place w 0 1 2 p i j k) p =
        (root fwd (w.extent 0) (w.rel s 0 * i) * root (!fwd) (w.extent 0) (i * w.rel p 0)) *
        ((root fwd (w.extent 1) (w.rel s 1 * j) * root (!fwd) (w.extent 1) (j * w.rel p 1)) *
        (root fwd (w.extent 2) (w.rel s 2 * k) * root (!fwd) (w.extent 2) (k * w.rel p 2))) := by
      intro k i j
      have ra : w.rel (place w 0 1 2 p i j k) 0 = i := by unfold Box.rel; rw [place_a]; omega
      have rb : w.rel (place w 0 1 2 p i j k) 1 = j := by unfold Box.rel; rw [place_b w hA]; omega
      have rc : w.rel (place w 0 1 2 p i j k) 2 = k := by unfold Box.rel; rw [place_c w hA]; omega
      unfold wave
      rw [Fin.prod_univ_three, Fin.prod_univ_three, ra, rb, rc]
      ring
    rw [sum_points w hA p]
    simp only [e1]
    have one : ∀ d : Fin 3, ∑ i ∈ range (w.extent d), root fwd (w.extent d) (w.rel s d * i) * root (!fwd) (w.extent d) (i * w.rel p d) =
        if s.get d = p.get d then (w.extent d : ℂ) else 0 := by
      intro d
      have h1 := hmem s hs d
      have h2 := hmem p hp d
      rw [root_orth fwd (by unfold Box.extent; omega) (by unfold Box.extent Box.rel; omega) (by unfold Box.extent Box.rel; omega)]
      congr 1
      unfold Box.rel
      rw [eq_iff_iff]
      omega
    rw [sum_three, one, one, one]
    by_cases hsp : s = p
    · subst hsp
      simp only [if_true]
      have hcount : (w.count : ℂ) = w.extent 0 * w.extent 1 * w.extent 2 := by
        have he : w.empty = false := Box.empty_false_of_mem hs
        have g : ∀ d : Fin 3, ((w.extent d : Nat) : Int) = w.size.get d := by
          intro d
          have := hmem s hs d
          rw [Box.size_get]; unfold Box.extent; omega
        unfold Box.count
        rw [if_neg (by simp [he])]
        have g0 := g 0
        have g1 := g 1
        have g2 := g 2
        simp only [A3.get_zero, A3.get_one, A3.get_two] at g0 g1 g2
        rw [show w.size 0 = _ from g0.symm, show w.size 1 = _ from g1.symm, show w.size 2 = _ from g2.symm]
        push_cast; ring
      rw [hcount]; ring
    · rw [if_neg hsp]
      have : ∃ d, s.get d ≠ p.get d := by
        by_contra hc
        push Not at hc
        exact hsp (A3.ext' hc)
      obtain ⟨d, hd⟩ := this
      match d with
      | 0 => rw [if_neg hd]; ring
      | 1 => rw [if_neg (c := s.get 1 = p.get 1) hd]; ring
      | 2 => rw [if_neg (c := s.get 2 = p.get 2) hd]; ring
  unfold dft3
  calc ∑ q ∈ w.points, (∑ s ∈ w.points, G s * wave fwd w s q) * wave (!fwd) w q p
      = ∑ q ∈ w.points, ∑ s ∈ w.points, G s * (wave fwd w s q * wave (!fwd) w q p) := by
        refine sum_congr rfl fun q _ => ?_
        rw [sum_mul]
        exact sum_congr rfl fun s _ => by ring
    _ = ∑ s ∈ w.points, G s * ∑ q ∈ w.points, wave fwd w s q * wave (!fwd) w q p := by
        rw [sum_comm]
        exact sum_congr rfl fun s _ => (Finset.mul_sum _ _ _).symm
    _ = ∑ s ∈ w.points, G s * (if s = p then (w.count : ℂ) else 0) := sum_congr rfl fun s hs => by rw [orth s hs]
    _ = w.count * G p := by
        rw [sum_eq_single p]
        · rw [if_pos rfl]; ring
        · intro s _ hne; rw [if_neg hne, mul_zero]
        · intro hn; exact absurd (Box.mem_points.2 hp) hn

/-! ## Real data -/

theorem along_r2c (w : Box) (d : Fin 3) (g : A3 Int → ℝ) : along w d r2c g = along w d (dft true) fun p => (g p : ℂ) := by
  funext p
  unfold along r2c
  congr 1
  unfold lineOf
  rw [List.map_map]
  rfl

theorem along_congr_world {α β : Type} {w w' : Box} {d : Fin 3} (h : w.low.get d = w'.low.get d) (h' : w.high.get d = w'.high.get d) (t : List α → Nat → β)
    (G : A3 Int → α) : along w d t G = along w' d t G := by
  funext p
  unfold along lineOf
  rw [h, h']

theorem ComplexWorld.other {wi wo : Box} {d e : Fin 3} (h : ComplexWorld wi wo (some d)) (he : e ≠ d) :
    wo.low.get e = wi.low.get e ∧ wo.high.get e = wi.high.get e := by
  have := h e
  rw [if_neg (fun h => he (Option.some.inj h).symm)] at this
  exact this

theorem ComplexWorld.half {wi wo : Box} {d : Fin 3} (h : ComplexWorld wi wo (some d)) :
    wo.low.get d = wi.low.get d ∧ wo.high.get d = wi.low.get d + (wi.high.get d - wi.low.get d + 1) / 2 := by
  have := h d
  rw [if_pos rfl] at this
  exact this

/-- The forward transform of real data. -/
theorem r2c_dft3 {wi wo : Box} {a b c : Fin 3} (hw : ComplexWorld wi wo (some a)) (h : AllDirs a b c) (g : A3 Int → ℝ) :
    along wo c (dft true) (along wo b (dft true) (along wi a r2c g)) = dft3 true wi fun p => (g p : ℂ) := by
  obtain ⟨h1, h2, h3⟩ := h
  have hb := hw.other (e := b) (fun e => h1 e.symm)
  have hc := hw.other (e := c) (fun e => h2 e.symm)
  rw [along_congr_world hc.1 hc.2, along_congr_world hb.1 hb.2, along_r2c, ← alongAll_dft3 true wi ⟨h1, h2, h3⟩]
  rfl

theorem sum_reflect {M : Type} [AddCommMonoid M] (N : Nat) (f : Nat → M) : ∑ i ∈ range N, f ((N - i) % N) = ∑ i ∈ range N, f i := by
  have key : ∀ i, i < N → (N - i) % N < N ∧ (N - (N - i) % N) % N = i := by
    intro i hi
    have hN : 0 < N := by omega
    refine ⟨Nat.mod_lt _ hN, ?_⟩
    by_cases h0 : i = 0
    · subst h0
      rw [Nat.sub_zero, Nat.mod_self, Nat.sub_zero, Nat.mod_self]
    · rw [Nat.mod_eq_of_lt (show N - i < N by omega), show N - (N - i) = i by omega, Nat.mod_eq_of_lt hi]
  refine sum_bij' (fun i _ => (N - i) % N) (fun i _ => (N - i) % N) ?_ ?_ ?_ ?_ ?_
  · intro i hi; rw [mem_range] at hi ⊢; exact (key i hi).1
  · intro i hi; rw [mem_range] at hi ⊢; exact (key i hi).1
  · intro i hi; rw [mem_range] at hi; exact (key i hi).2
  · intro i hi; rw [mem_range] at hi; exact (key i hi).2
  · intro i _; rfl

theorem root_reflect (fwd : Bool) {N i : Nat} (hi : i < N) (j : Nat) : root fwd N ((N - i) % N * j) = root (!fwd) N (i * j) := by
  by_cases h0 : i = 0
  · subst h0
    rw [Nat.sub_zero, Nat.mod_self, Nat.zero_mul, root_zero, root_zero]
  · rw [Nat.mod_eq_of_lt (show N - i < N by omega), root_mirror fwd (by omega) hi.le]

theorem rel_mirror {w : Box} (q : A3 Int) (d : Fin 3) : w.rel (mirror w q) d = (w.extent d - w.rel q d) % w.extent d := by
  unfold Box.rel mirror
  rw [A3.get_of]
  unfold Box.rel
  omega

/-- The wave of the mirrored index. -/
theorem wave_mirror (fwd : Bool) {w : Box} {q : A3 Int} (hq : q ∈ w) (p : A3 Int) : wave fwd w p (mirror w q) = starRingEnd ℂ (wave fwd w p q) := by
  unfold wave
  rw [map_prod]
  refine prod_congr rfl fun d _ => ?_
  have hd := Box.mem_def.1 hq d
  rw [rel_mirror, root_conj, mul_comm, root_reflect _ (by unfold Box.extent Box.rel; omega), mul_comm]

/-- The spectrum of real data. -/
theorem dft3_symm {w : Box} {q : A3 Int} (hq : q ∈ w) (g : A3 Int → ℝ) :
    starRingEnd ℂ (dft3 true w (fun p => (g p : ℂ)) (mirror w q)) = dft3 true w (fun p => (g p : ℂ)) q := by
  unfold dft3
  rw [map_sum]
  refine sum_congr rfl fun s _ => ?_
  rw [map_mul, wave_mirror true hq, Complex.conj_conj, Complex.conj_ofReal]

/-- The backward transform of the forward transform of real data. -/
theorem c2r3_dft3 {w : Box} (d : Fin 3) (g : A3 Int → ℝ) {p : A3 Int} (hp : p ∈ w) :
    c2r3 w d (dft3 true w fun p => (g p : ℂ)) p = w.count * g p := by
  unfold c2r3
  have : dft3 false w (fullSpectrum3 w d (dft3 true w fun p => (g p : ℂ))) p = dft3 false w (dft3 true w fun p => (g p : ℂ)) p := by
    conv_lhs => unfold dft3
    conv_rhs => unfold dft3
    refine sum_congr rfl fun q hq => ?_
    congr 1
    unfold fullSpectrum3
    split
    · rfl
    · exact dft3_symm (Box.mem_points.1 hq) g
  rw [this, show false = !true from rfl, dft3_inv true w _ hp]
  rw [← Complex.ofReal_intCast, ← Complex.ofReal_mul, Complex.ofReal_re]

/-- The backward transform to real data: two complex transforms, then the complex-to-real transform in the direction of the half
spectrum. -/
theorem c2r_dft3 {wi wo : Box} {a b c : Fin 3} (hw : ComplexWorld wi wo (some a)) (h : AllDirs a b c) (H : A3 Int → ℂ)
    (hne : wi.low.get a ≤ wi.high.get a) (p : A3 Int) :
    along wo a (c2r (wi.size a).toNat) (along wo b (dft false) (along wo c (dft false) H)) p = c2r3 wi a H p := by
  obtain ⟨h1, h2, h3⟩ := h
  have hb := hw.other (e := b) (fun e => h1 e.symm)
  have hc := hw.other (e := c) (fun e => h2 e.symm)
  obtain ⟨hl, hh⟩ := hw.half
  rw [along_congr_world hc.1 hc.2, along_congr_world hb.1 hb.2]
  unfold c2r3
  have hA : AllDirs c b a := ⟨fun e => h3 e.symm, fun e => h2 e.symm, fun e => h1 e.symm⟩
  rw [← alongAll_dft3 false wi hA]
  show _ = (along wi a (dft false) (along wi b (dft false) (along wi c (dft false) (fullSpectrum3 wi a H))) p).re
  rw [along_dft]
  have e0 : along wo a (c2r (wi.size a).toNat) (along wi b (dft false) (along wi c (dft false) H)) p =
      c2r (wi.extent a) (lineOf wo a (along wi b (dft false) (along wi c (dft false) H)) p) (wi.rel p a) := by
    unfold along Box.rel
    rw [extent_eq]
    congr 2
    exact congrArg (p.get a - ·) hl
  rw [e0]
  unfold c2r
  congr 1
  refine sum_congr rfl fun k hk => ?_
  rw [mem_range] at hk
  congr 1
  have hN : wi.extent a = (wi.high.get a - wi.low.get a + 1).toNat := rfl
  have line : ∀ m, m ≤ wi.extent a / 2 → (lineOf wo a (along wi b (dft false) (along wi c (dft false) H)) p).getD m 0 =
      along wi b (dft false) (along wi c (dft false) H) (p.set a (wi.low.get a + m)) := by
    intro m hm
    unfold lineOf
    rw [getD_range_map _ _ (show m < (wo.high.get a - wo.low.get a + 1).toNat by rw [hh, hl]; omega)]
    rw [show wo.low.get a = wi.low.get a from hl]
  have expand : ∀ (F : A3 Int → ℂ) (q : A3 Int), along wi b (dft false) (along wi c (dft false) F) q =
      ∑ j ∈ range (wi.extent b), ∑ i ∈ range (wi.extent c), F ((q.set b (wi.low.get b + j)).set c (wi.low.get c + i)) *
        (root false (wi.extent c) (i * wi.rel q c) * root false (wi.extent b) (j * wi.rel q b)) := by
    intro F q
    rw [along_dft]
    refine sum_congr rfl fun j _ => ?_
    rw [along_dft, sum_mul]
    refine sum_congr rfl fun i _ => ?_
    rw [rel_set_ne _ _ _ (fun e => h3 e.symm)]
    ring
  have relq : ∀ (m : Nat) (u v : Int), wi.rel (((p.set a (wi.low.get a + m)).set b u).set c v) a = m := by
    intro m u v
    rw [rel_set_ne _ _ _ h2, rel_set_ne _ _ _ h1]
    unfold Box.rel
    rw [A3.get_set_self]; omega
  unfold fullSpectrum
  split
  · rename_i hk2
    rw [line k hk2, expand, expand]
    refine sum_congr rfl fun j _ => sum_congr rfl fun i _ => ?_
    congr 1
    unfold fullSpectrum3
    rw [relq, if_pos hk2]
  · rename_i hk2
    rw [line _ (by omega), expand, expand, map_sum]
    rw [← sum_reflect (wi.extent b)]
    refine sum_congr rfl fun j hj => ?_
    rw [map_sum, ← sum_reflect (wi.extent c)]
    refine sum_congr rfl fun i hi => ?_
    rw [mem_range] at hi hj
    unfold fullSpectrum3
    rw [relq, if_neg hk2]
    rw [map_mul, map_mul, root_reflect _ hi, root_reflect _ hj, root_conj, root_conj]
    have ra : ∀ m, wi.rel (p.set a (wi.low.get a + m)) b = wi.rel p b ∧ wi.rel (p.set a (wi.low.get a + m)) c = wi.rel p c :=
      fun m => ⟨rel_set_ne _ _ _ (fun e => h1 e.symm), rel_set_ne _ _ _ (fun e => h2 e.symm)⟩
    rw [(ra _).1, (ra _).2, (ra _).1, (ra _).2]
    congr 3
    ext e
    unfold mirror
    rw [A3.get_of]
    rcases AllDirs.cases ⟨h1, h2, h3⟩ e with rfl | rfl | rfl
    · rw [relq, A3.get_set_ne _ _ h2, A3.get_set_ne _ _ h1, A3.get_set_self, Nat.mod_eq_of_lt (by omega)]
    · rw [rel_set_ne _ _ _ h3, A3.get_set_ne _ _ h3, A3.get_set_self]
      unfold Box.rel
      rw [A3.get_set_self]
      simp
    · rw [A3.get_set_self]
      unfold Box.rel
      rw [A3.get_set_self]
      simp

end Verif
