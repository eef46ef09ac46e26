import Verif.SpecWave
import Verif.R2RCalls
import Verif.LibCalls

/-!
# The sine and cosine transforms of FFTW
-/

namespace Verif
open Finset Stock

/-! ## Transforms given by weights -/

section
variable {t : List ℝ → Nat → ℝ} {wt wt' : Nat → Nat → Nat → ℝ} {w : Box}

/-- The transform `t` has the weights `wt` on vectors of length `n`. -/
def HasWeights (t : List ℝ → Nat → ℝ) (wt : Nat → Nat → Nat → ℝ) (n : Nat) : Prop :=
  ∀ v k, v.length = n → t v k = ∑ i ∈ range n, v.getD i 0 * wt n i k

theorem along_weights {d : Fin 3} (h : HasWeights t wt (w.extent d)) (G : A3 Int → ℝ) (p : A3 Int) :
    along w d t G p = ∑ i ∈ range (w.extent d), G (p.set d (w.low.get d + i)) * wt (w.extent d) i (w.rel p d) := by
  have hl : (lineOf w d G p).length = w.extent d := by rw [lineOf_length, ← extent_eq]
  unfold along
  rw [h _ _ hl]
  refine sum_congr rfl fun i hi => ?_
  rw [mem_range] at hi
  congr 1
  unfold lineOf
  rw [getD_range_map _ _ (show i < (w.high.get d - w.low.get d + 1).toNat from hi)]

theorem alongAll_weights (hn : ∀ d, HasWeights t wt (w.extent d)) {a b c : Fin 3} (h : AllDirs a b c) (G : A3 Int → ℝ) :
    alongAll w t [a, b, c] G = fun p => ∑ q ∈ w.points, G q * ∏ d : Fin 3, wt (w.extent d) (w.rel q d) (w.rel p d) := by
  funext p
  show along w c t (along w b t (along w a t G)) p = _
  rw [sum_points w h p, along_weights (hn c)]
  refine sum_congr rfl fun k hk => ?_
  rw [along_weights (hn b), sum_mul]
  refine sum_congr rfl fun j hj => ?_
  rw [along_weights (hn a), sum_mul, sum_mul]
  refine sum_congr rfl fun i hi => ?_
  rw [prod_dirs h]
  obtain ⟨ra, rb, rc⟩ := place_rel w h p i j k
  obtain ⟨h1, h2, h3⟩ := h
  rw [ra, rb, rc, rel_set_ne _ _ _ (by first | exact h1 | exact h2), rel_set_ne _ _ _ (by first | exact h2 | exact h3), rel_set_ne _ _ _ (by first | exact h3 | exact h2)]
  show G (place w a b c p i j k) * _ * _ * _ = _
  ring

/-- Executors for any numbers of directions. -/
theorem joined_weights (hn : ∀ d, HasWeights t wt (w.extent d)) {dirs : A3 (Fin 3)} (h : AllDirs dirs.x dirs.y dirs.z) (m1 m2 fwd : Bool)
    (c : Nat → A3 Int → ℝ) : chain w t (joinedDirs m1 m2 dirs) fwd c 3 =
      fun j p => ∑ q ∈ w.points, c j q * ∏ d : Fin 3, wt (w.extent d) (w.rel q d) (w.rel p d) := by
  obtain ⟨h1, h2⟩ := sorted_dirs _ _ _ h
  have h3 : AllDirs (0 : Fin 3) 1 2 := by unfold AllDirs; decide
  have rot : ∀ {a b c : Fin 3}, AllDirs a b c → AllDirs b c a := fun {a b c} => by revert a b c; unfold AllDirs; decide
  funext j
  cases m1 <;> cases m2 <;> cases fwd
  · exact alongAll_weights hn h.rev (c j)
  · exact alongAll_weights hn h (c j)
  · exact alongAll_weights hn (rot h2) (c j)
  · exact alongAll_weights hn h2 (c j)
  · exact alongAll_weights hn (rot (rot h1)) (c j)
  · exact alongAll_weights hn h1 (c j)
  · exact alongAll_weights hn h3 (c j)
  · exact alongAll_weights hn h3 (c j)

/-- Weights that invert each other in every direction do so in three dimensions. -/
theorem weights_inv {gain : Nat → ℝ} (hinv : ∀ d i j, j < w.extent d →
      ∑ k ∈ range (w.extent d), wt (w.extent d) i k * wt' (w.extent d) k j = if i = j then gain (w.extent d) else 0)
    (G : A3 Int → ℝ) {p : A3 Int} (hp : p ∈ w) :
    ∑ q ∈ w.points, (∑ s ∈ w.points, G s * ∏ d : Fin 3, wt (w.extent d) (w.rel s d) (w.rel q d)) *
        ∏ d : Fin 3, wt' (w.extent d) (w.rel q d) (w.rel p d) =
      gain (w.extent 0) * gain (w.extent 1) * gain (w.extent 2) * G p := by
  have hmem : ∀ q, q ∈ w → ∀ d, w.low.get d ≤ q.get d ∧ q.get d ≤ w.high.get d := fun q hq d => Box.mem_def.1 hq d
  let u : A3 Int → A3 Int → ℝ := fun q p => ∏ d : Fin 3, wt (w.extent d) (w.rel q d) (w.rel p d)
  let u' : A3 Int → A3 Int → ℝ := fun q p => ∏ d : Fin 3, wt' (w.extent d) (w.rel q d) (w.rel p d)
  have orth : ∀ s ∈ w.points, ∑ q ∈ w.points, u s q * u' q p = if s = p then gain (w.extent 0) * gain (w.extent 1) * gain (w.extent 2) else 0 := by
    intro s hs
    rw [Box.mem_points] at hs
    have hA : AllDirs 0 1 2 := ⟨by decide, by decide, by decide⟩
    have e1 : ∀ k i j : Nat, u s (place w 0 1 2 p i j k) * u' (place w 0 1 2 p i j k) p =
        (wt (w.extent 0) (w.rel s 0) i * wt' (w.extent 0) i (w.rel p 0)) *
        ((wt (w.extent 1) (w.rel s 1) j * wt' (w.extent 1) j (w.rel p 1)) *
        (wt (w.extent 2) (w.rel s 2) k * wt' (w.extent 2) k (w.rel p 2))) := by
      intro k i j
      obtain ⟨ra, rb, rc⟩ := place_rel w hA p i j k
      simp only [u, u']
      rw [Fin.prod_univ_three, Fin.prod_univ_three, ra, rb, rc]
      ring
    rw [sum_points w hA p]
    simp only [e1]
    have one : ∀ d : Fin 3, ∑ i ∈ range (w.extent d), wt (w.extent d) (w.rel s d) i * wt' (w.extent d) i (w.rel p d) =
        if s.get d = p.get d then gain (w.extent d) else 0 := by
      intro d
      have h1 := hmem s hs d
      have h2 := hmem p hp d
      rw [hinv d _ _ (by unfold Box.extent Box.rel; omega)]
      congr 1
      unfold Box.rel
      rw [eq_iff_iff]
      omega
    rw [sum_three_real, one, one, one]
    by_cases hsp : s = p
    · subst hsp
      simp only [if_true]
      ring
    · rw [if_neg hsp]
      have : ∃ d, s.get d ≠ p.get d := by
        by_contra hc
        push Not at hc
        exact hsp (A3.ext' hc)
      obtain ⟨d, hd⟩ := this
      match d with
      | 0 => rw [if_neg hd]; ring
      | 1 => rw [if_neg (c := s.get 1 = p.get 1) hd]; ring
      | 2 => rw [if_neg (c := s.get 2 = p.get 2) hd]; ring
  show ∑ q ∈ w.points, (∑ s ∈ w.points, G s * u s q) * u' q p = _
  calc ∑ q ∈ w.points, (∑ s ∈ w.points, G s * u s q) * u' q p
      = ∑ q ∈ w.points, ∑ s ∈ w.points, G s * (u s q * u' q p) := by
        refine sum_congr rfl fun q _ => ?_
        rw [sum_mul]
        exact sum_congr rfl fun s _ => by ring
    _ = ∑ s ∈ w.points, G s * ∑ q ∈ w.points, u s q * u' q p := by
        rw [sum_comm]
        exact sum_congr rfl fun s _ => (Finset.mul_sum _ _ _).symm
    _ = ∑ s ∈ w.points, G s * (if s = p then gain (w.extent 0) * gain (w.extent 1) * gain (w.extent 2) else 0) :=
        sum_congr rfl fun s hs => by rw [orth s hs]
    _ = _ := by
        rw [sum_eq_single p]
        · rw [if_pos rfl]; ring
        · intro s _ hne; rw [if_neg hne, mul_zero]
        · intro hn; exact absurd (Box.mem_points.2 hp) hn

end

/-! ## The kinds -/

/-- The transforms of the other backends are these, the backward ones doubled. -/
def Trig.wave : Trig → Wave
  | .cos => .cos
  | .sin => .sin
  | .cos1 => .cos1

theorem trigOf_wave (z : Trig) (n : Nat) (x : Nat → ℝ) (k : Nat) :
    trigOf z true n x k = waveOf z.wave true n x k ∧ trigOf z false n x k = 2 * waveOf z.wave false n x k := by
  cases z <;> exact ⟨rfl, rfl⟩

theorem Trig.wave_least (z : Trig) : z.wave.least = z.least := by cases z <;> rfl

theorem wave_cases (z : Wave) : (∃ y : Trig, z = y.wave) ∨ z = .sin1 := by
  cases z with
  | cos => exact .inl ⟨.cos, rfl⟩
  | sin => exact .inl ⟨.sin, rfl⟩
  | cos1 => exact .inl ⟨.cos1, rfl⟩
  | sin1 => exact .inr rfl

/-- The transform is the sum of the entries times their weights. -/
theorem waveOf_weight (z : Wave) (fwd : Bool) {n : Nat} (hn : z.least ≤ n) (x : Nat → ℝ) (k : Nat) :
    waveOf z fwd n x k = ∑ j ∈ range n, x j * waveWeight z fwd n j k := by
  rcases wave_cases z with ⟨y, rfl⟩ | rfl
  · have h := trigOf_weight y fwd (n := n) (by rw [← y.wave_least]; exact hn) x k
    have e := trigOf_wave y n x k
    cases fwd with
    | true =>
      rw [← e.1, h]
      refine sum_congr rfl fun j _ => ?_
      unfold weight waveWeight
      rw [(trigOf_wave y n _ k).1]
    | false =>
      have : 2 * waveOf y.wave false n x k = 2 * ∑ j ∈ range n, x j * waveWeight y.wave false n j k := by
        rw [← e.2, h, Finset.mul_sum]
        refine sum_congr rfl fun j _ => ?_
        unfold weight waveWeight
        rw [(trigOf_wave y n _ k).2]
        ring
      linarith
  · show rodft00 n x k = ∑ j ∈ range n, x j * rodft00 n (fun i => if i = j then 1 else 0) k
    unfold rodft00
    rw [Finset.mul_sum]
    refine sum_congr rfl fun j hj => ?_
    rw [sum_eq_single j]
    · simp only [if_true]; ring
    · intro i _ hne; simp only [if_neg hne, zero_mul]
    · intro h; exact absurd hj h

theorem wave_weights (z : Wave) (fwd : Bool) {n : Nat} (hn : z.least ≤ n) : HasWeights (waves z fwd) (waveWeight z fwd) n := by
  intro v k hv
  unfold waves
  rw [waveOf_weight z fwd (by rw [hv]; exact hn), hv]

/-- The sines of `RODFT00` are orthogonal. -/
theorem sine_orth {N a b : Nat} (hN : 0 < N) (ha : 1 ≤ a) (ha' : a < N) (hb' : b < N) :
    ∑ k ∈ range (2 * N), Real.sin (2 * Real.pi * (a * k : Nat) / (2 * N : Nat)) * Real.sin (2 * Real.pi * (k * b : Nat) / (2 * N : Nat)) =
      if a = b then (N : ℝ) else 0 := by
  have h1 := congrArg Complex.re (root_orth true (N := 2 * N) (by omega) (n := a) (j := b) (by omega) (by omega))
  have h2 := congrArg Complex.re (root_orth true (N := 2 * N) (by omega) (n := a) (j := (2 * N - b) % (2 * N)) (by omega) (Nat.mod_lt _ (by omega)))
  have hne : a ≠ (2 * N - b) % (2 * N) := by
    rcases Nat.eq_zero_or_pos b with rfl | h
    · simp; omega
    · rw [Nat.mod_eq_of_lt (by omega)]; omega
  have hm : ∀ k, root false (2 * N) (k * ((2 * N - b) % (2 * N))) = root true (2 * N) (k * b) := by
    intro k
    rw [mul_comm k, mul_comm k]
    rcases Nat.eq_zero_or_pos b with rfl | h
    · simp [root_zero]
    · rw [Nat.mod_eq_of_lt (by omega)]
      exact root_mirror false (by omega) (by omega) k
  rw [if_neg hne] at h2
  rw [show (!true) = false from rfl] at h1 h2
  simp only [hm] at h2
  rw [Complex.re_sum] at h1 h2
  simp only [(root_trig _ _).1, (root_trig _ _).2, Complex.mul_re] at h1 h2
  have h3 : ∑ k ∈ range (2 * N), Real.sin (2 * Real.pi * (a * k : Nat) / (2 * N : Nat)) * Real.sin (2 * Real.pi * (k * b : Nat) / (2 * N : Nat)) =
      ((if a = b then ((2 * N : Nat) : ℂ) else 0).re - (0 : ℂ).re) / 2 := by
    rw [← h1, ← h2, ← sum_sub_distrib, eq_div_iff two_ne_zero, sum_mul]
    refine sum_congr rfl fun k _ => ?_
    ring
  rw [h3]
  split
  · simp
  · simp

/-- `RODFT00` inverts itself up to the factor `2 (n + 1)`. -/
theorem rodft00_inv {n j : Nat} (hj : j < n) (x : Nat → ℝ) : rodft00 n (rodft00 n x) j = 2 * (n + 1) * x j := by
  have key : ∀ i, i < n → ∑ k ∈ range n, Real.sin (Real.pi * (i + 1) * (k + 1) / (n + 1)) * Real.sin (Real.pi * (k + 1) * (j + 1) / (n + 1)) =
      if i = j then ((n : ℝ) + 1) / 2 else 0 := by
    intro i hi
    have hn : (n : ℝ) + 1 ≠ 0 := by positivity
    have h := sine_orth (N := n + 1) (a := i + 1) (b := j + 1) (by omega) (by omega) (by omega) (by omega)
    have e : ∀ a k : Nat, 2 * Real.pi * ((a * k : Nat) : ℝ) / ((2 * (n + 1) : Nat) : ℝ) = Real.pi * a * k / (n + 1) := by
      intro a k; push_cast; field_simp
    simp only [e] at h
    rw [sum_first _ (by omega)] at h
    have z0 : Real.sin (Real.pi * ((i + 1 : Nat) : ℝ) * ((0 : Nat) : ℝ) / (n + 1)) = 0 := by simp
    have zN : Real.sin (Real.pi * ((i + 1 : Nat) : ℝ) * ((n + 1 : Nat) : ℝ) / (n + 1)) = 0 := by
      rw [show Real.pi * ((i + 1 : Nat) : ℝ) * ((n + 1 : Nat) : ℝ) / ((n : ℝ) + 1) = (i + 1 : Nat) * Real.pi by push_cast; field_simp]
      exact Real.sin_nat_mul_pi _
    rw [z0, zN, zero_mul, zero_mul, zero_add, add_zero, show n + 1 - 1 = n by omega] at h
    have hr : ∀ k ∈ range n, ∀ a : Nat, Real.sin (Real.pi * (a : ℝ) * ((2 * (n + 1) - (k + 1) : Nat) : ℝ) / (n + 1)) =
        -Real.sin (Real.pi * (a : ℝ) * ((k + 1 : Nat) : ℝ) / (n + 1)) := by
      intro k hk a
      rw [mem_range] at hk
      rw [Nat.cast_sub (by omega), show Real.pi * (a : ℝ) * (((2 * (n + 1) : Nat) : ℝ) - ((k + 1 : Nat) : ℝ)) / ((n : ℝ) + 1) =
        (a : Nat) * (2 * Real.pi) - Real.pi * (a : ℝ) * ((k + 1 : Nat) : ℝ) / (n + 1) by push_cast; field_simp]
      exact Real.sin_nat_mul_two_pi_sub _ _
    have e2 : ∀ k ∈ range n, Real.sin (Real.pi * ((i + 1 : Nat) : ℝ) * ((k + 1 : Nat) : ℝ) / (n + 1)) * Real.sin (Real.pi * ((k + 1 : Nat) : ℝ) * ((j + 1 : Nat) : ℝ) / (n + 1)) +
        Real.sin (Real.pi * ((i + 1 : Nat) : ℝ) * ((2 * (n + 1) - (k + 1) : Nat) : ℝ) / (n + 1)) * Real.sin (Real.pi * ((2 * (n + 1) - (k + 1) : Nat) : ℝ) * ((j + 1 : Nat) : ℝ) / (n + 1)) =
        2 * (Real.sin (Real.pi * (i + 1) * (k + 1) / (n + 1)) * Real.sin (Real.pi * (k + 1) * (j + 1) / (n + 1))) := by
      intro k hk
      rw [hr k hk, show Real.pi * ((2 * (n + 1) - (k + 1) : Nat) : ℝ) * ((j + 1 : Nat) : ℝ) = Real.pi * ((j + 1 : Nat) : ℝ) * ((2 * (n + 1) - (k + 1) : Nat) : ℝ) by ring, hr k hk,
        show Real.pi * ((j + 1 : Nat) : ℝ) * ((k + 1 : Nat) : ℝ) = Real.pi * ((k + 1 : Nat) : ℝ) * ((j + 1 : Nat) : ℝ) by ring]
      push_cast
      ring
    rw [sum_congr rfl e2, ← Finset.mul_sum] at h
    by_cases hij : i = j
    · subst hij
      rw [if_pos rfl] at h ⊢
      push_cast at h
      linarith
    · rw [if_neg (by omega)] at h
      rw [if_neg hij]
      linarith
  unfold rodft00
  calc 2 * ∑ k ∈ range n, (2 * ∑ i ∈ range n, x i * Real.sin (Real.pi * (i + 1) * (k + 1) / (n + 1))) * Real.sin (Real.pi * (k + 1) * (j + 1) / (n + 1))
      = 4 * ∑ k ∈ range n, ∑ i ∈ range n, x i * (Real.sin (Real.pi * (i + 1) * (k + 1) / (n + 1)) * Real.sin (Real.pi * (k + 1) * (j + 1) / (n + 1))) := by
        rw [Finset.mul_sum, Finset.mul_sum]
        refine sum_congr rfl fun k _ => ?_
        rw [Finset.mul_sum, Finset.mul_sum, sum_mul, Finset.mul_sum]
        exact sum_congr rfl fun i _ => by ring
    _ = 4 * ∑ i ∈ range n, x i * (if i = j then ((n : ℝ) + 1) / 2 else 0) := by
        rw [sum_comm]
        congr 1
        refine sum_congr rfl fun i hi => ?_
        rw [← Finset.mul_sum, key i (mem_range.1 hi)]
    _ = 2 * (n + 1) * x j := by
        rw [sum_eq_single j]
        · rw [if_pos rfl]; ring
        · intro i _ hne; rw [if_neg hne, mul_zero]
        · intro h; exact absurd (mem_range.2 hj) h

/-- The backward transform inverts the forward transform up to a factor. -/
theorem wave_inv (z : Wave) {n j : Nat} (hn : z.least ≤ n) (hj : j < n) (x : Nat → ℝ) :
    waveOf z false n (waveOf z true n x) j = z.gain n * x j := by
  rcases wave_cases z with ⟨y, rfl⟩ | rfl
  · have h := trig_inv y (n := n) (by rw [← y.wave_least]; exact hn) hj x
    have e : trigOf y true n x = waveOf y.wave true n x := funext fun k => (trigOf_wave y n x k).1
    rw [e, (trigOf_wave y n _ j).2] at h
    have hg : ((y.gain n : Nat) : ℝ) = 2 * (y.wave.gain n : Nat) := by
      cases y <;> simp only [Trig.gain, Trig.wave, Wave.gain] <;> push_cast <;> ring
    rw [hg] at h
    linarith
  · show rodft00 n (rodft00 n x) j = _
    rw [rodft00_inv hj]
    simp only [Wave.gain]
    push_cast; ring

theorem waveWeight_inv (z : Wave) {n i j : Nat} (hn : z.least ≤ n) (hj : j < n) :
    ∑ k ∈ range n, waveWeight z true n i k * waveWeight z false n k j = if i = j then (z.gain n : ℝ) else 0 := by
  have := wave_inv z hn hj fun m => if m = i then 1 else 0
  rw [waveOf_weight z false hn] at this
  rw [show (∑ k ∈ range n, waveWeight z true n i k * waveWeight z false n k j) = _ from this]
  by_cases h : i = j
  · rw [if_pos h.symm, if_pos h, mul_one]
  · rw [if_neg (fun h' => h h'.symm), if_neg h, mul_zero]

theorem wave3_inv (z : Wave) (w : Box) (hn : ∀ d, z.least ≤ w.extent d) (G : A3 Int → ℝ) {p : A3 Int} (hp : p ∈ w) :
    wave3 z false w (wave3 z true w G) p = z.gain3 w * G p := by
  have := weights_inv (wt := waveWeight z true) (wt' := waveWeight z false) (gain := fun n => (z.gain n : ℝ))
    (fun d i j hj => waveWeight_inv z (hn d) hj) G hp
  unfold Wave.gain3
  push_cast
  exact this

/-- The three dimensional transforms of the other backends. -/
theorem trig3_wave3 (z : Trig) (w : Box) (G : A3 Int → ℝ) (p : A3 Int) :
    trig3 z true w G p = wave3 z.wave true w G p ∧ trig3 z false w G p = 8 * wave3 z.wave false w G p := by
  constructor
  · unfold trig3 wave3
    refine sum_congr rfl fun q _ => ?_
    congr 1
    refine prod_congr rfl fun d _ => ?_
    exact (trigOf_wave z _ _ _).1
  · unfold trig3 wave3
    rw [Finset.mul_sum]
    refine sum_congr rfl fun q _ => ?_
    have e : ∀ n j k, weight z false n j k = 2 * waveWeight z.wave false n j k := fun n j k => (trigOf_wave z _ _ _).2
    simp only [e]
    rw [Fin.prod_univ_three, Fin.prod_univ_three]
    ring

theorem gain3_wave (z : Trig) (w : Box) : (z.gain3 w : ℝ) = 8 * z.wave.gain3 w := by
  have hg : ∀ n, ((z.gain n : Nat) : ℝ) = 2 * (z.wave.gain n : Nat) := fun n => by
    cases z <;> simp only [Trig.gain, Trig.wave, Wave.gain] <;> push_cast <;> ring
  unfold Trig.gain3 Wave.gain3
  push_cast
  rw [hg, hg, hg]
  ring

end Verif
