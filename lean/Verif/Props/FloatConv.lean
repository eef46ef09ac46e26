import Verif.Props.Convolution
import Verif.Props.FloatCalls

/-!
# Convolutions in floating point (C95)
-/

namespace Verif
open Stock Finset

/-- The program with two arrays in floating point arithmetic: two forward calls, the loop with the complex products on each rank
(`/repo/benchmarks/convolution.cpp:84-91`), the backward call. -/
noncomputable def floatConvolve (A : Arith) (ob : Object) (junk : Tag → Int × Int → Arr (Flt A) × (Nat → Arr (Flt A))) (inp : Tag → Int × Int → Arr (Flt A))
    (W Wy W' : World (Flt A) ℝ) (mode mode' : Mode) (nb : Nat) (inplace inplaceY : Nat → Bool) (s sy s' : Scaling) (n : Nat → Nat) (xs ys : List (Mem (Flt A) ℝ)) :
    Res (List (Mem (Flt A) ℝ)) :=
  convolveWith (floatCall A ob junk inp W mode true nb inplace s) (floatCall A ob junk inp Wy mode true nb inplaceY sy)
    (floatCall A ob junk inp W' mode' false nb inplace s') inplace n xs ys

/-- The benchmark (`/repo/benchmarks/convolution.cpp:73-91`) in floating point arithmetic: in place, the spectrum times itself over the whole array, `scale::full` forward and no
scaling back. -/
noncomputable def floatBenchmark (A : Arith) (ob : Object) (junk : Tag → Int × Int → Arr (Flt A) × (Nat → Arr (Flt A))) (inp : Tag → Int × Int → Arr (Flt A))
    (W W' : World (Flt A) ℝ) (xs : List (Mem (Flt A) ℝ)) : Res (List (Mem (Flt A) ℝ)) :=
  throughWith (floatCall A ob junk inp W .same true 1 (fun _ => true) .full) (floatCall A ob junk inp W' .same false 1 (fun _ => true) .none) (fun _ => true)
    (fun _ x => multiplyArrays x.size x x) xs

section
variable {A : Arith} {q nb : Nat} {W Wy W' : World (Flt A) ℝ} {inplace inplaceY : Nat → Bool} {s sy s' : Scaling} {ob : Object} {d : Fin 3}
  {bin bout : List Box} {wi wo : Box} {xs ys : List (Mem (Flt A) ℝ)} {opts : Opts} {n : Nat → Nat}
  {junk : Tag → Int × Int → Arr (Flt A) × (Nat → Arr (Flt A))} {inp : Tag → Int × Int → Arr (Flt A)}

theorem near_times {b b' τ τ' : ℝ} {x y : Flt A} {z w : ℂ} (hx : Near A b τ (x, z)) (hy : Near A b' τ' (y, w)) : Near A (b * b') (τ + τ' + 3) (x * y, z * w) :=
  (nearGraded A).mul hx hy

theorem box_card (w : Box) : (w.points.card : ℝ) = (w.count : ℝ) := by
  have := Box.count_eq_card w
  rw [this]; simp

/-- **C95.** The convolution of two complex arrays in floating point arithmetic with an `fft3d` of the stock backend: for all the boxes, options, message orders and contents
of the work memory the program ends, and every entry of its result differs from the scaled convolution of the data by at most `exp((3 R + 21) u) - 1` times the scaled product
of the sums of the sizes of the two arrays, where `R` is the number of roundings of C77. -/
theorem C95_complex (S : StockC2C bin bout wi wo opts ob) (h : ∀ d, Smooth q (wi.extent d)) (hW : WorldOk W ob.plan true) (hWy : WorldOk Wy ob.plan true)
    (hW' : WorldOk W' ob.plan false) (hnb : 0 < nb) {x y : Nat → A3 Int → Flt A}
    (ha : CallArrays bin bout false false (ob.sizeWorkspace noWork) nb inplace xs (.inl x))
    (hb : CallArrays bin bout false false (ob.sizeWorkspace noWork) nb inplaceY ys (.inl y)) (hn : LoopsFit bout nb n xs ys)
    (hs : SourceHolds bin inplace) (hsy : SourceHolds bin inplaceY) (hs' : SourceHolds bout inplace) :
    ∃ ms F, floatConvolve A ob junk inp W Wy W' .same .same nb inplace inplaceY s sy s' n xs ys = .ok ms ∧ Replaced bin nb inplace xs ms (.inl F) ∧
      ∀ j, ∀ p ∈ wi, ‖(F j p).val - ((s'.factor wi.count * s.factor wi.count * sy.factor wi.count * wi.count : ℝ) : ℂ) *
          conv3 wi (fun p => (x j p).val) (fun p => (y j p).val) p‖ ≤
        (Real.exp ((3 * roundings q wi + 21) * A.u) - 1) * (s'.factor wi.count * s.factor wi.count * sy.factor wi.count * wi.count *
          ((∑ p ∈ wi.points, ‖(x j p).val‖) * ∑ p ∈ wi.points, ‖(y j p).val‖)) := by
  obtain ⟨mx, Fx, x1, x2, x3⟩ := float_near (junk := junk) (inp := inp) (s := s) (fwd := true) S h hW hnb (fun j p _ => near_self (x j p)) ha hs
  obtain ⟨my, Fy, y1, y2, y3⟩ := float_near (junk := junk) (inp := inp) (s := sy) (fwd := true) S h hWy hnb (fun j p _ => near_self (y j p)) hb hsy
  have hprod : ∀ j, ∀ p ∈ wi, Near A ((s.factor wi.count * ∑ p ∈ wi.points, ‖(x j p).val‖) * (sy.factor wi.count * ∑ p ∈ wi.points, ‖(y j p).val‖))
      (0 + roundings q wi + 6 + (0 + roundings q wi + 6) + 3) (Fx j p * Fy j p, ((s.factor wi.count : ℂ) * dft3 true wi (fun p => (x j p).val) p) *
        ((sy.factor wi.count : ℂ) * dft3 true wi (fun p => (y j p).val) p)) := fun j p hp => near_times (x3 j p hp) (y3 j p hp)
  obtain ⟨ms, H, h1, h2, F, rfl, h3⟩ := convolveWith_values (n := n) S.geo.length (dst_order S.geo true) (fun _ _ _ => rfl) ha hb hn ⟨mx, x1, x2⟩ ⟨my, y1, y2⟩
    (P := fun H => ∃ F, H = .inl F ∧ ∀ j, ∀ p ∈ wi, ‖(F j p).val - ((s'.factor wi.count * s.factor wi.count * sy.factor wi.count * wi.count : ℝ) : ℂ) *
          conv3 wi (fun p => (x j p).val) (fun p => (y j p).val) p‖ ≤
        (Real.exp ((3 * roundings q wi + 21) * A.u) - 1) * (s'.factor wi.count * s.factor wi.count * sy.factor wi.count * wi.count *
          ((∑ p ∈ wi.points, ‖(x j p).val‖) * ∑ p ∈ wi.points, ‖(y j p).val‖)))
    fun bs hbs => by
      obtain ⟨ms, F, h1, h2, h3⟩ := float_near (junk := junk) (inp := inp) (s := s') (fwd := false) S h hW' hnb hprod hbs hs'
      refine ⟨ms, .inl F, h1, h2, F, rfl, fun j p hp => ?_⟩
      have e := (h3 j p hp).2.2
      have e2 := product_scaled (s.factor wi.count) (sy.factor wi.count) (s'.factor wi.count) wi (fun p => (x j p).val) (fun p => (y j p).val) hp
      rw [Finset.sum_const, nsmul_eq_mul, box_card wi] at e
      dsimp only at e
      rw [e2] at e
      refine e.trans (le_of_eq ?_)
      rw [show 0 + roundings q wi + 6 + (0 + roundings q wi + 6) + 3 + roundings q wi + 6 = 3 * roundings q wi + 21 by ring]
      ring
  exact ⟨ms, F, h1, h2, h3⟩

/-- **C95**: without scaling of the second array and with scalings that fit, the result is the convolution, up to `exp((3 R + 21) u) - 1` times the product of the sums
of the sizes. -/
theorem C95_convolution (S : StockC2C bin bout wi wo opts ob) (h : ∀ d, Smooth q (wi.extent d)) (hW : WorldOk W ob.plan true) (hWy : WorldOk Wy ob.plan true)
    (hW' : WorldOk W' ob.plan false) (hnb : 0 < nb) {x y : Nat → A3 Int → Flt A}
    (ha : CallArrays bin bout false false (ob.sizeWorkspace noWork) nb inplace xs (.inl x))
    (hb : CallArrays bin bout false false (ob.sizeWorkspace noWork) nb inplaceY ys (.inl y)) (hn : LoopsFit bout nb n xs ys)
    (hs : SourceHolds bin inplace) (hsy : SourceHolds bin inplaceY) (hs' : SourceHolds bout inplace) (hinv : Inverse s s') :
    ∃ ms F, floatConvolve A ob junk inp W Wy W' .same .same nb inplace inplaceY s .none s' n xs ys = .ok ms ∧ Replaced bin nb inplace xs ms (.inl F) ∧
      ∀ j, ∀ p ∈ wi, ‖(F j p).val - conv3 wi (fun p => (x j p).val) (fun p => (y j p).val) p‖ ≤
        (Real.exp ((3 * roundings q wi + 21) * A.u) - 1) * ((∑ p ∈ wi.points, ‖(x j p).val‖) * ∑ p ∈ wi.points, ‖(y j p).val‖) := by
  obtain ⟨ms, F, h1, h2, h3⟩ := C95_complex (junk := junk) (inp := inp) (s := s) (sy := .none) (s' := s') S h hW hWy hW' hnb ha hb hn hs hsy hs'
  refine ⟨ms, F, h1, h2, fun j p hp => ?_⟩
  have := h3 j p hp
  rw [factor_none, mul_one, inverse_factor hinv (world_count_pos S.geo)] at this
  simpa using this

/-- **C95**: two real arrays and an `fft3d_r2c`. The bound has the number of entries of the half spectrum twice. -/
theorem C95_r2c (S : StockR2C bin bout d wi wo opts ob) (h : ∀ d, Smooth q (wi.extent d)) (hW : WorldOk W ob.plan true) (hWy : WorldOk Wy ob.plan true)
    (hW' : WorldOk W' ob.plan false) (hnb : 0 < nb) {x y : Nat → A3 Int → ℝ}
    (ha : CallArrays bin bout true false (ob.sizeWorkspace noWork) nb (fun _ => false) xs (.inr x))
    (hb : CallArrays bin bout true false (ob.sizeWorkspace noWork) nb (fun _ => false) ys (.inr y)) (hn : LoopsFit bout nb n xs ys)
    (hhalf : nb = 1 ∨ ReshapesAfter ob bin.length) (hs' : SourceHolds bout fun _ => false) :
    ∃ ms F, floatConvolve A ob junk inp W Wy W' .r2c .c2r nb (fun _ => false) (fun _ => false) s sy s' n xs ys = .ok ms ∧
      Replaced bin nb (fun _ => false) xs ms (.inr F) ∧
      ∀ j, ∀ p ∈ wi, |F j p - s'.factor wi.count * s.factor wi.count * sy.factor wi.count * wi.count * conv3 wi (x j) (y j) p| ≤
        (Real.exp ((3 * roundings q wi + 21) * A.u) - 1) * (s'.factor wi.count * s.factor wi.count * sy.factor wi.count * (2 * wo.count) *
          ((∑ p ∈ wi.points, |x j p|) * ∑ p ∈ wi.points, |y j p|)) := by
  obtain ⟨mx, Fx, x1, x2, x3⟩ := near_r2c (junk := junk) (inp := inp) (s := s) S h hW hnb ha hhalf
  obtain ⟨my, Fy, y1, y2, y3⟩ := near_r2c (junk := junk) (inp := inp) (s := sy) S h hWy hnb hb hhalf
  have hprod : ∀ j, ∀ p ∈ wo, Near A ((s.factor wi.count * ∑ p ∈ wi.points, |x j p|) * (sy.factor wi.count * ∑ p ∈ wi.points, |y j p|))
      (roundings q wi + 6 + (roundings q wi + 6) + 3) (Fx j p * Fy j p, ((s.factor wi.count : ℂ) * dft3 true wi (fun p => (x j p : ℂ)) p) *
        ((sy.factor wi.count : ℂ) * dft3 true wi (fun p => (y j p : ℂ)) p)) := fun j p hp => near_times (x3 j p hp) (y3 j p hp)
  obtain ⟨ms, H, h1, h2, F, rfl, h3⟩ := convolveWith_values (n := n) S.geo.length (dst_order S.geo true) (fun _ _ h => by cases h) ha hb hn ⟨mx, x1, x2⟩ ⟨my, y1, y2⟩
    (P := fun H => ∃ F, H = .inr F ∧ ∀ j, ∀ p ∈ wi, |F j p - s'.factor wi.count * s.factor wi.count * sy.factor wi.count * wi.count * conv3 wi (x j) (y j) p| ≤
        (Real.exp ((3 * roundings q wi + 21) * A.u) - 1) * (s'.factor wi.count * s.factor wi.count * sy.factor wi.count * (2 * wo.count) *
          ((∑ p ∈ wi.points, |x j p|) * ∑ p ∈ wi.points, |y j p|)))
    fun bs hbs => by
      obtain ⟨ms, F, h1, h2, h3⟩ := near_r2c_back (junk := junk) (inp := inp) (s := s') S h hW' hnb hprod hbs hs'
      refine ⟨ms, .inr F, h1, h2, F, rfl, fun j p hp => ?_⟩
      have e := h3 j p hp
      rw [Finset.sum_const, nsmul_eq_mul, box_card wo] at e
      rw [product_scaled_real (s.factor wi.count) (sy.factor wi.count) (s'.factor wi.count) wi d (x j) (y j) hp] at e
      refine e.trans (le_of_eq ?_)
      rw [show roundings q wi + 6 + (roundings q wi + 6) + 3 + roundings q wi + 6 = 3 * roundings q wi + 21 by ring]
      ring
  exact ⟨ms, F, h1, h2, h3⟩

/-- **C95**: the benchmark gives the convolution of the array with itself divided by the number of indexes (C82), up to `exp((3 R + 21) u) - 1` times the square of the sum of the
sizes divided by the number of indexes. -/
theorem C95_benchmark (S : StockC2C bin bout wi wo opts ob) (h : ∀ d, Smooth q (wi.extent d)) (hW : WorldOk W ob.plan true) (hW' : WorldOk W' ob.plan false)
    {x : Nat → A3 Int → Flt A} (ha : CallArrays bin bout false false (ob.sizeWorkspace noWork) 1 (fun _ => true) xs (.inl x)) :
    ∃ ms F, floatBenchmark A ob junk inp W W' xs = .ok ms ∧ Replaced bin 1 (fun _ => true) xs ms (.inl F) ∧
      ∀ j, ∀ p ∈ wi, ‖(F j p).val - conv3 wi (fun p => (x j p).val) (fun p => (x j p).val) p / (wi.count : ℂ)‖ ≤
        (Real.exp ((3 * roundings q wi + 21) * A.u) - 1) * ((∑ p ∈ wi.points, ‖(x j p).val‖) ^ 2 / wi.count) := by
  have hs : ∀ b, SourceHolds b fun _ => true := fun _ _ _ => .inl rfl
  obtain ⟨mx, Fx, x1, x2, x3⟩ := float_near (junk := junk) (inp := inp) (s := .full) (fwd := true) S h hW one_pos (fun j p _ => near_self (x j p)) ha (hs _)
  have hprod : ∀ j, ∀ p ∈ wi, Near A ((Scaling.full.factor wi.count * ∑ p ∈ wi.points, ‖(x j p).val‖) * (Scaling.full.factor wi.count * ∑ p ∈ wi.points, ‖(x j p).val‖))
      (0 + roundings q wi + 6 + (0 + roundings q wi + 6) + 3) (Fx j p * Fx j p, ((Scaling.full.factor wi.count : ℂ) * dft3 true wi (fun p => (x j p).val) p) *
        ((Scaling.full.factor wi.count : ℂ) * dft3 true wi (fun p => (x j p).val) p)) := fun j p hp => near_times (x3 j p hp) (x3 j p hp)
  obtain ⟨ms, H, h1, h2, F, rfl, h3⟩ := through_with (f := fun _ x => multiplyArrays x.size x x) (F' := fun j p => Fx j p * Fx j p) S.geo.length (fun _ _ _ => rfl) ha ⟨mx, x1, x2⟩
    (fun r m0 z h0 al hz => by
      have hr : r < bout.length := by rw [S.geo.length, ← ha.ranks]; exact (List.getElem?_eq_some_iff.1 h0).1
      have hreal : z.isReal = false := by rw [al.1]; exact ha.output r m0 h0
      exact multiplyArrays_holds (dst_order S.geo true _ (boxAt_mem hr)) hreal hreal (by rw [al.2]; exact ha.outputSize r m0 h0) le_rfl le_rfl hz hz)
    (P := fun H => ∃ F, H = .inl F ∧ ∀ j, ∀ p ∈ wi, ‖(F j p).val - conv3 wi (fun p => (x j p).val) (fun p => (x j p).val) p / (wi.count : ℂ)‖ ≤
        (Real.exp ((3 * roundings q wi + 21) * A.u) - 1) * ((∑ p ∈ wi.points, ‖(x j p).val‖) ^ 2 / wi.count))
    fun bs hbs => by
      obtain ⟨ms, F, h1, h2, h3⟩ := float_near (junk := junk) (inp := inp) (s := .none) (fwd := false) S h hW' one_pos hprod hbs (hs _)
      refine ⟨ms, .inl F, h1, h2, F, rfl, fun j p hp => ?_⟩
      have e := (h3 j p hp).2.2
      have e2 := product_scaled (Scaling.full.factor wi.count) (Scaling.full.factor wi.count) (Scaling.none.factor wi.count) wi (fun p => (x j p).val) (fun p => (x j p).val) hp
      rw [Finset.sum_const, nsmul_eq_mul, box_card wi] at e
      dsimp only at e
      have hc : (wi.count : ℝ) ≠ 0 := by exact_mod_cast (world_count_pos S.geo).ne'
      have hc' : (wi.count : ℂ) ≠ 0 := by exact_mod_cast (world_count_pos S.geo).ne'
      have e3 : ((Scaling.none.factor wi.count * Scaling.full.factor wi.count * Scaling.full.factor wi.count * wi.count : ℝ) : ℂ) *
          conv3 wi (fun p => (x j p).val) (fun p => (x j p).val) p = conv3 wi (fun p => (x j p).val) (fun p => (x j p).val) p / (wi.count : ℂ) := by
        rw [factor_none]
        simp only [Scaling.factor]
        push_cast
        field_simp
      rw [e2, e3] at e
      refine e.trans (le_of_eq ?_)
      rw [show 0 + roundings q wi + 6 + (0 + roundings q wi + 6) + 3 + roundings q wi + 6 = 3 * roundings q wi + 21 by ring, factor_none]
      simp only [Scaling.factor]
      field_simp
  exact ⟨ms, F, h1, h2, h3⟩

/-- **C95, false for the benchmark.** The wrong scaling of the benchmark (C82) is not a matter of rounding: with a single one in the data the convolution is the data, and the
result at the place of the one stays below `exp((3 R + 21) u)` divided by the number of indexes. -/
theorem C95_false_benchmark (S : StockC2C bin bout wi wo opts ob) (h : ∀ d, Smooth q (wi.extent d)) (hW : WorldOk W ob.plan true) (hW' : WorldOk W' ob.plan false)
    {x : Nat → A3 Int → Flt A} (hx : ∀ j, ∀ p ∈ wi, (x j p).val = if p = wi.low then 1 else 0)
    (ha : CallArrays bin bout false false (ob.sizeWorkspace noWork) 1 (fun _ => true) xs (.inl x)) :
    ∃ ms F, floatBenchmark A ob junk inp W W' xs = .ok ms ∧ Replaced bin 1 (fun _ => true) xs ms (.inl F) ∧
      conv3 wi (fun p => (x 0 p).val) (fun p => (x 0 p).val) wi.low = 1 ∧ ‖(F 0 wi.low).val‖ ≤ Real.exp ((3 * roundings q wi + 21) * A.u) / wi.count := by
  obtain ⟨ms, F, h1, h2, h3⟩ := C95_benchmark (junk := junk) (inp := inp) S h hW hW' ha
  obtain ⟨a, hq⟩ := S.geo.nonempty
  have hlow : wi.low ∈ wi := by
    rw [Box.mem_def]
    intro d
    have := Box.mem_def.1 hq d
    omega
  have hconv : conv3 wi (fun p => (x 0 p).val) (fun p => (x 0 p).val) wi.low = 1 := by
    unfold conv3
    rw [Finset.sum_eq_single wi.low]
    · have e : difference wi wi.low wi.low = wi.low := by
        refine A3.ext' fun d => ?_
        unfold difference
        rw [A3.get_of]
        simp
      rw [e]
      beta_reduce
      rw [hx 0 _ hlow, if_pos rfl, one_mul]
    · intro b hb hne
      beta_reduce
      rw [hx 0 _ (Box.mem_points.1 hb), if_neg hne, zero_mul]
    · intro h
      exact absurd (Box.mem_points.2 hlow) h
  have hsum : ∑ p ∈ wi.points, ‖(x 0 p).val‖ = 1 := by
    rw [Finset.sum_eq_single wi.low]
    · rw [hx 0 _ hlow, if_pos rfl, norm_one]
    · intro b hb hne
      rw [hx 0 _ (Box.mem_points.1 hb), if_neg hne, norm_zero]
    · intro h
      exact absurd (Box.mem_points.2 hlow) h
  refine ⟨ms, F, h1, h2, hconv, ?_⟩
  have e := h3 0 _ hlow
  rw [hconv, hsum] at e
  have hc : (0 : ℝ) < wi.count := by exact_mod_cast world_count_pos S.geo
  have e2 : ‖(1 : ℂ) / (wi.count : ℂ)‖ = 1 / wi.count := by
    rw [norm_div, norm_one, show ((wi.count : ℂ)) = ((wi.count : ℝ) : ℂ) by push_cast; rfl, Complex.norm_real, Real.norm_of_nonneg hc.le]
  have e3 := norm_sub_norm_le (F 0 wi.low).val ((1 : ℂ) / (wi.count : ℂ))
  rw [e2] at e3
  calc ‖(F 0 wi.low).val‖ ≤ (Real.exp ((3 * roundings q wi + 21) * A.u) - 1) * (1 ^ 2 / wi.count) + 1 / wi.count := by linarith
    _ = _ := by ring

end

/-- The bound of the example: below `2 ^ (-38)`. -/
theorem exConvBound {bout : List Box} {r2c : Option (Fin 3)} {wi wo : Box} (geo : Geometry exIn bout r2c wi wo) :
    Real.exp ((3 * roundings 3 wi + 21) * exDouble.u) - 1 ≤ (1 / 2) ^ 38 := by
  have e : roundings 3 wi = 2700 := by
    rw [exWorld geo]
    unfold roundings
    rw [Fin.sum_univ_three]
    have h0 : Box.extent ⟨⟨0, 0, 0⟩, ⟨3, 5, 7⟩, ⟨0, 1, 2⟩⟩ 0 = 4 := by decide
    have h1 : Box.extent ⟨⟨0, 0, 0⟩, ⟨3, 5, 7⟩, ⟨0, 1, 2⟩⟩ 1 = 6 := by decide
    have h2 : Box.extent ⟨⟨0, 0, 0⟩, ⟨3, 5, 7⟩, ⟨0, 1, 2⟩⟩ 2 = 8 := by decide
    rw [h0, h1, h2]
    norm_num
  rw [e, show exDouble.u = (1 / 2) ^ 53 from rfl]
  have := Real.abs_exp_sub_one_le (x := (3 * 2700 + 21) * (1 / 2) ^ 53) (by rw [abs_of_pos (by positivity)]; norm_num)
  rw [abs_of_pos (a := ((3 * 2700 + 21) * (1 / 2) ^ 53 : ℝ)) (by positivity)] at this
  exact (le_abs_self _).trans (this.trans (by norm_num))

/-- C95 for complex data in `double`: any two arrays on two ranks with different boxes for the spectrum, three entries in the batch. -/
example (opts : Opts) (x y : Nat → A3 Int → Flt exDouble) :
    ∃ wi wo ob, ∃ (W W' : World (Flt exDouble) ℝ) (xs ys ms : List (Mem (Flt exDouble) ℝ)) (n : Nat → Nat) (F : Nat → A3 Int → Flt exDouble),
      StockC2C exIn exOut wi wo opts ob ∧
      CallArrays exIn exOut false false (ob.sizeWorkspace noWork) 3 (fun _ => false) xs (.inl x) ∧
      CallArrays exIn exOut false false (ob.sizeWorkspace noWork) 3 (fun _ => false) ys (.inl y) ∧
      floatConvolve exDouble ob (fun _ _ => (fun _ => 0, fun _ _ => 0)) (fun _ _ _ => 0) W W W' .same .same 3 (fun _ => false) (fun _ => false) .none .none .full n xs ys
        = .ok ms ∧
      Replaced exIn 3 (fun _ => false) xs ms (.inl F) ∧
      ∀ j, ∀ p ∈ wi, ‖(F j p).val - conv3 wi (fun p => (x j p).val) (fun p => (y j p).val) p‖ ≤
        (1 / 2) ^ 38 * ((∑ p ∈ wi.points, ‖(x j p).val‖) * ∑ p ∈ wi.points, ‖(y j p).val‖) := by
  have : Inhabited (Flt exDouble) := ⟨0⟩
  obtain ⟨wi, wo, ob, S⟩ := exObject opts
  obtain ⟨W, hW⟩ := world_exists ob.plan true
  obtain ⟨W', hW'⟩ := world_exists ob.plan false
  obtain ⟨xs, ha⟩ := arrays_exist exIn exOut false (ob.sizeWorkspace noWork) 3 (.inl x : Field (Flt exDouble) ℝ) (src_order S.geo true)
  obtain ⟨ys, hb⟩ := arrays_exist exIn exOut false (ob.sizeWorkspace noWork) 3 (.inl y : Field (Flt exDouble) ℝ) (src_order S.geo true)
  obtain ⟨ms, F, h1, h2, h3⟩ := C95_convolution (junk := fun _ _ => (fun _ => 0, fun _ _ => 0)) (inp := fun _ _ _ => 0) (s := .none) (s' := .full) S (exSmooth S.geo)
    hW hW hW' (by decide : 0 < 3) ha hb (loops_fit ha hb) (exSource _ (by simp)) (exSource _ (by simp)) (exSource _ (by simp)) (.inr (.inl ⟨rfl, rfl⟩))
  exact ⟨wi, wo, ob, W, W', xs, ys, ms, _, F, S, ha, hb, h1, h2, fun j p hp => (h3 j p hp).trans
    (mul_le_mul_of_nonneg_right (exConvBound S.geo) (mul_nonneg (Finset.sum_nonneg fun _ _ => norm_nonneg _) (Finset.sum_nonneg fun _ _ => norm_nonneg _)))⟩

/-- C95 for real data in `double`. -/
example (opts : Opts) (x y : Nat → A3 Int → ℝ) :
    ∃ wi wo ob, ∃ (W W' : World (Flt exDouble) ℝ) (xs ys ms : List (Mem (Flt exDouble) ℝ)) (n : Nat → Nat) (F : Nat → A3 Int → ℝ),
      StockR2C exIn exOutC 1 wi wo opts ob ∧
      CallArrays exIn exOutC true false (ob.sizeWorkspace noWork) 1 (fun _ => false) xs (.inr x) ∧
      CallArrays exIn exOutC true false (ob.sizeWorkspace noWork) 1 (fun _ => false) ys (.inr y) ∧
      floatConvolve exDouble ob (fun _ _ => (fun _ => 0, fun _ _ => 0)) (fun _ _ _ => 0) W W W' .r2c .c2r 1 (fun _ => false) (fun _ => false) .none .none .none n xs ys
        = .ok ms ∧
      Replaced exIn 1 (fun _ => false) xs ms (.inr F) ∧
      ∀ j, ∀ p ∈ wi, |F j p - wi.count * conv3 wi (x j) (y j) p| ≤
        (Real.exp ((3 * roundings 3 wi + 21) * exDouble.u) - 1) * (2 * wo.count * ((∑ p ∈ wi.points, |x j p|) * ∑ p ∈ wi.points, |y j p|)) := by
  have : Inhabited (Flt exDouble) := ⟨0⟩
  obtain ⟨wi, wo, ob, S⟩ := exObjectC opts
  obtain ⟨W, hW⟩ := world_exists ob.plan true
  obtain ⟨W', hW'⟩ := world_exists ob.plan false
  obtain ⟨xs, ha⟩ := arrays_exist exIn exOutC false (ob.sizeWorkspace noWork) 1 (.inr x : Field (Flt exDouble) ℝ) (src_order S.geo true)
  obtain ⟨ys, hb⟩ := arrays_exist exIn exOutC false (ob.sizeWorkspace noWork) 1 (.inr y : Field (Flt exDouble) ℝ) (src_order S.geo true)
  obtain ⟨ms, F, h1, h2, h3⟩ := C95_r2c (junk := fun _ _ => (fun _ => 0, fun _ _ => 0)) (inp := fun _ _ _ => 0) (s := .none) (sy := .none) (s' := .none) S
    (exSmooth S.geo) hW hW hW' (by decide : 0 < 1) ha hb (loops_fit ha hb) (.inl rfl) (exSource _ (by simp))
  exact ⟨wi, wo, ob, W, W', xs, ys, ms, _, F, S, ha, hb, h1, h2, fun j p hp => by simpa [factor_none] using h3 j p hp⟩

/-- C95 for the benchmark in `double`. -/
example (opts : Opts) (x : Nat → A3 Int → Flt exDouble) :
    ∃ wi wo ob, ∃ (W W' : World (Flt exDouble) ℝ) (xs ms : List (Mem (Flt exDouble) ℝ)) (F : Nat → A3 Int → Flt exDouble),
      StockC2C exIn exOut wi wo opts ob ∧ CallArrays exIn exOut false false (ob.sizeWorkspace noWork) 1 (fun _ => true) xs (.inl x) ∧
      floatBenchmark exDouble ob (fun _ _ => (fun _ => 0, fun _ _ => 0)) (fun _ _ _ => 0) W W' xs = .ok ms ∧ Replaced exIn 1 (fun _ => true) xs ms (.inl F) ∧
      ∀ j, ∀ p ∈ wi, ‖(F j p).val - conv3 wi (fun p => (x j p).val) (fun p => (x j p).val) p / (wi.count : ℂ)‖ ≤
        (Real.exp ((3 * roundings 3 wi + 21) * exDouble.u) - 1) * ((∑ p ∈ wi.points, ‖(x j p).val‖) ^ 2 / wi.count) := by
  have : Inhabited (Flt exDouble) := ⟨0⟩
  obtain ⟨wi, wo, ob, S⟩ := exObject opts
  obtain ⟨W, hW⟩ := world_exists ob.plan true
  obtain ⟨W', hW'⟩ := world_exists ob.plan false
  obtain ⟨zs, hz⟩ := arrays_exist exIn exOut false (ob.sizeWorkspace noWork) 1 (.inl x : Field (Flt exDouble) ℝ) (src_order S.geo true)
  obtain ⟨xs, ha⟩ := inplace_arrays hz
  obtain ⟨ms, F, h1, h2, h3⟩ := C95_benchmark (junk := fun _ _ => (fun _ => 0, fun _ _ => 0)) (inp := fun _ _ _ => 0) S (exSmooth S.geo) hW hW' ha
  exact ⟨wi, wo, ob, W, W', xs, ms, F, S, ha, h1, h2, h3⟩

/-- All the hypotheses of the negation can be met, and the result is below 1/100 in place of 1. -/
example (opts : Opts) :
    ∃ wi wo ob, ∃ (W W' : World (Flt exDouble) ℝ) (xs ms : List (Mem (Flt exDouble) ℝ)) (x F : Nat → A3 Int → Flt exDouble),
      StockC2C exIn exOut wi wo opts ob ∧ CallArrays exIn exOut false false (ob.sizeWorkspace noWork) 1 (fun _ => true) xs (.inl x) ∧
      floatBenchmark exDouble ob (fun _ _ => (fun _ => 0, fun _ _ => 0)) (fun _ _ _ => 0) W W' xs = .ok ms ∧ Replaced exIn 1 (fun _ => true) xs ms (.inl F) ∧
      conv3 wi (fun p => (x 0 p).val) (fun p => (x 0 p).val) wi.low = 1 ∧ ‖(F 0 wi.low).val‖ ≤ 1 / 100 := by
  have : Inhabited (Flt exDouble) := ⟨0⟩
  obtain ⟨wi, wo, ob, S⟩ := exObject opts
  obtain ⟨W, hW⟩ := world_exists ob.plan true
  obtain ⟨W', hW'⟩ := world_exists ob.plan false
  obtain ⟨zs, hz⟩ := arrays_exist exIn exOut false (ob.sizeWorkspace noWork) 1 (.inl fun _ p => (if p = wi.low then (1 : ℂ) else 0 : ℂ) : Field (Flt exDouble) ℝ) (src_order S.geo true)
  obtain ⟨xs, ha⟩ := inplace_arrays hz
  obtain ⟨ms, F, h1, h2, h3, h4⟩ := C95_false_benchmark (junk := fun _ _ => (fun _ => 0, fun _ _ => 0)) (inp := fun _ _ _ => 0) S (exSmooth S.geo) hW hW' (fun _ _ _ => rfl) ha
  refine ⟨wi, wo, ob, W, W', xs, ms, _, F, S, ha, h1, h2, h3, h4.trans ?_⟩
  have hb := exConvBound S.geo
  have hc : wi.count = 192 := by rw [exWorld S.geo]; decide
  rw [hc, div_le_iff₀ (by norm_num)]
  have : Real.exp ((3 * roundings 3 wi + 21) * exDouble.u) ≤ 1 + (1 / 2) ^ 38 := by linarith
  refine this.trans (by norm_num)

end Verif
