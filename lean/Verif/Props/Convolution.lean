import Verif.Convolution
import Verif.Energy
import Verif.Props.Library

/-!
# Programs that work on the spectrum (C82)

The distributed convolution of two arrays with one object: transform both, multiply the spectra entry by entry on each rank, transform back.
-/

namespace Verif
open Stock

section
variable {bin bout : List Box} {wi wo : Box} {opts : Opts} {ob : Object} {d : Fin 3} {w : Nat} {junk : Tag → Int × Int → Scratch}
  {inp : Tag → Int × Int → Arr ℂ} {K : Kernel ℂ ℝ} {ws : Executor → Int} {W Wy W' : World ℂ ℝ} {nb : Nat} {inplace inplaceY : Nat → Bool} {s sy s' : Scaling}
  {xs ys : List (Mem ℂ ℝ)} {n : Nat → Nat}

theorem product_scaled (a b c : ℝ) (w : Box) (x y : A3 Int → ℂ) {p : A3 Int} (hp : p ∈ w) :
    (c : ℂ) * dft3 false w (fun k => (a : ℂ) * dft3 true w x k * ((b : ℂ) * dft3 true w y k)) p = ((c * a * b * w.count : ℝ) : ℂ) * conv3 w x y p := by
  rw [show (fun k => (a : ℂ) * dft3 true w x k * ((b : ℂ) * dft3 true w y k)) = fun k => ((a : ℂ) * b) * (dft3 true w x k * dft3 true w y k) from
    funext fun k => by ring, dft3_mul, dft3_product w x y hp]
  push_cast
  ring

theorem product_scaled_real (a b c : ℝ) (w : Box) (d : Fin 3) (x y : A3 Int → ℝ) {p : A3 Int} (hp : p ∈ w) :
    c * c2r3 w d (fun k => (a : ℂ) * dft3 true w (fun q => (x q : ℂ)) k * ((b : ℂ) * dft3 true w (fun q => (y q : ℂ)) k)) p =
      c * a * b * w.count * conv3 w x y p := by
  rw [show (fun k => (a : ℂ) * dft3 true w (fun q => (x q : ℂ)) k * ((b : ℂ) * dft3 true w (fun q => (y q : ℂ)) k)) =
    fun k => ((a * b : ℝ) : ℂ) * (dft3 true w (fun q => (x q : ℂ)) k * dft3 true w (fun q => (y q : ℂ)) k) from
    funext fun k => by push_cast; ring, c2r3_mul, c2r3_product w d x y hp]
  ring

theorem factor_none (n : Int) : Scaling.factor .none n = 1 := rfl

/-- C82: the program with two complex arrays and an `fft3d` of the stock backend gives the convolution, times the number of indexes and the factors
of the three calls; without scaling of the second array and with scalings that fit it gives the convolution. -/
theorem C82_complex (S : StockC2C bin bout wi wo opts ob) (hw : 0 < w) (hW : WorldOk W ob.plan true) (hWy : WorldOk Wy ob.plan true) (hW' : WorldOk W' ob.plan false)
    (hnb : 0 < nb) {x y : Nat → A3 Int → ℂ} (ha : CallArrays bin bout false false (ob.sizeWorkspace noWork) nb inplace xs (.inl x))
    (hb : CallArrays bin bout false false (ob.sizeWorkspace noWork) nb inplaceY ys (.inl y)) (hn : LoopsFit bout nb n xs ys)
    (hs : SourceHolds bin inplace) (hsy : SourceHolds bin inplaceY) (hs' : SourceHolds bout inplace) :
    ∃ ms, convolve ob (stockKernel w junk inp) W Wy W' .same .same nb inplace inplaceY s sy s' n xs ys = .ok ms ∧
      Replaced bin nb inplace xs ms (.inl fun j p => ((s'.factor wi.count * s.factor wi.count * sy.factor wi.count * wi.count : ℝ) : ℂ) * conv3 wi (x j) (y j) p) ∧
      (Inverse s s' → sy = .none → Replaced bin nb inplace xs ms (.inl fun j => conv3 wi (x j) (y j))) := by
  obtain ⟨ms, h1, h2⟩ := convolve_values (W' := W') (s' := s') (n := n) S.geo.length (dst_order S.geo true) (fun _ _ _ => rfl) ha hb hn
    (C40_complex (junk := junk) (inp := inp) (s := s) (fwd := true) S hw hW hnb ha hs)
    (C40_complex (junk := junk) (inp := inp) (s := sy) (fwd := true) S hw hWy hnb hb hsy)
    (fun bs hbs => C40_complex (junk := junk) (inp := inp) (s := s') (fwd := false) S hw hW' hnb hbs hs')
  have h3 := h2.congr (H := .inl fun j p => ((s'.factor wi.count * s.factor wi.count * sy.factor wi.count * wi.count : ℝ) : ℂ) * conv3 wi (x j) (y j) p)
    S.geo.tilesIn ha.ranks fun j _ p hp => congrArg Sum.inl (product_scaled _ _ _ wi (x j) (y j) hp)
  refine ⟨ms, h1, h3, fun hinv hy => ?_⟩
  subst hy
  refine h3.congr S.geo.tilesIn ha.ranks fun j _ p hp => congrArg Sum.inl ?_
  rw [factor_none, mul_one, inverse_factor hinv (world_count_pos S.geo)]
  simp

/-- C82: the same with real data and an `fft3d_r2c`. -/
theorem C82_r2c (S : StockR2C bin bout d wi wo opts ob) (hw : 0 < w) (hW : WorldOk W ob.plan true) (hWy : WorldOk Wy ob.plan true) (hW' : WorldOk W' ob.plan false)
    (hnb : 0 < nb) {x y : Nat → A3 Int → ℝ} (ha : CallArrays bin bout true false (ob.sizeWorkspace noWork) nb (fun _ => false) xs (.inr x))
    (hb : CallArrays bin bout true false (ob.sizeWorkspace noWork) nb (fun _ => false) ys (.inr y)) (hn : LoopsFit bout nb n xs ys)
    (hhalf : nb = 1 ∨ ReshapesAfter ob bin.length) (hs' : SourceHolds bout fun _ => false) :
    ∃ ms, convolve ob (stockKernel w junk inp) W Wy W' .r2c .c2r nb (fun _ => false) (fun _ => false) s sy s' n xs ys = .ok ms ∧
      Replaced bin nb (fun _ => false) xs ms (.inr fun j p => s'.factor wi.count * s.factor wi.count * sy.factor wi.count * wi.count * conv3 wi (x j) (y j) p) ∧
      (Inverse s s' → sy = .none → Replaced bin nb (fun _ => false) xs ms (.inr fun j => conv3 wi (x j) (y j))) := by
  obtain ⟨ms, h1, h2⟩ := convolve_values (W' := W') (s' := s') (n := n) S.geo.length (dst_order S.geo true) (fun _ _ h => by cases h) ha hb hn
    (C53_forward (junk := junk) (inp := inp) (s := s) S hw hW hnb ha hhalf)
    (C53_forward (junk := junk) (inp := inp) (s := sy) S hw hWy hnb hb hhalf)
    (fun bs hbs => C53_backward (junk := junk) (inp := inp) (s := s') S hw hW' hnb hbs hs')
  have h3 := h2.congr (H := .inr fun j p => s'.factor wi.count * s.factor wi.count * sy.factor wi.count * wi.count * conv3 wi (x j) (y j) p)
    S.geo.tilesIn ha.ranks fun j _ p hp => congrArg Sum.inr (product_scaled_real _ _ _ wi d (x j) (y j) hp)
  refine ⟨ms, h1, h3, fun hinv hy => ?_⟩
  subst hy
  refine h3.congr S.geo.tilesIn ha.ranks fun j _ p hp => congrArg Sum.inr ?_
  rw [factor_none, mul_one, inverse_factor hinv (world_count_pos S.geo)]
  exact one_mul _

/-- C82: the same with complex data and an FFTW or vendor backend. -/
theorem C82_library (S : LibraryC2C bin bout wi wo opts ob) (hK : ExactLibrary K) (hws : ∀ e, 0 ≤ ws e) (hW : WorldOk W ob.plan true) (hWy : WorldOk Wy ob.plan true)
    (hW' : WorldOk W' ob.plan false) (hnb : 0 < nb) {x y : Nat → A3 Int → ℂ} (ha : CallArrays bin bout false false (ob.sizeWorkspace ws) nb inplace xs (.inl x))
    (hb : CallArrays bin bout false false (ob.sizeWorkspace ws) nb inplaceY ys (.inl y)) (hn : LoopsFit bout nb n xs ys)
    (hs : SourceOrInplace bin inplace) (hsy : SourceOrInplace bin inplaceY) (hs' : SourceOrInplace bout inplace) :
    ∃ ms, convolve ob K W Wy W' .same .same nb inplace inplaceY s sy s' n xs ys = .ok ms ∧
      Replaced bin nb inplace xs ms (.inl fun j p => ((s'.factor wi.count * s.factor wi.count * sy.factor wi.count * wi.count : ℝ) : ℂ) * conv3 wi (x j) (y j) p) ∧
      (Inverse s s' → sy = .none → Replaced bin nb inplace xs ms (.inl fun j => conv3 wi (x j) (y j))) := by
  obtain ⟨ms, h1, h2⟩ := convolve_values (W' := W') (s' := s') (n := n) S.geo.length (dst_order S.geo true) (fun _ _ _ => rfl) ha hb hn
    (C62_complex (s := s) (fwd := true) S hK hws hW hnb ha hs) (C62_complex (s := sy) (fwd := true) S hK hws hWy hnb hb hsy)
    (fun bs hbs => C62_complex (s := s') (fwd := false) S hK hws hW' hnb hbs hs')
  have h3 := h2.congr (H := .inl fun j p => ((s'.factor wi.count * s.factor wi.count * sy.factor wi.count * wi.count : ℝ) : ℂ) * conv3 wi (x j) (y j) p)
    S.geo.tilesIn ha.ranks fun j _ p hp => congrArg Sum.inl (product_scaled _ _ _ wi (x j) (y j) hp)
  refine ⟨ms, h1, h3, fun hinv hy => ?_⟩
  subst hy
  refine h3.congr S.geo.tilesIn ha.ranks fun j _ p hp => congrArg Sum.inl ?_
  rw [factor_none, mul_one, inverse_factor hinv (world_count_pos S.geo)]
  simp

/-- C82: the same with real data and an `fft3d_r2c` of an FFTW or vendor backend. -/
theorem C82_library_r2c (S : LibraryR2C bin bout d wi wo opts ob) (hK : ExactLibrary K) (hws : ∀ e, 0 ≤ ws e) (hW : WorldOk W ob.plan true) (hWy : WorldOk Wy ob.plan true)
    (hW' : WorldOk W' ob.plan false) (hnb : 0 < nb) {x y : Nat → A3 Int → ℝ}
    (ha : CallArrays bin bout true false (ob.sizeWorkspace ws) nb (fun _ => false) xs (.inr x))
    (hb : CallArrays bin bout true false (ob.sizeWorkspace ws) nb (fun _ => false) ys (.inr y)) (hn : LoopsFit bout nb n xs ys)
    (hhalf : nb = 1 ∨ ReshapesAfter ob bin.length) (hs' : SourceHolds bout fun _ => false) :
    ∃ ms, convolve ob K W Wy W' .r2c .c2r nb (fun _ => false) (fun _ => false) s sy s' n xs ys = .ok ms ∧
      Replaced bin nb (fun _ => false) xs ms (.inr fun j p => s'.factor wi.count * s.factor wi.count * sy.factor wi.count * wi.count * conv3 wi (x j) (y j) p) ∧
      (Inverse s s' → sy = .none → Replaced bin nb (fun _ => false) xs ms (.inr fun j => conv3 wi (x j) (y j))) := by
  obtain ⟨ms, h1, h2⟩ := convolve_values (W' := W') (s' := s') (n := n) S.geo.length (dst_order S.geo true) (fun _ _ h => by cases h) ha hb hn
    (C62_r2c_forward (s := s) S hK hws hW hnb ha hhalf) (C62_r2c_forward (s := sy) S hK hws hWy hnb hb hhalf)
    (fun bs hbs => C62_r2c_backward (s := s') S hK hws hW' hnb hbs hs')
  have h3 := h2.congr (H := .inr fun j p => s'.factor wi.count * s.factor wi.count * sy.factor wi.count * wi.count * conv3 wi (x j) (y j) p)
    S.geo.tilesIn ha.ranks fun j _ p hp => congrArg Sum.inr (product_scaled_real _ _ _ wi d (x j) (y j) hp)
  refine ⟨ms, h1, h3, fun hinv hy => ?_⟩
  subst hy
  refine h3.congr S.geo.tilesIn ha.ranks fun j _ p hp => congrArg Sum.inr ?_
  rw [factor_none, mul_one, inverse_factor hinv (world_count_pos S.geo)]
  exact one_mul _

/-- C82: the benchmark gives the convolution of the array with itself divided by the number of indexes. -/
theorem C82_benchmark (S : StockC2C bin bout wi wo opts ob) (hw : 0 < w) (hW : WorldOk W ob.plan true) (hW' : WorldOk W' ob.plan false) {x : Nat → A3 Int → ℂ}
    (ha : CallArrays bin bout false false (ob.sizeWorkspace noWork) 1 (fun _ => true) xs (.inl x)) :
    ∃ ms, convolutionBenchmark ob (stockKernel w junk inp) W W' xs = .ok ms ∧
      Replaced bin 1 (fun _ => true) xs ms (.inl fun j p => conv3 wi (x j) (x j) p / (wi.count : ℂ)) := by
  have hs : ∀ b, SourceHolds b fun _ => true := fun _ _ _ => .inl rfl
  obtain ⟨ms, h1, h2⟩ := through_spectrum (W' := W') (s' := .none) (f := fun _ x => multiplyArrays x.size x x) S.geo.length (fun _ _ _ => rfl) ha
    (C40_complex (junk := junk) (inp := inp) (s := .full) (fwd := true) S hw hW one_pos ha (hs _))
    (fun r m0 z h0 al hz => by
      have hr : r < bout.length := by rw [S.geo.length, ← ha.ranks]; exact (List.getElem?_eq_some_iff.1 h0).1
      have hreal : z.isReal = false := by rw [al.1]; exact ha.output r m0 h0
      exact multiplyArrays_holds (dst_order S.geo true _ (boxAt_mem hr)) hreal hreal (by rw [al.2]; exact ha.outputSize r m0 h0) le_rfl le_rfl hz hz)
    (fun bs hbs => C40_complex (junk := junk) (inp := inp) (s := .none) (fwd := false) S hw hW' one_pos hbs (hs _))
  refine ⟨ms, h1, h2.congr S.geo.tilesIn ha.ranks fun j _ p hp => congrArg Sum.inl ?_⟩
  have hc : (wi.count : ℂ) ≠ 0 := by exact_mod_cast (world_count_pos S.geo).ne'
  refine (product_scaled _ _ _ wi (x j) (x j) hp).trans ?_
  rw [factor_none]
  simp only [Scaling.factor]
  push_cast
  field_simp

/-- C82: the same for the benchmark with an FFTW or vendor backend. -/
theorem C82_library_benchmark (S : LibraryC2C bin bout wi wo opts ob) (hK : ExactLibrary K) (hws : ∀ e, 0 ≤ ws e) (hW : WorldOk W ob.plan true) (hW' : WorldOk W' ob.plan false) {x : Nat → A3 Int → ℂ}
    (ha : CallArrays bin bout false false (ob.sizeWorkspace ws) 1 (fun _ => true) xs (.inl x)) :
    ∃ ms, convolutionBenchmark ob K W W' xs = .ok ms ∧
      Replaced bin 1 (fun _ => true) xs ms (.inl fun j p => conv3 wi (x j) (x j) p / (wi.count : ℂ)) := by
  have hs : ∀ b, SourceOrInplace b fun _ => true := fun _ => .inl fun _ _ => rfl
  obtain ⟨ms, h1, h2⟩ := through_spectrum (W' := W') (s' := .none) (f := fun _ x => multiplyArrays x.size x x) S.geo.length (fun _ _ _ => rfl) ha
    (C62_complex (s := .full) (fwd := true) S hK hws hW one_pos ha (hs _))
    (fun r m0 z h0 al hz => by
      have hr : r < bout.length := by rw [S.geo.length, ← ha.ranks]; exact (List.getElem?_eq_some_iff.1 h0).1
      have hreal : z.isReal = false := by rw [al.1]; exact ha.output r m0 h0
      exact multiplyArrays_holds (dst_order S.geo true _ (boxAt_mem hr)) hreal hreal (by rw [al.2]; exact ha.outputSize r m0 h0) le_rfl le_rfl hz hz)
    (fun bs hbs => C62_complex (s := .none) (fwd := false) S hK hws hW' one_pos hbs (hs _))
  refine ⟨ms, h1, h2.congr S.geo.tilesIn ha.ranks fun j _ p hp => congrArg Sum.inl ?_⟩
  have hc : (wi.count : ℂ) ≠ 0 := by exact_mod_cast (world_count_pos S.geo).ne'
  refine (product_scaled _ _ _ wi (x j) (x j) hp).trans ?_
  rw [factor_none]
  simp only [Scaling.factor]
  push_cast
  field_simp

/-- C82, negation: the benchmark does not give the convolution that its comment announces, unless there is only one index: with a single one in the data the
convolution is the data, and the result is not. -/
theorem C82_false_benchmark (S : StockC2C bin bout wi wo opts ob) (hw : 0 < w) (hW : WorldOk W ob.plan true) (hW' : WorldOk W' ob.plan false) (hc : 1 < wi.count)
    {x : Nat → A3 Int → ℂ} (hx : ∀ j, ∀ p ∈ wi, x j p = if p = wi.low then 1 else 0)
    (ha : CallArrays bin bout false false (ob.sizeWorkspace noWork) 1 (fun _ => true) xs (.inl x)) :
    ∃ ms, convolutionBenchmark ob (stockKernel w junk inp) W W' xs = .ok ms ∧ (∀ p ∈ wi, conv3 wi (x 0) (x 0) p = x 0 p) ∧
      ¬ Replaced bin 1 (fun _ => true) xs ms (.inl fun j p => conv3 wi (x j) (x j) p) := by
  obtain ⟨ms, h1, h2⟩ := C82_benchmark (junk := junk) (inp := inp) S hw hW hW' ha
  obtain ⟨q, hq⟩ := S.geo.nonempty
  have hlow : wi.low ∈ wi := by
    rw [Box.mem_def]
    intro d
    have := Box.mem_def.1 hq d
    omega
  have hconv : ∀ p ∈ wi, conv3 wi (x 0) (x 0) p = x 0 p := by
    intro p hp
    unfold conv3
    rw [Finset.sum_eq_single wi.low]
    · rw [hx 0 _ hlow, if_pos rfl, one_mul]
      congr 1
      refine A3.ext' fun d => ?_
      obtain ⟨h3, h4⟩ := rel_of_mem hp d
      unfold difference
      rw [A3.get_of, ← h3, Int.emod_eq_of_lt (by omega) (by omega)]
      omega
    · intro b hb hne
      rw [hx 0 _ (Box.mem_points.1 hb), if_neg hne, zero_mul]
    · intro h
      exact absurd (Box.mem_points.2 hlow) h
  refine ⟨ms, h1, hconv, fun h3 => ?_⟩
  obtain ⟨b, hb, hlb⟩ := S.geo.tilesIn.exists_box hlow
  obtain ⟨r, hr, rfl⟩ := List.getElem_of_mem hb
  have e : bin[r] = boxAt bin r := by
    have := boxAt_get hr
    rw [List.getElem?_eq_getElem hr] at this
    exact Option.some.inj this
  rw [e] at hlb
  have hm := List.getElem?_eq_getElem (l := ms) (i := r) (by rw [h2.ranks, ha.ranks]; exact hr)
  have q1 := h2.values r _ hm 0 one_pos _ hlb
  have q2 := h3.values r _ hm 0 one_pos _ hlb
  rw [q1] at q2
  have q3 := Sum.inl_injective (Option.some.inj q2)
  beta_reduce at q3
  rw [hconv _ hlow, hx 0 _ hlow, if_pos rfl] at q3
  have hc0 : (wi.count : ℂ) ≠ 0 := by exact_mod_cast (by omega : wi.count ≠ 0)
  rw [div_eq_iff hc0, one_mul] at q3
  have : (1 : Int) = wi.count := by exact_mod_cast q3
  omega

/-! ## Parseval -/

/-- The sums of squares before and after a call whose outcome is the transform. -/
theorem energy_outcome {need : Nat → Int} {fwd : Bool} (geo : Geometry bin bout none wi wo) {g : Nat → A3 Int → ℂ} {ms : List (Mem ℂ ℝ)}
    (hc : CallArrays (srcBoxes fwd bin bout) (dstBoxes fwd bin bout) false false need nb inplace xs (.inl g))
    (h2 : Outcome (dstBoxes fwd bin bout) nb xs ms (.inl fun j p => (s.factor wi.count : ℂ) * dft3 fwd wi (g j) p)) {j : Nat} (hj : j < nb)
    {input output : Nat → Data ℂ ℝ} (hin : ∀ r m, xs[r]? = some m → input r = inputOf inplace r m) (hout : ∀ r m, ms[r]? = some m → output r = m.output) :
    totalEnergy (dstBoxes fwd bin bout) j output = s.factor wi.count ^ 2 * wi.count * totalEnergy (srcBoxes fwd bin bout) j input ∧
      (s = .symmetric → totalEnergy (dstBoxes fwd bin bout) j output = totalEnergy (srcBoxes fwd bin bout) j input) := by

  have e1 : totalEnergy (srcBoxes fwd bin bout) j input = energy3 wi (g j) := by
    rw [totalEnergy_holds (src_tiles geo fwd) (src_order geo fwd) (G := .inl g) fun r hr => ?_]
    · rfl
    · have hm := List.getElem?_eq_getElem (l := xs) (i := r) (by rw [hc.ranks]; exact hr)
      rw [hin r _ hm]
      exact hc.start r _ hm j hj
  have e2 : totalEnergy (dstBoxes fwd bin bout) j output = s.factor wi.count ^ 2 * energy3 wi (dft3 fwd wi (g j)) := by
    rw [totalEnergy_holds (dst_tiles geo fwd) (dst_order geo fwd) (G := .inl fun j p => (s.factor wi.count : ℂ) * dft3 fwd wi (g j) p) fun r hr => ?_]
    · unfold energy3
      rw [Finset.mul_sum]
      refine Finset.sum_congr rfl fun p _ => ?_
      simp only [Field.val, entryEnergy]
      rw [Complex.normSq_mul, Complex.normSq_ofReal, sq]
    · have hm := List.getElem?_eq_getElem (l := ms) (i := r) (by rw [h2.ranks, hc.ranks, src_length geo, ← dst_length geo fwd]; exact hr)
      rw [hout r _ hm]
      exact h2.values r _ hm j hj
  have e3 : totalEnergy (dstBoxes fwd bin bout) j output = s.factor wi.count ^ 2 * wi.count * totalEnergy (srcBoxes fwd bin bout) j input := by
    rw [e1, e2, energy3_dft3]; ring
  refine ⟨e3, fun hsy => ?_⟩
  rw [e3]
  have := inverse_factor (.inr (.inr ⟨hsy, hsy⟩) : Inverse s s) (world_count_pos geo)
  rw [show s.factor wi.count ^ 2 * (wi.count : ℝ) = s.factor wi.count * s.factor wi.count * wi.count by ring, this, one_mul]

/-- C82: the sum of the squares over all the entries on all the ranks is multiplied by the number of indexes and the square of the factor; with the
symmetric scaling it does not change. -/
theorem C82_energy {fwd : Bool} (S : StockC2C bin bout wi wo opts ob) (hw : 0 < w) (hW : WorldOk W ob.plan fwd) (hnb : 0 < nb)
    (ha : HasArrays (srcBoxes fwd bin bout) (dstBoxes fwd bin bout) false false (ob.sizeWorkspace noWork) nb inplace xs)
    (hs : SourceHolds (srcBoxes fwd bin bout) inplace) :
    ∃ ms, perform ob (stockKernel w junk inp) W .same fwd nb inplace s xs = .ok ms ∧ ∀ j, j < nb →
      ∀ input output : Nat → Data ℂ ℝ, (∀ r m, xs[r]? = some m → input r = inputOf inplace r m) → (∀ r m, ms[r]? = some m → output r = m.output) →
        totalEnergy (dstBoxes fwd bin bout) j output = s.factor wi.count ^ 2 * wi.count * totalEnergy (srcBoxes fwd bin bout) j input ∧
        (s = .symmetric → totalEnergy (dstBoxes fwd bin bout) j output = totalEnergy (srcBoxes fwd bin bout) j input) := by
  obtain ⟨G, hG, hc⟩ := ha.values (src_tiles S.geo fwd) (src_order S.geo fwd) (fun _ _ _ => rfl)
  cases G with
  | inr g => cases hG
  | inl g =>
  obtain ⟨ms, h1, h2⟩ := C40_complex (junk := junk) (inp := inp) (s := s) S hw hW hnb hc hs
  exact ⟨ms, h1, fun j hj input output hin hout => energy_outcome S.geo hc h2 hj hin hout⟩

/-- C82: the same with an FFTW or vendor backend. -/
theorem C82_library_energy {fwd : Bool} (S : LibraryC2C bin bout wi wo opts ob) (hK : ExactLibrary K) (hws : ∀ e, 0 ≤ ws e) (hW : WorldOk W ob.plan fwd) (hnb : 0 < nb)
    (ha : HasArrays (srcBoxes fwd bin bout) (dstBoxes fwd bin bout) false false (ob.sizeWorkspace ws) nb inplace xs)
    (hs : SourceOrInplace (srcBoxes fwd bin bout) inplace) :
    ∃ ms, perform ob K W .same fwd nb inplace s xs = .ok ms ∧ ∀ j, j < nb →
      ∀ input output : Nat → Data ℂ ℝ, (∀ r m, xs[r]? = some m → input r = inputOf inplace r m) → (∀ r m, ms[r]? = some m → output r = m.output) →
        totalEnergy (dstBoxes fwd bin bout) j output = s.factor wi.count ^ 2 * wi.count * totalEnergy (srcBoxes fwd bin bout) j input ∧
        (s = .symmetric → totalEnergy (dstBoxes fwd bin bout) j output = totalEnergy (srcBoxes fwd bin bout) j input) := by
  obtain ⟨G, hG, hc⟩ := ha.values (src_tiles S.geo fwd) (src_order S.geo fwd) (fun _ _ _ => rfl)
  cases G with
  | inr g => cases hG
  | inl g =>
  obtain ⟨ms, h1, h2⟩ := C62_complex (s := s) S hK hws hW hnb hc hs
  exact ⟨ms, h1, fun j hj input output hin hout => energy_outcome S.geo hc h2 hj hin hout⟩

end

/-! ## Instances -/

theorem rd_append_some {α : Type} {l k : List α} {a : Int} {v : α} (h : rd l a = some v) : rd (l ++ k) a = some v := by
  simp only [rd] at h ⊢
  split at h
  · rename_i h0
    rw [if_pos h0, List.getElem?_append_left (List.getElem?_eq_some_iff.1 h).1]
    exact h
  · cases h

/-- Arrays in place from arrays that are not. -/
theorem inplace_arrays {α β : Type} {src dst : List Box} {need : Nat → Int} {nb : Nat} {m0s : List (Mem α β)} {g : Nat → A3 Int → α}
    (h : CallArrays src dst false false need nb (fun _ => false) m0s (.inl g)) :
    ∃ m1s : List (Mem α β), CallArrays src dst false false need nb (fun _ => true) m1s (.inl g) := by
  let app : Data α β → Data α β → Data α β := fun x y => match x, y with
    | .inl x, .inl y => .inl (x ++ y)
    | x, _ => x
  have key : ∀ (r : Nat) m1, (m0s.map fun m => (⟨m.input, app m.input m.output, m.work⟩ : Mem α β))[r]? = some m1 →
      ∃ (x y : List α) (m0 : Mem α β), m0s[r]? = some m0 ∧ m0.input = .inl x ∧ m0.output = .inl y ∧ m1 = ⟨.inl x, .inl (x ++ y), m0.work⟩ := by
    intro r m1 h1
    rw [List.getElem?_map] at h1
    obtain ⟨m0, h0, rfl⟩ := Option.map_eq_some_iff.1 h1
    have e1 := h.input r m0 h0
    have e2 := h.output r m0 h0
    obtain ⟨i, o, k⟩ := m0
    cases i with
    | inr => cases e1
    | inl x =>
      cases o with
      | inr => cases e2
      | inl y => exact ⟨x, y, _, h0, rfl, rfl, rfl⟩
  refine ⟨m0s.map fun m => ⟨m.input, app m.input m.output, m.work⟩, by rw [List.length_map]; exact h.ranks, ?_, ?_, ?_, ?_, ?_, ?_⟩
  · intro r m1 h1
    obtain ⟨x, y, m0, h0, hx, hy, rfl⟩ := key r m1 h1
    rfl
  · intro r m1 h1
    obtain ⟨x, y, m0, h0, hx, hy, rfl⟩ := key r m1 h1
    rfl
  · intro r m1 h1
    obtain ⟨x, y, m0, h0, hx, hy, rfl⟩ := key r m1 h1
    have := h.inputSize r m0 h0
    simp only [if_true, Bool.false_eq_true, if_false, hx] at this ⊢
    simp only [Data.size, List.length_append] at this ⊢
    omega
  · intro r m1 h1
    obtain ⟨x, y, m0, h0, hx, hy, rfl⟩ := key r m1 h1
    have := h.outputSize r m0 h0
    rw [hy] at this
    simp only [Data.size, List.length_append] at this ⊢
    omega
  · intro r m1 h1 j hj p hp
    obtain ⟨x, y, m0, h0, hx, hy, rfl⟩ := key r m1 h1
    have := h.start r m0 h0 j hj p hp
    simp only [if_true, Bool.false_eq_true, if_false, hx] at this ⊢
    simp only [Data.rd, Field.val] at this ⊢
    obtain ⟨u, hu, hu'⟩ := Option.map_eq_some_iff.1 this
    rw [rd_append_some hu, ← hu']
    rfl
  · intro r m1 h1
    obtain ⟨x, y, m0, h0, hx, hy, rfl⟩ := key r m1 h1
    exact h.work r m0 h0

/-- The loops over the parts of the boxes. -/
theorem loops_fit {α β : Type} {bin bout : List Box} {need : Nat → Int} {nb : Nat} {realIn realIn' : Bool} {ia ib : Nat → Bool} {xs ys : List (Mem α β)} {G H : Field α β}
    (ha : CallArrays bin bout realIn false need nb ia xs G) (hb : CallArrays bin bout realIn' false need nb ib ys H) :
    LoopsFit bout nb (fun r => nb * (boxAt bout r).points.card) xs ys :=
  fun r m m' hm hm' => ⟨le_rfl, ha.outputSize r m hm, hb.outputSize r m' hm'⟩

/-- C82: the convolution of any two arrays on two ranks with different boxes for the spectrum, three entries in the batch. -/
example (opts : Opts) (x y : Nat → A3 Int → ℂ) :
    ∃ wi ob, ∃ (W W' : World ℂ ℝ) (xs ys ms : List (Mem ℂ ℝ)) (n : Nat → Nat),
      CallArrays exIn exOut false false (ob.sizeWorkspace noWork) 3 (fun _ => false) xs (.inl x) ∧
      CallArrays exIn exOut false false (ob.sizeWorkspace noWork) 3 (fun _ => true) ys (.inl y) ∧
      convolve ob (stockKernel 4 (fun _ _ => ⟨fun _ => 0, fun _ _ => 0⟩) (fun _ _ _ => 0)) W W W' .same .same 3 (fun _ => false) (fun _ => true) .none .none .full n xs ys = .ok ms ∧
      Replaced exIn 3 (fun _ => false) xs ms (.inl fun j => conv3 wi (x j) (y j)) := by
  obtain ⟨wi, wo, ob, S⟩ := exObject opts
  obtain ⟨W, hW⟩ := world_exists ob.plan true
  obtain ⟨W', hW'⟩ := world_exists ob.plan false
  obtain ⟨xs, ha⟩ := arrays_exist exIn exOut false (ob.sizeWorkspace noWork) 3 (.inl x : Field ℂ ℝ) (src_order S.geo true)
  obtain ⟨zs, hz⟩ := arrays_exist exIn exOut false (ob.sizeWorkspace noWork) 3 (.inl y : Field ℂ ℝ) (src_order S.geo true)
  obtain ⟨ys, hb⟩ := inplace_arrays hz
  obtain ⟨ms, h1, -, h2⟩ := C82_complex (junk := fun _ _ => ⟨fun _ => 0, fun _ _ => 0⟩) (inp := fun _ _ _ => 0) (s := .none) (sy := .none) (s' := .full) S
    (by decide : 0 < 4) hW hW hW' (by decide : 0 < 3) ha hb (loops_fit ha hb) (exSource _ (by simp)) (fun _ _ => .inl rfl) (exSource _ (by simp))
  exact ⟨wi, ob, W, W', xs, ys, ms, _, ha, hb, h1, h2 (.inr (.inl ⟨rfl, rfl⟩)) rfl⟩

/-- C82 with real data. -/
example (opts : Opts) (x y : Nat → A3 Int → ℝ) :
    ∃ wi ob, ∃ (W W' : World ℂ ℝ) (xs ys ms : List (Mem ℂ ℝ)) (n : Nat → Nat),
      CallArrays exIn exOutC true false (ob.sizeWorkspace noWork) 1 (fun _ => false) xs (.inr x) ∧
      CallArrays exIn exOutC true false (ob.sizeWorkspace noWork) 1 (fun _ => false) ys (.inr y) ∧
      convolve ob (stockKernel 4 (fun _ _ => ⟨fun _ => 0, fun _ _ => 0⟩) (fun _ _ _ => 0)) W W W' .r2c .c2r 1 (fun _ => false) (fun _ => false) .symmetric .none .symmetric n xs ys = .ok ms ∧
      Replaced exIn 1 (fun _ => false) xs ms (.inr fun j => conv3 wi (x j) (y j)) := by
  obtain ⟨wi, wo, ob, S⟩ := exObjectC opts
  obtain ⟨W, hW⟩ := world_exists ob.plan true
  obtain ⟨W', hW'⟩ := world_exists ob.plan false
  obtain ⟨xs, ha⟩ := arrays_exist exIn exOutC false (ob.sizeWorkspace noWork) 1 (.inr x : Field ℂ ℝ) (src_order S.geo true)
  obtain ⟨ys, hb⟩ := arrays_exist exIn exOutC false (ob.sizeWorkspace noWork) 1 (.inr y : Field ℂ ℝ) (src_order S.geo true)
  obtain ⟨ms, h1, -, h2⟩ := C82_r2c (junk := fun _ _ => ⟨fun _ => 0, fun _ _ => 0⟩) (inp := fun _ _ _ => 0) (s := .symmetric) (sy := .none) (s' := .symmetric) S
    (by decide : 0 < 4) hW hW hW' (by decide : 0 < 1) ha hb (loops_fit ha hb) (.inl rfl) (exSource _ (by simp))
  exact ⟨wi, ob, W, W', xs, ys, ms, _, ha, hb, h1, h2 (.inr (.inr ⟨rfl, rfl⟩)) rfl⟩

/-- C82 for the benchmark: all the hypotheses of the negation can be met. -/
example (opts : Opts) : ∃ wi wo ob, ∃ (W W' : World ℂ ℝ) (xs : List (Mem ℂ ℝ)) (x : Nat → A3 Int → ℂ), StockC2C exIn exOut wi wo opts ob ∧ WorldOk W ob.plan true ∧
    WorldOk W' ob.plan false ∧ 1 < wi.count ∧ (∀ j, ∀ p ∈ wi, x j p = if p = wi.low then 1 else 0) ∧
    CallArrays exIn exOut false false (ob.sizeWorkspace noWork) 1 (fun _ => true) xs (.inl x) := by
  obtain ⟨wi, wo, ob, S⟩ := exObject opts
  obtain ⟨W, hW⟩ := world_exists ob.plan true
  obtain ⟨W', hW'⟩ := world_exists ob.plan false
  obtain ⟨zs, hz⟩ := arrays_exist exIn exOut false (ob.sizeWorkspace noWork) 1 (.inl fun _ p => if p = wi.low then 1 else 0 : Field ℂ ℝ) (src_order S.geo true)
  obtain ⟨xs, ha⟩ := inplace_arrays hz
  refine ⟨wi, wo, ob, W, W', xs, _, S, hW, hW', ?_, fun _ _ _ => rfl, ha⟩
  have h1 : (boxAt exIn 0).points.card ≤ wi.points.card := Finset.card_le_card fun p hp => by
    rw [Box.mem_points] at hp ⊢
    exact S.geo.tilesIn.mem_world (boxAt_mem (by decide)) hp
  have h2 : (boxAt exIn 0).count = (boxAt exIn 0).points.card := Box.count_eq_card _
  have h3 : 1 < (boxAt exIn 0).count := by decide
  rw [Box.count_eq_card]
  omega

/-- C82 with the symmetric scaling: the sum of the squares stays. -/
example (opts : Opts) (x : Nat → A3 Int → ℂ) :
    ∃ ob, ∃ (W : World ℂ ℝ) (xs ms : List (Mem ℂ ℝ)), CallArrays exIn exOut false false (ob.sizeWorkspace noWork) 2 (fun _ => false) xs (.inl x) ∧
      perform ob (stockKernel 4 (fun _ _ => ⟨fun _ => 0, fun _ _ => 0⟩) (fun _ _ _ => 0)) W .same true 2 (fun _ => false) .symmetric xs = .ok ms ∧
      totalEnergy exOut 1 (fun r => (ms[r]?).elim (.inl []) fun m => m.output) = totalEnergy exIn 1 fun r => (xs[r]?).elim (.inl []) fun m => m.input := by
  obtain ⟨wi, wo, ob, S⟩ := exObject opts
  obtain ⟨W, hW⟩ := world_exists ob.plan true
  obtain ⟨xs, ha⟩ := arrays_exist exIn exOut false (ob.sizeWorkspace noWork) 2 (.inl x : Field ℂ ℝ) (src_order S.geo true)
  obtain ⟨ms, h1, h2⟩ := C82_energy (fwd := true) (junk := fun _ _ => ⟨fun _ => 0, fun _ _ => 0⟩) (inp := fun _ _ _ => 0) (s := .symmetric) S (by decide : 0 < 4) hW
    (by decide : 0 < 2) ha.has (exSource _ (by simp [srcBoxes]))
  exact ⟨ob, W, xs, ms, ha, h1, (h2 1 (by decide) _ _ (fun r m hm => by rw [hm]; rfl) (fun r m hm => by rw [hm]; rfl)).2 rfl⟩

/-- C82 for the sums of squares and the benchmark with a library: the calls can be made, with any values. -/
example (opts : Opts) (h : opts.useReorder = true) (x : Nat → A3 Int → ℂ) :
    ∃ wi ob, ∃ (W W' : World ℂ ℝ) (xs ys ms ms' : List (Mem ℂ ℝ)), CallArrays exIn exOut false false (ob.sizeWorkspace fun e => e.boxSize) 1 (fun _ => false) xs (.inl x) ∧
      CallArrays exIn exOut false false (ob.sizeWorkspace fun e => e.boxSize) 1 (fun _ => true) ys (.inl x) ∧
      perform ob exactKernel W .same true 1 (fun _ => false) .symmetric xs = .ok ms ∧
      totalEnergy exOut 0 (fun r => (ms[r]?).elim (.inl []) fun m => m.output) = totalEnergy exIn 0 (fun r => (xs[r]?).elim (.inl []) fun m => m.input) ∧
      convolutionBenchmark ob exactKernel W W' ys = .ok ms' ∧ Replaced exIn 1 (fun _ => true) ys ms' (.inl fun j p => conv3 wi (x j) (x j) p / (wi.count : ℂ)) := by
  obtain ⟨wi, wo, ob, S⟩ := exLibrary opts h
  obtain ⟨W, hW⟩ := world_exists ob.plan true
  obtain ⟨W', hW'⟩ := world_exists ob.plan false
  obtain ⟨xs, ha⟩ := arrays_exist exIn exOut false (ob.sizeWorkspace fun e => e.boxSize) 1 (.inl x : Field ℂ ℝ) (src_order S.geo true)
  obtain ⟨ys, hb⟩ := inplace_arrays ha
  obtain ⟨ms, h1, h2⟩ := C82_library_energy (fwd := true) (s := .symmetric) S exact_library (fun e => e.boxSize_nonneg) hW one_pos ha.has
    (.inr (exSource _ (by simp [srcBoxes])))
  obtain ⟨ms', h3, h4⟩ := C82_library_benchmark S exact_library (fun e => e.boxSize_nonneg) hW hW' hb
  exact ⟨wi, ob, W, W', xs, ys, ms, ms', ha, hb, h1, (h2 0 one_pos _ _ (fun r m hm => by rw [hm]; rfl) (fun r m hm => by rw [hm]; rfl)).2 rfl, h3, h4⟩

end Verif
