import Verif.LibCalls
import Verif.Props.Calls

/-!
# Calls of the backends that use a library (C62, C63)

FFTW, and with it cuFFT, rocFFT, MKL and oneMKL: their executors for one, two and three directions do the same to the arrays
(`C59_one`, `C59_two_as_fftw`, `C59_three_as_fftw`).  The library is any that computes the transform of a line; everything else, which
lines, in which order, with which reshapes between them, is done by the code under test.
-/

namespace Verif
open Stock

/-- A library that does what it says, for lines of any positive length, and the conversions of the real methods
(heffte_backend_fftw.h:297-316). -/
structure ExactLibrary (K : Kernel ℂ ℝ) : Prop where
  ok : KernelOk K (fun n => 1 ≤ n) dft r2c c2r
  cast : ∀ x, K.cast x = (x : ℂ)
  re : ∀ z, K.re z = z.re

/-- An `fft3d` object of such a backend.  Without `use_reorder` the boxes have the standard order: otherwise the executors for two and three
directions are wrong (`C40_fftw_false`). -/
structure LibraryC2C (bin bout : List Box) (wi wo : Box) (opts : Opts) (ob : Object) : Prop where
  geo : Geometry bin bout none wi wo
  made : makeFft3d .fftw bin bout opts = .ok ob
  orderly : opts.useReorder = true ∨ (∀ b ∈ bin, b.order = ⟨0, 1, 2⟩) ∧ ∀ b ∈ bout, b.order = ⟨0, 1, 2⟩

/-- An `fft3d_r2c` object; it has executors for one direction only (heffte_fft3d_r2c.h:331-333). -/
structure LibraryR2C (bin bout : List Box) (d : Fin 3) (wi wo : Box) (opts : Opts) (ob : Object) : Prop where
  geo : Geometry bin bout (some d) wi wo
  made : makeFft3dR2C bin bout d opts = .ok ob
  first : RankZeroHolds bin
  small : ∀ b ∈ bin, b.count < 2 ^ 31

/-- All the calls are in place, or the input box of every rank has an index. -/
def SourceOrInplace (src : List Box) (inplace : Nat → Bool) : Prop :=
  (∀ r, r < src.length → inplace r = true) ∨ SourceHolds src fun _ => false

section
variable {bin bout : List Box} {wi wo : Box} {opts : Opts} {ob : Object} {d : Fin 3} {K : Kernel ℂ ℝ} {ws : Executor → Int}
  {W : World ℂ ℝ} {fwd : Bool} {nb : Nat} {inplace : Nat → Bool} {s : Scaling} {m0s : List (Mem ℂ ℝ)}

theorem source_all {src : List Box} (h : SourceHolds src fun _ => false) {r : Nat} (hr : r < src.length) : (boxAt src r).empty = false := by
  rcases source_empty h hr with h | h
  · cases h
  · exact h

theorem library_call (S : LibraryC2C bin bout wi wo opts ob) (hK : ExactLibrary K) {mode : Mode} (hm : ModeOk mode fwd none) {G : Field ℂ ℝ}
    (hG : G.isReal = decide (mode = .r2c)) (hws : ∀ e, 0 ≤ ws e)
    (ha : CallArrays (srcBoxes fwd bin bout) (dstBoxes fwd bin bout) (decide (mode = .r2c)) (decide (mode = .c2r)) (ob.sizeWorkspace ws) nb inplace m0s G)
    (hW : WorldOk W ob.plan fwd) (hnb : 0 < nb) (hin : ∀ r, r < bin.length → inplace r = true → mode = .same)
    (hfirst : mode = .r2c ∨ SourceOrInplace (srcBoxes fwd bin bout) inplace) :
    ∃ m1 m2 ms, perform ob K W mode fwd nb inplace s m0s = .ok ms ∧
      Outcome (dstBoxes fwd bin bout) nb m0s ms (times (s.factor wi.count) (fieldC2C K wi dft (joinedDirs m1 m2 ob.plan.dirs) mode fwd G 3)) := by
  obtain ⟨-, hfam, hp, e1, e2, -, hc, -⟩ := makeFft3d_ok S.geo S.made
  obtain ⟨m1, m2, h⟩ := call_lib ⟨rfl, rfl, fun _ _ => rfl, fun _ => rfl⟩ hK.ok.lines (fun d => by rw [← extent_eq]; exact extent_pos S.geo d) S.geo S.made S.orderly hm hG hws ha hW hnb hin (by
    rcases hfirst with h | h | h
    · exact .inl h
    · exact .inr (.inl fun r hr => h r (by rw [src_length S.geo]; exact hr))
    · exact .inr (.inr fun r hr => source_all h (by rw [src_length S.geo]; exact hr)))
  exact ⟨m1, m2, run_of_transform S.geo e1 e2 hfam hc ha h⟩

/-- C62: the forward and backward calls with complex data compute the three dimensional transform, with any options, workspaces of the library, batches,
in place or not. -/
theorem C62_complex (S : LibraryC2C bin bout wi wo opts ob) (hK : ExactLibrary K) (hws : ∀ e, 0 ≤ ws e) (hW : WorldOk W ob.plan fwd) (hnb : 0 < nb)
    {g : Nat → A3 Int → ℂ}
    (ha : CallArrays (srcBoxes fwd bin bout) (dstBoxes fwd bin bout) false false (ob.sizeWorkspace ws) nb inplace m0s (.inl g))
    (hs : SourceOrInplace (srcBoxes fwd bin bout) inplace) :
    ∃ ms, perform ob K W .same fwd nb inplace s m0s = .ok ms ∧
      Outcome (dstBoxes fwd bin bout) nb m0s ms (.inl fun j p => (s.factor wi.count : ℂ) * dft3 fwd wi (g j) p) := by
  obtain ⟨m1, m2, ms, h1, h2⟩ := library_call (s := s) S hK (mode := .same) ⟨by simp, by simp, fun _ => rfl⟩ rfl hws ha hW hnb
    (fun _ _ _ => rfl) (.inr hs)
  refine ⟨ms, h1, ?_⟩
  obtain ⟨-, -, hp, -⟩ := makeFft3d_ok S.geo S.made
  have e : fieldC2C K wi dft (joinedDirs m1 m2 ob.plan.dirs) .same fwd (.inl g) 3 = .inl fun j => dft3 fwd wi (g j) := by
    unfold fieldC2C
    simp only [reduceCtorEq, false_and, if_false]
    rw [joined_dft3 hp.dirs]
  rw [e] at h2
  exact h2

/-- C62: the forward call with real data. -/
theorem C62_real (S : LibraryC2C bin bout wi wo opts ob) (hK : ExactLibrary K) (hws : ∀ e, 0 ≤ ws e) (hW : WorldOk W ob.plan true) (hnb : 0 < nb)
    {g : Nat → A3 Int → ℝ}
    (ha : CallArrays bin bout true false (ob.sizeWorkspace ws) nb (fun _ => false) m0s (.inr g)) :
    ∃ ms, perform ob K W .r2c true nb (fun _ => false) s m0s = .ok ms ∧
      Outcome bout nb m0s ms (.inl fun j p => (s.factor wi.count : ℂ) * dft3 true wi (fun q => (g j q : ℂ)) p) := by
  obtain ⟨m1, m2, ms, h1, h2⟩ := library_call (s := s) S hK (fwd := true) (mode := .r2c) ⟨fun _ => rfl, by simp, by simp⟩ rfl hws ha hW hnb
    (fun _ _ h => by cases h) (.inl rfl)
  refine ⟨ms, h1, ?_⟩
  obtain ⟨-, -, hp, -⟩ := makeFft3d_ok S.geo S.made
  have e : fieldC2C K wi dft (joinedDirs m1 m2 ob.plan.dirs) .r2c true (.inr g) 3 =
      .inl fun j => dft3 true wi (fun q => (g j q : ℂ)) := by
    unfold fieldC2C
    simp only [reduceCtorEq, false_and, and_false, if_false, Fin.reduceEq]
    rw [joined_dft3 hp.dirs]
    congr 1
    funext j
    congr 1
    funext q
    exact hK.cast _
  rw [e] at h2
  exact h2

/-- C62: the backward call to real data gives the real parts. -/
theorem C62_backward_real (S : LibraryC2C bin bout wi wo opts ob) (hK : ExactLibrary K) (hws : ∀ e, 0 ≤ ws e) (hW : WorldOk W ob.plan false)
    (hnb : 0 < nb) {g : Nat → A3 Int → ℂ}
    (ha : CallArrays bout bin false true (ob.sizeWorkspace ws) nb (fun _ => false) m0s (.inl g)) (hs : SourceHolds bout fun _ => false) :
    ∃ ms, perform ob K W .c2r false nb (fun _ => false) s m0s = .ok ms ∧
      Outcome bin nb m0s ms (.inr fun j p => s.factor wi.count * (dft3 false wi (g j) p).re) := by
  obtain ⟨m1, m2, ms, h1, h2⟩ := library_call (s := s) S hK (fwd := false) (mode := .c2r) ⟨by simp, fun _ => rfl, by simp⟩ rfl hws ha hW hnb
    (fun _ _ h => by cases h) (.inr (.inr hs))
  refine ⟨ms, h1, ?_⟩
  obtain ⟨-, -, hp, -⟩ := makeFft3d_ok S.geo S.made
  have e : fieldC2C K wi dft (joinedDirs m1 m2 ob.plan.dirs) .c2r false (.inl g) 3 =
      .inr fun j p => (dft3 false wi (g j) p).re := by
    unfold fieldC2C
    simp only [reduceCtorEq, false_and, true_and, if_false, if_true]
    rw [joined_dft3 hp.dirs]
    congr 1
    funext j p
    exact hK.re _
  rw [e] at h2
  exact h2

/-- C62: a call and one in the other direction on its output give the data back if the scalings fit. -/
theorem C62_round_trip (S : LibraryC2C bin bout wi wo opts ob) (hK : ExactLibrary K) (hws : ∀ e, 0 ≤ ws e) {W' : World ℂ ℝ}
    (hW : WorldOk W ob.plan fwd) (hW' : WorldOk W' ob.plan !fwd) (hnb : 0 < nb) {g : Nat → A3 Int → ℂ} {inplace' : Nat → Bool} {s' : Scaling}
    (ha : CallArrays (srcBoxes fwd bin bout) (dstBoxes fwd bin bout) false false (ob.sizeWorkspace ws) nb inplace m0s (.inl g))
    (hs : SourceOrInplace (srcBoxes fwd bin bout) inplace) (hs' : SourceOrInplace (dstBoxes fwd bin bout) inplace') (hinv : Inverse s s') :
    ∃ ms, perform ob K W .same fwd nb inplace s m0s = .ok ms ∧
      ∀ m1s, HasArrays (dstBoxes fwd bin bout) (srcBoxes fwd bin bout) false false (ob.sizeWorkspace ws) nb inplace' m1s →
        Continues inplace' ms m1s →
        ∃ ms', perform ob K W' .same (!fwd) nb inplace' s' m1s = .ok ms' ∧ Outcome (srcBoxes fwd bin bout) nb m1s ms' (.inl g) := by
  obtain ⟨ms, h1, h2⟩ := C62_complex (s := s) S hK hws hW hnb ha hs
  refine ⟨ms, h1, fun m1s hm1 hcont => ?_⟩
  have hca := continue_arrays hm1 h2 (by rw [ha.ranks, src_length S.geo, dst_length S.geo]) hcont
  have hsw : ∀ b : Bool, srcBoxes (!b) bin bout = dstBoxes b bin bout ∧ dstBoxes (!b) bin bout = srcBoxes b bin bout := by
    intro b; cases b <;> exact ⟨rfl, rfl⟩
  rw [← (hsw fwd).1, ← (hsw fwd).2] at hca
  rw [← (hsw fwd).1] at hs'
  obtain ⟨ms', h3, h4⟩ := C62_complex (s := s') S hK hws hW' hnb hca hs'
  rw [(hsw fwd).2] at h4
  refine ⟨ms', h3, h4.congr (src_tiles S.geo fwd) (by rw [hm1.ranks, dst_length S.geo, src_length S.geo]) fun j _ p hp => ?_⟩
  simp only [Field.val]
  rw [dft3_mul, dft3_inv fwd wi (g j) hp]
  have h5 := inverse_factor hinv (world_count_pos S.geo)
  have h6 : ((s'.factor wi.count : ℂ)) * (s.factor wi.count : ℂ) * ((wi.count : ℝ) : ℂ) = 1 := by exact_mod_cast h5
  congr 1
  rw [← mul_assoc, ← mul_assoc]
  have h7 : ((wi.count : ℤ) : ℂ) = ((wi.count : ℝ) : ℂ) := by push_cast; rfl
  rw [h7, h6, one_mul]

/-- C62: the forward call of an `fft3d_r2c`, with the guard of C53 on the batches. -/
theorem C62_r2c_forward (S : LibraryR2C bin bout d wi wo opts ob) (hK : ExactLibrary K) (hws : ∀ e, 0 ≤ ws e) (hW : WorldOk W ob.plan true) (hnb : 0 < nb)
    {g : Nat → A3 Int → ℝ} (ha : CallArrays bin bout true false (ob.sizeWorkspace ws) nb (fun _ => false) m0s (.inr g))
    (hhalf : nb = 1 ∨ ReshapesAfter ob bin.length) :
    ∃ ms, perform ob K W .r2c true nb (fun _ => false) s m0s = .ok ms ∧
      Outcome bout nb m0s ms (.inl fun j p => (s.factor wi.count : ℂ) * dft3 true wi (fun q => (g j q : ℂ)) p) := by
  obtain ⟨hp, e1, e2, -, hfam, hc, -⟩ := makeFft3dR2C_ok S.geo S.first S.small S.made
  obtain ⟨ms, h1, h2⟩ := run_of_transform (s := s) (fwd := true) S.geo e1 e2 hfam hc ha (call_r2c (fwd := true) (mode := .r2c) (inplace := fun _ => false) hK.ok S.geo S.first S.small S.made
    ⟨fun _ => rfl, by simp, by simp⟩ (by rw [← extent_eq]; exact extent_pos S.geo d)
    (fun e he => by rw [← extent_eq, wo_extent S.geo.complex (fun h => he (Option.some.inj h).symm)]; exact extent_pos S.geo e) rfl hws
    ha hW hnb (fun _ _ => rfl) (.inl rfl) (fun _ => hhalf))
  refine ⟨ms, h1, ?_⟩
  have hd := hp.dirs
  rw [hp.dir0 d rfl] at hd
  have e : fieldR2C wi wo dft r2c c2r ob.plan.dirs (.inr g) 3 = .inl fun j => dft3 true wi (fun q => (g j q : ℂ)) := by
    unfold fieldR2C
    simp only
    congr 1
    funext j
    rw [hp.dir0 d rfl]
    exact r2c_dft3 S.geo.complex hd (g j)
  rw [e] at h2
  exact h2

/-- C62: the backward call of an `fft3d_r2c`. -/
theorem C62_r2c_backward (S : LibraryR2C bin bout d wi wo opts ob) (hK : ExactLibrary K) (hws : ∀ e, 0 ≤ ws e) (hW : WorldOk W ob.plan false)
    (hnb : 0 < nb) {g : Nat → A3 Int → ℂ}
    (ha : CallArrays bout bin false true (ob.sizeWorkspace ws) nb (fun _ => false) m0s (.inl g)) (hs : SourceHolds bout fun _ => false) :
    ∃ ms, perform ob K W .c2r false nb (fun _ => false) s m0s = .ok ms ∧
      Outcome bin nb m0s ms (.inr fun j p => s.factor wi.count * c2r3 wi d (g j) p) := by
  obtain ⟨hp, e1, e2, -, hfam, hc, -⟩ := makeFft3dR2C_ok S.geo S.first S.small S.made
  obtain ⟨ms, h1, h2⟩ := run_of_transform (s := s) (fwd := false) S.geo e1 e2 hfam hc ha (call_r2c (fwd := false) (mode := .c2r) (inplace := fun _ => false) hK.ok S.geo S.first S.small S.made
    ⟨by simp, fun _ => rfl, by simp⟩ (by rw [← extent_eq]; exact extent_pos S.geo d)
    (fun e he => by rw [← extent_eq, wo_extent S.geo.complex (fun h => he (Option.some.inj h).symm)]; exact extent_pos S.geo e) rfl hws
    ha hW hnb (fun _ _ => rfl) (.inr fun r hr => source_all hs (by rw [S.geo.length]; exact hr)) (fun h => by cases h))
  refine ⟨ms, h1, ?_⟩
  have hd := hp.dirs
  rw [hp.dir0 d rfl] at hd
  have e : fieldR2C wi wo dft r2c c2r ob.plan.dirs (.inl g) 3 = .inr fun j => c2r3 wi d (g j) := by
    unfold fieldR2C
    simp only
    congr 1
    funext j p
    rw [hp.dir0 d rfl]
    have := extent_pos S.geo d
    unfold Box.extent at this
    exact c2r_dft3 S.geo.complex hd (g j) (by omega) p
  rw [e] at h2
  exact h2

/-! ## C63: the backend does not matter -/

/-- C63: a call with complex data gives the same with the stock backend and with a library, in exact arithmetic. -/
theorem C63_complex {opts' : Opts} {ob' : Object} (S : StockC2C bin bout wi wo opts ob) (S' : LibraryC2C bin bout wi wo opts' ob')
    {w : Nat} (hw : 0 < w) {junk : Tag → Int × Int → Scratch} {inp : Tag → Int × Int → Arr ℂ} {W' : World ℂ ℝ} (hK : ExactLibrary K) (hws : ∀ e, 0 ≤ ws e)
    (hW : WorldOk W ob.plan fwd) (hW' : WorldOk W' ob'.plan fwd) {nb' : Nat} {inplace' : Nat → Bool} {m0s' : List (Mem ℂ ℝ)}
    (ha : HasArrays (srcBoxes fwd bin bout) (dstBoxes fwd bin bout) false false (ob.sizeWorkspace noWork) nb inplace m0s)
    (ha' : HasArrays (srcBoxes fwd bin bout) (dstBoxes fwd bin bout) false false (ob'.sizeWorkspace ws) nb' inplace' m0s')
    (hs : SourceHolds (srcBoxes fwd bin bout) inplace) (hs' : SourceOrInplace (srcBoxes fwd bin bout) inplace') (hnb : 0 < nb) (hnb' : 0 < nb') :
    ∃ ms ms', perform ob (stockKernel w junk inp) W .same fwd nb inplace s m0s = .ok ms ∧
      perform ob' K W' .same fwd nb' inplace' s m0s' = .ok ms' ∧
      ∀ j j', j < nb → j' < nb' → SameInput (srcBoxes fwd bin bout) inplace m0s j inplace' m0s' j' → SameOutput (dstBoxes fwd bin bout) ms j ms' j' := by
  have ho := src_order S.geo fwd
  have ht := src_tiles S.geo fwd
  obtain ⟨G, hG, hc⟩ := ha.values ht ho (fun _ _ _ => rfl)
  obtain ⟨G', hG', hc'⟩ := ha'.values ht ho (fun _ _ _ => rfl)
  cases G with
  | inr g => cases hG
  | inl g =>
  cases G' with
  | inr g' => cases hG'
  | inl g' =>
  obtain ⟨ms, h1, h2⟩ := C40_complex (junk := junk) (inp := inp) (s := s) S hw hW hnb hc hs
  obtain ⟨ms', h1', h2'⟩ := C62_complex (s := s) S' hK hws hW' hnb' hc' hs'
  refine ⟨ms, ms', h1, h1', fun j j' hj hj' hsame r m m' hm hm' a h0 ha1 => ?_⟩
  refine h2.entries h2' (dst_tiles S.geo fwd) (dst_order S.geo fwd) (by rw [hc.ranks, src_length S.geo, dst_length S.geo]) hj hj' (fun p hp => ?_) hm hm' h0 ha1
  have hval := same_values hc hc' ht ho hj hj' hsame
  simp only [Field.val] at hval ⊢
  rw [dft3_congr (fun q hq => Sum.inl_injective (hval q hq)) fwd]

/-- C63: forward with real data. -/
theorem C63_real {opts' : Opts} {ob' : Object} (S : StockC2C bin bout wi wo opts ob) (S' : LibraryC2C bin bout wi wo opts' ob')
    {w : Nat} (hw : 0 < w) {junk : Tag → Int × Int → Scratch} {inp : Tag → Int × Int → Arr ℂ} {W' : World ℂ ℝ} (hK : ExactLibrary K) (hws : ∀ e, 0 ≤ ws e)
    (hW : WorldOk W ob.plan true) (hW' : WorldOk W' ob'.plan true) {nb' : Nat} {m0s' : List (Mem ℂ ℝ)}
    (ha : HasArrays bin bout true false (ob.sizeWorkspace noWork) nb (fun _ => false) m0s)
    (ha' : HasArrays bin bout true false (ob'.sizeWorkspace ws) nb' (fun _ => false) m0s') (hnb : 0 < nb) (hnb' : 0 < nb') :
    ∃ ms ms', perform ob (stockKernel w junk inp) W .r2c true nb (fun _ => false) s m0s = .ok ms ∧
      perform ob' K W' .r2c true nb' (fun _ => false) s m0s' = .ok ms' ∧
      ∀ j j', j < nb → j' < nb' → SameInput bin (fun _ => false) m0s j (fun _ => false) m0s' j' → SameOutput bout ms j ms' j' := by
  have ho := src_order S.geo true
  obtain ⟨G, hG, hc⟩ := ha.values S.geo.tilesIn ho (fun _ _ h => by cases h)
  obtain ⟨G', hG', hc'⟩ := ha'.values S.geo.tilesIn ho (fun _ _ h => by cases h)
  cases G with
  | inl g => cases hG
  | inr g =>
  cases G' with
  | inl g' => cases hG'
  | inr g' =>
  obtain ⟨ms, h1, h2⟩ := C40_real (junk := junk) (inp := inp) (s := s) S hw hW hnb hc
  obtain ⟨ms', h1', h2'⟩ := C62_real (s := s) S' hK hws hW' hnb' hc'
  refine ⟨ms, ms', h1, h1', fun j j' hj hj' hsame r m m' hm hm' a h0 ha1 => ?_⟩
  refine h2.entries h2' S.geo.tilesOut (dst_order S.geo true) (by rw [hc.ranks, S.geo.length]) hj hj' (fun p hp => ?_) hm hm' h0 ha1
  have hval := same_values hc hc' S.geo.tilesIn ho hj hj' hsame
  simp only [Field.val] at hval ⊢
  rw [dft3_congr (G' := fun q => (g' j' q : ℂ)) (fun q hq => by rw [Sum.inr_injective (hval q hq)]) true]

/-- C63: backward to real data. -/
theorem C63_backward_real {opts' : Opts} {ob' : Object} (S : StockC2C bin bout wi wo opts ob) (S' : LibraryC2C bin bout wi wo opts' ob')
    {w : Nat} (hw : 0 < w) {junk : Tag → Int × Int → Scratch} {inp : Tag → Int × Int → Arr ℂ} {W' : World ℂ ℝ} (hK : ExactLibrary K) (hws : ∀ e, 0 ≤ ws e)
    (hW : WorldOk W ob.plan false) (hW' : WorldOk W' ob'.plan false) {nb' : Nat} {m0s' : List (Mem ℂ ℝ)}
    (ha : HasArrays bout bin false true (ob.sizeWorkspace noWork) nb (fun _ => false) m0s)
    (ha' : HasArrays bout bin false true (ob'.sizeWorkspace ws) nb' (fun _ => false) m0s')
    (hs : SourceHolds bout fun _ => false) (hnb : 0 < nb) (hnb' : 0 < nb') :
    ∃ ms ms', perform ob (stockKernel w junk inp) W .c2r false nb (fun _ => false) s m0s = .ok ms ∧
      perform ob' K W' .c2r false nb' (fun _ => false) s m0s' = .ok ms' ∧
      ∀ j j', j < nb → j' < nb' → SameInput bout (fun _ => false) m0s j (fun _ => false) m0s' j' → SameOutput bin ms j ms' j' := by
  have ho := src_order S.geo false
  have ht := src_tiles S.geo false
  obtain ⟨G, hG, hc⟩ := ha.values ht ho (fun _ _ h => by cases h)
  obtain ⟨G', hG', hc'⟩ := ha'.values ht ho (fun _ _ h => by cases h)
  cases G with
  | inr g => cases hG
  | inl g =>
  cases G' with
  | inr g' => cases hG'
  | inl g' =>
  obtain ⟨ms, h1, h2⟩ := C52_real (junk := junk) (inp := inp) (s := s) S hw hW hnb hc hs
  obtain ⟨ms', h1', h2'⟩ := C62_backward_real (s := s) S' hK hws hW' hnb' hc' hs
  refine ⟨ms, ms', h1, h1', fun j j' hj hj' hsame r m m' hm hm' a h0 ha1 => ?_⟩
  refine h2.entries h2' S.geo.tilesIn (dst_order S.geo false) (by rw [hc.ranks, S.geo.length]) hj hj' (fun p hp => ?_) hm hm' h0 ha1
  have hval := same_values hc hc' ht ho hj hj' hsame
  simp only [Field.val] at hval ⊢
  rw [dft3_congr (fun q hq => Sum.inl_injective (hval q hq)) false]

end

/-! ## Examples -/

/-- A library in exact arithmetic. -/
noncomputable def exactKernel : Kernel ℂ ℝ where
  lanes := 1
  line := fun _ fwd n _ v => .ok ((List.range n).map (dft fwd v))
  fromReal := fun _ n _ v => .ok ((List.range (n / 2 + 1)).map (r2c v))
  toReal := fun _ n _ v => .ok ((List.range n).map (c2r n v))
  cast := fun x => ⟨x, 0⟩
  re := fun z => z.re
  parts := fun z => (z.re, z.im)
  join := fun a b => ⟨a, b⟩

theorem exact_library : ExactLibrary exactKernel :=
  ⟨⟨by decide, fun _ _ => rfl, fun _ _ _ _ _ _ _ => rfl, fun _ _ _ _ _ _ => rfl, fun _ _ _ _ _ _ => rfl⟩, fun _ => rfl, fun _ => rfl⟩

/-- Four ranks, 4 x 6 x 8 indexes, two storage orders, with `use_reorder`. -/
theorem exLibrary (opts : Opts) (h : opts.useReorder = true) : ∃ wi wo ob, LibraryC2C exIn exOut wi wo opts ob := by
  obtain ⟨wi, wo, ob, S⟩ := exObject opts
  obtain ⟨p, hp⟩ : ∃ p, planOperations exIn exOut none opts = .ok p := ⟨_, (makeFft3d_ok S.geo S.made).1⟩
  obtain ⟨ob', h', -⟩ := C54_object S.geo .fftw (fun z h => Family.noConfusion h) hp
  exact ⟨wi, wo, ob', S.geo, h', .inl h⟩

/-- Two slabs, all three stages of a rank joined in pairs: 4 x 6 x 8 indexes, standard order, `use_reorder` off. -/
def slabsIn : List Box := [⟨⟨0, 0, 0⟩, ⟨3, 5, 3⟩, ⟨0, 1, 2⟩⟩, ⟨⟨0, 0, 4⟩, ⟨3, 5, 7⟩, ⟨0, 1, 2⟩⟩]

theorem slabGeometry : Geometry slabsIn slabsIn none ⟨⟨0, 0, 0⟩, ⟨3, 5, 7⟩, ⟨0, 1, 2⟩⟩ ⟨⟨0, 0, 0⟩, ⟨3, 5, 7⟩, ⟨0, 1, 2⟩⟩ := by
  obtain ⟨wi, wo, h, -⟩ := checked_geometry (bin := slabsIn) (bout := slabsIn) (r2c := none) (by decide) rfl (by decide) (by decide)
    ⟨⟨⟨0, 0, 0⟩, ⟨3, 5, 3⟩, ⟨0, 1, 2⟩⟩, by decide, ⟨0, 0, 0⟩, by decide⟩
  have h1 : findWorld slabsIn = .ok ⟨⟨0, 0, 0⟩, ⟨3, 5, 7⟩, ⟨0, 1, 2⟩⟩ := by decide
  obtain rfl := Except.ok.inj (h1.symm.trans h.worldIn)
  obtain rfl := Except.ok.inj (h1.symm.trans h.worldOut)
  exact h

theorem exSlabs (opts : Opts) : ∃ ob, LibraryC2C slabsIn slabsIn ⟨⟨0, 0, 0⟩, ⟨3, 5, 7⟩, ⟨0, 1, 2⟩⟩ ⟨⟨0, 0, 0⟩, ⟨3, 5, 7⟩, ⟨0, 1, 2⟩⟩ opts ob := by
  obtain ⟨ob, hob⟩ := C54_constructor slabGeometry (by decide) (by decide) .fftw (fun z h => Family.noConfusion h) opts
  exact ⟨ob, slabGeometry, hob, .inr (by decide)⟩

/-- The hypotheses of C62 can be met, for any values and any batch. -/
example (opts : Opts) (h : opts.useReorder = true) (fwd : Bool) (nb : Nat) (g : Nat → A3 Int → ℂ) :
    ∃ wi wo ob, ∃ (W : World ℂ ℝ) (m0s : List (Mem ℂ ℝ)), LibraryC2C exIn exOut wi wo opts ob ∧ WorldOk W ob.plan fwd ∧
      SourceOrInplace (srcBoxes fwd exIn exOut) (fun _ => false) ∧
      CallArrays (srcBoxes fwd exIn exOut) (dstBoxes fwd exIn exOut) false false (ob.sizeWorkspace fun e => e.boxSize) nb (fun _ => false) m0s (.inl g) := by
  obtain ⟨wi, wo, ob, S⟩ := exLibrary opts h
  obtain ⟨W, hW⟩ := world_exists ob.plan fwd
  obtain ⟨m0s, h⟩ := arrays_exist (srcBoxes fwd exIn exOut) (dstBoxes fwd exIn exOut) false (ob.sizeWorkspace fun e => e.boxSize) nb (.inl g : Field ℂ ℝ) (src_order S.geo fwd)
  refine ⟨wi, wo, ob, W, m0s, S, hW, .inr ?_, h⟩
  cases fwd <;> exact exSource _ (by simp [srcBoxes])

/-- The executors for two directions are used: two slabs, forward. -/
example : ∃ ob, makeFft3d .fftw slabsIn slabsIn ⟨false, .alltoallv, false, -1, none⟩ = .ok ob ∧
    ob.fft.execs.map (fun e => (e.x.isSome, e.y.isSome, e.z.isSome)) = [(true, false, true), (true, false, true)] := by
  refine ⟨_, rfl, ?_⟩
  decide +kernel

/-- C63 on these slabs. -/
example (opts opts' : Opts) (g : Nat → A3 Int → ℂ) :
    ∃ ob ob', ∃ (W W' : World ℂ ℝ) (m0s m0s' ms ms' : List (Mem ℂ ℝ)),
      perform ob (stockKernel 4 (fun _ _ => ⟨fun _ => 0, fun _ _ => 0⟩) (fun _ _ _ => 0)) W .same true 2 (fun _ => false) .full m0s = .ok ms ∧
      perform ob' exactKernel W' .same true 2 (fun _ => false) .full m0s' = .ok ms' ∧
      SameInput slabsIn (fun _ => false) m0s 1 (fun _ => false) m0s' 1 ∧ SameOutput slabsIn ms 1 ms' 1 := by
  obtain ⟨ob', S'⟩ := exSlabs opts'
  obtain ⟨ob, hob⟩ := C54_constructor slabGeometry (by decide) (by decide) .stock (fun z h => Family.noConfusion h) opts
  have S : StockC2C slabsIn slabsIn ⟨⟨0, 0, 0⟩, ⟨3, 5, 7⟩, ⟨0, 1, 2⟩⟩ ⟨⟨0, 0, 0⟩, ⟨3, 5, 7⟩, ⟨0, 1, 2⟩⟩ opts ob := by
    refine ⟨slabGeometry, hob, fun d => goodLength_small ?_ ?_⟩ <;> revert d <;> decide
  obtain ⟨W, hW⟩ := world_exists ob.plan true
  obtain ⟨W', hW'⟩ := world_exists ob'.plan true
  let need : Nat → Int := fun r => max (ob.sizeWorkspace noWork r) (ob'.sizeWorkspace noWork r)
  obtain ⟨m0s, h⟩ := arrays_exist slabsIn slabsIn false need 2 (.inl g : Field ℂ ℝ) (src_order S.geo true)
  have hs : SourceHolds slabsIn fun _ => false := by
    have key : ∀ r, r < slabsIn.length → (boxAt slabsIn r).low ∈ boxAt slabsIn r := by decide
    exact fun r hr => .inr ⟨_, key r hr⟩
  have ha : ∀ n : Nat → Int, (∀ r, n r ≤ need r) → HasArrays slabsIn slabsIn false false n 2 (fun _ => false) m0s := fun n hn => by
    have := h.has
    exact ⟨this.ranks, this.input, this.output, this.inputSize, this.outputSize, fun r m hm => le_trans (by have := hn r; omega) (this.work r m hm)⟩
  obtain ⟨ms, ms', h1, h2, h3⟩ := C63_complex (s := .full) (fwd := true) (junk := fun _ _ => ⟨fun _ => 0, fun _ _ => 0⟩) (inp := fun _ _ _ => 0) S S' (by decide : 0 < 4)
    exact_library (ws := noWork) (fun _ => le_rfl) hW hW' (ha _ fun r => le_max_left _ _) (ha _ fun r => le_max_right _ _) hs (.inr hs) (by decide) (by decide)
  have hsame : SameInput slabsIn (fun _ => false) m0s 1 (fun _ => false) m0s 1 := fun r m m' hm hm' a _ _ => by
    obtain rfl := Option.some.inj (hm.symm.trans hm'); rfl
  exact ⟨ob, ob', W, W', m0s, m0s, ms, ms', h1, h2, hsame, h3 1 1 (by decide) (by decide) hsame⟩

end Verif
