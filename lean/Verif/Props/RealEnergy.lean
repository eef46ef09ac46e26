import Verif.HalfEnergy
import Verif.Props.Convolution

/-!
# Sums of squares of real data and half spectra (C96)
-/

namespace Verif
open Stock Finset

section
variable {bin bout : List Box} {wi wo : Box} {opts : Opts} {ob : Object} {d : Fin 3} {w : Nat} {junk : Tag → Int × Int → Scratch}
  {inp : Tag → Int × Int → Arr ℂ} {K : Kernel ℂ ℝ} {ws : Executor → Int} {W : World ℂ ℝ} {nb : Nat} {s : Scaling} {xs : List (Mem ℂ ℝ)}

/-- The statement of C96 for an `fft3d_r2c`: the weighted sum over the half spectrum is the scaled sum of the data; the plain sum is between the half of it and all of it. -/
def HalfParseval (bin bout : List Box) (d : Fin 3) (wi : Box) (s : Scaling) (nb : Nat) (xs ms : List (Mem ℂ ℝ)) : Prop :=
  ∀ j, j < nb → ∀ input output : Nat → Data ℂ ℝ, (∀ r m, xs[r]? = some m → input r = m.input) → (∀ r m, ms[r]? = some m → output r = m.output) →
    weightedEnergy (halfWeight wi d) bout j output = s.factor wi.count ^ 2 * wi.count * totalEnergy bin j input ∧
    (s = .symmetric → weightedEnergy (halfWeight wi d) bout j output = totalEnergy bin j input) ∧
    totalEnergy bout j output ≤ s.factor wi.count ^ 2 * wi.count * totalEnergy bin j input ∧
    s.factor wi.count ^ 2 * wi.count * totalEnergy bin j input ≤ 2 * totalEnergy bout j output

theorem real_input {need : Nat → Int} {r2c : Option (Fin 3)} {realOut : Bool} (geo : Geometry bin bout r2c wi wo) {g : Nat → A3 Int → ℝ}
    (hc : CallArrays bin bout true realOut need nb (fun _ => false) xs (.inr g)) {j : Nat} (hj : j < nb) {input : Nat → Data ℂ ℝ}
    (hin : ∀ r m, xs[r]? = some m → input r = m.input) : totalEnergy bin j input = energy3 wi fun q => (g j q : ℂ) := by
  rw [totalEnergy_holds geo.tilesIn (src_order geo true) (G := .inr g) fun r hr => ?_]
  · unfold energy3
    refine Finset.sum_congr rfl fun p _ => ?_
    simp only [Field.val, entryEnergy, Complex.normSq_ofReal]
  · have hm := List.getElem?_eq_getElem (l := xs) (i := r) (by rw [hc.ranks]; exact hr)
    rw [hin r _ hm]
    exact hc.start r _ hm j hj

theorem symmetric_factor (hc : 0 < wi.count) (hs : s = .symmetric) : s.factor wi.count ^ 2 * (wi.count : ℝ) = 1 := by
  have := inverse_factor (.inr (.inr ⟨hs, hs⟩) : Inverse s s) hc
  rw [show s.factor wi.count ^ 2 * (wi.count : ℝ) = s.factor wi.count * s.factor wi.count * wi.count by ring, this]

theorem half_outcome {need : Nat → Int} (geo : Geometry bin bout (some d) wi wo) {g : Nat → A3 Int → ℝ} {ms : List (Mem ℂ ℝ)}
    (hc : CallArrays bin bout true false need nb (fun _ => false) xs (.inr g))
    (h2 : Outcome bout nb xs ms (.inl fun j p => (s.factor wi.count : ℂ) * dft3 true wi (fun q => (g j q : ℂ)) p)) : HalfParseval bin bout d wi s nb xs ms := by
  intro j hj input output hin hout
  have hold : ∀ r, r < bout.length → HoldsSlot (boxAt bout r) j (output r) (.inl fun j p => (s.factor wi.count : ℂ) * dft3 true wi (fun q => (g j q : ℂ)) p) := by
    intro r hr
    have hm := List.getElem?_eq_getElem (l := ms) (i := r) (by rw [h2.ranks, hc.ranks, ← geo.length]; exact hr)
    rw [hout r _ hm]
    exact h2.values r _ hm j hj
  let f : A3 Int → ℝ := fun p => Complex.normSq (dft3 true wi (fun q => (g j q : ℂ)) p)
  have ev : ∀ p, entryEnergy (some (Field.val (.inl fun j p => (s.factor wi.count : ℂ) * dft3 true wi (fun q => (g j q : ℂ)) p) j p)) = s.factor wi.count ^ 2 * f p := by
    intro p
    simp only [Field.val, entryEnergy, f]
    rw [Complex.normSq_mul, Complex.normSq_ofReal, sq]
  have f0 : ∀ p, 0 ≤ f p := fun p => Complex.normSq_nonneg _
  have e1 := real_input geo hc hj hin
  have e2 : weightedEnergy (halfWeight wi d) bout j output = s.factor wi.count ^ 2 * ∑ p ∈ wo.points, (halfWeight wi d p : ℝ) * f p := by
    rw [weightedEnergy_holds geo.tilesOut hold, Finset.mul_sum]
    exact Finset.sum_congr rfl fun p _ => by rw [ev]; ring
  have e3 : totalEnergy bout j output = s.factor wi.count ^ 2 * ∑ p ∈ wo.points, f p := by
    rw [totalEnergy_holds geo.tilesOut (dst_order geo true) hold, Finset.mul_sum]
    exact Finset.sum_congr rfl fun p _ => ev p
  have e4 : ∑ p ∈ wo.points, (halfWeight wi d p : ℝ) * f p = wi.count * energy3 wi fun q => (g j q : ℂ) := by
    rw [half_sum geo.complex geo.nonempty fun p hp => spectrum_symmetric true (g j) hp, ← energy3_dft3 true]
    rfl
  have hw1 : ∀ p, (1 : ℝ) ≤ halfWeight wi d p := fun p => by unfold halfWeight; split_ifs <;> norm_num
  have hw2 : ∀ p, (halfWeight wi d p : ℝ) ≤ 2 := fun p => by unfold halfWeight; split_ifs <;> norm_num
  have g1 : ∑ p ∈ wo.points, f p ≤ ∑ p ∈ wo.points, (halfWeight wi d p : ℝ) * f p := Finset.sum_le_sum fun p _ => le_mul_of_one_le_left (f0 p) (hw1 p)
  have g2 : ∑ p ∈ wo.points, (halfWeight wi d p : ℝ) * f p ≤ 2 * ∑ p ∈ wo.points, f p := by
    rw [Finset.mul_sum]; exact Finset.sum_le_sum fun p _ => mul_le_mul_of_nonneg_right (hw2 p) (f0 p)
  have hq : 0 ≤ s.factor wi.count ^ 2 := sq_nonneg _
  have key : s.factor wi.count ^ 2 * wi.count * totalEnergy bin j input = s.factor wi.count ^ 2 * ∑ p ∈ wo.points, (halfWeight wi d p : ℝ) * f p := by
    rw [e1, e4]; ring
  refine ⟨by rw [e2, key], fun hsy => ?_, ?_, ?_⟩
  · rw [e2, ← key, symmetric_factor (world_count_pos geo) hsy, one_mul]
  · rw [key, e3]; exact mul_le_mul_of_nonneg_left g1 hq
  · rw [key, e3]
    calc _ ≤ s.factor wi.count ^ 2 * (2 * ∑ p ∈ wo.points, f p) := mul_le_mul_of_nonneg_left g2 hq
      _ = _ := by ring

/-- **C96.** The forward call of an `fft3d_r2c`: the sum of the squares over all the entries on all the ranks, where an entry counts twice unless it is in the first plane of the
shortened direction or in the middle plane of an even length, is the sum of the squares of the data times the number of indexes and the square of the factor. -/
theorem C96_r2c (S : StockR2C bin bout d wi wo opts ob) (hw : 0 < w) (hW : WorldOk W ob.plan true) (hnb : 0 < nb)
    (ha : HasArrays bin bout true false (ob.sizeWorkspace noWork) nb (fun _ => false) xs) (hhalf : nb = 1 ∨ ReshapesAfter ob bin.length) :
    ∃ ms, perform ob (stockKernel w junk inp) W .r2c true nb (fun _ => false) s xs = .ok ms ∧ HalfParseval bin bout d wi s nb xs ms := by
  obtain ⟨G, hG, hc⟩ := ha.values S.geo.tilesIn (src_order S.geo true) (fun _ _ h => by cases h)
  cases G with
  | inl g => cases hG
  | inr g =>
  obtain ⟨ms, h1, h2⟩ := C53_forward (junk := junk) (inp := inp) (s := s) S hw hW hnb hc hhalf
  exact ⟨ms, h1, half_outcome S.geo hc h2⟩

/-- **C96**: the same with an FFTW or vendor backend. -/
theorem C96_library_r2c (S : LibraryR2C bin bout d wi wo opts ob) (hK : ExactLibrary K) (hws : ∀ e, 0 ≤ ws e) (hW : WorldOk W ob.plan true) (hnb : 0 < nb)
    (ha : HasArrays bin bout true false (ob.sizeWorkspace ws) nb (fun _ => false) xs) (hhalf : nb = 1 ∨ ReshapesAfter ob bin.length) :
    ∃ ms, perform ob K W .r2c true nb (fun _ => false) s xs = .ok ms ∧ HalfParseval bin bout d wi s nb xs ms := by
  obtain ⟨G, hG, hc⟩ := ha.values S.geo.tilesIn (src_order S.geo true) (fun _ _ h => by cases h)
  cases G with
  | inl g => cases hG
  | inr g =>
  obtain ⟨ms, h1, h2⟩ := C62_r2c_forward (s := s) S hK hws hW hnb hc hhalf
  exact ⟨ms, h1, half_outcome S.geo hc h2⟩

/-- The statement of C96 for real data and an `fft3d`, which stores the whole spectrum: no weights. -/
def FullParseval (bin bout : List Box) (wi : Box) (s : Scaling) (nb : Nat) (xs ms : List (Mem ℂ ℝ)) : Prop :=
  ∀ j, j < nb → ∀ input output : Nat → Data ℂ ℝ, (∀ r m, xs[r]? = some m → input r = m.input) → (∀ r m, ms[r]? = some m → output r = m.output) →
    totalEnergy bout j output = s.factor wi.count ^ 2 * wi.count * totalEnergy bin j input ∧ (s = .symmetric → totalEnergy bout j output = totalEnergy bin j input)

theorem full_outcome {need : Nat → Int} (geo : Geometry bin bout none wi wo) {g : Nat → A3 Int → ℝ} {ms : List (Mem ℂ ℝ)}
    (hc : CallArrays bin bout true false need nb (fun _ => false) xs (.inr g))
    (h2 : Outcome bout nb xs ms (.inl fun j p => (s.factor wi.count : ℂ) * dft3 true wi (fun q => (g j q : ℂ)) p)) : FullParseval bin bout wi s nb xs ms := by
  intro j hj input output hin hout
  have e1 := real_input geo hc hj hin
  have e2 : totalEnergy bout j output = s.factor wi.count ^ 2 * energy3 wi (dft3 true wi fun q => (g j q : ℂ)) := by
    rw [totalEnergy_holds (show Tiles bout wi from dst_tiles geo true) (dst_order geo true)
      (G := .inl fun j p => (s.factor wi.count : ℂ) * dft3 true wi (fun q => (g j q : ℂ)) p) fun r hr => ?_]
    · unfold energy3
      rw [Finset.mul_sum]
      refine Finset.sum_congr rfl fun p _ => ?_
      simp only [Field.val, entryEnergy]
      rw [Complex.normSq_mul, Complex.normSq_ofReal, sq]
    · have hm := List.getElem?_eq_getElem (l := ms) (i := r) (by rw [h2.ranks, hc.ranks, ← geo.length]; exact hr)
      rw [hout r _ hm]
      exact h2.values r _ hm j hj
  have e3 : totalEnergy bout j output = s.factor wi.count ^ 2 * wi.count * totalEnergy bin j input := by
    rw [e1, e2, energy3_dft3]; ring
  exact ⟨e3, fun hsy => by rw [e3, symmetric_factor (world_count_pos geo) hsy, one_mul]⟩

/-- **C96**: real data and an `fft3d`: no weights. -/
theorem C96_real (S : StockC2C bin bout wi wo opts ob) (hw : 0 < w) (hW : WorldOk W ob.plan true) (hnb : 0 < nb)
    (ha : HasArrays bin bout true false (ob.sizeWorkspace noWork) nb (fun _ => false) xs) :
    ∃ ms, perform ob (stockKernel w junk inp) W .r2c true nb (fun _ => false) s xs = .ok ms ∧ FullParseval bin bout wi s nb xs ms := by
  obtain ⟨G, hG, hc⟩ := ha.values S.geo.tilesIn (src_order S.geo true) (fun _ _ h => by cases h)
  cases G with
  | inl g => cases hG
  | inr g =>
  obtain ⟨ms, h1, h2⟩ := C40_real (junk := junk) (inp := inp) (s := s) S hw hW hnb hc
  exact ⟨ms, h1, full_outcome S.geo hc h2⟩

/-- **C96**: the same with an FFTW or vendor backend. -/
theorem C96_library_real (S : LibraryC2C bin bout wi wo opts ob) (hK : ExactLibrary K) (hws : ∀ e, 0 ≤ ws e) (hW : WorldOk W ob.plan true) (hnb : 0 < nb)
    (ha : HasArrays bin bout true false (ob.sizeWorkspace ws) nb (fun _ => false) xs) :
    ∃ ms, perform ob K W .r2c true nb (fun _ => false) s xs = .ok ms ∧ FullParseval bin bout wi s nb xs ms := by
  obtain ⟨G, hG, hc⟩ := ha.values S.geo.tilesIn (src_order S.geo true) (fun _ _ h => by cases h)
  cases G with
  | inl g => cases hG
  | inr g =>
  obtain ⟨ms, h1, h2⟩ := C62_real (s := s) S hK hws hW hnb hc
  exact ⟨ms, h1, full_outcome S.geo hc h2⟩

/-- A single one in the data and its plain sum over the half spectrum. -/
def PlainSum (bin bout : List Box) (wi wo : Box) (s : Scaling) (nb : Nat) (xs ms : List (Mem ℂ ℝ)) : Prop :=
  ∀ j, j < nb → ∀ input output : Nat → Data ℂ ℝ, (∀ r m, xs[r]? = some m → input r = m.input) → (∀ r m, ms[r]? = some m → output r = m.output) →
    totalEnergy bin j input = 1 ∧ totalEnergy bout j output = s.factor wi.count ^ 2 * wo.points.card

theorem plain_outcome {need : Nat → Int} (geo : Geometry bin bout (some d) wi wo) {x : Nat → A3 Int → ℝ} {ms : List (Mem ℂ ℝ)}
    (hx : ∀ j, ∀ p ∈ wi, x j p = if p = wi.low then 1 else 0) (ha : CallArrays bin bout true false need nb (fun _ => false) xs (.inr x))
    (h2 : Outcome bout nb xs ms (.inl fun j p => (s.factor wi.count : ℂ) * dft3 true wi (fun q => (x j q : ℂ)) p)) : PlainSum bin bout wi wo s nb xs ms := by
  obtain ⟨a, hq⟩ := geo.nonempty
  have hlow : wi.low ∈ wi := by
    rw [Box.mem_def]
    intro d
    have := Box.mem_def.1 hq d
    omega
  intro j hj input output hin hout
  refine ⟨?_, ?_⟩
  · rw [real_input geo ha hj hin]
    unfold energy3
    rw [Finset.sum_eq_single wi.low]
    · beta_reduce
      rw [hx j _ hlow, if_pos rfl]; simp
    · intro b hb hne
      beta_reduce
      rw [hx j _ (Box.mem_points.1 hb), if_neg hne]; simp
    · intro h
      exact absurd (Box.mem_points.2 hlow) h
  · rw [totalEnergy_holds geo.tilesOut (dst_order geo true) (G := .inl fun j p => (s.factor wi.count : ℂ) * dft3 true wi (fun q => (x j q : ℂ)) p) fun r hr => ?_]
    · have one : ∀ p, dft3 true wi (fun q => (x j q : ℂ)) p = 1 := by
        intro p
        unfold dft3
        rw [Finset.sum_eq_single wi.low]
        · beta_reduce
          rw [hx j _ hlow, if_pos rfl]
          unfold wave
          have : ∀ e, wi.rel wi.low e = 0 := fun e => by unfold Box.rel; simp
          simp [this, root_zero]
        · intro b hb hne
          beta_reduce
          rw [hx j _ (Box.mem_points.1 hb), if_neg hne]; simp
        · intro h
          exact absurd (Box.mem_points.2 hlow) h
      simp only [Field.val, entryEnergy, one, mul_one, Complex.normSq_ofReal, Finset.sum_const, nsmul_eq_mul]
      ring
    · have hm := List.getElem?_eq_getElem (l := ms) (i := r) (by rw [h2.ranks, ha.ranks, ← geo.length]; exact hr)
      rw [hout r _ hm]
      exact h2.values r _ hm j hj

/-- **C96**: the weights are needed. With a single one in the data every entry of the spectrum is the factor, so the plain sum over the half spectrum is the square of the factor
times the number of its entries, and not times the number of indexes. -/
theorem C96_weights_needed (S : StockR2C bin bout d wi wo opts ob) (hw : 0 < w) (hW : WorldOk W ob.plan true) (hnb : 0 < nb) {x : Nat → A3 Int → ℝ}
    (hx : ∀ j, ∀ p ∈ wi, x j p = if p = wi.low then 1 else 0)
    (ha : CallArrays bin bout true false (ob.sizeWorkspace noWork) nb (fun _ => false) xs (.inr x)) (hhalf : nb = 1 ∨ ReshapesAfter ob bin.length) :
    ∃ ms, perform ob (stockKernel w junk inp) W .r2c true nb (fun _ => false) s xs = .ok ms ∧ PlainSum bin bout wi wo s nb xs ms := by
  obtain ⟨ms, h1, h2⟩ := C53_forward (junk := junk) (inp := inp) (s := s) S hw hW hnb ha hhalf
  exact ⟨ms, h1, plain_outcome S.geo hx ha h2⟩

/-- **C96**: the same with an FFTW or vendor backend. -/
theorem C96_library_weights_needed (S : LibraryR2C bin bout d wi wo opts ob) (hK : ExactLibrary K) (hws : ∀ e, 0 ≤ ws e) (hW : WorldOk W ob.plan true) (hnb : 0 < nb)
    {x : Nat → A3 Int → ℝ} (hx : ∀ j, ∀ p ∈ wi, x j p = if p = wi.low then 1 else 0)
    (ha : CallArrays bin bout true false (ob.sizeWorkspace ws) nb (fun _ => false) xs (.inr x)) (hhalf : nb = 1 ∨ ReshapesAfter ob bin.length) :
    ∃ ms, perform ob K W .r2c true nb (fun _ => false) s xs = .ok ms ∧ PlainSum bin bout wi wo s nb xs ms := by
  obtain ⟨ms, h1, h2⟩ := C62_r2c_forward (s := s) S hK hws hW hnb ha hhalf
  exact ⟨ms, h1, plain_outcome S.geo hx ha h2⟩

end

/-- The weights for length 4: planes 0 and 2 once, plane 1 twice; for length 5: plane 0 once, planes 1 and 2 twice. -/
example : (List.range 3).map (fun k => halfWeight ⟨⟨0, 0, 0⟩, ⟨3, 0, 0⟩, ⟨0, 1, 2⟩⟩ 0 ⟨k, 0, 0⟩) = [1, 2, 1] ∧
    (List.range 3).map (fun k => halfWeight ⟨⟨0, 0, 0⟩, ⟨4, 0, 0⟩, ⟨0, 1, 2⟩⟩ 0 ⟨k, 0, 0⟩) = [1, 2, 2] := by decide

/-- C96: the hypotheses can be met with any real data and any options, and `symmetric` keeps the weighted sum. -/
example (opts : Opts) (x : Nat → A3 Int → ℝ) :
    ∃ wi ob, ∃ (W : World ℂ ℝ) (xs ms : List (Mem ℂ ℝ)), CallArrays exIn exOutC true false (ob.sizeWorkspace noWork) 1 (fun _ => false) xs (.inr x) ∧
      perform ob (stockKernel 4 (fun _ _ => ⟨fun _ => 0, fun _ _ => 0⟩) (fun _ _ _ => 0)) W .r2c true 1 (fun _ => false) .symmetric xs = .ok ms ∧
      weightedEnergy (halfWeight wi 1) exOutC 0 (fun r => (ms[r]?).elim (.inl []) fun m => m.output) =
        totalEnergy exIn 0 (fun r => (xs[r]?).elim (.inl []) fun m => m.input) := by
  obtain ⟨wi, wo, ob, S⟩ := exObjectC opts
  obtain ⟨W, hW⟩ := world_exists ob.plan true
  obtain ⟨xs, ha⟩ := arrays_exist exIn exOutC false (ob.sizeWorkspace noWork) 1 (.inr x : Field ℂ ℝ) (src_order S.geo true)
  obtain ⟨ms, h1, h2⟩ := C96_r2c (junk := fun _ _ => ⟨fun _ => 0, fun _ _ => 0⟩) (inp := fun _ _ _ => 0) (s := .symmetric) S (by decide : 0 < 4) hW one_pos ha.has (.inl rfl)
  exact ⟨wi, ob, W, xs, ms, ha, h1, (h2 0 one_pos _ _ (fun r m hm => by rw [hm]; rfl) (fun r m hm => by rw [hm]; rfl)).2.1 rfl⟩

/-- C96: 4 x 6 x 8 indexes, a single one in the data and no scaling: the plain sum over the half spectrum is 128, the number of indexes is 192. -/
example (opts : Opts) :
    ∃ (wi : Box) (ob : Object) (W : World ℂ ℝ) (xs ms : List (Mem ℂ ℝ)),
      perform ob (stockKernel 4 (fun _ _ => ⟨fun _ => 0, fun _ _ => 0⟩) (fun _ _ _ => 0)) W .r2c true 1 (fun _ => false) .none xs = .ok ms ∧ wi.count = 192 ∧
      totalEnergy exIn 0 (fun r => (xs[r]?).elim (.inl []) fun m => m.input) = 1 ∧
      totalEnergy exOutC 0 (fun r => (ms[r]?).elim (.inl []) fun m => m.output) = 128 := by
  obtain ⟨wi, wo, ob, S⟩ := exObjectC opts
  obtain ⟨W, hW⟩ := world_exists ob.plan true
  obtain ⟨xs, ha⟩ := arrays_exist exIn exOutC false (ob.sizeWorkspace noWork) 1 (.inr fun _ p => if p = wi.low then 1 else 0 : Field ℂ ℝ) (src_order S.geo true)
  obtain ⟨ms, h1, h2⟩ := C96_weights_needed (junk := fun _ _ => ⟨fun _ => 0, fun _ _ => 0⟩) (inp := fun _ _ _ => 0) (s := .none) S (by decide : 0 < 4) hW one_pos
    (fun _ _ _ => rfl) ha (.inl rfl)
  obtain ⟨h3, h4⟩ := h2 0 one_pos (fun r => (xs[r]?).elim (.inl []) fun m => m.input) (fun r => (ms[r]?).elim (.inl []) fun m => m.output)
    (fun r m hm => by rw [hm]; rfl) (fun r m hm => by rw [hm]; rfl)
  have hwi : wi = ⟨⟨0, 0, 0⟩, ⟨3, 5, 7⟩, ⟨0, 1, 2⟩⟩ := (Except.ok.inj ((by decide : findWorld exIn = .ok ⟨⟨0, 0, 0⟩, ⟨3, 5, 7⟩, ⟨0, 1, 2⟩⟩).symm.trans S.geo.worldIn)).symm
  have hwo : wo.count = 128 := by
    have : ∃ w, findWorld exOutC = .ok w ∧ w.count = 128 := ⟨_, rfl, by decide⟩
    obtain ⟨w, e, hc⟩ := this
    rw [← Except.ok.inj (e.symm.trans S.geo.worldOut), hc]
  have hcard : wo.points.card = 128 := by have := Box.count_eq_card wo; omega
  refine ⟨wi, ob, W, xs, ms, h1, by rw [hwi]; decide, h3, ?_⟩
  rw [h4, factor_none, hcard]
  norm_num

/-- C96: the same with a library; `full` and a single one in the data. -/
example (opts : Opts) :
    ∃ (wi wo : Box) (ob : Object) (W : World ℂ ℝ) (xs ms : List (Mem ℂ ℝ)), perform ob exactKernel W .r2c true 1 (fun _ => false) .full xs = .ok ms ∧
      HalfParseval exIn exOutC 1 wi .full 1 xs ms ∧ PlainSum exIn exOutC wi wo .full 1 xs ms := by
  obtain ⟨wi, wo, ob, S⟩ := exObjectC opts
  have S' : LibraryR2C exIn exOutC 1 wi wo opts ob := ⟨S.geo, S.made, S.first, S.small⟩
  obtain ⟨W, hW⟩ := world_exists ob.plan true
  obtain ⟨xs, ha⟩ := arrays_exist exIn exOutC false (ob.sizeWorkspace fun e => e.boxSize) 1 (.inr fun _ p => if p = wi.low then 1 else 0 : Field ℂ ℝ) (src_order S.geo true)
  obtain ⟨ms, h1, h2⟩ := C96_library_r2c (s := .full) S' exact_library (fun e => e.boxSize_nonneg) hW one_pos ha.has (.inl rfl)
  obtain ⟨ms', h3, h4⟩ := C96_library_weights_needed (s := .full) S' exact_library (fun e => e.boxSize_nonneg) hW one_pos (fun _ _ _ => rfl) ha (.inl rfl)
  cases h1.symm.trans h3
  exact ⟨wi, wo, ob, W, xs, ms, h1, h2, h4⟩

/-- C96: real data and an `fft3d`, any data, options and scaling, a batch of two; stock and library. -/
example (opts : Opts) (ho : opts.useReorder = true) (s : Scaling) (x : Nat → A3 Int → ℝ) :
    (∃ (wi : Box) (ob : Object) (W : World ℂ ℝ) (xs ms : List (Mem ℂ ℝ)), CallArrays exIn exOut true false (ob.sizeWorkspace noWork) 2 (fun _ => false) xs (.inr x) ∧
      perform ob (stockKernel 4 (fun _ _ => ⟨fun _ => 0, fun _ _ => 0⟩) (fun _ _ _ => 0)) W .r2c true 2 (fun _ => false) s xs = .ok ms ∧
      FullParseval exIn exOut wi s 2 xs ms) ∧
    ∃ (wi : Box) (ob : Object) (W : World ℂ ℝ) (xs ms : List (Mem ℂ ℝ)), CallArrays exIn exOut true false (ob.sizeWorkspace fun e => e.boxSize) 2 (fun _ => false) xs (.inr x) ∧
      perform ob exactKernel W .r2c true 2 (fun _ => false) s xs = .ok ms ∧ FullParseval exIn exOut wi s 2 xs ms := by
  constructor
  · obtain ⟨wi, wo, ob, S⟩ := exObject opts
    obtain ⟨W, hW⟩ := world_exists ob.plan true
    obtain ⟨xs, ha⟩ := arrays_exist exIn exOut false (ob.sizeWorkspace noWork) 2 (.inr x : Field ℂ ℝ) (src_order S.geo true)
    obtain ⟨ms, h1, h2⟩ := C96_real (junk := fun _ _ => ⟨fun _ => 0, fun _ _ => 0⟩) (inp := fun _ _ _ => 0) (s := s) S (by decide : 0 < 4) hW two_pos ha.has
    exact ⟨wi, ob, W, xs, ms, ha, h1, h2⟩
  · obtain ⟨wi, wo, ob, S⟩ := exLibrary opts ho
    obtain ⟨W, hW⟩ := world_exists ob.plan true
    obtain ⟨xs, ha⟩ := arrays_exist exIn exOut false (ob.sizeWorkspace fun e => e.boxSize) 2 (.inr x : Field ℂ ℝ) (src_order S.geo true)
    obtain ⟨ms, h1, h2⟩ := C96_library_real (s := s) S exact_library (fun e => e.boxSize_nonneg) hW two_pos ha.has
    exact ⟨wi, ob, W, xs, ms, ha, h1, h2⟩

end Verif
