import Verif.WaveLemmas
import Verif.Props.Library
import Verif.Props.R2R

/-!
# The sine and cosine transforms of the FFTW backend (C64, C65)

The executors (heffte_backend_fftw.h:578-683) put the same lines, in one, two or three directions, to the library as the ones of the Fourier
transforms, with a kind of transform for each direction (:560-573).
-/

namespace Verif
open Finset Stock

/-- The backends `fftw_cos`, `fftw_sin`, `fftw_cos1` and `fftw_sin1`. -/
def Wave.backend : Wave → Backend
  | .cos => .fftwTrig .cos
  | .sin => .fftwTrig .sin
  | .cos1 => .fftwTrig .cos1
  | .sin1 => .fftwSin1

/-- A library that computes the transforms, for lines of the lengths for which they are defined. -/
def ExactWaves (K : Kernel ℝ Unit) (z : Wave) : Prop := LinesOk K (fun n => z.least ≤ n) (waves z)

/-- An object of these backends. -/
structure LibraryR2R (z : Wave) (bin bout : List Box) (wi wo : Box) (opts : Opts) (ob : Object) : Prop where
  geo : Geometry bin bout none wi wo
  made : makeFft3d z.backend bin bout opts = .ok ob
  orderly : opts.useReorder = true ∨ (∀ b ∈ bin, b.order = ⟨0, 1, 2⟩) ∧ ∀ b ∈ bout, b.order = ⟨0, 1, 2⟩
  defined : ∀ d, z.least ≤ wi.extent d

section
variable {z : Wave} {bin bout : List Box} {wi wo : Box} {opts : Opts} {ob : Object} {K : Kernel ℝ Unit} {W : World ℝ Unit} {fwd : Bool} {nb : Nat}
  {inplace : Nat → Bool} {s : Scaling} {m0s : List (Mem ℝ Unit)}

theorem wave_joins (z : Wave) : z.backend.Joins := by
  cases z <;> exact ⟨rfl, rfl, fun _ _ => rfl, fun _ => rfl⟩

theorem wave_family (z : Wave) (y : Trig) : z.backend.family ≠ .stock y := by
  cases z <;> exact fun h => Family.noConfusion h

theorem baseFactor_wave (S : LibraryR2R z bin bout wi wo opts ob) : ob.baseFactor = 1 / (z.gain3 wi : ℝ) := by
  obtain ⟨hplan, hfam, hp, -, -, -, hc, -⟩ := makeFft3d_ok S.geo S.made
  obtain ⟨r, -, ok⟩ := planOperations_ok S.geo hplan
  have hs : ∀ d, ob.plan.fftSizes.get d = wi.extent d := by
    intro d
    rw [ok.sizes, extent_eq]
    have h1 := extent_pos S.geo d
    rw [extent_eq] at h1
    change 1 ≤ (wi.size.get d).toNat at h1
    change _ = ((wi.size.get d).toNat : Int)
    omega
  have hcount : (wi.count : ℝ) = wi.extent 0 * wi.extent 1 * wi.extent 2 := by
    have hne : wi.empty = false := by
      obtain ⟨q, hq⟩ := S.geo.nonempty
      exact Box.empty_false_of_mem hq
    have h : ∀ d, wi.size.get d = (wi.extent d : Int) := fun d => by rw [← hs d, ok.sizes]
    unfold Box.count
    rw [if_neg (by simp [hne])]
    rw [show wi.size 0 = _ from h 0, show wi.size 1 = _ from h 1, show wi.size 2 = _ from h 2]
    push_cast; rfl
  have hf : ob.family = z.backend.family := hfam
  unfold Object.baseFactor Wave.gain3
  rw [hf]
  have e0 := hs 0
  have e1 := hs 1
  have e2 := hs 2
  simp only [A3.get_zero, A3.get_one, A3.get_two] at e0 e1 e2
  have d0 := S.defined 0
  have d1 := S.defined 1
  have d2 := S.defined 2
  cases z with
  | cos => simp only [Wave.backend, Backend.fftwTrig, Wave.gain]; rw [hc, hcount]; push_cast; rw [div_div]; congr 1; ring
  | sin => simp only [Wave.backend, Backend.fftwTrig, Wave.gain]; rw [hc, hcount]; push_cast; rw [div_div]; congr 1; ring
  | cos1 =>
    simp only [Wave.backend, Backend.fftwTrig, Wave.gain]
    rw [e0, e1, e2]
    have c : ∀ n : Nat, 2 ≤ n → ((n - 1 : Nat) : ℝ) = (n : ℝ) - 1 := fun n hn => by rw [Nat.cast_sub (by omega)]; simp
    push_cast [c _ d0, c _ d1, c _ d2]
    congr 1
    ring
  | sin1 =>
    simp only [Wave.backend, Backend.fftwSin1, Wave.gain]
    rw [e0, e1, e2]
    push_cast
    congr 1
    ring

theorem scaleFactor_wave (S : LibraryR2R z bin bout wi wo opts ob) (hs : s ≠ .none) : ob.scaleFactor s = s.factor (z.gain3 wi) := by
  unfold Object.scaleFactor Scaling.factor
  rw [baseFactor_wave S]
  cases s with
  | none => exact absurd rfl hs
  | full => simp
  | symmetric => simp

/-- C64: a call of `fftw_cos`, `fftw_sin`, `fftw_cos1` or `fftw_sin1` computes the three dimensional transform of the documented kind, times the
factor of the scaling, for all the layouts, options, batches, in place or not. -/
theorem C64_calls (S : LibraryR2R z bin bout wi wo opts ob) (hK : ExactWaves K z) (hW : WorldOk W ob.plan fwd) (hnb : 0 < nb)
    {g : Nat → A3 Int → ℝ}
    (ha : CallArrays (srcBoxes fwd bin bout) (dstBoxes fwd bin bout) false false (ob.sizeWorkspace noWork) nb inplace m0s (.inl g))
    (hsrc : SourceOrInplace (srcBoxes fwd bin bout) inplace) :
    ∃ ms, performR2R ob K W fwd nb inplace s m0s = .ok ms ∧
      Outcome (dstBoxes fwd bin bout) nb m0s ms (.inl fun j p => s.factor (z.gain3 wi) * wave3 z fwd wi (g j) p) := by
  obtain ⟨-, -, hp, e1, e2, -, -, -⟩ := makeFft3d_ok S.geo S.made
  obtain ⟨m1, m2, ms, h1, h2⟩ := call_lib (W := W) (m0s := m0s) (mode := .same) (t := waves z) (G := .inl g) (wave_joins z) hK
    (fun d => by rw [← extent_eq]; exact S.defined d) S.geo S.made S.orderly
    ⟨by simp, by simp, fun _ => rfl⟩ rfl (fun _ => le_rfl) ha hW hnb (fun _ _ _ => rfl) (by
      rcases hsrc with h | h
      · exact .inr (.inl fun r hr => h r (by rw [src_length S.geo]; exact hr))
      · exact .inr (.inr fun r hr => source_all h (by rw [src_length S.geo]; exact hr)))
  have e : fieldC2C K wi (waves z) (joinedDirs m1 m2 ob.plan.dirs) .same fwd (.inl g) 3 = .inl fun j => wave3 z fwd wi (g j) := by
    unfold fieldC2C
    simp only [reduceCtorEq, false_and, if_false]
    rw [joined_weights (fun d => wave_weights z fwd (S.defined d)) hp.dirs]
    rfl
  rw [e] at h2
  obtain ⟨ms', c1, c2⟩ := call_scaled (ob := ob) (fun x y => x * y) (fun _ u => u) fwd s h2 (by rw [e1, e2])
    (by rw [ha.ranks, src_length S.geo, dst_length S.geo]) ha.outputSize (dst_order S.geo fwd)
  refine ⟨ms', ?_, ?_⟩
  · unfold performR2R Object.call
    rw [h1]
    exact c1
  · by_cases hs : s = .none
    · subst hs
      rw [if_pos rfl] at c2
      simpa [Scaling.factor] using c2
    · rw [if_neg hs, scaleFactor_wave S hs] at c2
      exact c2

theorem wave_gain_pos (S : LibraryR2R z bin bout wi wo opts ob) (d : Fin 3) : 0 < z.gain (wi.extent d) := by
  have := S.defined d
  cases z <;> simp only [Wave.gain, Wave.least] at this ⊢ <;> omega

theorem wave_gain3_pos (S : LibraryR2R z bin bout wi wo opts ob) : 0 < (z.gain3 wi : Int) := by
  unfold Wave.gain3
  exact_mod_cast Nat.mul_pos (Nat.mul_pos (wave_gain_pos S 0) (wave_gain_pos S 1)) (wave_gain_pos S 2)

theorem wave3_mul (z : Wave) (fwd : Bool) (v : Box) (c : ℝ) (G : A3 Int → ℝ) (p : A3 Int) : wave3 z fwd v (fun q => c * G q) p = c * wave3 z fwd v G p := by
  unfold wave3
  rw [Finset.mul_sum]
  exact sum_congr rfl fun q _ => by ring

/-- C64: backward after forward multiplies the data with `2 n` (`2 (n - 1)` for the cosine-I, `2 (n + 1)` for the sine-I transform) for every
direction and with the two factors; the scalings `full` and `symmetric` invert exactly that. -/
theorem C64_round_trip (S : LibraryR2R z bin bout wi wo opts ob) (hK : ExactWaves K z) {W' : World ℝ Unit} (hW : WorldOk W ob.plan true)
    (hW' : WorldOk W' ob.plan false) (hnb : 0 < nb) {g : Nat → A3 Int → ℝ} {inplace' : Nat → Bool} {s' : Scaling}
    (ha : CallArrays bin bout false false (ob.sizeWorkspace noWork) nb inplace m0s (.inl g))
    (hs : SourceOrInplace bin inplace) (hs' : SourceOrInplace bout inplace') :
    ∃ ms, performR2R ob K W true nb inplace s m0s = .ok ms ∧
      ∀ m1s, HasArrays bout bin false false (ob.sizeWorkspace noWork) nb inplace' m1s → Continues inplace' ms m1s →
        ∃ ms', performR2R ob K W' false nb inplace' s' m1s = .ok ms' ∧
          Outcome bin nb m1s ms' (.inl fun j p => s'.factor (z.gain3 wi) * s.factor (z.gain3 wi) *
            (z.gain (wi.extent 0) * z.gain (wi.extent 1) * z.gain (wi.extent 2) : ℝ) * g j p) ∧
          (Inverse s s' → Outcome bin nb m1s ms' (.inl g)) := by
  obtain ⟨ms, h1, h2⟩ := C64_calls (s := s) (fwd := true) S hK hW hnb ha hs
  refine ⟨ms, h1, fun m1s hm1 hcont => ?_⟩
  have hlen : m0s.length = bout.length := by rw [ha.ranks]; exact S.geo.length.symm
  have hca := continue_arrays hm1 h2 hlen hcont
  obtain ⟨ms', h3, h4⟩ := C64_calls (s := s') (fwd := false) S hK hW' hnb hca hs'
  have h5 : Outcome bin nb m1s ms' (.inl fun j p => s'.factor (z.gain3 wi) * s.factor (z.gain3 wi) *
      (z.gain (wi.extent 0) * z.gain (wi.extent 1) * z.gain (wi.extent 2) : ℝ) * g j p) := by
    refine h4.congr S.geo.tilesIn (by rw [hm1.ranks]; exact S.geo.length) fun j _ p hp => ?_
    simp only [Field.val]
    rw [wave3_mul, wave3_inv z wi S.defined (g j) hp]
    unfold Wave.gain3
    push_cast
    congr 1
    ring
  refine ⟨ms', h3, h5, fun hinv => ?_⟩
  have hinv' := inverse_factor hinv (wave_gain3_pos S)
  refine h5.congr S.geo.tilesIn (by rw [hm1.ranks]; exact S.geo.length) fun j _ p hp => ?_
  simp only [Field.val]
  have e : (((z.gain3 wi : Nat) : Int) : ℝ) = (z.gain (wi.extent 0) * z.gain (wi.extent 1) * z.gain (wi.extent 2) : ℝ) := by
    unfold Wave.gain3; push_cast; rfl
  rw [← e, hinv', one_mul]

/-- C64: the constructor returns an object, with any options. -/
theorem C64_constructor (geo : Geometry bin bout none wi wo) (hsmall : wi.count < 2 ^ 31)
    (hlong : ∀ d, (bin.length : Int) ≤ wi.size.get d ∧ (bin.length : Int) ≤ wo.size.get d) (z : Wave) (opts : Opts) :
    ∃ ob, makeFft3d z.backend bin bout opts = .ok ob :=
  C54_constructor geo hsmall hlong z.backend (wave_family z) opts

end

/-! ## The backends differ (C65) -/

/-- The values of the stock backend over the values of the FFTW backend. -/
noncomputable def backendRatio (fwd : Bool) (s : Scaling) : ℝ :=
  match fwd, s with
  | true, .none => 1
  | true, .full => 1 / 8
  | true, .symmetric => 1 / Real.sqrt 8
  | false, .none => 8
  | false, .full => 1
  | false, .symmetric => Real.sqrt 8

section
variable {z : Trig} {bin bout : List Box} {wi wo wi' wo' : Box} {opts opts' : Opts} {ob ob' : Object} {w : Nat} {junk : Tag → Int × Int → Scratch}
  {inp : Tag → Int × Int → Arr ℂ} {K : Kernel ℝ Unit} {W W' : World ℝ Unit} {fwd : Bool} {nb : Nat} {inplace inplace' : Nat → Bool} {s : Scaling}
  {m0s m0s' : List (Mem ℝ Unit)} {ws : Tag → List ℝ}

theorem factor_ratio (z : Trig) (fwd : Bool) (s : Scaling) (v : Box) (hg : 0 < z.wave.gain3 v) (G : A3 Int → ℝ) (p : A3 Int) :
    s.factor (z.gain3 v) * trig3 z fwd v G p = backendRatio fwd s * (s.factor (z.wave.gain3 v) * wave3 z.wave fwd v G p) := by
  have hg' : (0 : ℝ) < z.wave.gain3 v := by exact_mod_cast hg
  have h8 : Real.sqrt 8 ≠ 0 := by positivity
  have h88 : Real.sqrt 8 * Real.sqrt 8 = 8 := Real.mul_self_sqrt (by norm_num)
  have hq : Real.sqrt (z.wave.gain3 v : ℝ) ≠ 0 := (Real.sqrt_pos.2 hg').ne'
  have hsq : Real.sqrt (8 * (z.wave.gain3 v : ℝ)) = Real.sqrt 8 * Real.sqrt (z.wave.gain3 v : ℝ) := Real.sqrt_mul (by norm_num) _
  have e := gain3_wave z v
  obtain ⟨t1, t2⟩ := trig3_wave3 z v G p
  cases fwd with
  | true =>
    rw [t1]
    cases s <;> simp only [Scaling.factor, backendRatio, Int.cast_natCast, e, hsq]
    · ring
    · field_simp
    · field_simp
  | false =>
    rw [t2]
    cases s <;> simp only [Scaling.factor, backendRatio, Int.cast_natCast, e, hsq]
    · ring
    · field_simp
    · field_simp
      rw [sq, h88]

/-- C65: the stock backend and the FFTW backend on the same boxes and the same data: up to the factor `backendRatio` the results are the same. -/
theorem C65_ratio (S : StockR2R z bin bout wi wo opts ob) (S' : LibraryR2R z.wave bin bout wi' wo' opts' ob') (hw : 0 < w) (hK : ExactWaves K z.wave)
    (hW : WorldOk W ob.plan fwd) (hW' : WorldOk W' ob'.plan fwd) (hnb : 0 < nb) (hws : EnoughWork ob ws) {g : Nat → A3 Int → ℝ}
    (ha : CallArrays (srcBoxes fwd bin bout) (dstBoxes fwd bin bout) false false (ob.sizeWorkspace trigWork) nb inplace m0s (.inl g))
    (ha' : CallArrays (srcBoxes fwd bin bout) (dstBoxes fwd bin bout) false false (ob'.sizeWorkspace noWork) nb inplace' m0s' (.inl g))
    (hsrc : SourceHolds (srcBoxes fwd bin bout) inplace) (hsrc' : SourceOrInplace (srcBoxes fwd bin bout) inplace') :
    ∃ ms ms' A, performR2R ob (trigKernel (stockKernel w junk inp) ws) W fwd nb inplace s m0s = .ok ms ∧
      performR2R ob' K W' fwd nb inplace' s m0s' = .ok ms' ∧ Outcome (dstBoxes fwd bin bout) nb m0s' ms' (.inl A) ∧
      Outcome (dstBoxes fwd bin bout) nb m0s ms (.inl fun j p => backendRatio fwd s * A j p) := by
  obtain ⟨ms, h1, h2⟩ := C45_calls (junk := junk) (inp := inp) (s := s) S hw hW hnb hws ha hsrc
  obtain ⟨ms', h3, h4⟩ := C64_calls (s := s) S' hK hW' hnb ha' hsrc'
  refine ⟨ms, ms', _, h1, h3, h4, ?_⟩
  obtain rfl := Except.ok.inj (S.geo.worldIn.symm.trans S'.geo.worldIn)
  have hg : 0 < z.wave.gain3 wi := by exact_mod_cast wave_gain3_pos S'
  have e : (fun j p => s.factor (z.gain3 wi) * trig3 z fwd wi (g j) p) =
      fun j p => backendRatio fwd s * (s.factor (z.wave.gain3 wi) * wave3 z.wave fwd wi (g j) p) := by
    funext j p
    exact factor_ratio z fwd s wi hg (g j) p
  rw [← e]
  exact h2

/-- C65: forward without scaling and backward with full scaling the two backends agree. -/
theorem C65_agree_partial (S : StockR2R z bin bout wi wo opts ob) (S' : LibraryR2R z.wave bin bout wi' wo' opts' ob') (hw : 0 < w) (hK : ExactWaves K z.wave)
    (hW : WorldOk W ob.plan fwd) (hW' : WorldOk W' ob'.plan fwd) (hnb : 0 < nb) (hws : EnoughWork ob ws) {g : Nat → A3 Int → ℝ}
    (ha : CallArrays (srcBoxes fwd bin bout) (dstBoxes fwd bin bout) false false (ob.sizeWorkspace trigWork) nb inplace m0s (.inl g))
    (ha' : CallArrays (srcBoxes fwd bin bout) (dstBoxes fwd bin bout) false false (ob'.sizeWorkspace noWork) nb inplace' m0s' (.inl g))
    (hsrc : SourceHolds (srcBoxes fwd bin bout) inplace) (hsrc' : SourceOrInplace (srcBoxes fwd bin bout) inplace')
    (hs : s = if fwd then .none else .full) :
    ∃ ms ms' A, performR2R ob (trigKernel (stockKernel w junk inp) ws) W fwd nb inplace s m0s = .ok ms ∧
      performR2R ob' K W' fwd nb inplace' s m0s' = .ok ms' ∧ Outcome (dstBoxes fwd bin bout) nb m0s' ms' (.inl A) ∧
      Outcome (dstBoxes fwd bin bout) nb m0s ms (.inl A) := by
  obtain ⟨ms, ms', A, h1, h2, h3, h4⟩ := C65_ratio (junk := junk) (inp := inp) (s := s) S S' hw hK hW hW' hnb hws ha ha' hsrc hsrc'
  have e : backendRatio fwd s = 1 := by subst hs; cases fwd <;> rfl
  refine ⟨ms, ms', A, h1, h2, h3, ?_⟩
  simpa [e] using h4

/-- The transform of data that are not zero is not zero. -/
theorem wave3_nonzero {z : Wave} {v : Box} (hn : ∀ d, z.least ≤ v.extent d) (hg : 0 < z.gain3 v) {p0 : A3 Int} (hp : p0 ∈ v) (fwd : Bool) :
    ∃ G, ∃ p ∈ v, wave3 z fwd v G p ≠ 0 := by
  have h := wave3_inv z v hn (fun _ => 1) hp
  have hne : (z.gain3 v : ℝ) * 1 ≠ 0 := by rw [mul_one]; exact_mod_cast hg.ne'
  cases fwd with
  | false => exact ⟨_, p0, hp, by rw [h]; exact hne⟩
  | true =>
    by_contra hc
    push Not at hc
    have hz : wave3 z false v (wave3 z true v fun _ => 1) p0 = 0 := by
      unfold wave3
      refine sum_eq_zero fun q hq => ?_
      rw [Box.mem_points] at hq
      have := hc (fun _ => 1) q hq
      unfold wave3 at this
      rw [this, zero_mul]
    rw [h] at hz
    exact hne hz

/-- Finding (C65): in all the other cases there are data for which they do not agree: the backward transforms of the stock backend are not
`RODFT01` and `REDFT01` but eight times these. -/
theorem C65_false (S : StockR2R z bin bout wi wo opts ob) (S' : LibraryR2R z.wave bin bout wi' wo' opts' ob') (hw : 0 < w) (hK : ExactWaves K z.wave)
    (hW : WorldOk W ob.plan fwd) (hW' : WorldOk W' ob'.plan fwd) (hnb : 0 < nb) (hws : EnoughWork ob ws)
    (hs : s ≠ if fwd then .none else .full) :
    ∃ g : Nat → A3 Int → ℝ, ∀ m0s m0s' inplace inplace',
      CallArrays (srcBoxes fwd bin bout) (dstBoxes fwd bin bout) false false (ob.sizeWorkspace trigWork) nb inplace m0s (.inl g) →
      CallArrays (srcBoxes fwd bin bout) (dstBoxes fwd bin bout) false false (ob'.sizeWorkspace noWork) nb inplace' m0s' (.inl g) →
      SourceHolds (srcBoxes fwd bin bout) inplace → SourceOrInplace (srcBoxes fwd bin bout) inplace' →
      ∃ ms ms' A A', performR2R ob (trigKernel (stockKernel w junk inp) ws) W fwd nb inplace s m0s = .ok ms ∧
        performR2R ob' K W' fwd nb inplace' s m0s' = .ok ms' ∧ Outcome (dstBoxes fwd bin bout) nb m0s' ms' (.inl A') ∧
        Outcome (dstBoxes fwd bin bout) nb m0s ms (.inl A) ∧ ∃ p ∈ wi, A 0 p ≠ A' 0 p := by
  obtain rfl := Except.ok.inj (S.geo.worldIn.symm.trans S'.geo.worldIn)
  have hg : 0 < z.wave.gain3 wi := by exact_mod_cast wave_gain3_pos S'
  obtain ⟨p0, hp0⟩ := S.geo.nonempty
  obtain ⟨G, p, hp, hne⟩ := wave3_nonzero S'.defined hg hp0 fwd
  refine ⟨fun _ => G, fun m0s m0s' inplace inplace' ha ha' hsrc hsrc' => ?_⟩
  obtain ⟨ms, h1, h2⟩ := C45_calls (junk := junk) (inp := inp) (s := s) S hw hW hnb hws ha hsrc
  obtain ⟨ms', h3, h4⟩ := C64_calls (s := s) S' hK hW' hnb ha' hsrc'
  refine ⟨ms, ms', _, _, h1, h3, h4, h2, p, hp, ?_⟩
  rw [factor_ratio z fwd s wi hg]
  have hg' : (0 : ℝ) < z.wave.gain3 wi := by exact_mod_cast hg
  have hf : s.factor (z.wave.gain3 wi) ≠ 0 := by
    cases s <;> simp only [Scaling.factor, Int.cast_natCast]
    · norm_num
    · positivity
    · positivity
  have hr : backendRatio fwd s ≠ 1 := by
    cases fwd <;> cases s <;> simp only [backendRatio] <;> first | exact absurd rfl hs | norm_num | skip
  intro hc
  exact hr (mul_right_cancel₀ (mul_ne_zero hf hne) (by rw [hc, one_mul]))

end

/-! ## Examples -/

/-- A library in exact arithmetic. -/
noncomputable def waveKernel (z : Wave) : Kernel ℝ Unit where
  lanes := 1
  line := fun _ fwd n _ v => .ok ((List.range n).map (waves z fwd v))
  fromReal := fun _ _ _ _ => .error .ub
  toReal := fun _ _ _ _ => .error .ub
  cast := fun _ => 0
  re := fun _ => ()
  parts := fun _ => ((), ())
  join := fun _ _ => 0

theorem exact_waves (z : Wave) : ExactWaves (waveKernel z) z := ⟨by show 0 < 1; decide, fun _ _ => rfl, fun _ _ _ _ _ _ _ => rfl⟩

theorem exWaves (z : Wave) (opts : Opts) (h : opts.useReorder = true) : ∃ wi wo ob, LibraryR2R z exIn exOut wi wo opts ob := by
  obtain ⟨wi, wo, h', -⟩ := exGeometry
  have h1 : findWorld exIn = .ok ⟨⟨0, 0, 0⟩, ⟨3, 5, 7⟩, ⟨0, 1, 2⟩⟩ := by decide
  have h2 : findWorld exOut = .ok ⟨⟨0, 0, 0⟩, ⟨3, 5, 7⟩, ⟨0, 1, 2⟩⟩ := by decide
  obtain rfl := Except.ok.inj (h1.symm.trans h'.worldIn)
  obtain rfl := Except.ok.inj (h2.symm.trans h'.worldOut)
  have hdef : ∀ d, z.least ≤ Box.extent ⟨⟨0, 0, 0⟩, ⟨3, 5, 7⟩, ⟨0, 1, 2⟩⟩ d := by cases z <;> decide
  obtain ⟨ob, hob⟩ := C64_constructor h' (by decide) (by decide) z opts
  exact ⟨_, _, ob, h', hob, .inl h, hdef⟩

/-- The weights of the sine-I transform of two entries: `2 sin(π/3) = √3`. -/
example : waveWeight .sin1 true 2 0 0 = Real.sqrt 3 := by
  simp only [waveWeight, waveOf, rodft00, sum_range_succ, sum_range_zero]
  rw [show Real.pi * (((0 : Nat) : ℝ) + 1) * (((0 : Nat) : ℝ) + 1) / (((2 : Nat) : ℝ) + 1) = Real.pi / 3 by push_cast; ring, Real.sin_pi_div_three]
  simp
  ring

/-- C64: two calls, the second one on the output of the first one, give the data back, for the four transforms and any values. -/
example (z : Wave) (opts : Opts) (h : opts.useReorder = true) (g : Nat → A3 Int → ℝ) :
    ∃ ob, ∃ (W W' : World ℝ Unit) (m0s ms m1s ms' : List (Mem ℝ Unit)), Continues (fun _ => false) ms m1s ∧
      performR2R ob (waveKernel z) W true 2 (fun _ => false) .symmetric m0s = .ok ms ∧
      performR2R ob (waveKernel z) W' false 2 (fun _ => false) .symmetric m1s = .ok ms' ∧
      Outcome exIn 2 m1s ms' (.inl g) := by
  obtain ⟨wi, wo, ob, S⟩ := exWaves z opts h
  obtain ⟨W, hW⟩ := world_exists (α := ℝ) (β := Unit) ob.plan true
  obtain ⟨W', hW'⟩ := world_exists (α := ℝ) (β := Unit) ob.plan false
  obtain ⟨m0s, h⟩ := arrays_exist exIn exOut false (ob.sizeWorkspace noWork) 2 (.inl g : Field ℝ Unit) (src_order S.geo true)
  have hs : SourceOrInplace exIn fun _ => false := .inr (exSource _ (by simp))
  have hs' : SourceOrInplace exOut fun _ => false := .inr (exSource _ (by simp))
  obtain ⟨ms, h1, h2⟩ := C64_calls (s := .symmetric) (fwd := true) S (exact_waves z) hW (by decide : 0 < 2) h hs
  obtain ⟨m1s, h3, h4⟩ := swap_arrays (src := exIn) (dst := exOut) rfl h.has h2
  obtain ⟨ms2, h5, h6⟩ := C64_round_trip (s := .symmetric) (s' := .symmetric) S (exact_waves z) hW hW' (by decide : 0 < 2) h hs hs'
  obtain rfl := Except.ok.inj (h1.symm.trans h5)
  obtain ⟨ms', h7, -, h8⟩ := h6 m1s h3 h4
  exact ⟨ob, W, W', m0s, ms, m1s, ms', h4, h1, h7, h8 (.inr (.inr ⟨rfl, rfl⟩))⟩

/-- C65: both objects exist for the same boxes, with arrays holding any data. -/
example (z : Trig) (fwd : Bool) (opts opts' : Opts) (h : opts'.useReorder = true) (g : Nat → A3 Int → ℝ) :
    ∃ wi wo wi' wo' ob ob', StockR2R z exIn exOut wi wo opts ob ∧ LibraryR2R z.wave exIn exOut wi' wo' opts' ob' ∧
      SourceHolds (srcBoxes fwd exIn exOut) (fun _ => false) ∧ SourceOrInplace (srcBoxes fwd exIn exOut) (fun _ => false) ∧
      ∃ (ws : Tag → List ℝ) (m0s m0s' : List (Mem ℝ Unit)), EnoughWork ob ws ∧
        CallArrays (srcBoxes fwd exIn exOut) (dstBoxes fwd exIn exOut) false false (ob.sizeWorkspace trigWork) 1 (fun _ => false) m0s (.inl g) ∧
        CallArrays (srcBoxes fwd exIn exOut) (dstBoxes fwd exIn exOut) false false (ob'.sizeWorkspace noWork) 1 (fun _ => false) m0s' (.inl g) := by
  obtain ⟨wi, wo, ob, S⟩ := exObjectR2R z opts
  obtain ⟨wi', wo', ob', S'⟩ := exWaves z.wave opts' h
  obtain ⟨ws, hws⟩ := work_exists ob
  obtain ⟨m0s, h1⟩ := arrays_exist (srcBoxes fwd exIn exOut) (dstBoxes fwd exIn exOut) false (ob.sizeWorkspace trigWork) 1 (.inl g : Field ℝ Unit) (src_order S.geo fwd)
  obtain ⟨m0s', h2⟩ := arrays_exist (srcBoxes fwd exIn exOut) (dstBoxes fwd exIn exOut) false (ob'.sizeWorkspace noWork) 1 (.inl g : Field ℝ Unit) (src_order S.geo fwd)
  have hs : SourceHolds (srcBoxes fwd exIn exOut) fun _ => false := by cases fwd <;> exact exSource _ (by simp [srcBoxes])
  exact ⟨wi, wo, wi', wo', ob, ob', S, S', hs, .inr hs, ws, m0s, m0s', hws, h1, h2⟩

end Verif
