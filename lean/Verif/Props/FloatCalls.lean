import Verif.FloatCalls

/-!
# Property C77: the rounding errors of the distributed transforms
-/

namespace Verif
open Stock Finset

section
variable {A : Arith} {q nb : Nat} {W : World (Flt A) ℝ} {fwd : Bool} {inplace : Nat → Bool} {s : Scaling} {ob : Object} {d : Fin 3}
  {bin bout : List Box} {wi wo : Box} {m0s : List (Mem (Flt A) ℝ)} {opts : Opts}
  {junk : Tag → Int × Int → Arr (Flt A) × (Nat → Arr (Flt A))} {inp : Tag → Int × Int → Arr (Flt A)}

theorem near_chain (h : ∀ d, Smooth q (wi.extent d)) {dirs : A3 (Fin 3)} (hd : AllDirs dirs.x dirs.y dirs.z) {c : Nat → A3 Int → Flt A} {G : A3 Int → ℂ}
    {B : A3 Int → ℝ} {τ : ℝ} {j : Nat} (hb : ∀ p ∈ wi, Near A (B p) τ (c j p, G p)) {p : A3 Int} (hp : p ∈ wi) :
    Near A (∑ x ∈ wi.points, B x) (τ + roundings q wi) (chain wi ((stockNumbers A).fft fwd) (fun x => [dirs x]) fwd c 3 j p, dft3 fwd wi G p) := by
  cases fwd with
  | true => exact near_dft3 (fwd := true) h hd hb hp
  | false => exact near_dft3 (fwd := false) h hd.rev hb hp

theorem near_self (z : Flt A) : Near A ‖z.val‖ 0 (z, z.val) := ⟨le_rfl, le_rfl, by simp⟩

theorem near_cast (x : ℝ) : Near A |x| 0 (Flt.mk x 0, (x : ℂ)) := by
  have e : (Flt.mk x 0 : Flt A).val = (x : ℂ) := by apply Complex.ext <;> simp [Flt.mk, Flt.val]
  exact ⟨le_rfl, by simp, by simp [e]⟩

/-- The complex calls of an `fft3d` on data that are near to `G`. -/
theorem float_near (S : StockC2C bin bout wi wo opts ob) (h : ∀ d, Smooth q (wi.extent d)) (hW : WorldOk W ob.plan fwd) (hnb : 0 < nb)
    {g : Nat → A3 Int → Flt A} {G : Nat → A3 Int → ℂ} {B : Nat → A3 Int → ℝ} {τ : ℝ} (hg : ∀ j, ∀ p ∈ wi, Near A (B j p) τ (g j p, G j p))
    (ha : CallArrays (srcBoxes fwd bin bout) (dstBoxes fwd bin bout) false false (ob.sizeWorkspace noWork) nb inplace m0s (.inl g))
    (hs : SourceHolds (srcBoxes fwd bin bout) inplace) :
    ∃ ms F, floatCall A ob junk inp W .same fwd nb inplace s m0s = .ok ms ∧ Outcome (dstBoxes fwd bin bout) nb m0s ms (.inl F) ∧
      ∀ j, ∀ p ∈ wi, Near A (s.factor wi.count * ∑ x ∈ wi.points, B j x) (τ + roundings q wi + 6) (F j p, (s.factor wi.count : ℂ) * dft3 fwd wi (G j) p) := by
  obtain ⟨-, -, hp, -, -, -, hc, -⟩ := makeFft3d_ok S.geo S.made
  obtain ⟨ms, h1, h2⟩ := number_call (M := stockNumbers A) (junk := junk) (inp := inp) (s := s) (f := fun _ => A.timesC (A.factor s ob.plan.indexCount))
    (g := fun _ => A.times (A.factor s ob.plan.indexCount)) S (mode := .same) ⟨by simp, by simp, fun _ => rfl⟩ rfl ha hW hnb (fun _ _ _ => rfl) (.inr hs)
  refine ⟨ms, fun j p => endC A s wi.count (chain wi ((stockNumbers A).fft fwd) (fun x => [ob.plan.dirs x]) fwd g 3 j p), h1, ?_, fun j p hp' =>
    near_end (world_count_pos S.geo) s (near_chain h hp.dirs (hg j) hp')⟩
  have e : scaledBy (fun _ => A.timesC (A.factor s ob.plan.indexCount)) (fun _ => A.times (A.factor s ob.plan.indexCount)) s wi.count
      ((stockNumbers A).field wi ob.plan.dirs .same fwd (.inl g)) =
      .inl fun j p => endC A s wi.count (chain wi ((stockNumbers A).fft fwd) (fun x => [ob.plan.dirs x]) fwd g 3 j p) := by
    unfold scaledBy Numbers.field fieldC2C endC
    simp only [reduceCtorEq, false_and, if_false]
    rw [hc]
    split <;> rfl
  rw [e] at h2
  exact h2

/-- **C77.**  The forward and backward calls of an `fft3d` with complex data in floating point arithmetic.  For all the boxes, options,
message orders and contents of the work memory, every output differs from the scaled exact transform of the input by at most
`exp((60 q (N₀ + N₁ + N₂ - 3) + 6) u) - 1` times the scaled sum of the sizes of the input. -/
theorem C77_complex (S : StockC2C bin bout wi wo opts ob) (h : ∀ d, Smooth q (wi.extent d)) (hW : WorldOk W ob.plan fwd) (hnb : 0 < nb)
    {g : Nat → A3 Int → Flt A}
    (ha : CallArrays (srcBoxes fwd bin bout) (dstBoxes fwd bin bout) false false (ob.sizeWorkspace noWork) nb inplace m0s (.inl g))
    (hs : SourceHolds (srcBoxes fwd bin bout) inplace) :
    ∃ ms F, floatCall A ob junk inp W .same fwd nb inplace s m0s = .ok ms ∧ Outcome (dstBoxes fwd bin bout) nb m0s ms (.inl F) ∧
      ∀ j, ∀ p ∈ wi, ‖(F j p).val - s.factor wi.count * dft3 fwd wi (fun x => (g j x).val) p‖ ≤
        (Real.exp ((roundings q wi + 6) * A.u) - 1) * (s.factor wi.count * ∑ x ∈ wi.points, ‖(g j x).val‖) := by
  obtain ⟨ms, F, h1, h2, h3⟩ := float_near (junk := junk) (inp := inp) (s := s) S h hW hnb (fun j p _ => near_self (g j p)) ha hs
  refine ⟨ms, F, h1, h2, fun j p hp => ?_⟩
  have := (h3 j p hp).2.2
  rwa [zero_add] at this

theorem near_real (S : StockC2C bin bout wi wo opts ob) (h : ∀ d, Smooth q (wi.extent d)) (hW : WorldOk W ob.plan true) (hnb : 0 < nb)
    {g : Nat → A3 Int → ℝ} (ha : CallArrays bin bout true false (ob.sizeWorkspace noWork) nb (fun _ => false) m0s (.inr g)) :
    ∃ ms F, floatCall A ob junk inp W .r2c true nb (fun _ => false) s m0s = .ok ms ∧ Outcome bout nb m0s ms (.inl F) ∧
      ∀ j, ∀ p ∈ wi, Near A (s.factor wi.count * ∑ x ∈ wi.points, |g j x|) (roundings q wi + 6)
        (F j p, (s.factor wi.count : ℂ) * dft3 true wi (fun x => (g j x : ℂ)) p) := by
  obtain ⟨-, -, hp, -, -, -, hc, -⟩ := makeFft3d_ok S.geo S.made
  obtain ⟨ms, h1, h2⟩ := number_call (M := stockNumbers A) (junk := junk) (inp := inp) (s := s) (f := fun _ => A.timesC (A.factor s ob.plan.indexCount))
    (g := fun _ => A.times (A.factor s ob.plan.indexCount)) S (fwd := true) (mode := .r2c) ⟨fun _ => rfl, by simp, by simp⟩ rfl ha hW hnb
    (fun _ _ h => by cases h) (.inl rfl)
  refine ⟨ms, fun j p => endC A s wi.count (chain wi ((stockNumbers A).fft true) (fun x => [ob.plan.dirs x]) true (fun j p => Flt.mk (g j p) 0) 3 j p), h1, ?_,
    fun j p hp' => ?_⟩
  · have e : scaledBy (fun _ => A.timesC (A.factor s ob.plan.indexCount)) (fun _ => A.times (A.factor s ob.plan.indexCount)) s wi.count
        ((stockNumbers A).field wi ob.plan.dirs .r2c true (.inr g)) =
        .inl fun j p => endC A s wi.count (chain wi ((stockNumbers A).fft true) (fun x => [ob.plan.dirs x]) true (fun j p => Flt.mk (g j p) 0) 3 j p) := by
      unfold scaledBy Numbers.field fieldC2C endC
      simp only [reduceCtorEq, false_and, and_false, if_false, Fin.reduceEq]
      rw [hc]
      split <;> rfl
    rw [e] at h2
    exact h2
  · have := near_end (A := A) (world_count_pos S.geo) s (near_chain (fwd := true) h hp.dirs (c := fun j p => Flt.mk (g j p) 0) (j := j)
      (fun p _ => near_cast (g j p)) hp')
    rwa [zero_add] at this

/-- **C77**: the forward call of an `fft3d` with real data. -/
theorem C77_real (S : StockC2C bin bout wi wo opts ob) (h : ∀ d, Smooth q (wi.extent d)) (hW : WorldOk W ob.plan true) (hnb : 0 < nb)
    {g : Nat → A3 Int → ℝ} (ha : CallArrays bin bout true false (ob.sizeWorkspace noWork) nb (fun _ => false) m0s (.inr g)) :
    ∃ ms F, floatCall A ob junk inp W .r2c true nb (fun _ => false) s m0s = .ok ms ∧ Outcome bout nb m0s ms (.inl F) ∧
      ∀ j, ∀ p ∈ wi, ‖(F j p).val - s.factor wi.count * dft3 true wi (fun x => (g j x : ℂ)) p‖ ≤
        (Real.exp ((roundings q wi + 6) * A.u) - 1) * (s.factor wi.count * ∑ x ∈ wi.points, |g j x|) := by
  obtain ⟨ms, F, h1, h2, h3⟩ := near_real (junk := junk) (inp := inp) (s := s) S h hW hnb ha
  exact ⟨ms, F, h1, h2, fun j p hp => (h3 j p hp).2.2⟩

theorem near_c2r_call (S : StockC2C bin bout wi wo opts ob) (h : ∀ d, Smooth q (wi.extent d)) (hW : WorldOk W ob.plan false) (hnb : 0 < nb)
    {g : Nat → A3 Int → Flt A} {G : Nat → A3 Int → ℂ} {B : Nat → A3 Int → ℝ} {τ : ℝ} (hg : ∀ j, ∀ p ∈ wi, Near A (B j p) τ (g j p, G j p))
    (ha : CallArrays bout bin false true (ob.sizeWorkspace noWork) nb (fun _ => false) m0s (.inl g)) (hs : SourceHolds bout fun _ => false) :
    ∃ ms F, floatCall A ob junk inp W .c2r false nb (fun _ => false) s m0s = .ok ms ∧ Outcome bin nb m0s ms (.inr F) ∧
      ∀ j, ∀ p ∈ wi, |F j p - s.factor wi.count * (dft3 false wi (G j) p).re| ≤
        (Real.exp ((τ + roundings q wi + 6) * A.u) - 1) * (s.factor wi.count * ∑ x ∈ wi.points, B j x) := by
  obtain ⟨-, -, hp, -, -, -, hc, -⟩ := makeFft3d_ok S.geo S.made
  obtain ⟨ms, h1, h2⟩ := number_call (M := stockNumbers A) (junk := junk) (inp := inp) (s := s) (f := fun _ => A.timesC (A.factor s ob.plan.indexCount))
    (g := fun _ => A.times (A.factor s ob.plan.indexCount)) S (fwd := false) (mode := .c2r) ⟨by simp, fun _ => rfl, by simp⟩ rfl ha hW hnb
    (fun _ _ h => by cases h) (.inr hs)
  refine ⟨ms, fun j p => endR A s wi.count (chain wi ((stockNumbers A).fft false) (fun x => [ob.plan.dirs x]) false g 3 j p).val.re, h1, ?_,
    fun j p hp' => (NearR.end (world_count_pos S.geo) s ⟨_, _, near_chain (fwd := false) h hp.dirs (hg j) hp', rfl, rfl⟩).err⟩
  have e : scaledBy (fun _ => A.timesC (A.factor s ob.plan.indexCount)) (fun _ => A.times (A.factor s ob.plan.indexCount)) s wi.count
      ((stockNumbers A).field wi ob.plan.dirs .c2r false (.inl g)) =
      .inr fun j p => endR A s wi.count (chain wi ((stockNumbers A).fft false) (fun x => [ob.plan.dirs x]) false g 3 j p).val.re := by
    unfold scaledBy Numbers.field fieldC2C endR
    simp only [reduceCtorEq, false_and, true_and, if_false, if_true]
    rw [hc]
    split <;> rfl
  rw [e] at h2
  exact h2

/-- **C77**: the backward call of an `fft3d` to real data. -/
theorem C77_backward_real (S : StockC2C bin bout wi wo opts ob) (h : ∀ d, Smooth q (wi.extent d)) (hW : WorldOk W ob.plan false) (hnb : 0 < nb)
    {g : Nat → A3 Int → Flt A} (ha : CallArrays bout bin false true (ob.sizeWorkspace noWork) nb (fun _ => false) m0s (.inl g))
    (hs : SourceHolds bout fun _ => false) :
    ∃ ms F, floatCall A ob junk inp W .c2r false nb (fun _ => false) s m0s = .ok ms ∧ Outcome bin nb m0s ms (.inr F) ∧
      ∀ j, ∀ p ∈ wi, |F j p - s.factor wi.count * (dft3 false wi (fun x => (g j x).val) p).re| ≤
        (Real.exp ((roundings q wi + 6) * A.u) - 1) * (s.factor wi.count * ∑ x ∈ wi.points, ‖(g j x).val‖) := by
  obtain ⟨ms, F, h1, h2, h3⟩ := near_c2r_call (junk := junk) (inp := inp) (s := s) S h hW hnb (fun j p _ => near_self (g j p)) ha hs
  refine ⟨ms, F, h1, h2, fun j p hp => ?_⟩
  have := h3 j p hp
  rwa [zero_add] at this

/-! ## `fft3d_r2c` -/

theorem half_sub (geo : Geometry bin bout (some d) wi wo) {p : A3 Int} (hp : p ∈ wo) : p ∈ wi := by
  rw [Box.mem_def] at hp ⊢
  intro e
  have h1 := hp e
  by_cases he : e = d
  · subst he
    have h2 := geo.complex.half
    have := extent_pos geo e
    unfold Box.extent at this
    omega
  · have h2 := geo.complex.other he
    omega

theorem near_r2c (S : StockR2C bin bout d wi wo opts ob) (h : ∀ d, Smooth q (wi.extent d)) (hW : WorldOk W ob.plan true) (hnb : 0 < nb)
    {g : Nat → A3 Int → ℝ} (ha : CallArrays bin bout true false (ob.sizeWorkspace noWork) nb (fun _ => false) m0s (.inr g))
    (hhalf : nb = 1 ∨ ReshapesAfter ob bin.length) :
    ∃ ms F, floatCall A ob junk inp W .r2c true nb (fun _ => false) s m0s = .ok ms ∧ Outcome bout nb m0s ms (.inl F) ∧
      ∀ j, ∀ p ∈ wo, Near A (s.factor wi.count * ∑ x ∈ wi.points, |g j x|) (roundings q wi + 6)
        (F j p, (s.factor wi.count : ℂ) * dft3 true wi (fun x => (g j x : ℂ)) p) := by
  obtain ⟨hp, -, -, -, -, hc, -⟩ := makeFft3dR2C_ok S.geo S.first S.small S.made
  have hd := hp.dirs
  rw [hp.dir0 d rfl] at hd
  obtain ⟨d1, d2, d3⟩ := hd
  have hb := S.geo.complex.other (e := ob.plan.dirs.y) (fun e => d1 e.symm)
  have hc' := S.geo.complex.other (e := ob.plan.dirs.z) (fun e => d2 e.symm)
  obtain ⟨ms, h1, h2⟩ := number_call_r2c (M := stockNumbers A) (junk := junk) (inp := inp) (s := s) (f := fun _ => A.timesC (A.factor s ob.plan.indexCount))
    (g := fun _ => A.times (A.factor s ob.plan.indexCount)) S (fwd := true) (mode := .r2c) ⟨fun _ => rfl, by simp, by simp⟩ rfl ha hW hnb
    (.inl rfl) (fun _ => hhalf)
  refine ⟨ms, fun j p => endC A s wi.count (alongAll wi ((stockNumbers A).fft true) [d, ob.plan.dirs.y, ob.plan.dirs.z] (fun p => Flt.mk (g j p) 0) p), h1, ?_,
    fun j p hp' => ?_⟩
  · have e : scaledBy (fun _ => A.timesC (A.factor s ob.plan.indexCount)) (fun _ => A.times (A.factor s ob.plan.indexCount)) s wi.count
        (fieldR2C wi wo (stockNumbers A).fft (stockNumbers A).r2c (stockNumbers A).c2r ob.plan.dirs (.inr g) 3) =
        .inl fun j p => endC A s wi.count (alongAll wi ((stockNumbers A).fft true) [d, ob.plan.dirs.y, ob.plan.dirs.z] (fun p => Flt.mk (g j p) 0) p) := by
      have e1 : ∀ j, along wi d (stockNumbers A).r2c (g j) = along wi d ((stockNumbers A).fft true) fun p => Flt.mk (g j p) 0 := by
        intro j
        funext p
        unfold along Numbers.r2c
        congr 1
        unfold lineOf
        rw [List.map_map]
        rfl
      unfold scaledBy fieldR2C endC
      simp only [reduceCtorEq, if_false]
      rw [hc, hp.dir0 d rfl]
      simp only [along_congr_world hc'.1 hc'.2, along_congr_world hb.1 hb.2, e1]
      split <;> rfl
    rw [e] at h2
    exact h2
  · have := near_end (A := A) (world_count_pos S.geo) s (near_dft3 (fwd := true) h ⟨d1, d2, d3⟩ (fun p _ => near_cast (A := A) (g j p)) (half_sub S.geo hp'))
    rwa [zero_add] at this

/-- **C77**: the forward call of an `fft3d_r2c`. -/
theorem C77_r2c (S : StockR2C bin bout d wi wo opts ob) (h : ∀ d, Smooth q (wi.extent d)) (hW : WorldOk W ob.plan true) (hnb : 0 < nb)
    {g : Nat → A3 Int → ℝ} (ha : CallArrays bin bout true false (ob.sizeWorkspace noWork) nb (fun _ => false) m0s (.inr g))
    (hhalf : nb = 1 ∨ ReshapesAfter ob bin.length) :
    ∃ ms F, floatCall A ob junk inp W .r2c true nb (fun _ => false) s m0s = .ok ms ∧ Outcome bout nb m0s ms (.inl F) ∧
      ∀ j, ∀ p ∈ wo, ‖(F j p).val - s.factor wi.count * dft3 true wi (fun x => (g j x : ℂ)) p‖ ≤
        (Real.exp ((roundings q wi + 6) * A.u) - 1) * (s.factor wi.count * ∑ x ∈ wi.points, |g j x|) := by
  obtain ⟨ms, F, h1, h2, h3⟩ := near_r2c (junk := junk) (inp := inp) (s := s) S h hW hnb ha hhalf
  exact ⟨ms, F, h1, h2, fun j p hp => (h3 j p hp).2.2⟩

theorem half_extent (geo : Geometry bin bout (some d) wi wo) : wo.extent d = wi.extent d / 2 + 1 := by
  have h2 := geo.complex.half
  have := extent_pos geo d
  unfold Box.extent at this ⊢
  omega

theorem near_r2c_back (S : StockR2C bin bout d wi wo opts ob) (h : ∀ d, Smooth q (wi.extent d)) (hW : WorldOk W ob.plan false) (hnb : 0 < nb)
    {g : Nat → A3 Int → Flt A} {G : Nat → A3 Int → ℂ} {B : Nat → A3 Int → ℝ} {τ : ℝ} (hg : ∀ j, ∀ p ∈ wo, Near A (B j p) τ (g j p, G j p))
    (ha : CallArrays bout bin false true (ob.sizeWorkspace noWork) nb (fun _ => false) m0s (.inl g)) (hs : SourceHolds bout fun _ => false) :
    ∃ ms F, floatCall A ob junk inp W .c2r false nb (fun _ => false) s m0s = .ok ms ∧ Outcome bin nb m0s ms (.inr F) ∧
      ∀ j, ∀ p ∈ wi, |F j p - s.factor wi.count * c2r3 wi d (G j) p| ≤
        (Real.exp ((τ + roundings q wi + 6) * A.u) - 1) * (s.factor wi.count * (2 * ∑ x ∈ wo.points, B j x)) := by
  obtain ⟨hp, -, -, -, -, hc, -⟩ := makeFft3dR2C_ok S.geo S.first S.small S.made
  have hd := hp.dirs
  rw [hp.dir0 d rfl] at hd
  obtain ⟨d1, d2, d3⟩ := hd
  set y := ob.plan.dirs.y with hy
  set z := ob.plan.dirs.z with hz
  have eb : wo.extent y = wi.extent y := wo_extent S.geo.complex (fun e => d1 (Option.some.inj e))
  have ec : wo.extent z = wi.extent z := wo_extent S.geo.complex (fun e => d2 (Option.some.inj e))
  obtain ⟨ms, h1, h2⟩ := number_call_r2c (M := stockNumbers A) (junk := junk) (inp := inp) (s := s) (f := fun _ => A.timesC (A.factor s ob.plan.indexCount))
    (g := fun _ => A.times (A.factor s ob.plan.indexCount)) S (fwd := false) (mode := .c2r) ⟨by simp, fun _ => rfl, by simp⟩ rfl ha hW hnb
    (.inr hs) (fun h => by cases h)
  refine ⟨ms, fun j p => endR A s wi.count (along wo d ((stockNumbers A).c2r (wi.size d).toNat)
      (along wo y ((stockNumbers A).fft false) (along wo z ((stockNumbers A).fft false) (g j))) p), h1, ?_, fun j p hp' => ?_⟩
  · have e : scaledBy (fun _ => A.timesC (A.factor s ob.plan.indexCount)) (fun _ => A.times (A.factor s ob.plan.indexCount)) s wi.count
        (fieldR2C wi wo (stockNumbers A).fft (stockNumbers A).r2c (stockNumbers A).c2r ob.plan.dirs (.inl g) 3) =
        .inr fun j p => endR A s wi.count (along wo d ((stockNumbers A).c2r (wi.size d).toNat)
          (along wo y ((stockNumbers A).fft false) (along wo z ((stockNumbers A).fft false) (g j))) p) := by
      unfold scaledBy fieldR2C endR
      simp only
      rw [hc, hp.dir0 d rfl]
      split <;> rfl
    rw [e] at h2
    exact h2
  · have hd0 := S.geo.complex.half
    have n1 := fun p hp => near_along (fwd := false) (w := wo) (d := z) (by rw [ec]; exact h z) (hg j) (p := p) hp
    have n2 := fun p hp => near_along (fwd := false) (w := wo) (d := y) (by rw [eb]; exact h y) n1 (p := p) hp
    -- an index on the same line in the half world
    have hp0 : p.set d (wo.low.get d) ∈ wo := by
      rw [Box.mem_def] at hp' ⊢
      intro e
      by_cases he : e = d
      · subst he
        rw [A3.get_set_self]
        have := half_extent S.geo
        unfold Box.extent at this
        omega
      · rw [A3.get_set_ne _ _ he]
        have h3 := S.geo.complex.other he
        have := hp' e
        omega
    have hset : ∀ v, (p.set d (wo.low.get d)).set d v = p.set d v := fun v => by
      apply A3.ext'
      intro e
      by_cases he : e = d
      · subst he; rw [A3.get_set_self, A3.get_set_self]
      · rw [A3.get_set_ne _ _ he, A3.get_set_ne _ _ he, A3.get_set_ne _ _ he]
    have hin : ∀ i < wo.extent d, p.set d (wo.low.get d + i) ∈ wo := fun i hi => by
      rw [← hset]
      exact set_mem hp0 d hi
    have n3 := near_c2r (A := A) (h d) (k := wi.rel p d) (v := lineOf wo d (along wo y ((stockNumbers A).fft false) (along wo z ((stockNumbers A).fft false) (g j))) p)
      (w := lineOf wo d (along wo y (dft false) (along wo z (dft false) (G j))) p)
      (b := fun i => ∑ i_1 ∈ range (wo.extent y), ∑ i_2 ∈ range (wo.extent z), B j (((p.set d (wo.low.get d + i)).set y (wo.low.get y + i_1)).set z (wo.low.get z + i_2)))
      (fun i hi => by
        have hi' : i < wo.extent d := by rw [half_extent S.geo]; omega
        rw [lineOf_entry _ _ _ _ _ hi', lineOf_entry _ _ _ _ _ hi']
        exact n2 _ (hin i hi')) (rel_lt hp' d)
    have n4 := n3.end (world_count_pos S.geo) s
    have ed : (wi.size d).toNat = wi.extent d := (extent_eq wi d).symm
    have e2 := c2r_dft3 S.geo.complex ⟨d1, d2, d3⟩ (G j) (by have := extent_pos S.geo d; unfold Box.extent at this; omega) p
    have e3 : along wo d (c2r (wi.size d).toNat) (along wo y (dft false) (along wo z (dft false) (G j))) p =
        c2r (wi.extent d) (lineOf wo d (along wo y (dft false) (along wo z (dft false) (G j))) p) (wi.rel p d) := by
      unfold along Box.rel
      rw [ed]
      congr 2
      exact congrArg (p.get d - ·) hd0.1
    have e4 : along wo d ((stockNumbers A).c2r (wi.size d).toNat) (along wo y ((stockNumbers A).fft false) (along wo z ((stockNumbers A).fft false) (g j))) p =
        (stockNumbers A).c2r (wi.extent d) (lineOf wo d (along wo y ((stockNumbers A).fft false) (along wo z ((stockNumbers A).fft false) (g j))) p) (wi.rel p d) := by
      unfold along Box.rel
      rw [ed]
      congr 2
      exact congrArg (p.get d - ·) hd0.1
    have n5 := n4.err
    rw [← e3, e2, ← e4] at n5
    refine n5.trans (le_of_eq ?_)
    congr 1
    · congr 3
      unfold roundings
      rw [sum_dirs (⟨d1, d2, d3⟩ : AllDirs d y z), eb, ec]
      ring
    · congr 2
      have hA : AllDirs z y d := ⟨fun e => d3 e.symm, fun e => d2 e.symm, fun e => d1 e.symm⟩
      rw [sum_points wo hA p, half_extent S.geo]
      rfl

/-- **C77**: the backward call of an `fft3d_r2c`. -/
theorem C77_r2c_backward (S : StockR2C bin bout d wi wo opts ob) (h : ∀ d, Smooth q (wi.extent d)) (hW : WorldOk W ob.plan false) (hnb : 0 < nb)
    {g : Nat → A3 Int → Flt A} (ha : CallArrays bout bin false true (ob.sizeWorkspace noWork) nb (fun _ => false) m0s (.inl g))
    (hs : SourceHolds bout fun _ => false) :
    ∃ ms F, floatCall A ob junk inp W .c2r false nb (fun _ => false) s m0s = .ok ms ∧ Outcome bin nb m0s ms (.inr F) ∧
      ∀ j, ∀ p ∈ wi, |F j p - s.factor wi.count * c2r3 wi d (fun x => (g j x).val) p| ≤
        (Real.exp ((roundings q wi + 6) * A.u) - 1) * (s.factor wi.count * (2 * ∑ x ∈ wo.points, ‖(g j x).val‖)) := by
  obtain ⟨ms, F, h1, h2, h3⟩ := near_r2c_back (junk := junk) (inp := inp) (s := s) S h hW hnb (fun j p _ => near_self (g j p)) ha hs
  refine ⟨ms, F, h1, h2, fun j p hp => ?_⟩
  have := h3 j p hp
  rwa [zero_add] at this

/-! ## Forward and backward -/

theorem sum_const_points (w : Box) (c : ℝ) : ∑ _x ∈ w.points, c = w.count * c := by
  rw [Finset.sum_const, nsmul_eq_mul, Box.count_eq_card]
  norm_cast

/-- **C77**: a call with complex data and one in the other direction on its output, with scalings that fit, give the data back.  The
error is that of the roundings of both calls, relative to the sum of the sizes of the data. -/
theorem C77_round_trip (S : StockC2C bin bout wi wo opts ob) (h : ∀ d, Smooth q (wi.extent d)) {W' : World (Flt A) ℝ} (hW : WorldOk W ob.plan fwd)
    (hW' : WorldOk W' ob.plan !fwd) (hnb : 0 < nb) {g : Nat → A3 Int → Flt A} {inplace' : Nat → Bool} {s' : Scaling} (hinv : Inverse s s')
    (ha : CallArrays (srcBoxes fwd bin bout) (dstBoxes fwd bin bout) false false (ob.sizeWorkspace noWork) nb inplace m0s (.inl g))
    (hs : SourceHolds (srcBoxes fwd bin bout) inplace) (hs' : SourceHolds (dstBoxes fwd bin bout) inplace') :
    ∃ ms, floatCall A ob junk inp W .same fwd nb inplace s m0s = .ok ms ∧
      ∀ m1s, HasArrays (dstBoxes fwd bin bout) (srcBoxes fwd bin bout) false false (ob.sizeWorkspace noWork) nb inplace' m1s →
        Continues inplace' ms m1s →
        ∃ ms' F, floatCall A ob junk inp W' .same (!fwd) nb inplace' s' m1s = .ok ms' ∧ Outcome (srcBoxes fwd bin bout) nb m1s ms' (.inl F) ∧
          ∀ j, ∀ p ∈ wi, ‖(F j p).val - (g j p).val‖ ≤ (Real.exp (2 * (roundings q wi + 6) * A.u) - 1) * ∑ x ∈ wi.points, ‖(g j x).val‖ := by
  obtain ⟨ms, F, h1, h2, h3⟩ := float_near (junk := junk) (inp := inp) (s := s) S h hW hnb (fun j p _ => near_self (g j p)) ha hs
  refine ⟨ms, h1, fun m1s hm1 hcont => ?_⟩
  have hlen : m0s.length = (dstBoxes fwd bin bout).length := by rw [ha.ranks, src_length S.geo, dst_length S.geo]
  have hca := continue_arrays hm1 h2 hlen hcont
  have hsw : ∀ b : Bool, srcBoxes (!b) bin bout = dstBoxes b bin bout ∧ dstBoxes (!b) bin bout = srcBoxes b bin bout := by
    intro b; cases b <;> exact ⟨rfl, rfl⟩
  rw [← (hsw fwd).1, ← (hsw fwd).2] at hca
  rw [← (hsw fwd).1] at hs'
  obtain ⟨ms', F', h4, h5, h6⟩ := float_near (junk := junk) (inp := inp) (s := s') S h hW' hnb h3 hca hs'
  rw [(hsw fwd).2] at h5
  refine ⟨ms', F', h4, h5, fun j p hp => ?_⟩
  have h7 := (h6 j p hp).2.2
  simp only at h7
  have hf := inverse_factor hinv (world_count_pos S.geo)
  rw [dft3_mul, dft3_inv fwd wi (fun x => (g j x).val) hp, sum_const_points] at h7
  have e1 : (s'.factor wi.count : ℂ) * ((s.factor wi.count : ℂ) * (wi.count * (g j p).val)) = (g j p).val := by
    rw [← mul_assoc, ← mul_assoc]
    have : (s'.factor wi.count : ℂ) * (s.factor wi.count : ℂ) * (wi.count : ℂ) = ((s'.factor wi.count * s.factor wi.count * wi.count : ℝ) : ℂ) := by
      push_cast; ring
    rw [this, hf, Complex.ofReal_one, one_mul]
  have e2 : ∀ b : ℝ, s'.factor wi.count * (wi.count * (s.factor wi.count * b)) = b := fun b => by
    have : s'.factor wi.count * (wi.count * (s.factor wi.count * b)) = s'.factor wi.count * s.factor wi.count * wi.count * b := by ring
    rw [this, hf, one_mul]
  rw [e1, e2, show 0 + roundings q wi + 6 + roundings q wi + 6 = 2 * (roundings q wi + 6) by ring] at h7
  exact h7

/-- **C77**: an `fft3d_r2c` forward and backward. -/
theorem C77_round_trip_r2c (S : StockR2C bin bout d wi wo opts ob) (h : ∀ d, Smooth q (wi.extent d)) {W' : World (Flt A) ℝ} (hW : WorldOk W ob.plan true)
    (hW' : WorldOk W' ob.plan false) (hnb : 0 < nb) {g : Nat → A3 Int → ℝ} {s' : Scaling} (hinv : Inverse s s')
    (ha : CallArrays bin bout true false (ob.sizeWorkspace noWork) nb (fun _ => false) m0s (.inr g))
    (hhalf : nb = 1 ∨ ReshapesAfter ob bin.length) (hs' : SourceHolds bout fun _ => false) :
    ∃ ms, floatCall A ob junk inp W .r2c true nb (fun _ => false) s m0s = .ok ms ∧
      ∀ m1s, HasArrays bout bin false true (ob.sizeWorkspace noWork) nb (fun _ => false) m1s → Continues (fun _ => false) ms m1s →
        ∃ ms' F, floatCall A ob junk inp W' .c2r false nb (fun _ => false) s' m1s = .ok ms' ∧ Outcome bin nb m1s ms' (.inr F) ∧
          ∀ j, ∀ p ∈ wi, |F j p - g j p| ≤ (Real.exp (2 * (roundings q wi + 6) * A.u) - 1) * (2 * ∑ x ∈ wi.points, |g j x|) := by
  obtain ⟨ms, F, h1, h2, h3⟩ := near_r2c (junk := junk) (inp := inp) (s := s) S h hW hnb ha hhalf
  refine ⟨ms, h1, fun m1s hm1 hcont => ?_⟩
  have hca := continue_arrays hm1 h2 (by rw [ha.ranks, S.geo.length]) hcont
  obtain ⟨ms', F', h4, h5, h6⟩ := near_r2c_back (junk := junk) (inp := inp) (s := s') S h hW' hnb h3 hca hs'
  refine ⟨ms', F', h4, h5, fun j p hp => ?_⟩
  have h7 := h6 j p hp
  have hf := inverse_factor hinv (world_count_pos S.geo)
  rw [c2r3_mul, c2r3_dft3 d (g j) hp, sum_const_points] at h7
  have e1 : s'.factor wi.count * (s.factor wi.count * (wi.count * g j p)) = g j p := by
    rw [← mul_assoc, ← mul_assoc, hf, one_mul]
  rw [e1, show roundings q wi + 6 + roundings q wi + 6 = 2 * (roundings q wi + 6) by ring] at h7
  refine h7.trans (mul_le_mul_of_nonneg_left ?_ (A.exp_ge (by have := roundings_nonneg h; linarith)))
  set b := ∑ x ∈ wi.points, |g j x| with hb
  have hb0 : 0 ≤ b := sum_nonneg fun _ _ => abs_nonneg _
  have hle : wo.count ≤ wi.count := by
    rw [Box.count_eq_card, Box.count_eq_card]
    exact_mod_cast card_le_card fun x hx => Box.mem_points.2 (half_sub S.geo (Box.mem_points.1 hx))
  have hle' : (wo.count : ℝ) ≤ wi.count := by exact_mod_cast hle
  have f1 := factor_nonneg s (world_count_pos S.geo).le
  have f2 := factor_nonneg s' (world_count_pos S.geo).le
  calc s'.factor wi.count * (2 * (wo.count * (s.factor wi.count * b))) = 2 * (s'.factor wi.count * s.factor wi.count * wo.count * b) := by ring
    _ ≤ 2 * (s'.factor wi.count * s.factor wi.count * wi.count * b) := by
      refine mul_le_mul_of_nonneg_left (mul_le_mul_of_nonneg_right (mul_le_mul_of_nonneg_left hle' (mul_nonneg f2 f1)) hb0) (by norm_num)
    _ = 2 * b := by rw [hf, one_mul]

end
/-! ## Examples: four ranks, 4 x 6 x 8 indexes, `double` -/

theorem smooth_small {n : Nat} (h1 : 1 ≤ n) (h2 : n ≤ 8) (h5 : n ≠ 5) (h7 : n ≠ 7) : Smooth 3 n := by
  refine ⟨h1, by decide, by decide, fun p hp hd => ?_, fun p hp hl hd => ?_⟩
  · have hle := Nat.le_of_dvd h1 hd
    by_contra hc
    have : 4 ≤ p ∧ p ≤ 8 := by omega
    obtain ⟨h3, h4⟩ := this
    have h6 : p ≠ 4 := by rintro rfl; revert hp; decide
    have h8 : p ≠ 6 := by rintro rfl; revert hp; decide
    have h9 : p ≠ 8 := by rintro rfl; revert hp; decide
    obtain ⟨c, rfl⟩ := hd
    have hc : c = 1 := by
      by_contra hc1
      have : c ≠ 0 := by rintro rfl; omega
      have : p * 2 ≤ p * c := Nat.mul_le_mul_left p (by omega)
      omega
    subst hc
    omega
  · have := Nat.le_of_dvd h1 hd
    nlinarith

theorem exWorld {bout : List Box} {r2c : Option (Fin 3)} {wi wo : Box} (geo : Geometry exIn bout r2c wi wo) : wi = ⟨⟨0, 0, 0⟩, ⟨3, 5, 7⟩, ⟨0, 1, 2⟩⟩ := by
  have h1 : findWorld exIn = .ok ⟨⟨0, 0, 0⟩, ⟨3, 5, 7⟩, ⟨0, 1, 2⟩⟩ := by decide
  exact (Except.ok.inj (h1.symm.trans geo.worldIn)).symm

theorem exSmooth {bout : List Box} {r2c : Option (Fin 3)} {wi wo : Box} (geo : Geometry exIn bout r2c wi wo) (d : Fin 3) : Smooth 3 (wi.extent d) := by
  rw [exWorld geo]
  apply smooth_small <;> revert d <;> decide

/-- The bound of the example: below `2 ^ (-39)`. -/
theorem exBound {bout : List Box} {r2c : Option (Fin 3)} {wi wo : Box} (geo : Geometry exIn bout r2c wi wo) :
    Real.exp (2 * (roundings 3 wi + 6) * exDouble.u) - 1 ≤ (1 / 2) ^ 39 := by
  have e : roundings 3 wi = 2700 := by
    rw [exWorld geo]
    unfold roundings
    rw [Fin.sum_univ_three]
    have h0 : Box.extent ⟨⟨0, 0, 0⟩, ⟨3, 5, 7⟩, ⟨0, 1, 2⟩⟩ 0 = 4 := by decide
    have h1 : Box.extent ⟨⟨0, 0, 0⟩, ⟨3, 5, 7⟩, ⟨0, 1, 2⟩⟩ 1 = 6 := by decide
    have h2 : Box.extent ⟨⟨0, 0, 0⟩, ⟨3, 5, 7⟩, ⟨0, 1, 2⟩⟩ 2 = 8 := by decide
    rw [h0, h1, h2]
    norm_num
  rw [e, show exDouble.u = (1 / 2) ^ 53 from rfl]
  have := Real.abs_exp_sub_one_le (x := 2 * (2700 + 6) * (1 / 2) ^ 53) (by rw [abs_of_pos (by positivity)]; norm_num)
  rw [abs_of_pos (a := (2 * (2700 + 6) * (1 / 2) ^ 53 : ℝ)) (by positivity)] at this
  exact (le_abs_self _).trans (this.trans (by norm_num))

/-- C77 for complex data: a forward and a backward call; for any options and values the result is the input up to `2 ^ (-39)` of the sum of the sizes. -/
example (opts : Opts) (g : Nat → A3 Int → Flt exDouble) :
    ∃ wi wo ob, ∃ (W W' : World (Flt exDouble) ℝ) (m0s ms m1s ms' : List (Mem (Flt exDouble) ℝ)) (F : Nat → A3 Int → Flt exDouble),
      StockC2C exIn exOut wi wo opts ob ∧ Continues (fun _ => false) ms m1s ∧
      floatCall exDouble ob (fun _ _ => (fun _ => 0, fun _ _ => 0)) (fun _ _ _ => 0) W .same true 2 (fun _ => false) .none m0s = .ok ms ∧
      floatCall exDouble ob (fun _ _ => (fun _ => 0, fun _ _ => 0)) (fun _ _ _ => 0) W' .same false 2 (fun _ => false) .full m1s = .ok ms' ∧
      Outcome exIn 2 m1s ms' (.inl F) ∧ ∀ j, ∀ p ∈ wi, ‖(F j p).val - (g j p).val‖ ≤ (1 / 2) ^ 39 * ∑ x ∈ wi.points, ‖(g j x).val‖ := by
  have : Inhabited (Flt exDouble) := ⟨0⟩
  obtain ⟨wi, wo, ob, S⟩ := exObject opts
  obtain ⟨W, hW⟩ := world_exists ob.plan true
  obtain ⟨W', hW'⟩ := world_exists ob.plan false
  obtain ⟨m0s, h⟩ := arrays_exist exIn exOut false (ob.sizeWorkspace noWork) 2 (.inl g : Field (Flt exDouble) ℝ) (src_order S.geo true)
  have hs : SourceHolds exIn fun _ => false := exSource _ (by simp)
  have hs' : SourceHolds exOut fun _ => false := exSource _ (by simp)
  obtain ⟨ms, F, h1, h2, -⟩ := C77_complex (junk := fun _ _ => (fun _ => 0, fun _ _ => 0)) (inp := fun _ _ _ => 0) (s := .none) S (exSmooth S.geo) hW
    (by decide : 0 < 2) h hs
  obtain ⟨m1s, h3, h4⟩ := swap_arrays (src := exIn) (dst := exOut) rfl h.has h2
  obtain ⟨ms2, h5, h6⟩ := C77_round_trip (junk := fun _ _ => (fun _ => 0, fun _ _ => 0)) (inp := fun _ _ _ => 0) (s := .none) (s' := .full) S (exSmooth S.geo)
    hW hW' (by decide : 0 < 2) (.inr (.inl ⟨rfl, rfl⟩)) h hs hs'
  obtain rfl := Except.ok.inj (h1.symm.trans h5)
  obtain ⟨ms', F', h7, h8, h9⟩ := h6 m1s h3 h4
  exact ⟨wi, wo, ob, W, W', m0s, ms, m1s, ms', F', S, h4, h1, h7, h8, fun j p hp =>
    (h9 j p hp).trans (mul_le_mul_of_nonneg_right (exBound S.geo) (Finset.sum_nonneg fun _ _ => norm_nonneg _))⟩

/-- C77 for real data: the same for an `fft3d_r2c`. -/
example (opts : Opts) (g : Nat → A3 Int → ℝ) :
    ∃ wi wo ob, ∃ (W W' : World (Flt exDouble) ℝ) (m0s ms m1s ms' : List (Mem (Flt exDouble) ℝ)) (F : Nat → A3 Int → ℝ),
      StockR2C exIn exOutC 1 wi wo opts ob ∧ Continues (fun _ => false) ms m1s ∧
      floatCall exDouble ob (fun _ _ => (fun _ => 0, fun _ _ => 0)) (fun _ _ _ => 0) W .r2c true 1 (fun _ => false) .symmetric m0s = .ok ms ∧
      floatCall exDouble ob (fun _ _ => (fun _ => 0, fun _ _ => 0)) (fun _ _ _ => 0) W' .c2r false 1 (fun _ => false) .symmetric m1s = .ok ms' ∧
      Outcome exIn 1 m1s ms' (.inr F) ∧ ∀ j, ∀ p ∈ wi, |F j p - g j p| ≤ (1 / 2) ^ 39 * (2 * ∑ x ∈ wi.points, |g j x|) := by
  have : Inhabited (Flt exDouble) := ⟨0⟩
  obtain ⟨wi, wo, ob, S⟩ := exObjectC opts
  obtain ⟨W, hW⟩ := world_exists ob.plan true
  obtain ⟨W', hW'⟩ := world_exists ob.plan false
  obtain ⟨m0s, h⟩ := arrays_exist exIn exOutC false (ob.sizeWorkspace noWork) 1 (.inr g : Field (Flt exDouble) ℝ) (src_order S.geo true)
  have hs' : SourceHolds exOutC fun _ => false := exSource _ (by simp)
  obtain ⟨ms, F, h1, h2, -⟩ := C77_r2c (junk := fun _ _ => (fun _ => 0, fun _ _ => 0)) (inp := fun _ _ _ => 0) (s := .symmetric) S (exSmooth S.geo) hW
    (by decide : 0 < 1) h (.inl rfl)
  obtain ⟨m1s, h3, h4⟩ := swap_arrays (src := exIn) (dst := exOutC) rfl h.has h2
  obtain ⟨ms2, h5, h6⟩ := C77_round_trip_r2c (junk := fun _ _ => (fun _ => 0, fun _ _ => 0)) (inp := fun _ _ _ => 0) (s := .symmetric) (s' := .symmetric) S
    (exSmooth S.geo) hW hW' (by decide : 0 < 1) (.inr (.inr ⟨rfl, rfl⟩)) h (.inl rfl) hs'
  obtain rfl := Except.ok.inj (h1.symm.trans h5)
  obtain ⟨ms', F', h7, h8, h9⟩ := h6 m1s h3 h4
  exact ⟨wi, wo, ob, W, W', m0s, ms, m1s, ms', F', S, h4, h1, h7, h8, fun j p hp =>
    (h9 j p hp).trans (mul_le_mul_of_nonneg_right (exBound S.geo) (by have := Finset.sum_nonneg fun (x : A3 Int) (_ : x ∈ wi.points) => abs_nonneg (g j x); linarith))⟩

/-- The bound for a forward transform of 512 x 512 x 512 indexes in `double`: below `2 ^ (-34)`. -/
example : Real.exp ((roundings 2 ⟨⟨0, 0, 0⟩, ⟨511, 511, 511⟩, ⟨0, 1, 2⟩⟩ + 6) * exDouble.u) - 1 ≤ (1 / 2) ^ 34 := by
  have e : roundings 2 ⟨⟨0, 0, 0⟩, ⟨511, 511, 511⟩, ⟨0, 1, 2⟩⟩ = 183960 := by
    unfold roundings
    rw [Fin.sum_univ_three]
    have h0 : ∀ d, Box.extent ⟨⟨0, 0, 0⟩, ⟨511, 511, 511⟩, ⟨0, 1, 2⟩⟩ d = 512 := by decide
    rw [h0, h0, h0]
    norm_num
  rw [e, show exDouble.u = (1 / 2) ^ 53 from rfl]
  have := Real.abs_exp_sub_one_le (x := (183960 + 6) * (1 / 2) ^ 53) (by rw [abs_of_pos (by positivity)]; norm_num)
  rw [abs_of_pos (a := ((183960 + 6) * (1 / 2) ^ 53 : ℝ)) (by positivity)] at this
  exact (le_abs_self _).trans (this.trans (by norm_num))

end Verif
