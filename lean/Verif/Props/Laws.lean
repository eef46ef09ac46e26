import Verif.Laws

/-!
# Laws between calls (C87)

Equations between the entries of the arrays of several calls. The calls may use different objects, backends, numbers of ranks, boxes, storage orders,
options, batches and messages arriving in any order. `EntryAt` and the indexes `moved`, `mirror` and `difference` are in `SpecLaws.lean`, `SpecDft.lean` and
`SpecConv.lean`.
-/

namespace Verif
open Stock

section
variable {fwd : Bool} {s : Scaling} {w v w' v' v'' : Box} {src dst src' dst' src'' dst'' : List Box} {nb nb' nb'' : Nat} {input output input' output' input'' output'' : List (Data ℂ ℝ)}
  {σ : Equiv.Perm (Fin 3)} {j j' j'' : Nat}

/-- C87: every index of the input and of the output has one entry in every array of the batch. -/
theorem C87_entries (P : Performed fwd s w v src dst nb input output) (hj : j < nb) :
    (∀ p, (∃ x, EntryAt src input j p x) ↔ p ∈ w) ∧ (∀ p, (∃ x, EntryAt dst output j p x) ↔ p ∈ v) ∧
      (∀ p x y, EntryAt src input j p x → EntryAt src input j p y → x = y) ∧ ∀ p x y, EntryAt dst output j p x → EntryAt dst output j p y → x = y := by
  obtain ⟨-, G, hG⟩ := P.maps
  obtain ⟨h1, h2⟩ := hG j hj
  refine ⟨fun p => ⟨fun ⟨x, hx⟩ => ((h1 p x).1 hx).1, fun hp => ⟨_, (h1 p _).2 ⟨hp, rfl⟩⟩⟩, fun p => ⟨fun ⟨x, hx⟩ => ((h2 p x).1 hx).1, fun hp => ⟨_, (h2 p _).2 ⟨hp, rfl⟩⟩⟩, ?_, ?_⟩
  · intro p x y hx hy
    rw [((h1 p x).1 hx).2, ((h1 p y).1 hy).2]
  · intro p x y hx hy
    rw [((h2 p x).1 hx).2, ((h2 p y).1 hy).2]

theorem shape_count (h : SameExtents w w' σ) (hp : ∃ p : A3 Int, p ∈ w) : w'.count = w.count := by
  obtain ⟨p, hp⟩ := hp
  have e1 := Box.count_eq_card w
  have e2 := Box.count_eq_card w'
  have : w'.points.card = w.points.card := by
    refine (Finset.card_nbij' (fun q => moved w' w σ.symm q) (fun q => moved w w' σ q) (fun q hq => ?_) (fun q hq => ?_) (fun q _ => ?_) fun q _ => ?_)
    · exact Box.mem_points.2 (moved_mem (shape_symm h) (Box.mem_points.1 hq))
    · exact Box.mem_points.2 (moved_mem h (Box.mem_points.1 hq))
    · exact moved_moved (σ := σ.symm) q
    · exact moved_moved q
  rw [e1, e2, this]

/-- C87: only the values count, not where they are: with the same values on worlds of the same shape, up to a translation and the order of the axes, two calls
give the same values. -/
theorem C87_layout (P : Performed fwd s w v src dst nb input output) (P' : Performed fwd s w' v' src' dst' nb' input' output') (hj : j < nb) (hj' : j' < nb')
    (hσ : SameExtents w w' σ) (hin : ∀ p x x', EntryAt src input j p x → EntryAt src' input' j' (moved w w' σ p) x' → x' = x) :
    ∀ k y y', EntryAt dst output j k y → EntryAt dst' output' j' (moved w w' σ k) y' → y' = y := by
  obtain ⟨hv, G, hG⟩ := P.maps
  obtain ⟨-, G', hG'⟩ := P'.maps
  obtain ⟨h1, h2⟩ := hG j hj
  obtain ⟨h1', h2'⟩ := hG' j' hj'
  intro k y y' hy hy'
  obtain ⟨hk, rfl⟩ := (h2 k y).1 hy
  obtain ⟨-, rfl⟩ := (h2' _ y').1 hy'
  beta_reduce
  rw [shape_count hσ ⟨k, hv k hk⟩, dft3_moved hσ fwd fun q hq => hin q _ _ ((h1 q _).2 ⟨hq, rfl⟩) ((h1' _ _).2 ⟨moved_mem hσ hq, rfl⟩)]

/-- C87: transforms are linear. -/
theorem C87_linear (P : Performed fwd s w v src dst nb input output) (P' : Performed fwd s w v' src' dst' nb' input' output')
    (P'' : Performed fwd s w v'' src'' dst'' nb'' input'' output'') (hj : j < nb) (hj' : j' < nb') (hj'' : j'' < nb'') (a b : ℂ)
    (hin : ∀ p x x' x'', EntryAt src input j p x → EntryAt src' input' j' p x' → EntryAt src'' input'' j'' p x'' → x'' = a * x + b * x') :
    ∀ k y y' y'', EntryAt dst output j k y → EntryAt dst' output' j' k y' → EntryAt dst'' output'' j'' k y'' → y'' = a * y + b * y' := by
  obtain ⟨-, G, hG⟩ := P.maps
  obtain ⟨-, G', hG'⟩ := P'.maps
  obtain ⟨-, G'', hG''⟩ := P''.maps
  obtain ⟨h1, h2⟩ := hG j hj
  obtain ⟨h1', h2'⟩ := hG' j' hj'
  obtain ⟨h1'', h2''⟩ := hG'' j'' hj''
  intro k y y' y'' hy hy' hy''
  obtain ⟨-, rfl⟩ := (h2 k y).1 hy
  obtain ⟨-, rfl⟩ := (h2' k y').1 hy'
  obtain ⟨-, rfl⟩ := (h2'' k y'').1 hy''
  beta_reduce
  rw [dft3_congr (G' := fun q => a * G j q + b * G' j' q) (fun q hq => hin q _ _ _ ((h1 q _).2 ⟨hq, rfl⟩) ((h1' q _).2 ⟨hq, rfl⟩) ((h1'' q _).2 ⟨hq, rfl⟩)) fwd, dft3_linear]
  ring

/-- C87: a periodic translation of the input multiplies every entry of the output by a power of a root of unity. -/
theorem C87_shift (P : Performed fwd s w v src dst nb input output) (P' : Performed fwd s w v' src' dst' nb' input' output') (hj : j < nb) (hj' : j' < nb')
    {t : A3 Int} (ht : t ∈ w) (hin : ∀ p x x', EntryAt src input j (difference w p t) x → EntryAt src' input' j' p x' → x' = x) :
    ∀ k y y', EntryAt dst output j k y → EntryAt dst' output' j' k y' → y' = wave fwd w t k * y := by
  obtain ⟨-, G, hG⟩ := P.maps
  obtain ⟨-, G', hG'⟩ := P'.maps
  obtain ⟨h1, h2⟩ := hG j hj
  obtain ⟨h1', h2'⟩ := hG' j' hj'
  intro k y y' hy hy'
  obtain ⟨-, rfl⟩ := (h2 k y).1 hy
  obtain ⟨-, rfl⟩ := (h2' k y').1 hy'
  beta_reduce
  rw [dft3_congr (G' := fun q => G j (difference w q t)) (fun q hq => hin q _ _ ((h1 _ _).2 ⟨difference_mem hq, rfl⟩) ((h1' q _).2 ⟨hq, rfl⟩)) fwd, dft3_shift fwd ht]
  ring

/-- C87: conjugate input gives the conjugate of the output at the negative frequencies. -/
theorem C87_conjugate (P : Performed fwd s w v src dst nb input output) (P' : Performed fwd s w v' src' dst' nb' input' output') (hj : j < nb) (hj' : j' < nb')
    (hin : ∀ p x x', EntryAt src input j p x → EntryAt src' input' j' p x' → x' = starRingEnd ℂ x) :
    ∀ k y y', EntryAt dst output j (mirror w k) y → EntryAt dst' output' j' k y' → y' = starRingEnd ℂ y := by
  obtain ⟨-, G, hG⟩ := P.maps
  obtain ⟨hv', G', hG'⟩ := P'.maps
  obtain ⟨h1, h2⟩ := hG j hj
  obtain ⟨h1', h2'⟩ := hG' j' hj'
  intro k y y' hy hy'
  obtain ⟨-, rfl⟩ := (h2 _ y).1 hy
  obtain ⟨hk, rfl⟩ := (h2' k y').1 hy'
  beta_reduce
  rw [dft3_congr (G' := fun q => starRingEnd ℂ (G j q)) (fun q hq => hin q _ _ ((h1 q _).2 ⟨hq, rfl⟩) ((h1' q _).2 ⟨hq, rfl⟩)) fwd, dft3_conj fwd _ (hv' k hk), map_mul,
    Complex.conj_ofReal]

/-- C87: the spectrum of real values is conjugate symmetric, also across ranks; for the half spectrum at the indexes that have their mirror in it. -/
theorem C87_real (P : Performed fwd s w v src dst nb input output) (hj : j < nb) (hin : ∀ p x, EntryAt src input j p x → x.im = 0) :
    ∀ k y y', EntryAt dst output j (mirror w k) y → EntryAt dst output j k y' → y' = starRingEnd ℂ y :=
  C87_conjugate P P hj hj fun p x x' hx hx' => by
    rw [(C87_entries P hj).2.2.1 p x' x hx' hx]
    exact (Complex.conj_eq_iff_im.2 (hin p x hx)).symm

/-- C87: the backward transform is the forward transform of the mirrored input. -/
theorem C87_reverse (P : Performed fwd s w v src dst nb input output) (P' : Performed (!fwd) s w v' src' dst' nb' input' output') (hj : j < nb) (hj' : j' < nb')
    (hin : ∀ p x x', EntryAt src input j p x → EntryAt src' input' j' (mirror w p) x' → x' = x) :
    ∀ k y y', EntryAt dst output j k y → EntryAt dst' output' j' k y' → y' = y := by
  obtain ⟨-, G, hG⟩ := P.maps
  obtain ⟨-, G', hG'⟩ := P'.maps
  obtain ⟨h1, h2⟩ := hG j hj
  obtain ⟨h1', h2'⟩ := hG' j' hj'
  intro k y y' hy hy'
  obtain ⟨-, rfl⟩ := (h2 k y).1 hy
  obtain ⟨-, rfl⟩ := (h2' k y').1 hy'
  beta_reduce
  rw [dft3_reverse fwd (G := G j) fun q hq => hin q _ _ ((h1 q _).2 ⟨hq, rfl⟩) ((h1' _ _).2 ⟨mirror_mem hq, rfl⟩)]

/-- C87: a product of functions of one index each becomes the product of their one dimensional transforms. -/
theorem C87_separable (P : Performed fwd s w v src dst nb input output) (hj : j < nb) (f : Fin 3 → Nat → ℂ)
    (hin : ∀ p x, EntryAt src input j p x → x = ∏ d, f d (w.rel p d)) :
    ∀ k y, EntryAt dst output j k y → y = s.factor w.count * ∏ d, line fwd (w.extent d) (f d) (w.rel k d) := by
  obtain ⟨-, G, hG⟩ := P.maps
  obtain ⟨h1, h2⟩ := hG j hj
  intro k y hy
  obtain ⟨-, rfl⟩ := (h2 k y).1 hy
  beta_reduce
  rw [dft3_separable fwd f fun q hq => hin q _ ((h1 q _).2 ⟨hq, rfl⟩)]

/-- C87: a single one at the index `t` becomes a wave. -/
theorem C87_impulse (P : Performed fwd s w v src dst nb input output) (hj : j < nb) {t : A3 Int} (ht : t ∈ w)
    (hin : ∀ p x, EntryAt src input j p x → x = if p = t then 1 else 0) :
    ∀ k y, EntryAt dst output j k y → y = s.factor w.count * wave fwd w t k := by
  obtain ⟨-, G, hG⟩ := P.maps
  obtain ⟨h1, h2⟩ := hG j hj
  intro k y hy
  obtain ⟨-, rfl⟩ := (h2 k y).1 hy
  beta_reduce
  rw [dft3_impulse fwd ht fun q hq => hin q _ ((h1 q _).2 ⟨hq, rfl⟩)]

end

/-! ## Calls with real output -/

section
variable {d : Option (Fin 3)} {v : Box} {s : Scaling} {w u w' u' u'' : Box} {src dst src' dst' src'' dst'' : List Box} {nb nb' nb'' : Nat} {input output input' output' input'' output'' : List (Data ℂ ℝ)}
  {σ : Equiv.Perm (Fin 3)} {j j' j'' : Nat}

theorem lower_half {d : Fin 3} (hc : ComplexWorld w u (some d)) {q : A3 Int} (hq : q ∈ w) (hle : w.rel q d ≤ w.extent d / 2) : q ∈ u := by
  rw [Box.mem_def] at hq ⊢
  intro e
  have h1 := hc e
  have h2 := hq e
  by_cases he : e = d
  · subst he
    rw [if_pos rfl] at h1
    unfold Box.rel Box.extent at hle
    omega
  · rw [if_neg (fun h => he (Option.some.inj h).symm)] at h1
    omega

theorem upper_half {d : Fin 3} {q : A3 Int} (hq : q ∈ w) (hle : ¬ w.rel q d ≤ w.extent d / 2) : w.rel (mirror w q) d ≤ w.extent d / 2 := by
  rw [rel_mirror]
  have := Nat.mod_le (w.extent d - w.rel q d) (w.extent d)
  omega

/-- The values of the completed spectrum come from the input. -/
theorem completed_rel (hc : ComplexWorld w u d) (R : ℂ → ℂ → Prop) (hR : ∀ x y, R x y → R (starRingEnd ℂ x) (starRingEnd ℂ y)) {G G' : A3 Int → ℂ} {φ : A3 Int → A3 Int}
    (h : ∀ p ∈ u, R (G p) (G' (φ p))) {d' : Option (Fin 3)} {w' : Box} (hd : d' = none ↔ d = none)
    (hφ : ∀ e e', d = some e → d' = some e' → ∀ q ∈ w, (w'.rel (φ q) e' ≤ w'.extent e' / 2 ↔ w.rel q e ≤ w.extent e / 2) ∧ mirror w' (φ q) = φ (mirror w q))
    {q : A3 Int} (hq : q ∈ w) : R (completed d w G q) (completed d' w' G' (φ q)) := by
  cases d with
  | none =>
    rw [hd.2 rfl]
    refine h q (Box.mem_def.2 fun e => ?_)
    have h1 := hc e
    have h2 := Box.mem_def.1 hq e
    simp only [reduceCtorEq, if_false] at h1
    omega
  | some e =>
    cases d' with
    | none => cases hd.1 rfl
    | some e' =>
      obtain ⟨h1, h2⟩ := hφ e e' rfl rfl q hq
      simp only [completed, fullSpectrum3]
      by_cases hle : w.rel q e ≤ w.extent e / 2
      · rw [if_pos hle, if_pos (h1.2 hle)]
        exact h q (lower_half hc hq hle)
      · rw [if_neg hle, if_neg (fun h => hle (h1.1 h)), h2]
        exact hR _ _ (h _ (lower_half hc (mirror_mem hq) (upper_half hq hle)))

theorem mirror_moved (h : SameExtents w w' σ) (q : A3 Int) : mirror w' (moved w w' σ q) = moved w w' σ (mirror w q) := by
  refine A3.ext' fun d => ?_
  rw [mirror, A3.get_of, rel_moved, h, moved, A3.get_of, mirror, A3.get_of]
  ring

/-- C87: only the values count, for backward calls to real data. -/
theorem C87_back_layout (P : PerformedBack d s w u src dst nb input output) (P' : PerformedBack (d.map σ.symm) s w' u' src' dst' nb' input' output') (hj : j < nb) (hj' : j' < nb')
    (hσ : SameExtents w w' σ) (hin : ∀ p x x', EntryAt src input j p x → EntryAt src' input' j' (moved w w' σ p) x' → x' = x) :
    ∀ k y y', EntryAt dst output j k y → EntryAt dst' output' j' (moved w w' σ k) y' → y' = y := by
  obtain ⟨hc, hne, G, hG⟩ := P.maps
  obtain ⟨hc', -, G', hG'⟩ := P'.maps
  obtain ⟨h1, h2⟩ := hG j hj
  obtain ⟨h1', h2'⟩ := hG' j' hj'
  intro k y y' hy hy'
  obtain ⟨hk, rfl⟩ := (h2 k y).1 hy
  obtain ⟨-, rfl⟩ := (h2' _ y').1 hy'
  have hmem : ∀ p ∈ u, moved w w' σ p ∈ u' := by
    intro p hp
    rw [Box.mem_def] at hp ⊢
    intro e
    have q1 := hc (σ e)
    have q2 := hc' e
    have q3 := hp (σ e)
    have q4 := hσ e
    have q5 := Box.mem_def.1 hk (σ e)
    have q6 := Box.mem_def.1 (moved_mem hσ hk) e
    rw [moved, A3.get_of] at q6 ⊢
    unfold Box.extent at q4
    have q7 : d.map σ.symm = some e ↔ d = some (σ e) := by
      cases d with
      | none => simp
      | some d => simp [Equiv.symm_apply_eq]
    simp only [q7] at q2
    split at q1 <;> rename_i hd <;> simp only [hd, if_true, if_false] at q2 <;> omega
  beta_reduce
  rw [shape_count hσ hne, dft3_moved hσ false (G := completed d w (G j)) fun q hq => ?_]
  refine (completed_rel hc (· = ·) (fun _ _ h => by rw [h]) (φ := moved w w' σ) (fun p hp => (hin p _ _ ((h1 p _).2 ⟨hp, rfl⟩) ((h1' _ _).2 ⟨hmem p hp, rfl⟩)).symm)
    (by cases d <;> simp) (fun e e' he he' q _ => ?_) hq).symm
  subst he
  cases he'
  rw [rel_moved, hσ, Equiv.apply_symm_apply]
  exact ⟨Iff.rfl, mirror_moved hσ q⟩

/-- C87: backward calls to real data are linear, with real coefficients. -/
theorem C87_back_linear (P : PerformedBack d s w u src dst nb input output) (P' : PerformedBack d s w u' src' dst' nb' input' output')
    (P'' : PerformedBack d s w u'' src'' dst'' nb'' input'' output'') (hj : j < nb) (hj' : j' < nb') (hj'' : j'' < nb'') (a b : ℝ)
    (hin : ∀ p x x' x'', EntryAt src input j p x → EntryAt src' input' j' p x' → EntryAt src'' input'' j'' p x'' → x'' = a * x + b * x') :
    ∀ k y y' y'', EntryAt dst output j k y → EntryAt dst' output' j' k y' → EntryAt dst'' output'' j'' k y'' → y'' = a * y + b * y' := by
  obtain ⟨hc, -, G, hG⟩ := P.maps
  obtain ⟨hc', -, G', hG'⟩ := P'.maps
  obtain ⟨hc'', -, G'', hG''⟩ := P''.maps
  obtain ⟨h1, h2⟩ := hG j hj
  obtain ⟨h1', h2'⟩ := hG' j' hj'
  obtain ⟨h1'', h2''⟩ := hG'' j'' hj''
  intro k y y' y'' hy hy' hy''
  obtain ⟨-, rfl⟩ := (h2 k y).1 hy
  obtain ⟨-, rfl⟩ := (h2' k y').1 hy'
  obtain ⟨-, rfl⟩ := (h2'' k y'').1 hy''
  have same : ∀ {u u' : Box}, ComplexWorld w u d → ComplexWorld w u' d → ∀ p ∈ u, p ∈ u' := by
    intro u u' hu hu' p hp
    rw [Box.mem_def] at hp ⊢
    intro e
    have := hu e
    have := hu' e
    have := hp e
    omega
  beta_reduce
  have e : ∀ q ∈ w, completed d w (G'' j'') q = a * completed d w (G j) q + b * completed d w (G' j') q := by
    intro q hq
    have := completed_rel hc'' (· = ·) (fun _ _ h => by rw [h]) (G := G'' j'') (G' := fun q => a * G j q + b * G' j' q) (φ := fun q => q) (d' := d) (w' := w) (fun p hp =>
      hin p _ _ _ ((h1 p _).2 ⟨same hc'' hc p hp, rfl⟩) ((h1' p _).2 ⟨same hc'' hc' p hp, rfl⟩) ((h1'' p _).2 ⟨hp, rfl⟩)) Iff.rfl
      (fun e e' he he' q _ => by rw [he] at he'; cases he'; exact ⟨Iff.rfl, rfl⟩) hq
    rw [this]
    cases d with
    | none => rfl
    | some d =>
      simp only [completed, fullSpectrum3]
      split
      · rfl
      · simp [map_add, map_mul]
  rw [dft3_congr e false, dft3_linear, Complex.add_re, Complex.re_ofReal_mul, Complex.re_ofReal_mul]
  push_cast
  ring

/-- C87: a backward call to real data gives the real parts of the backward call with complex data. -/
theorem C87_back_parts (P : Performed false s w v src dst nb input output) (P' : PerformedBack none s w u' src' dst' nb' input' output') (hj : j < nb) (hj' : j' < nb')
    (hin : ∀ p x x', EntryAt src input j p x → EntryAt src' input' j' p x' → x' = x) :
    ∀ k y y', EntryAt dst output j k y → EntryAt dst' output' j' k y' → y' = (y.re : ℂ) := by
  obtain ⟨-, G, hG⟩ := P.maps
  obtain ⟨hc', -, G', hG'⟩ := P'.maps
  obtain ⟨h1, h2⟩ := hG j hj
  obtain ⟨h1', h2'⟩ := hG' j' hj'
  intro k y y' hy hy'
  obtain ⟨-, rfl⟩ := (h2 k y).1 hy
  obtain ⟨-, rfl⟩ := (h2' k y').1 hy'
  beta_reduce
  have hmem : ∀ q ∈ w, q ∈ u' := fun q hq => Box.mem_def.2 fun e => by
    have h1 := hc' e
    have h2 := Box.mem_def.1 hq e
    simp only [reduceCtorEq, if_false] at h1
    omega
  rw [Complex.re_ofReal_mul, dft3_congr (G := completed none w (G' j')) (G' := G j) (fun q hq => hin q _ _ ((h1 q _).2 ⟨hq, rfl⟩) ((h1' q _).2 ⟨hmem q hq, rfl⟩)) false]

/-- C87: the backward call of an `fft3d_r2c` gives what an `fft3d` gives for the whole spectrum, if it is conjugate symmetric. -/
theorem C87_back_half {e : Fin 3} (P : PerformedBack none s w u src dst nb input output) (P' : PerformedBack (some e) s w u' src' dst' nb' input' output') (hj : j < nb)
    (hj' : j' < nb') (hsym : ∀ p x x', EntryAt src input j p x → EntryAt src input j (mirror w p) x' → x' = starRingEnd ℂ x)
    (hin : ∀ p x x', EntryAt src input j p x → EntryAt src' input' j' p x' → x' = x) :
    ∀ k y y', EntryAt dst output j k y → EntryAt dst' output' j' k y' → y' = y := by
  obtain ⟨hc, hne, G, hG⟩ := P.maps
  obtain ⟨hc', -, G', hG'⟩ := P'.maps
  obtain ⟨h1, h2⟩ := hG j hj
  obtain ⟨h1', h2'⟩ := hG' j' hj'
  intro k y y' hy hy'
  obtain ⟨-, rfl⟩ := (h2 k y).1 hy
  obtain ⟨-, rfl⟩ := (h2' k y').1 hy'
  beta_reduce
  have hmem : ∀ q ∈ w, q ∈ u := fun q hq => Box.mem_def.2 fun e => by
    have h1 := hc e
    have h2 := Box.mem_def.1 hq e
    simp only [reduceCtorEq, if_false] at h1
    omega
  rw [dft3_congr (G := completed (some e) w (G' j')) (G' := completed none w (G j)) (fun q hq => ?_) false]
  have hval : ∀ p ∈ u', G' j' p = G j p := fun p hp => hin p _ _ ((h1 p _).2 ⟨hmem p (half_subset hc' hne hp), rfl⟩) ((h1' p _).2 ⟨hp, rfl⟩)
  simp only [completed, fullSpectrum3]
  by_cases hle : w.rel q e ≤ w.extent e / 2
  · rw [if_pos hle]
    exact hval q (lower_half hc' hq hle)
  · rw [if_neg hle, hval _ (lower_half hc' (mirror_mem hq) (upper_half hq hle)),
      hsym q _ _ ((h1 q _).2 ⟨hmem q hq, rfl⟩) ((h1 _ _).2 ⟨hmem _ (mirror_mem hq), rfl⟩), Complex.conj_conj]

/-- C87: every index of the input and of the output has one entry. -/
theorem C87_back_entries (P : PerformedBack d s w u src dst nb input output) (hj : j < nb) :
    (∀ p, (∃ x, EntryAt src input j p x) ↔ p ∈ u) ∧ (∀ p, (∃ x, EntryAt dst output j p x) ↔ p ∈ w) ∧
      (∀ p x y, EntryAt src input j p x → EntryAt src input j p y → x = y) ∧ ∀ p x y, EntryAt dst output j p x → EntryAt dst output j p y → x = y := by
  obtain ⟨-, -, G, hG⟩ := P.maps
  obtain ⟨h1, h2⟩ := hG j hj
  refine ⟨fun p => ⟨fun ⟨x, hx⟩ => ((h1 p x).1 hx).1, fun hp => ⟨_, (h1 p _).2 ⟨hp, rfl⟩⟩⟩, fun p => ⟨fun ⟨x, hx⟩ => ((h2 p x).1 hx).1, fun hp => ⟨_, (h2 p _).2 ⟨hp, rfl⟩⟩⟩, ?_, ?_⟩
  · intro p x y hx hy
    rw [((h1 p x).1 hx).2, ((h1 p y).1 hy).2]
  · intro p x y hx hy
    rw [((h2 p x).1 hx).2, ((h2 p y).1 hy).2]

end

/-! ## Instances -/

/-- 4 x 6 x 8 indexes. -/
def lawWorld : Box := ⟨⟨0, 0, 0⟩, ⟨3, 5, 7⟩, ⟨0, 1, 2⟩⟩

/-- 8 x 4 x 6 indexes on two ranks, with other storage orders for the input and the output. -/
def lawIn : List Box := [⟨⟨0, 0, 0⟩, ⟨2, 3, 5⟩, ⟨2, 0, 1⟩⟩, ⟨⟨3, 0, 0⟩, ⟨7, 3, 5⟩, ⟨2, 0, 1⟩⟩]
def lawOut : List Box := [⟨⟨0, 0, 0⟩, ⟨7, 3, 1⟩, ⟨1, 0, 2⟩⟩, ⟨⟨0, 0, 2⟩, ⟨7, 3, 5⟩, ⟨1, 0, 2⟩⟩]
def lawOther : Box := ⟨⟨0, 0, 0⟩, ⟨7, 3, 5⟩, ⟨0, 1, 2⟩⟩

theorem lawGeometry : ∃ wo, Geometry lawIn lawOut none lawOther wo ∧ ∀ d, (lawIn.length : Int) ≤ wo.size.get d := by
  obtain ⟨wi, wo, h, -⟩ := checked_geometry (bin := lawIn) (bout := lawOut) (r2c := none) (by decide) rfl (by decide) (by decide)
    ⟨⟨⟨0, 0, 0⟩, ⟨2, 3, 5⟩, ⟨2, 0, 1⟩⟩, by decide, ⟨0, 0, 0⟩, by decide⟩
  have h1 : findWorld lawIn = .ok lawOther := by decide
  have h2 : findWorld lawOut = .ok lawOther := by decide
  obtain rfl := Except.ok.inj (h1.symm.trans h.worldIn)
  obtain rfl := Except.ok.inj (h2.symm.trans h.worldOut)
  exact ⟨_, h, by decide⟩

theorem lawLibrary (opts : Opts) (h : opts.useReorder = true) : ∃ wo ob, LibraryC2C lawIn lawOut lawOther wo opts ob := by
  obtain ⟨wo, geo, hlong⟩ := lawGeometry
  obtain ⟨ob, hob⟩ := C54_constructor geo (by decide) (fun d => ⟨by revert d; decide, hlong d⟩) .fftw (fun z h => Family.noConfusion h) opts
  exact ⟨wo, ob, geo, hob, .inl h⟩

/-- The axes 0, 1, 2 of the second world are the axes 2, 0, 1 of the first one. -/
def lawAxes : Equiv.Perm (Fin 3) := ⟨fun d => d + 2, fun d => d + 1, by decide, by decide⟩

/-- C87: any values on four ranks with the stock backend and the same values with the axes in another order, another number of ranks and another backend: the
hypotheses of C87_layout can be met. -/
example (opts opts' : Opts) (h : opts'.useReorder = true) (s : Scaling) (g : Nat → A3 Int → ℂ) :
    ∃ input output input' output', Performed true s lawWorld lawWorld exIn exOut 3 input output ∧ Performed true s lawOther lawOther lawIn lawOut 2 input' output' ∧
      SameExtents lawWorld lawOther lawAxes ∧ ∀ p x x', EntryAt exIn input 2 p x → EntryAt lawIn input' 1 (moved lawWorld lawOther lawAxes p) x' → x' = x := by
  obtain ⟨wi, wo, ob, S⟩ := exObject opts
  obtain rfl : lawWorld = wi := Except.ok.inj ((by decide : findWorld exIn = .ok lawWorld).symm.trans S.geo.worldIn)
  obtain ⟨wo', ob', S'⟩ := lawLibrary opts' h
  obtain ⟨W, hW⟩ := world_exists ob.plan true
  obtain ⟨W', hW'⟩ := world_exists ob'.plan true
  obtain ⟨xs, ha⟩ := arrays_exist exIn exOut false (ob.sizeWorkspace noWork) 3 (.inl g : Field ℂ ℝ) (src_order S.geo true)
  obtain ⟨ys, hb⟩ := arrays_exist lawIn lawOut false (ob'.sizeWorkspace fun e => e.boxSize) 2 (.inl fun _ p => g 2 (moved lawOther lawWorld lawAxes.symm p) : Field ℂ ℝ) (src_order S'.geo true)
  obtain ⟨ms, h1, -⟩ := C40_complex (junk := fun _ _ => ⟨fun _ => 0, fun _ _ => 0⟩) (inp := fun _ _ _ => 0) (s := s) (fwd := true) S (by decide : 0 < 4) hW (by decide : 0 < 3) ha (exSource exIn (by simp))
  have hs : SourceHolds lawIn fun _ => false := by
    have key : ∀ r, r < lawIn.length → (boxAt lawIn r).low ∈ boxAt lawIn r := by decide
    exact fun r hr => .inr ⟨_, key r hr⟩
  obtain ⟨ms', h2, -⟩ := C62_complex (s := s) (fwd := true) S' exact_library (fun e => e.boxSize_nonneg) hW' (by decide : 0 < 2) hb (.inr hs)
  refine ⟨_, _, _, _, .stock S (by decide : 0 < 4) hW (by decide : 0 < 3) ha.has (exSource exIn (by simp)) h1,
    .library S' exact_library (fun e => e.boxSize_nonneg) hW' (by decide : 0 < 2) hb.has (.inr hs) h2, by unfold SameExtents; decide, fun p x x' hx hx' => ?_⟩
  obtain ⟨-, rfl⟩ := (entries_in S.geo.tilesIn ha (by decide : 2 < 3) p x).1 hx
  obtain ⟨-, rfl⟩ := (entries_in S'.geo.tilesIn hb (by decide : 1 < 2) _ x').1 hx'
  simp only [Field.val, asComplex]
  rw [moved_moved]

/-- C87 for the half spectrum of any real values on four ranks: the entries in the planes 0 and 3 of the direction of size 6 are conjugates of each other. -/
example (opts : Opts) (s : Scaling) (g : Nat → A3 Int → ℝ) : ∃ v input output, Performed true s lawWorld v exIn exOutC 1 input output ∧
    (∀ p x, EntryAt exIn input 0 p x → x = g 0 p) ∧
    ∀ a b c y y', EntryAt exOutC output 0 (mirror lawWorld ⟨a, b, c⟩) y → EntryAt exOutC output 0 ⟨a, b, c⟩ y' → y' = starRingEnd ℂ y := by
  obtain ⟨wi, wo, ob, S⟩ := exObjectC opts
  obtain rfl : lawWorld = wi := Except.ok.inj ((by decide : findWorld exIn = .ok lawWorld).symm.trans S.geo.worldIn)
  obtain ⟨W, hW⟩ := world_exists ob.plan true
  obtain ⟨xs, ha⟩ := arrays_exist exIn exOutC false (ob.sizeWorkspace noWork) 1 (.inr g : Field ℂ ℝ) (src_order S.geo true)
  obtain ⟨ms, h1, -⟩ := C53_forward (junk := fun _ _ => ⟨fun _ => 0, fun _ _ => 0⟩) (inp := fun _ _ _ => 0) (s := s) S (by decide : 0 < 4) hW (by decide : 0 < 1) ha (.inl rfl)
  have P := Performed.stockHalf S (by decide : 0 < 4) hW (by decide : 0 < 1) ha.has (.inl rfl) h1
  have hval : ∀ p x, EntryAt exIn (inputs (fun _ => false) xs) 0 p x → x = g 0 p := fun p x hx => ((entries_in S.geo.tilesIn ha (by decide : 0 < 1) p x).1 hx).2
  exact ⟨wo, _, _, P, hval, fun a b c => C87_real P (by decide : 0 < 1) (fun p x hx => by rw [hval p x hx]; exact Complex.ofReal_im _) _⟩

/-- C87 for backward calls: any symmetric spectrum on four ranks, with an `fft3d` and with an `fft3d_r2c` that gets the first part. -/
example (opts opts' : Opts) (s : Scaling) (g : A3 Int → ℝ) :
    ∃ u u' input output input' output', PerformedBack none s lawWorld u exOut exIn 1 input output ∧ PerformedBack (some 1) s lawWorld u' exOutC exIn 1 input' output' ∧
      (∀ p x x', EntryAt exOut input 0 p x → EntryAt exOut input 0 (mirror lawWorld p) x' → x' = starRingEnd ℂ x) ∧
      ∀ p x x', EntryAt exOut input 0 p x → EntryAt exOutC input' 0 p x' → x' = x := by
  obtain ⟨wi, wo, ob, S⟩ := exObject opts
  obtain rfl : lawWorld = wi := Except.ok.inj ((by decide : findWorld exIn = .ok lawWorld).symm.trans S.geo.worldIn)
  obtain ⟨wi', wo', ob', S'⟩ := exObjectC opts'
  obtain rfl : lawWorld = wi' := Except.ok.inj ((by decide : findWorld exIn = .ok lawWorld).symm.trans S'.geo.worldIn)
  obtain ⟨W, hW⟩ := world_exists ob.plan false
  obtain ⟨W', hW'⟩ := world_exists ob'.plan false
  obtain ⟨xs, ha⟩ := arrays_exist exOut exIn true (ob.sizeWorkspace noWork) 1 (.inl fun _ => dft3 true lawWorld fun p => (g p : ℂ) : Field ℂ ℝ) (src_order S.geo false)
  obtain ⟨ys, hb⟩ := arrays_exist exOutC exIn true (ob'.sizeWorkspace noWork) 1 (.inl fun _ => dft3 true lawWorld fun p => (g p : ℂ) : Field ℂ ℝ) (src_order S'.geo false)
  obtain ⟨ms, h1, -⟩ := C52_real (junk := fun _ _ => ⟨fun _ => 0, fun _ _ => 0⟩) (inp := fun _ _ _ => 0) (s := s) S (by decide : 0 < 4) hW (by decide : 0 < 1) ha (exSource _ (by simp))
  obtain ⟨ms', h2, -⟩ := C53_backward (junk := fun _ _ => ⟨fun _ => 0, fun _ _ => 0⟩) (inp := fun _ _ _ => 0) (s := s) S' (by decide : 0 < 4) hW' (by decide : 0 < 1) hb (exSource _ (by simp))
  refine ⟨_, _, _, _, _, _, .stock S (by decide : 0 < 4) hW (by decide : 0 < 1) ha.has (exSource _ (by simp)) h1,
    .stockHalf S' (by decide : 0 < 4) hW' (by decide : 0 < 1) hb.has (exSource _ (by simp)) h2, fun p x x' hx hx' => ?_, fun p x x' hx hx' => ?_⟩
  · obtain ⟨hp, rfl⟩ := (entries_in (src_tiles S.geo false) ha (by decide : 0 < 1) p x).1 hx
    obtain ⟨-, rfl⟩ := (entries_in (src_tiles S.geo false) ha (by decide : 0 < 1) _ x').1 hx'
    simp only [Field.val, asComplex]
    rw [← dft3_symm hp, Complex.conj_conj]
  · obtain ⟨-, rfl⟩ := (entries_in (src_tiles S.geo false) ha (by decide : 0 < 1) p x).1 hx
    obtain ⟨-, rfl⟩ := (entries_in S'.geo.tilesOut hb (by decide : 0 < 1) p x').1 hx'
    rfl

end Verif
