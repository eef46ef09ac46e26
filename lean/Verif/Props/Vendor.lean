import Verif.VendorReal
import Verif.Props.Exec

/-!
# Properties C59 to C61: the executors of cuFFT, rocFFT, MKL and oneMKL
-/

namespace Verif
open Stock
variable {α β : Type}

/-! ## C59 -/

/-- **C59**, one direction: every line of the box in the direction is transformed, and nothing else is changed; for every order of the box. -/
theorem C59_one (v : Vendor) {b : Box} (ho : IsOrder b.order) (hb : b.empty = false) (d : Fin 3) {base : Int}
    {T : Nat → Int × Int → List α → Res (List α)} {t : Nat → List α → Nat → α}
    (hT : ∀ n s v, v.length = n → T n s v = .ok ((List.range n).map (t n v)))
    {mem : List α} {G : A3 Int → α} (hG : Holds b mem base G) (h0 : 0 ≤ base) (hlen : base + b.count ≤ mem.length) :
    ∃ r, (vexec1 b d).run v T base mem = .ok r ∧ r.length = mem.length ∧
      Holds b r base (along b d (t (b.size d).toNat) G) ∧ ∀ a, (a < base ∨ base + b.count ≤ a) → rd r a = rd mem a := by
  rw [vexec1_run v hb]
  exact exec_in_place Nat.one_pos ho hb (hT _) hG h0 hlen

/-- Two directions, every order: the four libraries are asked for the same transforms as FFTW. -/
theorem C59_two_as_fftw (v : Vendor) {b : Box} (hb : b.empty = false) (d1 d2 : Fin 3) (T : Nat → Int × Int → List α → Res (List α)) (base : Int)
    (mem : List α) : (vexec2 v b d1 d2).run v T base mem = fftwExec2 T b d1 d2 base mem :=
  vexec2_run v hb d1 d2 T base mem

/-- Three directions, every order: the four libraries are asked for the same transforms as FFTW. -/
theorem C59_three_as_fftw (v : Vendor) (b : Box) (T : Nat → Int × Int → List α → Res (List α)) (base : Int) (mem : List α) :
    (vexec3 b).run v T base mem = fftwExec3 T b base mem :=
  vexec3_run v b T base mem

/-- **C59**, two directions: true for boxes with the standard order.  Not true for every order, see `C59_false_2d`. -/
theorem C59_two_partial (v : Vendor) {b : Box} (h : b.order = ⟨0, 1, 2⟩) (hb : b.empty = false) {d1 d2 : Fin 3} (hd : d1 ≠ d2) {base : Int}
    {T : Nat → Int × Int → List α → Res (List α)} {t : Nat → List α → Nat → α}
    (hT : ∀ n s v, v.length = n → T n s v = .ok ((List.range n).map (t n v)))
    {mem : List α} {G : A3 Int → α} (hG : Holds b mem base G) (h0 : 0 ≤ base) (hlen : base + b.count ≤ mem.length) :
    ∃ r, (vexec2 v b d1 d2).run v T base mem = .ok r ∧ r.length = mem.length ∧
      Holds b r base (along b (max d1 d2) (t (b.size (max d1 d2)).toNat) (along b (min d1 d2) (t (b.size (min d1 d2)).toNat) G)) ∧
      ∀ a, (a < base ∨ base + b.count ≤ a) → rd r a = rd mem a := by
  rw [vexec2_run v hb]
  exact C33_fftw_2d_partial h hb hd hT hG h0 hlen

/-- **C59**, three directions: true for boxes with the standard order.  Not true for every order, see `C59_false_3d`. -/
theorem C59_three_partial (v : Vendor) {b : Box} (h : b.order = ⟨0, 1, 2⟩) (hb : b.empty = false) {base : Int}
    {T : Nat → Int × Int → List α → Res (List α)} {t : Nat → List α → Nat → α}
    (hT : ∀ n s v, v.length = n → T n s v = .ok ((List.range n).map (t n v)))
    {mem : List α} {G : A3 Int → α} (hG : Holds b mem base G) (h0 : 0 ≤ base) (hlen : base + b.count ≤ mem.length) :
    ∃ r, (vexec3 b).run v T base mem = .ok r ∧ r.length = mem.length ∧
      Holds b r base (along b 2 (t (b.size 2).toNat) (along b 1 (t (b.size 1).toNat) (along b 0 (t (b.size 0).toNat) G))) ∧
      ∀ a, (a < base ∨ base + b.count ≤ a) → rd r a = rd mem a := by
  rw [vexec3_run]
  exact C33_fftw_3d_partial h hb hT hG h0 hlen

/-- A box with another order: the executors with three directions of all four libraries are wrong. -/
theorem C59_false_3d (v : Vendor) : ∃ (b : Box) (mem : List ℂ) (G : A3 Int → ℂ) (r : List ℂ), IsOrder b.order ∧ b.empty = false ∧
    mem.length = b.count ∧ Holds b mem 0 G ∧ (vexec3 b).run v dftLine 0 mem = .ok r ∧
    ¬ Holds b r 0 (along b 2 (dft true) (along b 1 (dft true) (along b 0 (dft true) G))) := by
  obtain ⟨b, mem, G, r, h1, h2, h3, h4, h5, h6⟩ := C33_false_3d
  exact ⟨b, mem, G, r, h1, h2, h3, h4, by rw [vexec3_run]; exact h5, h6⟩

/-- A box with another order: the executors with two directions of all four libraries are wrong. -/
theorem C59_false_2d (v : Vendor) : ∃ (b : Box) (mem : List ℂ) (G : A3 Int → ℂ) (r : List ℂ), IsOrder b.order ∧ b.empty = false ∧
    mem.length = b.count ∧ Holds b mem 0 G ∧ (vexec2 v b 0 1).run v dftLine 0 mem = .ok r ∧
    ¬ Holds b r 0 (along b 1 (dft true) (along b 0 (dft true) G)) := by
  obtain ⟨b, mem, G, r, h1, h2, h3, h4, h5, h6⟩ := C33_false_2d
  exact ⟨b, mem, G, r, h1, h2, h3, h4, by rw [vexec2_run v h2]; exact h5, h6⟩

/-- The lines in the second fastest direction of a box with a permuted order, reversed: two blocks. -/
example : ((vexec1 ⟨⟨0, 0, 0⟩, ⟨1, 2, 1⟩, ⟨2, 1, 0⟩⟩ 1).run .cufft (fun _ _ v => .ok v.reverse) 1
    [99, 0, 1, 2, 3, 4, 5, 6, 7, 8, 9, 10, 11] : Res (List Int)) = .ok [99, 4, 5, 2, 3, 0, 1, 10, 11, 8, 9, 6, 7] := by decide +kernel

/-- The two outer directions, both reversed, in the layout of cuFFT and of rocFFT. -/
example : ((vexec2 .cufft ⟨⟨0, 0, 0⟩, ⟨2, 1, 1⟩, ⟨0, 1, 2⟩⟩ 2 0).run .cufft (fun _ _ v => .ok v.reverse) 0
    [0, 1, 2, 3, 4, 5, 6, 7, 8, 9, 10, 11] : Res (List Int)) = .ok [8, 7, 6, 11, 10, 9, 2, 1, 0, 5, 4, 3] := by decide +kernel

example : ((vexec2 .rocfft ⟨⟨0, 0, 0⟩, ⟨2, 1, 1⟩, ⟨0, 1, 2⟩⟩ 2 0).run .rocfft (fun _ _ v => .ok v.reverse) 0
    [0, 1, 2, 3, 4, 5, 6, 7, 8, 9, 10, 11] : Res (List Int)) = .ok [8, 7, 6, 11, 10, 9, 2, 1, 0, 5, 4, 3] := by decide +kernel

/-! ## C60 -/

theorem holds_bounds {b : Box} (ho : IsOrder b.order) (hb : b.empty = false) {mem : List α} {base : Int} {G : A3 Int → α} (h : Holds b mem base G) :
    0 ≤ base ∧ base + b.count ≤ mem.length := by
  have hpos : 0 < b.count := by
    rw [Box.count_osize ho hb]
    have p0 := osize_pos hb 0
    have p1 := osize_pos hb 1
    have p2 := osize_pos hb 2
    positivity
  have hget : ∀ a, 0 ≤ a → a < b.count → 0 ≤ base + a ∧ base + a < mem.length := by
    intro a h0 h1
    obtain ⟨p, hp, rfl⟩ := Box.offset_surj ho h0 h1
    exact rd_some_iff.1 ⟨_, h p hp⟩
  have h1 := hget 0 le_rfl hpos
  have h2 := hget (b.count - 1) (by omega) (by omega)
  omega

section
variable {b : Box} (ho : IsOrder b.order) (hb : b.empty = false) (d : Fin 3) {rbase cbase : Int}
include ho hb

/-- **C60**, MKL and oneMKL, forward: the lines of the real box are transformed to the lines of the complex box. -/
theorem C60_mkl_forward {T : List α → Res (List β)} {t : List α → Nat → β}
    (hT : ∀ v, v.length = (b.size d).toNat → T v = .ok ((List.range ((b.size d).toNat / 2 + 1)).map (t v)))
    {src : List α} {dst : List β} {G : A3 Int → α} (hG : Holds b src rbase G) (h0 : 0 ≤ cbase) (hlen : cbase + (b.r2c d).count ≤ dst.length) :
    ∃ r, mklR2C T b d rbase cbase src dst = .ok r ∧ r.length = dst.length ∧
      Holds (b.r2c d) r cbase (along b d t G) ∧ ∀ a, (a < cbase ∨ cbase + (b.r2c d).count ≤ a) → rd r a = rd dst a := by
  rw [mklR2C_eq T hb]
  exact C32_r2c Nat.one_pos ho hb d (fun _ v hv => hT v hv) hG h0 hlen

/-- **C60**, MKL and oneMKL, backward. -/
theorem C60_mkl_backward {T : List α → Res (List β)} {t : List α → Nat → β}
    (hT : ∀ v, v.length = (b.size d).toNat / 2 + 1 → T v = .ok ((List.range (b.size d).toNat).map (t v)))
    {src : List α} {dst : List β} {G : A3 Int → α} (hG : Holds (b.r2c d) src cbase G) (h0 : 0 ≤ rbase) (hlen : rbase + b.count ≤ dst.length) :
    ∃ r, mklC2R T b d cbase rbase src dst = .ok r ∧ r.length = dst.length ∧
      Holds b r rbase (along (b.r2c d) d t G) ∧ ∀ a, (a < rbase ∨ rbase + b.count ≤ a) → rd r a = rd dst a := by
  rw [mklC2R_eq T hb]
  exact C32_c2r Nat.one_pos ho hb d (fun _ v hv => hT v hv) hG h0 hlen

/-- **C60**, cuFFT, forward: with the requested workspace the executor is right, uses no more of the workspace than requested, and every call of
the library gets aligned arrays.  The real array has to be aligned when it is given to the library directly. -/
theorem C60_cufft_forward {T : List α → Res (List β)} {t : List α → Nat → β}
    (hT : ∀ v, v.length = (b.size d).toNat → T v = .ok ((List.range ((b.size d).toNat / 2 + 1)).map (t v)))
    {at' : Places} (hr : cufftDirect b d = true → (at'.real + rbase) % 2 = 0) (hc : at'.cplx % 2 = 0)
    {ws src : List α} (hws : 2 * cufftWork b d ≤ ws.length)
    {dst : List β} {G : A3 Int → α} (hG : Holds b src rbase G) (h0 : 0 ≤ cbase) (hlen : cbase + (b.r2c d).count ≤ dst.length) :
    ∃ ws' r, cufftR2C T b d at' rbase cbase ws src dst = .ok (ws', r) ∧ ws'.length = ws.length ∧
      (∀ a, 2 * cufftWork b d ≤ a → rd ws' a = rd ws a) ∧ r.length = dst.length ∧
      Holds (b.r2c d) r cbase (along b d t G) ∧ ∀ a, (a < cbase ∨ cbase + (b.r2c d).count ≤ a) → rd r a = rd dst a := by
  obtain ⟨r, r1, r2, r3, r4⟩ := C60_mkl_forward ho hb d hT hG h0 hlen
  obtain ⟨g0, g1⟩ := holds_bounds ho hb hG
  by_cases hdir : cufftDirect b d = true
  · exact ⟨ws, r, forward_direct hb T at' hdir (hr hdir) hc r1 ws, rfl, fun _ _ => rfl, r2, r3, r4⟩
  · obtain ⟨ws', x1, x2, x3⟩ := forward_via_work ho hb T at' (Bool.eq_false_iff.2 hdir) g0 g1 hc r1 hws
    exact ⟨ws', r, x1, x2, x3, r2, r3, r4⟩

/-- **C60**, cuFFT, backward. -/
theorem C60_cufft_backward {T : List α → Res (List β)} {t : List α → Nat → β}
    (hT : ∀ v, v.length = (b.size d).toNat / 2 + 1 → T v = .ok ((List.range (b.size d).toNat).map (t v)))
    {at' : Places} (hr : cufftDirect b d = true → (at'.real + rbase) % 2 = 0) (hc : at'.cplx % 2 = 0)
    {ws : List β} (hws : 2 * cufftWork b d ≤ ws.length)
    {src : List α} {dst : List β} {G : A3 Int → α} (hG : Holds (b.r2c d) src cbase G) (h0 : 0 ≤ rbase) (hlen : rbase + b.count ≤ dst.length) :
    ∃ ws' r, cufftC2R T b d at' cbase rbase ws src dst = .ok (ws', r) ∧ ws'.length = ws.length ∧
      (∀ a, 2 * cufftWork b d ≤ a → rd ws' a = rd ws a) ∧ r.length = dst.length ∧
      Holds b r rbase (along (b.r2c d) d t G) ∧ ∀ a, (a < rbase ∨ rbase + b.count ≤ a) → rd r a = rd dst a := by
  obtain ⟨r, r1, r2, r3, r4⟩ := C60_mkl_backward ho hb d hT hG h0 hlen
  by_cases hdir : cufftDirect b d = true
  · exact ⟨ws, r, backward_direct hb T at' hdir (hr hdir) hc r1 ws, rfl, fun _ _ => rfl, r2, r3, r4⟩
  · obtain ⟨ws', x1, x2, x3⟩ := backward_via_work ho hb at' (t := t) (fun v hv => hT v (by
        have := (SameLines.refl hb d).pos
        rw [hv]
        change _ = (b.size.get d).toNat / 2 + 1
        omega)) hG (Bool.eq_false_iff.2 hdir) h0 hc hlen r1 hws
    exact ⟨ws', r, x1, x2, x3, r2, r3, r4⟩

/-- **C60**, rocFFT, forward, single (`z = 4`) and double (`z = 8`) precision: with the requested workspace the executor is right, whatever the
library writes to its temporary array and to the copy of the input that it gets.  The size `z * w` of the temporary array is a whole
number of reals. -/
theorem C60_rocfft_forward {T : List α → Res (List β)} {t : List α → Nat → β}
    (hT : ∀ v, v.length = (b.size d).toNat → T v = .ok ((List.range ((b.size d).toNat / 2 + 1)).map (t v)))
    {bytes : RocWork} {z w : Int} (hz : (z = 4 ∧ bytes.sforward = z * w) ∨ (z = 8 ∧ bytes.dforward = z * w)) (hw : 0 ≤ w)
    {scribble : Scribble α} (hs : LibWrites scribble w (ReadBy b d (b.size.get d) (rDist b d) (rBlock b)))
    {ws src : List α} (hws : 2 * rocWork bytes b d ≤ ws.length)
    {dst : List β} {G : A3 Int → α} (hG : Holds b src rbase G) (h0 : 0 ≤ cbase) (hlen : cbase + (b.r2c d).count ≤ dst.length) :
    ∃ ws' r, rocR2C T scribble b d w rbase cbase ws src dst = .ok (ws', r) ∧ ws'.length = ws.length ∧
      (∀ a, 2 * rocWork bytes b d ≤ a → rd ws' a = rd ws a) ∧ r.length = dst.length ∧
      Holds (b.r2c d) r cbase (along b d t G) ∧ ∀ a, (a < cbase ∨ cbase + (b.r2c d).count ≤ a) → rd r a = rd dst a := by
  obtain ⟨r, r1, r2, r3, r4⟩ := C60_mkl_forward ho hb d hT hG h0 hlen
  obtain ⟨g0, g1⟩ := holds_bounds ho hb hG
  have hwork : w + b.count ≤ 2 * rocWork bytes b d := by
    unfold rocWork
    dsimp only
    rcases hz with ⟨rfl, hz⟩ | ⟨rfl, hz⟩ <;> omega
  obtain ⟨ws', x1, x2, x3⟩ := rocR2C_of_mkl (ws := ws) ho hb hs hw g0 g1 (by omega) r1
  exact ⟨ws', r, x1, x2, fun a ha => x3 a (by omega), r2, r3, r4⟩

/-- **C60**, rocFFT, backward: the size of the temporary array is a whole number of complex numbers. -/
theorem C60_rocfft_backward {T : List α → Res (List β)} {t : List α → Nat → β}
    (hT : ∀ v, v.length = (b.size d).toNat / 2 + 1 → T v = .ok ((List.range (b.size d).toNat).map (t v)))
    {bytes : RocWork} {z w : Int} (hz : (z = 8 ∧ bytes.sbackward = z * w) ∨ (z = 16 ∧ bytes.dbackward = z * w)) (hw : 0 ≤ w)
    {scribble : Scribble α} (hs : LibWrites scribble w (ReadBy b d ((b.r2c d).size.get d) (cDist b d) (cBlock b)))
    {ws src : List α} (hws : rocWork bytes b d ≤ ws.length)
    {dst : List β} {G : A3 Int → α} (hG : Holds (b.r2c d) src cbase G) (h0 : 0 ≤ rbase) (hlen : rbase + b.count ≤ dst.length) :
    ∃ ws' r, rocC2R T scribble b d w cbase rbase ws src dst = .ok (ws', r) ∧ ws'.length = ws.length ∧
      (∀ a, rocWork bytes b d ≤ a → rd ws' a = rd ws a) ∧ r.length = dst.length ∧
      Holds b r rbase (along (b.r2c d) d t G) ∧ ∀ a, (a < rbase ∨ rbase + b.count ≤ a) → rd r a = rd dst a := by
  obtain ⟨r, r1, r2, r3, r4⟩ := C60_mkl_backward ho hb d hT hG h0 hlen
  have hs' := SameLines.r2c hb d
  obtain ⟨g0, g1⟩ := holds_bounds (by rw [hs'.order]; exact ho) (Box.empty_false_iff.2 fun e => by
    have h1 := hs'.size e
    have h2 := hs'.pos
    have h3 := Box.empty_false_iff.1 hb e
    by_cases he : e = d
    · subst he; rw [Box.size_get] at h2; omega
    · have := h1 he
      rw [Box.size_get, Box.size_get] at this
      omega) hG
  have hwork : w + (b.r2c d).count ≤ rocWork bytes b d := by
    unfold rocWork
    dsimp only
    rcases hz with ⟨rfl, hz⟩ | ⟨rfl, hz⟩ <;> omega
  obtain ⟨ws', x1, x2, x3⟩ := rocC2R_of_mkl (ws := ws) ho hb hs hw g0 g1 (by omega) r1
  exact ⟨ws', r, x1, x2, fun a ha => x3 a (by omega), r2, r3, r4⟩

/-! ## C61 -/

/-- A batch is aligned: there is one array, or the arrays have an even number of reals, or the workspace is used. -/
theorem batch_aligned {at' : Places} (hr : (at'.real + rbase) % 2 = 0) {nb : Nat}
    (hcount : nb ≤ 1 ∨ numBlocks b d ≠ 1 ∨ b.count % 2 = 0) {j : Nat} (hj : j < nb) :
    cufftDirect b d = true → (at'.real + (rbase + j * b.count)) % 2 = 0 := by
  intro hdir
  have : ((j : Int) * b.count) % 2 = 0 := by
    rcases hcount with h | h | h
    · rw [show j = 0 by omega]; simp
    · unfold cufftDirect at hdir
      rw [Bool.or_eq_true] at hdir
      rcases hdir with h' | h'
      · exact absurd (of_decide_eq_true h') h
      · rw [count_blocks ho hb, ← mul_assoc, Int.mul_emod, of_decide_eq_true h', mul_zero]; rfl
    · rw [Int.mul_emod, h, mul_zero]; rfl
  omega

/-- **C61**, forward: every array of a batch is transformed, if the arrays have an even number of reals, or the executor has more than
one block, or there is only one array.  Otherwise see `C61_forward_false`. -/
theorem C61_forward_partial {T : List α → Res (List β)} {t : List α → Nat → β}
    (hT : ∀ v, v.length = (b.size d).toNat → T v = .ok ((List.range ((b.size d).toNat / 2 + 1)).map (t v)))
    {at' : Places} (hr : (at'.real + rbase) % 2 = 0) (hc : at'.cplx % 2 = 0) {nb : Nat}
    (hcount : nb ≤ 1 ∨ numBlocks b d ≠ 1 ∨ b.count % 2 = 0)
    {ws src : List α} (hws : 2 * cufftWork b d ≤ ws.length)
    {dst : List β} {G : Nat → A3 Int → α} (hG : ∀ j < nb, Holds b src (rbase + j * b.count) (G j)) (h0 : 0 ≤ cbase)
    (hlen : cbase + nb * (b.r2c d).count ≤ dst.length) :
    ∃ ws' r, cufftBatchR2C T b d at' nb rbase cbase ws src dst = .ok (ws', r) ∧ ws'.length = ws.length ∧ r.length = dst.length ∧
      (∀ j < nb, Holds (b.r2c d) r (cbase + j * (b.r2c d).count) (along b d t (G j))) ∧
      ∀ a, (a < cbase ∨ cbase + nb * (b.r2c d).count ≤ a) → rd r a = rd dst a := by
  have hcc := (b.r2c d).count_nonneg
  have hor' : IsOrder (b.r2c d).order := by rw [(SameLines.r2c hb d).order]; exact ho
  have key : ∀ k ≤ nb, ∃ ws' r, cufftBatchR2C T b d at' k rbase cbase ws src dst = .ok (ws', r) ∧ ws'.length = ws.length ∧ r.length = dst.length ∧
      (∀ j < k, Holds (b.r2c d) r (cbase + j * (b.r2c d).count) (along b d t (G j))) ∧
      ∀ a, (a < cbase ∨ cbase + k * (b.r2c d).count ≤ a) → rd r a = rd dst a := by
    intro k
    induction k with
    | zero => intro _; exact ⟨ws, dst, rfl, rfl, rfl, fun j hj => absurd hj (by omega), fun _ _ => rfl⟩
    | succ k ih =>
      intro hk
      obtain ⟨w, r, x1, x2, x3, x4, x5⟩ := ih (by omega)
      have hmul : ((k : Int) + 1) * (b.r2c d).count ≤ nb * (b.r2c d).count := mul_le_mul_of_nonneg_right (by omega) hcc
      have hk0 : 0 ≤ (k : Int) * (b.r2c d).count := mul_nonneg (by omega) hcc
      rw [add_mul, one_mul] at hmul
      obtain ⟨w', r', y1, y2, y3, y4, y5, y6⟩ := C60_cufft_forward ho hb d hT (at' := at') (rbase := rbase + k * b.count)
        (cbase := cbase + k * (b.r2c d).count) (batch_aligned ho hb d hr hcount (by omega)) hc (ws := w) (by rw [x2]; exact hws)
        (hG k (by omega)) (by omega) (dst := r) (by rw [x3]; omega)
      refine ⟨w', r', ?_, y2.trans x2, y4.trans x3, ?_, ?_⟩
      · unfold cufftBatchR2C at x1 ⊢
        rw [List.range_succ, List.foldlM_append, x1]
        simp only [List.foldlM_cons, List.foldlM_nil, bind, Except.bind, y1]
        rfl
      · intro j hj
        by_cases hjk : j = k
        · subst hjk; exact y5
        · intro p hp
          have hr' := Box.offset_range hor' hp
          have hjl : ((j : Int) + 1) * (b.r2c d).count ≤ k * (b.r2c d).count := mul_le_mul_of_nonneg_right (by omega) hcc
          rw [add_mul, one_mul] at hjl
          rw [y6 _ (Or.inl (by omega))]
          exact x4 j (by omega) p hp
      · intro a ha
        push_cast at ha
        rw [add_mul, one_mul] at ha
        rw [y6 a (by omega), x5 a (by omega)]
  exact key nb le_rfl

/-- **C61**, backward. -/
theorem C61_backward_partial {T : List α → Res (List β)} {t : List α → Nat → β}
    (hT : ∀ v, v.length = (b.size d).toNat / 2 + 1 → T v = .ok ((List.range (b.size d).toNat).map (t v)))
    {at' : Places} (hr : (at'.real + rbase) % 2 = 0) (hc : at'.cplx % 2 = 0) {nb : Nat}
    (hcount : nb ≤ 1 ∨ numBlocks b d ≠ 1 ∨ b.count % 2 = 0)
    {ws : List β} (hws : 2 * cufftWork b d ≤ ws.length)
    {src : List α} {dst : List β} {G : Nat → A3 Int → α} (hG : ∀ j < nb, Holds (b.r2c d) src (cbase + j * (b.r2c d).count) (G j)) (h0 : 0 ≤ rbase)
    (hlen : rbase + nb * b.count ≤ dst.length) :
    ∃ ws' r, cufftBatchC2R T b d at' nb cbase rbase ws src dst = .ok (ws', r) ∧ ws'.length = ws.length ∧ r.length = dst.length ∧
      (∀ j < nb, Holds b r (rbase + j * b.count) (along (b.r2c d) d t (G j))) ∧
      ∀ a, (a < rbase ∨ rbase + nb * b.count ≤ a) → rd r a = rd dst a := by
  have hcc := b.count_nonneg
  have key : ∀ k ≤ nb, ∃ ws' r, cufftBatchC2R T b d at' k cbase rbase ws src dst = .ok (ws', r) ∧ ws'.length = ws.length ∧ r.length = dst.length ∧
      (∀ j < k, Holds b r (rbase + j * b.count) (along (b.r2c d) d t (G j))) ∧
      ∀ a, (a < rbase ∨ rbase + k * b.count ≤ a) → rd r a = rd dst a := by
    intro k
    induction k with
    | zero => intro _; exact ⟨ws, dst, rfl, rfl, rfl, fun j hj => absurd hj (by omega), fun _ _ => rfl⟩
    | succ k ih =>
      intro hk
      obtain ⟨w, r, x1, x2, x3, x4, x5⟩ := ih (by omega)
      have hmul : ((k : Int) + 1) * b.count ≤ nb * b.count := mul_le_mul_of_nonneg_right (by omega) hcc
      have hk0 : 0 ≤ (k : Int) * b.count := mul_nonneg (by omega) hcc
      rw [add_mul, one_mul] at hmul
      obtain ⟨w', r', y1, y2, y3, y4, y5, y6⟩ := C60_cufft_backward ho hb d hT (at' := at') (rbase := rbase + k * b.count)
        (cbase := cbase + k * (b.r2c d).count) (batch_aligned ho hb d hr hcount (by omega)) hc (ws := w) (by rw [x2]; exact hws)
        (hG k (by omega)) (by omega) (dst := r) (by rw [x3]; omega)
      refine ⟨w', r', ?_, y2.trans x2, y4.trans x3, ?_, ?_⟩
      · unfold cufftBatchC2R at x1 ⊢
        rw [List.range_succ, List.foldlM_append, x1]
        simp only [List.foldlM_cons, List.foldlM_nil, bind, Except.bind, y1]
        rfl
      · intro j hj
        by_cases hjk : j = k
        · subst hjk; exact y5
        · intro p hp
          have hr' := Box.offset_range ho hp
          have hjl : ((j : Int) + 1) * b.count ≤ k * b.count := mul_le_mul_of_nonneg_right (by omega) hcc
          rw [add_mul, one_mul] at hjl
          rw [y6 _ (Or.inl (by omega))]
          exact x4 j (by omega) p hp
      · intro a ha
        push_cast at ha
        rw [add_mul, one_mul] at ha
        rw [y6 a (by omega), x5 a (by omega)]
  exact key nb le_rfl

omit ho hb in
theorem misaligned_forward (T : List α → Res (List β)) {at' : Places} (hone : numBlocks b d = 1) (hr : (at'.real + rbase) % 2 ≠ 0)
    (ws src : List α) (dst : List β) : cufftR2C T b d at' rbase cbase ws src dst = .error .ub := by
  unfold cufftR2C
  rw [hone, show loop 1 = [0] from rfl, List.foldlM_cons]
  have : cufftBlockR2C T b d at' rbase cbase src (ws, dst) 0 = .error .ub := by
    unfold cufftBlockR2C
    have hdir : cufftDirect b d = true := by unfold cufftDirect; rw [hone]; rfl
    rw [hdir]
    simp only [zero_mul, add_zero]
    have hal : aligned2 (at'.real + rbase) (at'.cplx + 2 * cbase) = false := by
      unfold aligned2
      rw [Bool.and_eq_false_iff]
      exact Or.inl (decide_eq_false hr)
    simp only [if_true, hal, Bool.false_eq_true, if_false]
  rw [this]
  rfl

omit ho hb in
theorem misaligned_backward (T : List α → Res (List β)) {at' : Places} (hone : numBlocks b d = 1) (hr : (at'.real + rbase) % 2 ≠ 0)
    (ws : List β) (src : List α) (dst : List β) : cufftC2R T b d at' cbase rbase ws src dst = .error .ub := by
  unfold cufftC2R
  rw [hone, show loop 1 = [0] from rfl, List.foldlM_cons]
  have : cufftBlockC2R T b d at' cbase rbase src (ws, dst) 0 = .error .ub := by
    unfold cufftBlockC2R
    have hdir : cufftDirect b d = true := by unfold cufftDirect; rw [hone]; rfl
    rw [hdir]
    simp only [zero_mul, add_zero]
    have hal : aligned2 (at'.real + rbase) (at'.cplx + 2 * cbase) = false := by
      unfold aligned2
      rw [Bool.and_eq_false_iff]
      exact Or.inl (decide_eq_false hr)
    simp only [if_true, hal, Bool.false_eq_true, if_false]
  rw [this]
  rfl

/-- C61 is false without its condition, forward: with an odd number of reals in each array and an executor with one block (the first or the last
direction of the order, or one plane), the second array is not aligned when it is given to cuFFT. -/
theorem C61_forward_false {T : List α → Res (List β)} {t : List α → Nat → β}
    (hT : ∀ v, v.length = (b.size d).toNat → T v = .ok ((List.range ((b.size d).toNat / 2 + 1)).map (t v)))
    {at' : Places} (hr : (at'.real + rbase) % 2 = 0) (hc : at'.cplx % 2 = 0) {nb : Nat}
    (hnb : 2 ≤ nb) (hone : numBlocks b d = 1) (hodd : b.count % 2 = 1)
    {ws src : List α} (hws : 2 * cufftWork b d ≤ ws.length) {dst : List β} {G : A3 Int → α} (hG : Holds b src rbase G) (h0 : 0 ≤ cbase)
    (hlen : cbase + (b.r2c d).count ≤ dst.length) :
    cufftBatchR2C T b d at' nb rbase cbase ws src dst = .error .ub := by
  obtain ⟨w', r', y1, -⟩ := C60_cufft_forward ho hb d hT (at' := at') (rbase := rbase) (cbase := cbase) (fun _ => hr) hc hws hG h0 hlen
  obtain ⟨k, rfl⟩ : ∃ k, nb = k + 2 := ⟨nb - 2, by omega⟩
  unfold cufftBatchR2C
  rw [show k + 2 = 2 + k by omega, List.range_add, List.foldlM_append, show List.range 2 = [0, 1] from rfl, List.foldlM_cons]
  simp only [Nat.cast_zero, zero_mul, add_zero, y1, List.foldlM_cons, bind, Except.bind, Nat.cast_one, one_mul]
  rw [misaligned_forward d T hone (by omega)]

/-- C61 is false without its condition, backward. -/
theorem C61_backward_false {T : List α → Res (List β)} {t : List α → Nat → β}
    (hT : ∀ v, v.length = (b.size d).toNat / 2 + 1 → T v = .ok ((List.range (b.size d).toNat).map (t v)))
    {at' : Places} (hr : (at'.real + rbase) % 2 = 0) (hc : at'.cplx % 2 = 0) {nb : Nat}
    (hnb : 2 ≤ nb) (hone : numBlocks b d = 1) (hodd : b.count % 2 = 1)
    {ws : List β} (hws : 2 * cufftWork b d ≤ ws.length) {src : List α} {dst : List β} {G : A3 Int → α} (hG : Holds (b.r2c d) src cbase G)
    (h0 : 0 ≤ rbase) (hlen : rbase + b.count ≤ dst.length) :
    cufftBatchC2R T b d at' nb cbase rbase ws src dst = .error .ub := by
  obtain ⟨w', r', y1, -⟩ := C60_cufft_backward ho hb d hT (at' := at') (rbase := rbase) (cbase := cbase) (fun _ => hr) hc hws hG h0 hlen
  obtain ⟨k, rfl⟩ : ∃ k, nb = k + 2 := ⟨nb - 2, by omega⟩
  unfold cufftBatchC2R
  rw [show k + 2 = 2 + k by omega, List.range_add, List.foldlM_append, show List.range 2 = [0, 1] from rfl, List.foldlM_cons]
  simp only [Nat.cast_zero, zero_mul, add_zero, y1, List.foldlM_cons, bind, Except.bind, Nat.cast_one, one_mul]
  rw [misaligned_backward d T hone (by omega)]

end

/-! ## Concrete cases -/

/-- Blocks with three reals: each block is copied to the aligned workspace, which begins at an odd address here. -/
example : cufftR2C (fun v => .ok (v.take 2)) ⟨⟨0, 0, 0⟩, ⟨0, 2, 1⟩, ⟨0, 1, 2⟩⟩ 1 ⟨0, 0, 1⟩ 1 0 [0, 0, 0, 0] [7, 1, 2, 3, 4, 5, 6] [0, 0, 0, 0] =
    (.ok ([0, 4, 5, 6], [1, 2, 4, 5]) : Res (List Int × List Int)) := by decide +kernel

example : cufftWork ⟨⟨0, 0, 0⟩, ⟨0, 2, 1⟩, ⟨0, 1, 2⟩⟩ 1 = 2 := by decide +kernel

example : cufftC2R (fun v => .ok (v ++ [9])) ⟨⟨0, 0, 0⟩, ⟨0, 2, 1⟩, ⟨0, 1, 2⟩⟩ 1 ⟨0, 0, 1⟩ 0 1 [0, 0, 0, 0] [1, 2, 4, 5] [7, 7, 7, 7, 7, 7, 7] =
    (.ok ([0, 4, 5, 9], [7, 1, 2, 9, 4, 5, 9]) : Res (List Int × List Int)) := by decide +kernel

/-- A temporary array of two reals that every call fills. -/
example : rocR2C (fun v => .ok (v.take 2)) (fun _ ws => [8, 8] ++ ws.drop 2) ⟨⟨0, 0, 0⟩, ⟨0, 2, 1⟩, ⟨0, 1, 2⟩⟩ 1 2 1 0 [0, 0, 0, 0, 0, 0, 0, 0, 0, 0]
    [7, 1, 2, 3, 4, 5, 6] [0, 0, 0, 0] = (.ok ([8, 8, 1, 2, 3, 4, 5, 6, 0, 0], [1, 2, 4, 5]) : Res (List Int × List Int)) := by decide +kernel

example : rocWork ⟨8, 0, 16, 0⟩ ⟨⟨0, 0, 0⟩, ⟨0, 2, 1⟩, ⟨0, 1, 2⟩⟩ 1 = 5 := by decide +kernel

example : LibWrites (fun _ ws => match ws with | _ :: _ :: t => 8 :: 8 :: t | l => l : Scribble Int) 2
    (ReadBy ⟨⟨0, 0, 0⟩, ⟨0, 2, 1⟩, ⟨0, 1, 2⟩⟩ 1 3 1 3) := by
  intro k ws
  match ws with
  | [] => exact ⟨rfl, fun _ _ _ => rfl⟩
  | [_] => exact ⟨rfl, fun _ _ _ => rfl⟩
  | _ :: _ :: t =>
    refine ⟨rfl, fun x hx _ => ?_⟩
    unfold rd
    rw [if_pos (by omega), if_pos (by omega), show (2 + x).toNat = x.toNat + 2 by omega]
    rfl

/-- A batch of two arrays with 1 × 3 × 1 reals. -/
example : cufftBatchR2C (fun v => .ok (v.take 2)) ⟨⟨0, 0, 0⟩, ⟨0, 2, 0⟩, ⟨1, 0, 2⟩⟩ 1 ⟨0, 0, 0⟩ 2 0 0 [] [1, 2, 3, 4, 5, 6] [0, 0, 0, 0] =
    (.error .ub : Res (List Int × List Int)) := by decide +kernel

/-- A batch of two arrays with 2 × 3 × 1 reals. -/
example : cufftBatchR2C (fun v => .ok (v.take 2)) ⟨⟨0, 0, 0⟩, ⟨1, 2, 0⟩, ⟨1, 0, 2⟩⟩ 1 ⟨0, 0, 0⟩ 2 0 0 [] [1, 2, 3, 4, 5, 6, 7, 8, 9, 10, 11, 12]
    [0, 0, 0, 0, 0, 0, 0, 0] = (.ok ([], [1, 2, 4, 5, 7, 8, 10, 11]) : Res (List Int × List Int)) := by decide +kernel

end Verif
