import Verif.SimdExec
import Verif.Props.Exec

/-!
# Properties C66 and C67: packs of complex numbers in vector registers
-/

namespace Verif
open Stock Simd

/-! ## C66 -/

/-- The complex function of one lane. -/
structure LaneWise (k : Kind) (j : Nat) : Prop where
  add : ∀ x y : Pack k, (x + y).get j = x.get j + y.get j
  sub : ∀ x y : Pack k, (x - y).get j = x.get j - y.get j
  mul : ∀ x y : Pack k, (x * y).get j = x.get j * y.get j
  neg : ∀ x : Pack k, (-x).get j = -x.get j
  fmadd : ∀ x y z : Pack k, (x.fmadd y z).get j = x.get j * y.get j + z.get j
  fmsub : ∀ x y z : Pack k, (x.fmsub y z).get j = x.get j * y.get j - z.get j
  conj : ∀ x : Pack k, x.conjugate.get j = (starRingEnd ℂ) (x.get j)
  mulI : ∀ x : Pack k, x.mulI.get j = Complex.I * x.get j
  mulNegI : ∀ x : Pack k, x.mulNegI.get j = -Complex.I * x.get j
  addReal : ∀ (x : Pack k) (a : ℝ), (x.addReal a).get j = x.get j + a
  subReal : ∀ (x : Pack k) (a : ℝ), (x.subReal a).get j = x.get j - a
  mulReal : ∀ (x : Pack k) (a : ℝ), (x.mulReal a).get j = x.get j * a
  divReal : ∀ (x : Pack k) (a : ℝ), (x.divReal a).get j = x.get j / a

/-- **C66.**  In every type of packs and in every lane, the operations are those of the complex numbers. -/
theorem C66_arithmetic {k : Kind} {j : Nat} (h : j < k.lanes / 2) : LaneWise k j where
  add := get_add h
  sub := get_sub h
  mul := get_mul h
  neg := get_neg h
  fmadd := get_fmadd h
  fmsub := get_fmsub h
  conj x := by rw [get_conjugate h]; rfl
  mulI := get_mulI h
  mulNegI x := by rw [get_mulNegI h, neg_mul]
  addReal := get_addReal h
  subReal := get_subReal h
  mulReal := get_mulReal h
  divReal := get_divReal h

/-- **C66**, quotients: each lane is divided on its own, and a lane has no value exactly if its divisor is zero. -/
theorem C66_quotient {k : Kind} {j : Nat} (h : j < k.lanes / 2) (x y : Pack k) :
    (y.get j ≠ 0 → x.quotient y j = some (x.get j / y.get j)) ∧ (y.get j = 0 → x.quotient y j = none) := by
  rw [quotient_get h]
  exact ⟨fun h => if_neg h, fun h => if_pos h⟩

/-- **C66**, moduli: `L/2` real numbers, one for each lane. -/
theorem C66_modulus {k : Kind} (x : Pack k) : x.modulus = (List.range (k.lanes / 2)).map fun j => some ‖x.get j‖ := modulus_get x

/-- **C66**, loads: lane `j` is the entry `j * stride` of the array. -/
theorem C66_load {k : Kind} {src : List ℂ} {ptr stride : Int} {z : Nat → ℂ}
    (h : ∀ j : Nat, j < k.lanes / 2 → rd src (ptr + j * stride) = some (z j)) :
    ∃ p : Pack k, load k src ptr stride = some p ∧ ∀ j, j < k.lanes / 2 → p.get j = z j := load_get h

/-- **C66**, padded loads: the first `c` lanes come from the array, nothing behind them is read, and the other lanes are zero. -/
theorem C66_copy_pad {k : Kind} {src : List ℂ} {ptr stride : Int} {c : Nat} (hc : c ≤ k.lanes / 2) {z : Nat → ℂ}
    (h : ∀ j : Nat, j < c → rd src (ptr + j * stride) = some (z j)) :
    ∃ p : Pack k, copyPad k src ptr c stride = .ok p ∧ ∀ j, j < k.lanes / 2 → p.get j = if j < c then z j else 0 := copyPad_get hc h

/-- **C66**, padded loads of real numbers. -/
theorem C66_copy_pad_real {k : Kind} {src : List ℝ} {ptr stride : Int} {c : Nat} (hc : c ≤ k.lanes / 2) {z : Nat → ℝ}
    (h : ∀ j : Nat, j < c → rd src (ptr + j * stride) = some (z j)) :
    ∃ p : Pack k, copyPadReal k src ptr c stride = .ok p ∧ ∀ j, j < k.lanes / 2 → p.get j = if j < c then ⟨z j, 0⟩ else 0 :=
  copyPadReal_get hc h

/-- **C66**: a padded load of more lanes than there are is the exception of the code. -/
theorem C66_copy_pad_throws {k : Kind} (src : List ℂ) (real : List ℝ) (ptr stride : Int) {c : Nat} (hc : k.lanes / 2 < c) :
    copyPad k src ptr c stride = .error .runtime ∧ copyPadReal k real ptr c stride = .error .runtime :=
  ⟨if_pos hc, if_pos hc⟩

/-- The products with `i` and the fused products of the algorithms are what the model of the algorithms has in their place
(`StockFFT.lean`). -/
theorem pack_operations {k : Kind} {j : Nat} (h : j < k.lanes / 2) (x y z : Pack k) :
    (x.fmadd y z).get j = (x * y + z).get j ∧ x.mulI.get j = ((packTw k).i * x).get j ∧ x.mulNegI.get j = (-((packTw k).i * x)).get j := by
  have hi : (packTw k).i.get j = Complex.I := by
    show Pack.get ⟨mmPairSet k 0 1⟩ j = _
    rw [get_pairSet h]
    rfl
  refine ⟨?_, ?_, ?_⟩
  · rw [get_fmadd h, get_add h, get_mul h]
  · rw [get_mulI h, get_mul h, hi]
  · rw [get_mulNegI h, get_neg h, get_mul h, hi]

/-- Four products at once. -/
example : ((⟨setr [1, 2, 3, 4, 5, 6, 7, 8]⟩ : Pack .f8) * ⟨setr [0, 1, 1, 1, 2, 0, -1, 3]⟩).get 3 = ⟨-31, 13⟩ := by
  rw [(C66_arithmetic (k := .f8) (j := 3) (by decide)).mul]
  apply Complex.ext <;> simp [Pack.get, setr] <;> norm_num

example : ((⟨setr [1, 2, 3, 4]⟩ : Pack .d4).quotient ⟨setr [0, 0, 0, 2]⟩ 0) = none ∧
    ((⟨setr [1, 2, 3, 4]⟩ : Pack .d4).quotient ⟨setr [0, 0, 0, 2]⟩ 1) = some ((⟨3, 4⟩ : ℂ) / ⟨0, 2⟩) := by
  constructor
  · exact (C66_quotient (k := .d4) (j := 0) (by decide) _ _).2 (by apply Complex.ext <;> simp [Pack.get, setr])
  · exact (C66_quotient (k := .d4) (j := 1) (by decide) _ _).1 (fun h => by
      have := congrArg Complex.im h
      simp [Pack.get, setr] at this)

/-- Three of four lanes, with distance two, the last one at the end of the array. -/
example (a b c : ℂ) : ∃ p : Pack .f8, copyPad .f8 [a, 0, b, 0, c] 0 3 2 = .ok p ∧ p.get 0 = a ∧ p.get 1 = b ∧ p.get 2 = c ∧ p.get 3 = 0 := by
  obtain ⟨p, e, hp⟩ := C66_copy_pad (k := .f8) (src := [a, 0, b, 0, c]) (ptr := 0) (stride := 2) (c := 3) (by decide)
    (z := fun j => [a, b, c].getD j 0) (fun j hj => by interval_cases j <;> simp [rd])
  refine ⟨p, e, ?_, ?_, ?_, ?_⟩
  · rw [hp 0 (by decide)]; simp
  · rw [hp 1 (by decide)]; simp
  · rw [hp 2 (by decide)]; simp
  · rw [hp 3 (by decide)]; simp

example : copyPad .d4 [1, 2, 3] 0 3 1 = .error .runtime := (C66_copy_pad_throws (k := .d4) _ [] _ _ (by decide)).1

/-! ## C67 -/

/-- **C67**, complex transforms of any length: what the executor does with packs is what it does line by line, whatever
the work memory holds. -/
theorem C67_c2c_lines (k : Kind) (J : Int → PackScratch k) (fwd : Bool) {b : Box} (ho : IsOrder b.order) (hb : b.empty = false) (d : Fin 3)
    {base : Int} (h0 : 0 ≤ base) {mem : List ℂ} (hlen : base + b.count ≤ mem.length) :
    ∃ junk, vecExecC2C k J fwd b d base mem = execC2C (k.lanes / 2) (stockLine junk (b.size d).toNat fwd) b d base mem := by
  obtain ⟨junk, h⟩ := vecExecC2C_eq (k := k) (J := J) (fwd := fwd) ho hb d h0 hlen
  exact ⟨junk, h mem rfl⟩

/-- **C67**, real-to-complex transforms of any length. -/
theorem C67_r2c_lines (k : Kind) (J : Int → PackScratch k) {b : Box} (ho : IsOrder b.order) (hb : b.empty = false) (d : Fin 3)
    {rbase : Int} (cbase : Int) (h0 : 0 ≤ rbase) {src : List ℝ} (hlen : rbase + b.count ≤ src.length) (dst : List ℂ) :
    ∃ junk, vecExecR2C k J b d rbase cbase src dst = execR2C (k.lanes / 2) (stockR2C junk (b.size d).toNat) b d rbase cbase src dst := by
  obtain ⟨junk, h⟩ := vecExecR2C_eq (k := k) (J := J) (cbase := cbase) ho hb d h0 hlen
  exact ⟨junk, h dst⟩

/-- **C67**, complex-to-real transforms of any length. -/
theorem C67_c2r_lines (k : Kind) (J : Int → PackScratch k) {b : Box} (ho : IsOrder b.order) (hb : b.empty = false) (d : Fin 3)
    {cbase : Int} (rbase : Int) (h0 : 0 ≤ cbase) {src : List ℂ} (hlen : cbase + (b.r2c d).count ≤ src.length) (dst : List ℝ) :
    ∃ junk inp, vecExecC2R k J b d cbase rbase src dst =
      execC2R (k.lanes / 2) (stockC2R junk inp (b.size d).toNat) b d cbase rbase src dst := by
  obtain ⟨junk, inp, h⟩ := vecExecC2R_eq (k := k) (J := J) (rbase := rbase) ho hb d h0 hlen
  exact ⟨junk, inp, h dst⟩

theorem holds_self {α : Type} {b : Box} (ho : IsOrder b.order) {mem : List α} {base : Int} (h0 : 0 ≤ base) (hlen : base + b.count ≤ mem.length)
    (z : α) : Holds b mem base fun p => (rd mem (base + b.offset p)).getD z := by
  intro p hp
  have := Box.offset_range ho hp
  obtain ⟨x, hx⟩ := rd_some_iff.2 (show 0 ≤ base + b.offset p ∧ base + b.offset p < mem.length by omega)
  dsimp only
  rw [hx]
  rfl

theorem holds_unique {α : Type} {b : Box} (ho : IsOrder b.order) {r r' mem : List α} {base : Int} {G : A3 Int → α}
    (hl : r.length = mem.length) (hl' : r'.length = mem.length) (h : Holds b r base G) (h' : Holds b r' base G)
    (hr : ∀ a, (a < base ∨ base + b.count ≤ a) → rd r a = rd mem a) (hr' : ∀ a, (a < base ∨ base + b.count ≤ a) → rd r' a = rd mem a) :
    r = r' := by
  have key : ∀ a, rd r a = rd r' a := by
    intro a
    by_cases ha : a < base ∨ base + b.count ≤ a
    · rw [hr a ha, hr' a ha]
    · obtain ⟨p, hp, he⟩ := Box.offset_surj (b := b) ho (a := a - base) (by omega) (by omega)
      have h1 := h p hp
      have h2 := h' p hp
      rw [he] at h1 h2
      rw [show a = base + (a - base) by ring, h1, h2]
  apply List.ext_getElem?
  intro i
  have := key i
  unfold rd at this
  simpa using this

/-- **C67.**  The complex executor computes the discrete Fourier transform of every line with every type of packs, in
every entry of the array of the box, and touches nothing else. -/
theorem C67_c2c_dft (k : Kind) (J : Int → PackScratch k) (fwd : Bool) {b : Box} (ho : IsOrder b.order) (hb : b.empty = false) (d : Fin 3)
    (hN : GoodLength (b.size d).toNat) {base : Int} (h0 : 0 ≤ base) {mem : List ℂ} (hlen : base + b.count ≤ mem.length)
    {G : A3 Int → ℂ} (hG : Holds b mem base G) :
    ∃ r, vecExecC2C k J fwd b d base mem = .ok r ∧ r.length = mem.length ∧
      Holds b r base (along b d (dft fwd) G) ∧ ∀ a, (a < base ∨ base + b.count ≤ a) → rd r a = rd mem a := by
  obtain ⟨junk, e⟩ := C67_c2c_lines k J fwd ho hb d h0 hlen
  rw [e]
  exact C31_stock (half_pos k) ho hb d hN fwd junk hG h0 hlen

/-- **C67.**  Complex transforms: the result does not depend on the packs of the build, nor on the work memory. -/
theorem C67_c2c (k k' : Kind) (J : Int → PackScratch k) (J' : Int → PackScratch k') (fwd : Bool) {b : Box} (ho : IsOrder b.order)
    (hb : b.empty = false) (d : Fin 3) (hN : GoodLength (b.size d).toNat) {base : Int} (h0 : 0 ≤ base) {mem : List ℂ}
    (hlen : base + b.count ≤ mem.length) :
    vecExecC2C k J fwd b d base mem = vecExecC2C k' J' fwd b d base mem := by
  have hG := holds_self ho h0 hlen 0
  obtain ⟨r, r1, r2, r3, r4⟩ := C67_c2c_dft k J fwd ho hb d hN h0 hlen hG
  obtain ⟨s, s1, s2, s3, s4⟩ := C67_c2c_dft k' J' fwd ho hb d hN h0 hlen hG
  rw [r1, s1, holds_unique ho r2 s2 r3 s3 r4 s4]

/-- **C67.**  Real-to-complex transforms: the result does not depend on the packs of the build, nor on the work memory. -/
theorem C67_r2c (k k' : Kind) (J : Int → PackScratch k) (J' : Int → PackScratch k') {b : Box} (ho : IsOrder b.order)
    (hb : b.empty = false) (d : Fin 3) (hN : GoodLength (b.size d).toNat) {rbase cbase : Int} (h0 : 0 ≤ rbase) {src : List ℝ}
    (hlen : rbase + b.count ≤ src.length) (h0' : 0 ≤ cbase) {dst : List ℂ} (hlen' : cbase + (b.r2c d).count ≤ dst.length) :
    vecExecR2C k J b d rbase cbase src dst = vecExecR2C k' J' b d rbase cbase src dst := by
  have hG := holds_self ho h0 hlen 0
  have ho' : IsOrder (b.r2c d).order := by rw [(r2c_fields hb d).2.1]; exact ho
  obtain ⟨junk, e⟩ := C67_r2c_lines k J ho hb d cbase h0 hlen dst
  obtain ⟨junk', e'⟩ := C67_r2c_lines k' J' ho hb d cbase h0 hlen dst
  obtain ⟨r, r1, r2, r3, r4⟩ := C32_stock_r2c (half_pos k) ho hb d hN junk hG h0' hlen'
  obtain ⟨s, s1, s2, s3, s4⟩ := C32_stock_r2c (half_pos k') ho hb d hN junk' hG h0' hlen'
  rw [e, e', r1, s1, holds_unique ho' r2 s2 r3 s3 r4 s4]

/-- **C67.**  Complex-to-real transforms: the result does not depend on the packs of the build, nor on the work memory. -/
theorem C67_c2r (k k' : Kind) (J : Int → PackScratch k) (J' : Int → PackScratch k') {b : Box} (ho : IsOrder b.order)
    (hb : b.empty = false) (d : Fin 3) (hN : GoodLength (b.size d).toNat) {cbase rbase : Int} (h0 : 0 ≤ cbase) {src : List ℂ}
    (hlen : cbase + (b.r2c d).count ≤ src.length) (h0' : 0 ≤ rbase) {dst : List ℝ} (hlen' : rbase + b.count ≤ dst.length) :
    vecExecC2R k J b d cbase rbase src dst = vecExecC2R k' J' b d cbase rbase src dst := by
  have ho' : IsOrder (b.r2c d).order := by rw [(r2c_fields hb d).2.1]; exact ho
  have hG := holds_self ho' h0 hlen 0
  obtain ⟨junk, inp, e⟩ := C67_c2r_lines k J ho hb d rbase h0 hlen dst
  obtain ⟨junk', inp', e'⟩ := C67_c2r_lines k' J' ho hb d rbase h0 hlen dst
  obtain ⟨r, r1, r2, r3, r4⟩ := C32_stock_c2r (half_pos k) ho hb d hN junk inp hG h0' hlen'
  obtain ⟨s, s1, s2, s3, s4⟩ := C32_stock_c2r (half_pos k') ho hb d hN junk' inp' hG h0' hlen'
  rw [e, e', r1, s1, holds_unique ho r2 s2 r3 s3 r4 s4]

/-- The hypotheses of C67 are met: lines of five entries in a box with a permuted order, six lines in packs of four, so
that two lines remain; the same in a build without vector registers. -/
example (J : Int → PackScratch .f8) (J' : Int → PackScratch .f1) (mem : List ℂ) (h : mem.length = 40) :
    vecExecC2C .f8 J true ⟨⟨1, 0, 0⟩, ⟨2, 4, 2⟩, ⟨1, 2, 0⟩⟩ 1 7 mem = vecExecC2C .f1 J' true ⟨⟨1, 0, 0⟩, ⟨2, 4, 2⟩, ⟨1, 2, 0⟩⟩ 1 7 mem :=
  C67_c2c .f8 .f1 J J' true (b := ⟨⟨1, 0, 0⟩, ⟨2, 4, 2⟩, ⟨1, 2, 0⟩⟩) (by decide) (by decide) 1
    (goodLength_small (by decide) (by decide)) (by decide) (by rw [h]; decide)

example : (groupsOf (Kind.f8.lanes / 2) (howMany ⟨⟨1, 0, 0⟩, ⟨2, 4, 2⟩, ⟨1, 2, 0⟩⟩ 1)) = [[0, 1, 2, 3], [4, 5]] := by decide +kernel

example (J : Int → PackScratch .d8) (J' : Int → PackScratch .d1) (src : List ℝ) (h : src.length = 30) :
    vecExecR2C .d8 J ⟨⟨1, 0, 0⟩, ⟨2, 4, 2⟩, ⟨1, 2, 0⟩⟩ 1 0 0 src (List.replicate 18 0) =
      vecExecR2C .d1 J' ⟨⟨1, 0, 0⟩, ⟨2, 4, 2⟩, ⟨1, 2, 0⟩⟩ 1 0 0 src (List.replicate 18 0) :=
  C67_r2c .d8 .d1 J J' (b := ⟨⟨1, 0, 0⟩, ⟨2, 4, 2⟩, ⟨1, 2, 0⟩⟩) (by decide) (by decide) 1
    (goodLength_small (by decide) (by decide)) (by decide) (by rw [h]; decide) (by decide) (by rw [List.length_replicate]; decide)

example (J : Int → PackScratch .d8) (J' : Int → PackScratch .d1) (src : List ℂ) (h : src.length = 18) :
    vecExecC2R .d8 J ⟨⟨1, 0, 0⟩, ⟨2, 4, 2⟩, ⟨1, 2, 0⟩⟩ 1 0 0 src (List.replicate 30 0) =
      vecExecC2R .d1 J' ⟨⟨1, 0, 0⟩, ⟨2, 4, 2⟩, ⟨1, 2, 0⟩⟩ 1 0 0 src (List.replicate 30 0) :=
  C67_c2r .d8 .d1 J J' (b := ⟨⟨1, 0, 0⟩, ⟨2, 4, 2⟩, ⟨1, 2, 0⟩⟩) (by decide) (by decide) 1
    (goodLength_small (by decide) (by decide)) (by decide) (by rw [h]; decide) (by decide) (by rw [List.length_replicate]; decide)

end Verif
