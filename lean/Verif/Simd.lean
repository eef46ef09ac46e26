import Verif.ExecLines

/-!
# Packs of complex numbers

`/repo/include/stock_fft/heffte_stock_vec_types.h` is cited as `vec.h`, `/repo/include/stock_fft/heffte_stock_complex.h` as `complex.h`,
`/repo/include/heffte_backend_stock.h` as `stock.h`.

A vector register is a function from the numbers of its lanes to the values; a pack with `w` lanes uses the lanes below `w`.  The
arithmetic is exact.  The intrinsics follow the pseudocode of the Intel intrinsics guide, the immediate operands are natural numbers
and their bits select lanes.
-/

namespace Verif.Simd
open Stock

/-- The lanes of a register. -/
abbrev Reg := Nat → ℝ

/-! ## The intrinsics -/

/-- Bit `i` of an immediate operand. -/
def bit (imm i : Nat) : Bool := imm / 2 ^ i % 2 == 1

/-- `_mm_add_ps` and the other widths and precisions. -/
noncomputable def addP (a b : Reg) : Reg := fun i => a i + b i
/-- `_mm_sub_ps`. -/
noncomputable def subP (a b : Reg) : Reg := fun i => a i - b i
/-- `_mm_mul_ps`. -/
noncomputable def mulP (a b : Reg) : Reg := fun i => a i * b i
/-- `_mm_div_ps`; division by zero does not give a real number, see `divO`. -/
noncomputable def divP (a b : Reg) : Reg := fun i => a i / b i
/-- `_mm_xor_ps` with the sign bit. -/
noncomputable def xorSign (a : Reg) : Reg := fun i => - a i
/-- `_mm_permute_ps`, `_mm256_permute_ps`, `_mm512_permute_ps`: in each block of four lanes, two bits for each lane. -/
def permutePs (a : Reg) (imm : Nat) : Reg := fun i => a (i / 4 * 4 + imm / 4 ^ (i % 4) % 4)
/-- `_mm_permute_pd`, `_mm256_permute_pd`, `_mm512_permute_pd`: in each block of two lanes, one bit for each lane of the register. -/
def permutePd (a : Reg) (imm : Nat) : Reg := fun i => a (i / 2 * 2 + imm / 2 ^ i % 2)
/-- `_mm_fmaddsub_ps`: subtract in the even lanes and add in the odd lanes. -/
noncomputable def fmaddsub (a b c : Reg) : Reg := fun i => if i % 2 = 0 then a i * b i - c i else a i * b i + c i
/-- `_mm_fmsubadd_ps`: add in the even lanes and subtract in the odd lanes. -/
noncomputable def fmsubadd (a b c : Reg) : Reg := fun i => if i % 2 = 0 then a i * b i + c i else a i * b i - c i
/-- `_mm_blend_ps`, `_mm512_mask_blend_ps`: the lanes of `b` where the bit is set. -/
def blend (a b : Reg) (imm : Nat) : Reg := fun i => if bit imm i then b i else a i
/-- `_mm256_hadd_pd`. -/
noncomputable def haddPd (a b : Reg) : Reg := fun i =>
  if i % 2 = 0 then a (i / 2 * 2) + a (i / 2 * 2 + 1) else b (i / 2 * 2) + b (i / 2 * 2 + 1)
/-- `_mm_dp_ps`, `_mm256_dp_ps`: in each block of four lanes, the sum of the products selected by the high bits, in the lanes selected by
the low bits.  `none` for a lane with all bits zero. -/
noncomputable def dpPs (a b : Reg) (imm : Nat) : Nat → Option ℝ := fun i =>
  if bit imm (i % 4) then
    some (((List.range 4).map fun j => if bit imm (4 + j) then a (i / 4 * 4 + j) * b (i / 4 * 4 + j) else 0).sum)
  else none
/-- `_mm_dp_pd`. -/
noncomputable def dpPd (a b : Reg) (imm : Nat) : Nat → Option ℝ := fun i =>
  if bit imm (i % 2) then
    some (((List.range 2).map fun j => if bit imm (4 + j) then a (i / 2 * 2 + j) * b (i / 2 * 2 + j) else 0).sum)
  else none
/-- `_mm_or_ps` of lanes, where `none` has all bits zero.  The bits of two numbers together are not a number of interest, the result is
`none` then. -/
def orP (a b : Nat → Option ℝ) : Nat → Option ℝ := fun i =>
  match a i, b i with
  | some x, none => some x
  | none, some y => some y
  | none, none => some 0
  | some _, some _ => none

/-! ## The types of packs -/

/-- The types `pack<F, L>::type` (vec.h:44-47, 161-167, 685-688): `f1`, `d1` without vector instructions, the letter is for `float` or
`double` and the number is `L`. -/
inductive Kind where
  | f1 | d1 | f4 | f8 | f16 | d2 | d4 | d8
deriving DecidableEq, Repr

/-- The number of real numbers in the pack. -/
def Kind.lanes : Kind → Nat
  | .f1 => 2
  | .d1 => 2
  | .f4 => 4
  | .f8 => 8
  | .f16 => 16
  | .d2 => 2
  | .d4 => 4
  | .d8 => 8

/-- A `Complex<F, L>` (complex.h:29, 212-214). -/
@[ext] structure Pack (k : Kind) where
  reg : Reg

/-- `operator[]` (complex.h:203-205). -/
def Pack.get {k : Kind} (p : Pack k) (j : Nat) : ℂ := ⟨p.reg (2 * j), p.reg (2 * j + 1)⟩

/-- A `std::complex` as a register with two lanes. -/
def ofComplex (z : ℂ) : Reg := fun i => if i = 0 then z.re else if i = 1 then z.im else 0

/-- A register with two lanes as a `std::complex`. -/
def toComplex (r : Reg) : ℂ := ⟨r 0, r 1⟩

/-- The list as the lanes of a register (`_mm_setr_ps` and others). -/
def setr (l : List ℝ) : Reg := fun i => l.getD i 0

/-- `mm_zero` (vec.h:56, 176, 211, 249, 283, 696, 735). -/
def mmZero (k : Kind) : Reg :=
  match k with
  | .f1 | .d1 => ofComplex 0
  | _ => fun _ => 0

/-- `mm_pair_set` (vec.h:76, 188, 223, 261, 295, 708, 747). -/
def mmPairSet (k : Kind) (x y : ℝ) : Reg :=
  match k with
  | .f1 | .d1 => ofComplex ⟨x, y⟩
  | .f4 => setr [x, y, x, y]
  | .f8 => setr [x, y, x, y, x, y, x, y]
  | .f16 => setr [x, y, x, y, x, y, x, y, x, y, x, y, x, y, x, y]
  | .d2 => setr [x, y]
  | .d4 => setr [x, y, x, y]
  | .d8 => setr [x, y, x, y, x, y, x, y]

/-- `mm_set1` (vec.h:82, 192, 227, 265, 299, 712, 751). -/
def mmSet1 (k : Kind) (x : ℝ) : Reg :=
  match k with
  | .f1 | .d1 => ofComplex ⟨x, x⟩
  | _ => fun _ => x

/-- The entries `src[ptr + o]` for the listed `o`, each with its real and imaginary part. -/
noncomputable def gather (src : List ℂ) (ptr : Int) (offs : List Int) : Option Reg := do
  let vs ← offs.mapM fun o => rd src (ptr + o)
  some (setr (vs.flatMap fun z => [z.re, z.im]))

/-- `mm_complex_load(src, stride)` (vec.h:94, 196-198, 231-236, 269-271, 303-305, 716-721, 755-758). -/
noncomputable def mmComplexLoad (k : Kind) (src : List ℂ) (ptr stride : Int) : Option Reg :=
  match k with
  | .f1 | .d1 => (rd src ptr).map ofComplex
  | .f4 => gather src ptr [0, stride]
  | .f8 => gather src ptr [0 * stride, 1 * stride, 2 * stride, 3 * stride]
  | .f16 => gather src ptr [0 * stride, 1 * stride, 2 * stride, 3 * stride, 4 * stride, 5 * stride, 6 * stride, 7 * stride]
  | .d2 => gather src ptr [0]
  | .d4 => gather src ptr [0, stride]
  | .d8 => gather src ptr [0 * stride, 1 * stride, 2 * stride, 3 * stride]

/-! ## The arithmetic -/

/-- `mm_add` (vec.h:99-101, 319-336, 772-779). -/
noncomputable def mmAdd (k : Kind) (x y : Reg) : Reg :=
  match k with
  | .f1 | .d1 => ofComplex (toComplex x + toComplex y)
  | _ => addP x y

/-- `mm_sub` (vec.h:103-105, 341-358, 784-791). -/
noncomputable def mmSub (k : Kind) (x y : Reg) : Reg :=
  match k with
  | .f1 | .d1 => ofComplex (toComplex x - toComplex y)
  | _ => subP x y

/-- `mm_mul` (vec.h:115-117, 363-380, 796-803): the product with real numbers. -/
noncomputable def mmMul (k : Kind) (x y : Reg) : Reg :=
  match k with
  | .f1 | .d1 => ofComplex (toComplex x * ((toComplex y).re : ℂ))
  | _ => mulP x y

/-- `mm_div` (vec.h:107-109, 385-402, 808-815): the quotient with real numbers. -/
noncomputable def mmDiv (k : Kind) (x y : Reg) : Reg :=
  match k with
  | .f1 | .d1 => ofComplex (toComplex x / ((toComplex y).re : ℂ))
  | _ => divP x y

/-- `mm_neg` (vec.h:111-113, 407-424, 819-826). -/
noncomputable def mmNeg (k : Kind) (x : Reg) : Reg :=
  match k with
  | .f1 | .d1 => ofComplex (- toComplex x)
  | _ => xorSign x

/-- `mm_complex_mul` (vec.h:119-121, 433-470, 835-853). -/
noncomputable def mmComplexMul (k : Kind) (x y : Reg) : Reg :=
  match k with
  | .f1 | .d1 => ofComplex (toComplex x * toComplex y)
  | .f4 =>
    let cc := permutePs y 0b10100000
    let ba := permutePs x 0b10110001
    let dd := permutePs y 0b11110101
    fmaddsub x cc (mulP ba dd)
  | .f8 =>
    let cc := permutePs y 0b10100000
    let ba := permutePs x 0b10110001
    let dd := permutePs y 0b11110101
    fmaddsub x cc (mulP ba dd)
  | .f16 =>
    let cc := permutePs y 0b10100000
    let ba := permutePs x 0b10110001
    let dd := permutePs y 0b11110101
    fmaddsub x cc (mulP ba dd)
  | .d2 =>
    let cc := permutePd y 0
    let ba := permutePd x 0b01
    let dd := permutePd y 0b11
    fmaddsub x cc (mulP ba dd)
  | .d4 =>
    let cc := permutePd y 0b0000
    let ba := permutePd x 0b0101
    let dd := permutePd y 0b1111
    fmaddsub x cc (mulP ba dd)
  | .d8 =>
    let cc := permutePd y 0b00000000
    let ba := permutePd x 0b01010101
    let dd := permutePd y 0b11111111
    fmaddsub x cc (mulP ba dd)

/-- `mm_complex_fmadd` (vec.h:123-125, 475-512, 857-875). -/
noncomputable def mmComplexFmadd (k : Kind) (x y z : Reg) : Reg :=
  match k with
  | .f1 | .d1 => ofComplex (toComplex x * toComplex y + toComplex z)
  | .f4 =>
    let cc := permutePs y 0b10100000
    let ba := permutePs x 0b10110001
    let dd := permutePs y 0b11110101
    fmaddsub x cc (fmaddsub ba dd z)
  | .f8 =>
    let cc := permutePs y 0b10100000
    let ba := permutePs x 0b10110001
    let dd := permutePs y 0b11110101
    fmaddsub x cc (fmaddsub ba dd z)
  | .f16 =>
    let cc := permutePs y 0b10100000
    let ba := permutePs x 0b10110001
    let dd := permutePs y 0b11110101
    fmaddsub x cc (fmaddsub ba dd z)
  | .d2 =>
    let cc := permutePd y 0
    let ba := permutePd x 0b01
    let dd := permutePd y 0b11
    fmaddsub x cc (fmaddsub ba dd z)
  | .d4 =>
    let cc := permutePd y 0b0000
    let ba := permutePd x 0b0101
    let dd := permutePd y 0b1111
    fmaddsub x cc (fmaddsub ba dd z)
  | .d8 =>
    let cc := permutePd y 0b00000000
    let ba := permutePd x 0b01010101
    let dd := permutePd y 0b11111111
    fmaddsub x cc (fmaddsub ba dd z)

/-- `mm_complex_fmsub` (vec.h:127-129, 515-552, 877-895). -/
noncomputable def mmComplexFmsub (k : Kind) (x y z : Reg) : Reg :=
  match k with
  | .f1 | .d1 => ofComplex (toComplex x * toComplex y - toComplex z)
  | .f4 =>
    let cc := permutePs y 0b10100000
    let ba := permutePs x 0b10110001
    let dd := permutePs y 0b11110101
    fmaddsub x cc (fmsubadd ba dd z)
  | .f8 =>
    let cc := permutePs y 0b10100000
    let ba := permutePs x 0b10110001
    let dd := permutePs y 0b11110101
    fmaddsub x cc (fmsubadd ba dd z)
  | .f16 =>
    let cc := permutePs y 0b10100000
    let ba := permutePs x 0b10110001
    let dd := permutePs y 0b11110101
    fmaddsub x cc (fmsubadd ba dd z)
  | .d2 =>
    let cc := permutePd y 0
    let ba := permutePd x 0b01
    let dd := permutePd y 0b11
    fmaddsub x cc (fmsubadd ba dd z)
  | .d4 =>
    let cc := permutePd y 0b0000
    let ba := permutePd x 0b0101
    let dd := permutePd y 0b1111
    fmaddsub x cc (fmsubadd ba dd z)
  | .d8 =>
    let cc := permutePd y 0b00000000
    let ba := permutePd x 0b01010101
    let dd := permutePd y 0b11111111
    fmaddsub x cc (fmsubadd ba dd z)

/-- `mm_complex_sq_mod` (vec.h:139-141, 557-575, 899-912). -/
noncomputable def mmComplexSqMod (k : Kind) (x : Reg) : Nat → Option ℝ :=
  match k with
  | .f1 | .d1 => fun i => some (ofComplex ⟨(toComplex x).re ^ 2 + (toComplex x).im ^ 2, (toComplex x).re ^ 2 + (toComplex x).im ^ 2⟩ i)
  | .f4 => orP (dpPs x x 0b11001100) (dpPs x x 0b00110011)
  | .f8 => orP (dpPs x x 0b11001100) (dpPs x x 0b00110011)
  | .f16 =>
    let sq := mmMul .f16 x x
    let perm := permutePs sq 0b10110001
    fun i => some (mmAdd .f16 sq perm i)
  | .d2 => dpPd x x 0b11111111
  | .d4 =>
    let a := mulP x x
    fun i => some (haddPd a a i)
  | .d8 =>
    let sq := mmMul .d8 x x
    let perm := permutePd sq 0b01010101
    fun i => some (mmAdd .d8 sq perm i)

/-- `mm_complex_mod` (vec.h:143-145, 580-597, 917-924); `std::abs` is the square root of the squared modulus. -/
noncomputable def mmComplexMod (k : Kind) (x : Reg) : Nat → Option ℝ := fun i => (mmComplexSqMod k x i).map Real.sqrt

/-- `mm_complex_conj` (vec.h:147-149, 600-617, 929-936). -/
noncomputable def mmComplexConj (k : Kind) (x : Reg) : Reg :=
  match k with
  | .f1 | .d1 => ofComplex ⟨(toComplex x).re, - (toComplex x).im⟩
  | .f4 => blend x (mmNeg .f4 x) 0b1010
  | .f8 => blend x (mmNeg .f8 x) 0b10101010
  | .f16 => blend x (mmNeg .f16 x) 0b1010101010101010
  | .d2 => blend x (mmNeg .d2 x) 0b10
  | .d4 => blend x (mmNeg .d4 x) 0b1010
  | .d8 => blend x (mmNeg .d8 x) 0b10101010

/-- `mm_complex_mul_i` (vec.h:131-133, 621-638, 940-947). -/
noncomputable def mmComplexMulI (k : Kind) (x : Reg) : Reg :=
  match k with
  | .f1 | .d1 => ofComplex (toComplex x * ⟨0, 1⟩)
  | .f4 => permutePs (mmComplexConj .f4 x) 0b10110001
  | .f8 => permutePs (mmComplexConj .f8 x) 0b10110001
  | .f16 => permutePs (mmComplexConj .f16 x) 0b10110001
  | .d2 => permutePd (mmComplexConj .d2 x) 0b00000001
  | .d4 => permutePd (mmComplexConj .d4 x) 0b00000101
  | .d8 => permutePd (mmComplexConj .d8 x) 0b01010101

/-- `mm_complex_mul_neg_i` (vec.h:135-137, 641-658, 950-957). -/
noncomputable def mmComplexMulNegI (k : Kind) (x : Reg) : Reg :=
  match k with
  | .f1 | .d1 => ofComplex (toComplex x * ⟨0, -1⟩)
  | .f4 => mmComplexConj .f4 (permutePs x 0b10110001)
  | .f8 => mmComplexConj .f8 (permutePs x 0b10110001)
  | .f16 => mmComplexConj .f16 (permutePs x 0b10110001)
  | .d2 => mmComplexConj .d2 (permutePd x 0b00000001)
  | .d4 => mmComplexConj .d4 (permutePd x 0b00000101)
  | .d8 => mmComplexConj .d8 (permutePd x 0b01010101)

/-- The quotient of two lanes where it is a real number. -/
noncomputable def divO (a b : Option ℝ) : Option ℝ :=
  match a, b with
  | some x, some y => if y = 0 then none else some (x / y)
  | _, _ => none

/-- `mm_complex_div` (vec.h:151-153, 663-680, 962-969); a lane is `none` if it is not a real number.  The quotient of `std::complex` is the
one of exact arithmetic. -/
noncomputable def mmComplexDiv (k : Kind) (x y : Reg) : Nat → Option ℝ :=
  match k with
  | .f1 | .d1 => fun i =>
    if toComplex y = 0 then none else some (ofComplex (toComplex x / toComplex y) i)
  | _ => fun i => divO (some (mmComplexMul k x (mmComplexConj k y) i)) (mmComplexSqMod k y i)

/-! ## The class `Complex` -/

section
variable {k : Kind}

/-- `Complex()` (complex.h:52). -/
instance : Zero (Pack k) := ⟨⟨mmZero k⟩⟩
/-- `Complex(1., 0.)` (complex.h:44). -/
noncomputable instance : One (Pack k) := ⟨⟨mmPairSet k 1 0⟩⟩
/-- `operator+` (complex.h:59-61, 79-82). -/
noncomputable instance : Add (Pack k) := ⟨fun x y => ⟨mmAdd k x.reg y.reg⟩⟩
/-- `operator-` (complex.h:64-66, 85-88). -/
noncomputable instance : Sub (Pack k) := ⟨fun x y => ⟨mmSub k x.reg y.reg⟩⟩
/-- `operator*` (complex.h:69-71, 91-94). -/
noncomputable instance : Mul (Pack k) := ⟨fun x y => ⟨mmComplexMul k x.reg y.reg⟩⟩
/-- `operator-()` (complex.h:165-167). -/
noncomputable instance : Neg (Pack k) := ⟨fun x => ⟨mmNeg k x.reg⟩⟩
/-- The real number in all the lanes, as `operator/(F)` makes it from its argument (complex.h:122-124). -/
instance : NatCast (Pack k) := ⟨fun n => ⟨mmSet1 k n⟩⟩
/-- The quotient of `operator/(F)` (complex.h:122-124, 145-148). -/
noncomputable instance : Div (Pack k) := ⟨fun x y => ⟨mmDiv k x.reg y.reg⟩⟩

/-- `operator+(F)` (complex.h:107-109, 127-130). -/
noncomputable def Pack.addReal (x : Pack k) (o : ℝ) : Pack k := ⟨mmAdd k x.reg (mmPairSet k o 0)⟩
/-- `operator-(F)` (complex.h:112-114, 133-136). -/
noncomputable def Pack.subReal (x : Pack k) (o : ℝ) : Pack k := ⟨mmSub k x.reg (mmPairSet k o 0)⟩
/-- `operator*(F)` (complex.h:117-119, 139-142). -/
noncomputable def Pack.mulReal (x : Pack k) (o : ℝ) : Pack k := ⟨mmMul k x.reg (mmSet1 k o)⟩
/-- `operator/(F)` (complex.h:122-124, 145-148). -/
noncomputable def Pack.divReal (x : Pack k) (o : ℝ) : Pack k := ⟨mmDiv k x.reg (mmSet1 k o)⟩
/-- `fmadd` (complex.h:155-157). -/
noncomputable def Pack.fmadd (x y z : Pack k) : Pack k := ⟨mmComplexFmadd k x.reg y.reg z.reg⟩
/-- `fmsub` (complex.h:160-162). -/
noncomputable def Pack.fmsub (x y z : Pack k) : Pack k := ⟨mmComplexFmsub k x.reg y.reg z.reg⟩
/-- `conjugate` (complex.h:183-185). -/
noncomputable def Pack.conjugate (x : Pack k) : Pack k := ⟨mmComplexConj k x.reg⟩
/-- `__mul_i` (complex.h:188-190). -/
noncomputable def Pack.mulI (x : Pack k) : Pack k := ⟨mmComplexMulI k x.reg⟩
/-- `__mul_neg_i` (complex.h:193-195). -/
noncomputable def Pack.mulNegI (x : Pack k) : Pack k := ⟨mmComplexMulNegI k x.reg⟩
/-- `modulus(dest)` (complex.h:170-175): the values written to `dest[0], …, dest[L/2-1]`. -/
noncomputable def Pack.modulus (x : Pack k) : List (Option ℝ) := (List.range (k.lanes / 2)).map fun j => mmComplexMod k x.reg (j * 2)
/-- `operator/` (complex.h:74-76, 97-100) and `operator[]` (203-205) of the result. -/
noncomputable def Pack.quotient (x y : Pack k) (j : Nat) : Option ℂ := do
  let re ← mmComplexDiv k x.reg y.reg (2 * j)
  let im ← mmComplexDiv k x.reg y.reg (2 * j + 1)
  some ⟨re, im⟩
end

/-- `Complex(c, stride)` (complex.h:48). -/
noncomputable def load (k : Kind) (src : List ℂ) (ptr stride : Int) : Option (Pack k) := (mmComplexLoad k src ptr stride).map Pack.mk

/-- `copy_pad` (stock.h:82-89): the array `ret` of `L` complex numbers is zero except for the first `len`. -/
noncomputable def copyPad (k : Kind) (src : List ℂ) (ptr : Int) (len : Nat) (stride : Int) : Res (Pack k) :=
  if len > k.lanes / 2 then .error .runtime
  else match (List.range len).mapM (fun (i : Nat) => rd src (ptr + i * stride)) with
    | none => .error .ub
    | some vs => match load k (vs ++ List.replicate (k.lanes - len) 0) 0 1 with
      | none => .error .ub
      | some p => .ok p

/-- `copy_pad` from real numbers (stock.h:92-99). -/
noncomputable def copyPadReal (k : Kind) (src : List ℝ) (ptr : Int) (len : Nat) (stride : Int) : Res (Pack k) :=
  if len > k.lanes / 2 then .error .runtime
  else match (List.range len).mapM (fun (i : Nat) => rd src (ptr + i * stride)) with
    | none => .error .ub
    | some vs => match load k ((vs.map fun x => (⟨x, 0⟩ : ℂ)) ++ List.replicate (k.lanes - len) 0) 0 1 with
      | none => .error .ub
      | some p => .ok p

/-! ## The plans with packs -/

/-- The constants of the algorithms as packs (heffte_stock_algos.h:35-40, 446-447). -/
noncomputable def packTw (k : Kind) : Tw (Pack k) where
  om dir power N :=
    let a : ℝ := 2 * Real.pi * power / N
    ⟨mmPairSet k (Real.cos a) ((if dir then -1 else 1) * Real.sin a)⟩
  i := ⟨mmPairSet k 0 1⟩
  plus120 := ⟨mmPairSet k (-0.5) (-Real.sqrt 3 / 2)⟩
  minus120 := ⟨mmPairSet k (-0.5) (Real.sqrt 3 / 2)⟩

/-- What the work memory of a plan may hold before a transform: `inp`, `out` and the workspaces of the nodes. -/
structure PackScratch (k : Kind) where
  inp : Arr (Pack k)
  out : Arr (Pack k)
  ws : Nat → Arr (Pack k)

/-- An entry of `inp` from complex data: `Complex(&data[idx], dist)` for full packs (stock.h:148, 151, 270), `copy_pad` for the remainder
(170, 173, 291). -/
noncomputable def readPack (k : Kind) (pad : Bool) (c : Nat) (src : List ℂ) (ptr dist : Int) : Res (Pack k) :=
  if pad then copyPad k src ptr c dist
  else match load k src ptr dist with
    | none => .error .ub
    | some p => .ok p

/-- One transform of packs in `plan_stock_fft<std::complex<F>>::execute`, with `c` lines from `start` on (stock.h:266-281, 285-301). -/
noncomputable def vecC2C (k : Kind) (N : Nat) (fwd : Bool) (J : PackScratch k) (stride dist : Int) (pad : Bool) (c : Nat) (start : Int)
    (mem : List ℂ) : Res (List ℂ) := do
  let inp ← (List.range N).mapM fun (i : Nat) => readPack k pad c mem (start + i * stride) dist
  let out ← stockFFT (packTw k) N fwd inp J.out J.ws
  writeAll ((List.range N).flatMap fun (i : Nat) => (List.range c).map fun (j : Nat) =>
    (start + i * stride + j * dist, (out[i]?).map fun p => p.get j)) mem

/-- One transform of packs in the real-to-complex `execute` (stock.h:195-209, 213-229). -/
noncomputable def vecR2C (k : Kind) (N : Nat) (J : PackScratch k) (stride rdist cdist : Int) (c : Nat) (rstart cstart : Int)
    (src : List ℝ) (dst : List ℂ) : Res (List ℂ) := do
  let inp ← (List.range N).mapM fun (i : Nat) => copyPadReal k src (rstart + i * stride) c rdist
  let out ← stockFFT (packTw k) N true inp J.out J.ws
  writeAll ((List.range ((N + 2) / 2)).flatMap fun (i : Nat) => (List.range c).map fun (j : Nat) =>
    (cstart + i * stride + j * cdist, (out[i]?).map fun p => p.get j)) dst

/-- The body of the loop that fills `inp` in the complex-to-real `execute` (stock.h:149-153, 171-175). -/
noncomputable def vecC2RStep {k : Kind} (N : Nat) (v : List (Pack k)) (i : Nat) (a : Arr (Pack k)) : Arr (Pack k) :=
  let a := st a i (v.getD i 0)
  st a (N - i) (a i).conjugate

/-- One transform of packs in the complex-to-real `execute` (stock.h:146-161, 167-185).  All the input is read first. -/
noncomputable def vecC2R (k : Kind) (N : Nat) (J : PackScratch k) (stride cdist rdist : Int) (pad : Bool) (c : Nat) (cstart rstart : Int)
    (src : List ℂ) (dst : List ℝ) : Res (List ℝ) := do
  let v ← (List.range ((N + 2) / 2)).mapM fun (i : Nat) => readPack k pad c src (cstart + i * stride) cdist
  let inp := forRange 1 ((N + 2) / 2 - 1) (vecC2RStep N v) (st J.inp 0 (v.getD 0 0))
  let out ← stockFFT (packTw k) N false ((List.range N).map inp) J.out J.ws
  writeAll ((List.range N).flatMap fun (i : Nat) => (List.range c).map fun (j : Nat) =>
    (rstart + i * stride + j * rdist, (out[i]?).map fun p => (p.get j).re)) dst

/-- `execute` (stock.h:146-186, 194-230, 260-302): the groups of `L/2` transforms, then the remainder.  `group pad c p` does the transforms
`p, …, p + c - 1`. -/
def vecExecute {γ : Type} (w : Nat) (num : Int) (group : Bool → Nat → Int → γ → Res γ) (mem : γ) : Res γ := do
  let mem ← (loopBy w (num - (w - 1)) 0).foldlM (fun mem p => group false w p mem) mem
  if num % w > 0 then group true (num % w).toNat (num - num % w) mem else .ok mem

/-- `stock_fft_executor` with packs (stock.h:441-484).  `J` is the work memory before the transforms that start at an address. -/
noncomputable def vecExecC2C (k : Kind) (J : Int → PackScratch k) (fwd : Bool) (b : Box) (d : Fin 3) (base : Int) (mem : List ℂ) : Res (List ℂ) :=
  let dist := if d = b.order 0 then b.size d else 1
  let block := b.osize 0 * b.osize 1
  (loop (numBlocks b d)).foldlM (fun mem i => vecExecute (k.lanes / 2) (howMany b d) (fun pad c p mem =>
    let start := base + i * block + p * dist
    vecC2C k (b.size d).toNat fwd (J start) (lineStride b d) dist pad c start mem) mem) mem

/-- `stock_fft_executor_r2c::forward` with packs (stock.h:558-583). -/
noncomputable def vecExecR2C (k : Kind) (J : Int → PackScratch k) (b : Box) (d : Fin 3) (rbase cbase : Int) (src : List ℝ) (dst : List ℂ) :
    Res (List ℂ) :=
  let n := b.size d
  let rdist := if d = b.order 0 then n else 1
  let cdist := if d = b.order 0 then n / 2 + 1 else 1
  (loop (numBlocks b d)).foldlM (fun dst i => vecExecute (k.lanes / 2) (howMany b d) (fun _ c p dst =>
    let rstart := rbase + i * (b.osize 0 * b.osize 1) + p * rdist
    let cstart := cbase + i * (b.osize 0 * (b.osize 1 / 2 + 1)) + p * cdist
    vecR2C k n.toNat (J cstart) (lineStride b d) rdist cdist c rstart cstart src dst) dst) dst

/-- `stock_fft_executor_r2c::backward` with packs (stock.h:584-598). -/
noncomputable def vecExecC2R (k : Kind) (J : Int → PackScratch k) (b : Box) (d : Fin 3) (cbase rbase : Int) (src : List ℂ) (dst : List ℝ) :
    Res (List ℝ) :=
  let n := b.size d
  let rdist := if d = b.order 0 then n else 1
  let cdist := if d = b.order 0 then n / 2 + 1 else 1
  (loop (numBlocks b d)).foldlM (fun dst i => vecExecute (k.lanes / 2) (howMany b d) (fun pad c p dst =>
    let rstart := rbase + i * (b.osize 0 * b.osize 1) + p * rdist
    let cstart := cbase + i * (b.osize 0 * (b.osize 1 / 2 + 1)) + p * cdist
    vecC2R k n.toNat (J rstart) (lineStride b d) cdist rdist pad c cstart rstart src dst) dst) dst

end Verif.Simd
