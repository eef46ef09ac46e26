import Verif.StockFFT
import Mathlib.Analysis.SpecialFunctions.Complex.Circle
import Mathlib.Analysis.Real.Pi.Bounds

/-!
# Floating point numbers in the stock FFT

The transforms of `StockFFT.lean` use the operations of their type `K` of numbers.  Here `K` is `Complex<F,1>`, the type that
the plans of the stock backend use when HeFFTe is built without AVX (heffte_backend_stock.h:307-432): all operations are those of
`std::complex<F>` (heffte_stock_vec_types.h:95-160), and every operation on `F` is rounded.

* The rounding is a function with the relative error `u`, `2⁻⁵³` for `double` and `2⁻²⁴` for `float`.  That is the arithmetic of IEEE
  without overflow, underflow, infinities and NaN.
* `x.fmadd(y, z)` and `x.fmsub(y, z)` are `x * y + z` and `x * y - z` with two roundings (heffte_stock_vec_types.h:119-126).
* The two products in the real and in the imaginary part of a product may be contracted with the sum to a fused multiply-add, as the
  compilers do, or not.
* `a * std::complex<F>{0, 1}` is the product with `i`; it only changes the two parts, see `mulI_exact`.
* The vectorised types of AVX use other instructions for the products, they are not covered.
-/

namespace Verif.Stock

/-- The arithmetic of the type `F`. -/
structure Arith where
  /-- The unit roundoff. -/
  u : ℝ
  u_nonneg : 0 ≤ u
  u_le : u ≤ 1 / 8
  /-- The rounding to `F`. -/
  rnd : ℝ → ℝ
  rnd_err : ∀ x, |rnd x - x| ≤ u * |x|
  /-- The rounding to `double`. -/
  rndA : ℝ → ℝ
  rndA_err : ∀ x, |rndA x - x| ≤ u * |x|
  /-- `2. * M_PI`. -/
  pi2 : ℝ
  pi2_err : |pi2 - 2 * Real.pi| ≤ u * (2 * Real.pi)
  /-- `cos` and `sin`, with the conversion of the result to `F`. -/
  cosF : ℝ → ℝ
  cosF_err : ∀ a, |cosF a - Real.cos a| ≤ 2 * u
  sinF : ℝ → ℝ
  sinF_err : ∀ a, |sinF a - Real.sin a| ≤ 2 * u
  /-- Which of the two products is contracted with the sum. -/
  fused : Option Bool

/-- The type `Complex<F,1>`. -/
def Flt (_ : Arith) : Type := ℂ

namespace Flt
variable {A : Arith}

/-- The number as a complex number. -/
def val (x : Flt A) : ℂ := x

/-- The number with the given real and imaginary part. -/
def mk (re im : ℝ) : Flt A := (⟨re, im⟩ : ℂ)

/-- `a * b + s * c * d` with the sign `s` in the product of two complex numbers. -/
noncomputable def dot (A : Arith) (s a b c d : ℝ) : ℝ :=
  match A.fused with
  | none => A.rnd (A.rnd (a * b) + s * A.rnd (c * d))
  | some true => A.rnd (a * b + s * A.rnd (c * d))
  | some false => A.rnd (A.rnd (a * b) + s * (c * d))

noncomputable instance : Zero (Flt A) := ⟨mk 0 0⟩
/-- `Complex<F,L>(1., 0.)` (heffte_stock_algos.h:293). -/
noncomputable instance : One (Flt A) := ⟨mk 1 0⟩
/-- heffte_stock_vec_types.h:99-101. -/
noncomputable instance : Add (Flt A) := ⟨fun x y => mk (A.rnd (x.val.re + y.val.re)) (A.rnd (x.val.im + y.val.im))⟩
/-- heffte_stock_vec_types.h:103-105. -/
noncomputable instance : Sub (Flt A) := ⟨fun x y => mk (A.rnd (x.val.re - y.val.re)) (A.rnd (x.val.im - y.val.im))⟩
/-- heffte_stock_vec_types.h:111-113. -/
noncomputable instance : Neg (Flt A) := ⟨fun x => mk (- x.val.re) (- x.val.im)⟩
/-- heffte_stock_vec_types.h:119-121. -/
noncomputable instance : Mul (Flt A) := ⟨fun x y =>
  mk (dot A (-1) x.val.re y.val.re x.val.im y.val.im) (dot A 1 x.val.re y.val.im x.val.im y.val.re)⟩
/-- `operator/(F o)` divides by the real part of the second operand (heffte_stock_complex.h:131-133, heffte_stock_vec_types.h:107-109). -/
noncomputable instance : Div (Flt A) := ⟨fun x y => mk (A.rnd (x.val.re / y.val.re)) (A.rnd (x.val.im / y.val.re))⟩
/-- The conversion of an integer to `F` (heffte_stock_algos.h:378). -/
noncomputable instance : NatCast (Flt A) := ⟨fun n => mk (A.rnd n) 0⟩

end Flt

/-- `F a = 2.*M_PI*((F) power)/((F) N)` (heffte_stock_algos.h:37): the product and the quotient are in `double`. -/
noncomputable def Arith.angle (A : Arith) (power N : Nat) : ℝ := A.rnd (A.rndA (A.rndA (A.pi2 * A.rnd power) / A.rnd N))

/-- The constants of the transforms: `omega::get` (heffte_stock_algos.h:36-39), `plus120` and `minus120` (444-445). -/
noncomputable def fltTw (A : Arith) : Tw (Flt A) where
  om dir power N := .mk (A.cosF (A.angle power N)) ((if dir then -1 else 1) * A.sinF (A.angle power N))
  i := .mk 0 1
  plus120 := .mk (-0.5) (A.rnd (A.rndA (- A.rndA (Real.sqrt 3) / 2)))
  minus120 := .mk (-0.5) (A.rnd (A.rndA (A.rndA (Real.sqrt 3) / 2)))

end Verif.Stock
