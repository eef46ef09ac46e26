import Verif.Api
import Verif.SpecR2R
import Verif.SpecWave

/-!
# The tables of the backends

The templates of the library are specialised for 23 type tags.  The tables below follow the specialisations one by one.
-/

namespace Verif

/-- The type tags (`/repo/include/heffte_common.h:99-212`). -/
inductive BackendTag where
  | fftw | fftw_cos | fftw_sin | fftw_cos1 | fftw_sin1
  | stock | stock_cos | stock_sin | stock_cos1
  | mkl | mkl_cos | mkl_sin
  | cufft | cufft_cos | cufft_sin | cufft_cos1
  | rocfft | rocfft_cos | rocfft_sin | rocfft_cos1
  | onemkl | onemkl_cos | onemkl_sin
deriving DecidableEq, Repr

namespace BackendTag

/-- `backend::name` (common.h:265-389). -/
def name : BackendTag → String
  | fftw => "fftw"
  | fftw_cos => "fftw-cos-type-II"
  | fftw_sin => "fftw-sin-type-II"
  | fftw_cos1 => "fftw-cos-type-I"
  | fftw_sin1 => "fftw-sin-type-I"
  | stock => "stock"
  | stock_cos => "stock-cos-type-II"
  | stock_sin => "stock-sin-type-II"
  | stock_cos1 => "stock-cos-type-I"
  | mkl => "mkl"
  | mkl_cos => "mkl-cos"
  | mkl_sin => "mkl-sin"
  | cufft => "cufft"
  | cufft_cos => "cufft-cos-type-II"
  | cufft_sin => "cufft-sin-type-II"
  | cufft_cos1 => "cufft-cos-type-I"
  | rocfft => "rocfft"
  | rocfft_cos => "rocfft-cos"
  | rocfft_sin => "rocfft-sin"
  | rocfft_cos1 => "rocfft-sin"
  | onemkl => "onemkl"
  | onemkl_cos => "onemkl-cos"
  | onemkl_sin => "onemkl-sin"

/-- `uses_fft_types` (common.h:439-541): true unless specialised. -/
def usesFftTypes (t : BackendTag) : Bool :=
  ¬ t ∈ [fftw_cos, fftw_sin, fftw_cos1, fftw_sin1, stock_cos, stock_sin, stock_cos1, mkl_cos, mkl_sin, cufft_cos, cufft_sin, cufft_cos1,
    rocfft_cos, rocfft_sin, rocfft_cos1, onemkl_cos, onemkl_sin]

/-- `set_options` (heffte_plan_logic.h:206-232); `r2c` for objects of the type `fft3d_r2c`. -/
def setOptions (t : BackendTag) (r2c : Bool) (opts : Opts) : Opts :=
  if t = stock_cos ∨ t = mkl_cos ∨ t = cufft_cos ∨ t = rocfft_cos ∨ t = onemkl_cos ∨ t = stock_sin ∨ t = mkl_sin ∨ t = cufft_sin ∨ t = rocfft_sin ∨
    t = onemkl_sin ∨ t = stock_cos1 ∨ t = cufft_cos1 ∨ t = rocfft_cos1 then { opts with useReorder := true }
  else if r2c ∧ t = rocfft then { opts with useReorder := true }
  else opts

/-- `has_executor2d` (common.h:714-732). -/
def hasTwo (t : BackendTag) : Bool :=
  ¬ (t = stock ∨ t = stock_cos ∨ t = mkl_cos ∨ t = cufft_cos ∨ t = rocfft_cos ∨ t = onemkl_cos ∨ t = stock_sin ∨ t = mkl_sin ∨ t = cufft_sin ∨
    t = rocfft_sin ∨ t = onemkl_sin ∨ t = stock_cos1 ∨ t = cufft_cos1 ∨ t = rocfft_cos1)

/-- `has_executor3d` (common.h:737-755). -/
def hasThree (t : BackendTag) : Bool :=
  ¬ (t = stock ∨ t = stock_cos ∨ t = mkl_cos ∨ t = cufft_cos ∨ t = rocfft_cos ∨ t = onemkl_cos ∨ t = stock_sin ∨ t = mkl_sin ∨ t = cufft_sin ∨
    t = rocfft_sin ∨ t = onemkl_sin ∨ t = stock_cos1 ∨ t = cufft_cos1 ∨ t = rocfft_cos1)

/-- `default_plan_options::use_reorder` (heffte_backend_fftw.h:751-787, _stock.h:680-707, _mkl.h:489-508, _cuda.h:854-877, _rocm.h:988-1015,
_oneapi.h:764-783). -/
def defaultReorder : BackendTag → Bool
  | mkl | cufft | onemkl => false
  | _ => true

/-- The executors: those of a library for Fourier transforms, those that extend the lines (`real2real_executor` with a processor), and those with
the real transforms of FFTW. -/
inductive Exec where
  | fourier
  | extended (z : Trig)
  | kind (z : Wave)

/-- `one_dim_backend::executor` (heffte_backend_fftw.h:691-745, _stock.h:633-674, _mkl.h:454-483, _cuda.h:759-794, _rocm.h:886-928, _oneapi.h:677-702).
`real2real_executor<backend::fftw, …>` is specialised (_fftw.h:578-625): it has the kinds of FFTW instead of the processor. -/
def exec : BackendTag → Exec
  | fftw_cos => .kind .cos
  | fftw_sin => .kind .sin
  | fftw_cos1 => .kind .cos1
  | fftw_sin1 => .kind .sin1
  | stock_cos | mkl_cos | cufft_cos | rocfft_cos | onemkl_cos => .extended .cos
  | stock_sin | mkl_sin | cufft_sin | rocfft_sin | onemkl_sin => .extended .sin
  | stock_cos1 | cufft_cos1 | rocfft_cos1 => .extended .cos1
  | fftw | stock | mkl | cufft | rocfft | onemkl => .fourier

/-- `scale_factor` of `fft3d` (heffte_fft3d.h:577, 635-650); `count` is `plan.index_count`, `s` is `plan.fft_sizes`. -/
noncomputable def scaleFactor (t : BackendTag) (count : Int) (s : A3 Int) : ℝ :=
  let scale : ℝ := 1 / (count : ℝ)
  if ¬ t.usesFftTypes then
    if t = fftw_cos ∨ t = fftw_sin then scale / 8
    else if t = fftw_cos1 then 1 / (8 * (s.x - 1) * (s.y - 1) * (s.z - 1) : ℝ)
    else if t = fftw_sin1 then 1 / (8 * (s.x + 1) * (s.y + 1) * (s.z + 1) : ℝ)
    else if t = cufft_cos1 ∨ t = rocfft_cos1 ∨ t = stock_cos1 then 1 / (64 * (s.x - 1) * (s.y - 1) * (s.z - 1) : ℝ)
    else scale / 64
  else scale

/-- The family of `Transform.lean` that the tag belongs to. -/
def family (t : BackendTag) : Family :=
  match t.exec with
  | .fourier => .fourier
  | .extended z => .stock z
  | .kind .cos => .fftw .cos
  | .kind .sin => .fftw .sin
  | .kind .cos1 => .fftw .cos1
  | .kind .sin1 => .fftwSin1

end BackendTag

/-- The entries of the arrays of users. -/
inductive Scalar where
  | float | double | ccomplex | zcomplex
deriving DecidableEq, Repr

/-- `check_types` (common.h:448-459, 546-554), which the methods of the objects assert. -/
def BackendTag.checkTypes (t : BackendTag) (input output : Scalar) : Bool :=
  (t.usesFftTypes && ((input = .float && output = .ccomplex) || (input = .double && output = .zcomplex) ||
      (input = .ccomplex && output = .ccomplex) || (input = .zcomplex && output = .zcomplex))) ||
  (!t.usesFftTypes && ((input = .float && output = .float) || (input = .double && output = .double)))

end Verif
