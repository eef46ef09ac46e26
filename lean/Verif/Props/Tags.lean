import Verif.Tags
import Mathlib.Tactic.FinCases
import Mathlib.Tactic.FieldSimp
import Mathlib.Tactic.Ring
import Mathlib.Tactic.Positivity

/-!
# Properties of the tables of the backends (C69)
-/

namespace Verif
open BackendTag

/-! ## Specification -/

/-- The precision of an entry. -/
def Scalar.single : Scalar → Bool
  | .float | .ccomplex => true
  | .double | .zcomplex => false

def Scalar.complex : Scalar → Bool
  | .ccomplex | .zcomplex => true
  | .float | .double => false

/-- The tags of the Fourier transforms. -/
def IsFourier (t : BackendTag) : Prop := t = .fftw ∨ t = .stock ∨ t = .mkl ∨ t = .cufft ∨ t = .rocfft ∨ t = .onemkl

/-- The factor of a forward and a backward transform in a direction with `n` indexes. -/
def BackendTag.gain (t : BackendTag) (n : Nat) : Nat :=
  match t.exec with
  | .fourier => n
  | .extended z => z.gain n
  | .kind z => z.gain n

/-- The lengths for which the transform is defined. -/
def BackendTag.least (t : BackendTag) : Nat :=
  match t.exec with
  | .fourier => 1
  | .extended z => z.least
  | .kind z => z.least

/-! ## Theorems -/

/-- C69: sine and cosine transforms take and return real numbers, Fourier transforms return complex numbers; the precision of the input is
the one of the output; nothing else is refused. -/
theorem C69_types (t : BackendTag) (input output : Scalar) :
    t.checkTypes input output = true ↔
      input.single = output.single ∧ ((IsFourier t ∧ output.complex = true) ∨ (¬ IsFourier t ∧ input.complex = false ∧ output.complex = false)) := by
  unfold IsFourier
  cases t <;> cases input <;> cases output <;> decide

/-- C69: whatever the options, an executor that extends the lines, which works for lines in contiguous memory only and which throws for two or
three directions, has reordered data and one direction. -/
theorem C69_extended (t : BackendTag) {z : Trig} (h : t.exec = .extended z) (opts : Opts) (r2c : Bool) :
    t.setOptions r2c opts = { opts with useReorder := true } ∧ t.hasTwo = false ∧ t.hasThree = false ∧ t.defaultReorder = true := by
  cases t <;> first
    | exact ⟨rfl, rfl, rfl, rfl⟩
    | exact nomatch h

/-- C69: all other objects have the options of the user, but for real data with rocFFT. -/
theorem C69_options (t : BackendTag) (h : ∀ z, t.exec ≠ .extended z) (opts : Opts) (r2c : Bool) :
    t.setOptions r2c opts = (if r2c = true ∧ t = .rocfft then { opts with useReorder := true } else opts) := by
  cases t <;> first
    | exact absurd rfl (h _)
    | (cases r2c <;> rfl)

/-- C69: `scale::full` undoes the factor of a forward and a backward transform, for all tags and sizes. -/
theorem C69_scale (t : BackendTag) {n0 n1 n2 : Nat} (h0 : t.least ≤ n0) (h1 : t.least ≤ n1) (h2 : t.least ≤ n2) :
    t.scaleFactor (n0 * n1 * n2) ⟨n0, n1, n2⟩ * (t.gain n0 * t.gain n1 * t.gain n2 : ℕ) = 1 := by
  have one : ∀ {n : Nat}, 1 ≤ n → (n : ℝ) ≠ 0 := fun h => by exact_mod_cast (by omega : _ ≠ 0)
  have two : ∀ {n : Nat}, 2 ≤ n → ((n - 1 : Nat) : ℝ) = n - 1 ∧ (n : ℝ) - 1 ≠ 0 := fun {n} h => by
    have : ((n - 1 : Nat) : ℝ) = n - 1 := by push_cast [Nat.cast_sub (by omega : 1 ≤ n)]; ring
    exact ⟨this, by rw [← this]; exact_mod_cast (by omega : _ ≠ 0)⟩
  have three : ∀ n : Nat, (n : ℝ) + 1 ≠ 0 := fun n => by positivity
  cases t <;> simp only [least, exec, Trig.least, Wave.least] at h0 h1 h2 <;>
    simp only [scaleFactor, usesFftTypes, gain, exec, Trig.gain, Wave.gain, reduceCtorEq, or_true, true_or, or_false, false_or, if_true, if_false,
      List.mem_cons, List.mem_nil_iff, not_true_eq_false, not_false_eq_true, decide_true, decide_false, Bool.false_eq_true] <;>
    push_cast <;>
    first
    | (have := one h0; have := one h1; have := one h2; have := three n0; have := three n1; have := three n2; field_simp; try norm_num)
    | (obtain ⟨e0, p0⟩ := two h0; obtain ⟨e1, p1⟩ := two h1; obtain ⟨e2, p2⟩ := two h2
       rw [e0, e1, e2]; field_simp; try norm_num)

/-- C69: the objects of the model are those of the tags: same options, same factor. -/
theorem C69_objects (t : BackendTag) :
    (∀ opts, Backend.setOptions ⟨t.hasTwo, t.hasThree, t.family⟩ opts = t.setOptions false opts) ∧
      ∀ o : Object, o.family = t.family → o.baseFactor = t.scaleFactor o.plan.indexCount o.plan.fftSizes := by
  constructor
  · intro opts; cases t <;> rfl
  · intro o h
    unfold Object.baseFactor
    rw [h]
    cases t <;> simp [family, exec, scaleFactor, usesFftTypes]

/-- Finding (C69): the cosine transform of type I and the sine transform of rocFFT have the same name though they are different transforms. -/
theorem C69_names_false : (BackendTag.rocfft_sin).name = (BackendTag.rocfft_cos1).name ∧ (BackendTag.rocfft_sin).exec ≠ (BackendTag.rocfft_cos1).exec :=
  ⟨rfl, fun h => nomatch h⟩

/-- C69: all the other names are different. -/
theorem C69_names_partial {t t' : BackendTag} (h : t.name = t'.name) : t = t' ∨ (t = .rocfft_sin ∧ t' = .rocfft_cos1) ∨ (t = .rocfft_cos1 ∧ t' = .rocfft_sin) := by
  revert h
  cases t <;> cases t' <;> decide

/-! ## Examples -/

example : (BackendTag.rocfft_cos1).setOptions false ⟨false, .alltoallv, false, -1, none⟩ = ⟨true, .alltoallv, false, -1, none⟩ ∧
    (BackendTag.fftw_cos1).setOptions false ⟨false, .alltoallv, false, -1, none⟩ = ⟨false, .alltoallv, false, -1, none⟩ := ⟨rfl, rfl⟩

example : (BackendTag.onemkl_sin).checkTypes .double .double = true ∧ (BackendTag.onemkl_sin).checkTypes .double .zcomplex = false ∧
    (BackendTag.onemkl).checkTypes .double .zcomplex = true ∧ (BackendTag.onemkl).checkTypes .float .zcomplex = false := by decide

/-- 2 x 3 x 5 indexes with the cosine transform of type I of cuFFT: 4, 8 and 16. -/
example : (BackendTag.cufft_cos1).scaleFactor 30 ⟨2, 3, 5⟩ = 1 / 512 := by
  have h : (BackendTag.cufft_cos1).scaleFactor 30 ⟨2, 3, 5⟩ * ((4 * 8 * 16 : Nat) : ℝ) = 1 := C69_scale .cufft_cos1 (n0 := 2) (n1 := 3) (n2 := 5) (by decide) (by decide) (by decide)
  push_cast at h
  linarith

end Verif
