import Verif.DftLemmas
import Verif.ExecFields

/-!
# Exact transforms of lengths 1, 2 and 4 that can be evaluated

With Gaussian integers as complex numbers the transforms of these lengths need no irrational numbers.  The kernel `gauss` is used to run the
model on concrete data; `gdft_eq` and the other lemmas say that it computes the discrete Fourier transform.
-/

namespace Verif
open Finset

/-- `a.1 + i a.2`. -/
abbrev GInt := Int × Int

def GInt.mul (a b : GInt) : GInt := (a.1 * b.1 - a.2 * b.2, a.1 * b.2 + a.2 * b.1)

/-- `(± i)^k`. -/
def unitPow (fwd : Bool) : Nat → GInt
  | 0 => (1, 0)
  | k + 1 => GInt.mul (unitPow fwd k) (0, if fwd then -1 else 1)

/-- The entry `k` of the transform. -/
def gdft (fwd : Bool) (v : List GInt) (k : Nat) : GInt :=
  (List.range v.length).foldl (fun acc (n : Nat) => acc + GInt.mul (v.getD n 0) (unitPow fwd (n * k * (4 / v.length)))) 0

def gr2c (v : List Int) (k : Nat) : GInt := gdft true (v.map fun x => (x, 0)) k

def gfull (N : Nat) (v : List GInt) (k : Nat) : GInt := if k ≤ N / 2 then v.getD k 0 else ((v.getD (N - k) 0).1, -(v.getD (N - k) 0).2)

def gc2r (N : Nat) (v : List GInt) (j : Nat) : Int := (gdft false ((List.range N).map (gfull N v)) j).1

/-- The lengths. -/
def Short (n : Nat) : Prop := n = 1 ∨ n = 2 ∨ n = 4

instance (n : Nat) : Decidable (Short n) := inferInstanceAs (Decidable (_ ∨ _ ∨ _))

/-- Exact arithmetic for the lengths 1, 2 and 4. -/
def gauss (w : Nat) : Kernel GInt Int where
  lanes := w
  line := fun _ fwd n _ v => if Short n ∧ v.length = n then .ok ((List.range n).map (gdft fwd v)) else .error .ub
  fromReal := fun _ n _ v => if Short n ∧ v.length = n then .ok ((List.range (n / 2 + 1)).map (gr2c v)) else .error .ub
  toReal := fun _ n _ v => if Short n ∧ v.length = n / 2 + 1 then .ok ((List.range n).map (gc2r n v)) else .error .ub
  cast := fun x => (x, 0)
  re := fun z => z.1
  parts := id
  join := fun a b => (a, b)

theorem gauss_ok {w : Nat} (hw : 0 < w) : KernelOk (gauss w) Short gdft gr2c gc2r where
  lanes := hw
  law := fun _ _ => rfl
  line := fun _ _ _ _ _ h h' => if_pos ⟨h, h'⟩
  fromReal := fun _ _ _ _ h h' => if_pos ⟨h, h'⟩
  toReal := fun _ _ _ _ h h' => if_pos ⟨h, h'⟩

/-! ## These are the discrete Fourier transforms -/

/-- A Gaussian integer as a complex number. -/
noncomputable def toC (a : GInt) : ℂ := ⟨a.1, a.2⟩

theorem toC_add (a b : GInt) : toC (a + b) = toC a + toC b := by
  apply Complex.ext <;> simp [toC]

theorem toC_mul (a b : GInt) : toC (GInt.mul a b) = toC a * toC b := by
  apply Complex.ext <;> simp [toC, GInt.mul]

theorem toC_zero : toC 0 = 0 := by apply Complex.ext <;> simp [toC]

theorem root_quarter (fwd : Bool) : root fwd 4 1 = toC (0, if fwd then -1 else 1) := by
  unfold root sgn
  have h : (2 * (Real.pi : ℂ) * Complex.I * (1 : Nat) / (4 : Nat)) = (Real.pi : ℂ) / 2 * Complex.I := by push_cast; ring
  rw [h]
  cases fwd
  · simp only [Bool.false_eq_true, if_false, one_mul]
    rw [Complex.exp_pi_div_two_mul_I]
    apply Complex.ext <;> simp [toC]
  · simp only [if_true]
    rw [neg_one_mul, Complex.exp_neg, Complex.exp_pi_div_two_mul_I]
    apply Complex.ext <;> simp [toC]

theorem root_scale (fwd : Bool) {n k : Nat} (hk : 0 < k) (hn : 0 < n) (m : Nat) : root fwd n m = root fwd (n * k) (m * k) := by
  unfold root
  congr 2
  push_cast
  have h1 : (n : ℂ) ≠ 0 := by exact_mod_cast hn.ne'
  have h2 : (k : ℂ) ≠ 0 := by exact_mod_cast hk.ne'
  field_simp

theorem unitPow_eq (fwd : Bool) (k : Nat) : toC (unitPow fwd k) = root fwd 4 k := by
  induction k with
  | zero => rw [root_zero]; apply Complex.ext <;> simp [toC, unitPow]
  | succ k ih => rw [unitPow, toC_mul, ih, root_add, root_quarter]

theorem short_root (fwd : Bool) {n : Nat} (h : Short n) (m : Nat) : root fwd n m = toC (unitPow fwd (m * (4 / n))) := by
  rw [unitPow_eq]
  rcases h with rfl | rfl | rfl
  · exact root_scale fwd (k := 4) (by decide) (by decide) m
  · exact root_scale fwd (k := 2) (by decide) (by decide) m
  · rw [show 4 / 4 = 1 from rfl, mul_one]

theorem toC_getD (v : List GInt) (i : Nat) : toC (v.getD i 0) = (v.map toC).getD i 0 := by
  rw [List.getD_eq_getElem?_getD, List.getD_eq_getElem?_getD, List.getElem?_map]
  cases v[i]? with
  | none => exact toC_zero
  | some x => rfl

theorem toC_foldl (f : Nat → GInt) (n : Nat) : toC ((List.range n).foldl (fun acc (i : Nat) => acc + f i) 0) = ∑ i ∈ range n, toC (f i) := by
  induction n with
  | zero => simp [toC_zero]
  | succ n ih => rw [List.range_succ, List.foldl_append, List.foldl_cons, List.foldl_nil, toC_add, ih, Finset.sum_range_succ]

/-- The entries of `gdft` are those of the discrete Fourier transform. -/
theorem gdft_eq (fwd : Bool) {v : List GInt} (h : Short v.length) (k : Nat) : toC (gdft fwd v k) = dft fwd (v.map toC) k := by
  unfold gdft dft
  rw [toC_foldl, List.length_map]
  refine sum_congr rfl fun n hn => ?_
  rw [toC_mul, short_root fwd h]
  rw [toC_getD]

theorem gr2c_eq {v : List Int} (h : Short v.length) (k : Nat) : toC (gr2c v k) = r2c (v.map fun (x : Int) => (x : ℝ)) k := by
  unfold gr2c r2c
  rw [gdft_eq true (by simpa using h), List.map_map, List.map_map]
  congr 1
  refine List.map_congr_left fun x _ => ?_
  apply Complex.ext <;> simp [toC]

theorem gc2r_eq {n : Nat} (h : Short n) (v : List GInt) (k : Nat) : (gc2r n v k : ℝ) = c2r n (v.map toC) k := by
  have e : ((gc2r n v k : Int) : ℝ) = (toC (gdft false ((List.range n).map (gfull n v)) k)).re := rfl
  rw [e, gdft_eq false (by simpa using h)]
  unfold c2r dft
  congr 1
  rw [List.length_map, List.length_map, List.length_range]
  refine sum_congr rfl fun m hm => ?_
  have hm := mem_range.1 hm
  rw [List.map_map, List.getD_eq_getElem?_getD, List.getElem?_map, List.getElem?_range hm]
  congr 1
  have hg := toC_getD v
  simp only [Option.map_some, Option.getD_some]
  simp only [Function.comp_apply, gfull, fullSpectrum]
  split
  · exact hg m
  · rw [← hg]
    apply Complex.ext <;> simp [toC]

end Verif
