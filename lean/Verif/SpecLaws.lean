import Verif.SpecDft
import Verif.SpecMem
import Verif.TransformLemmas

/-!
# Laws between the arrays of several calls

What a program can see of distributed arrays: the entry of an index in the array of the rank with the index, in the layout of its box. The laws in
`Props/Laws.lean` are equations between such entries of the input and the output of several calls.
-/

namespace Verif

/-- An entry of an array, real or complex, as a complex number. -/
noncomputable def asComplex : ℂ ⊕ ℝ → ℂ
  | .inl v => v
  | .inr v => (v : ℂ)

/-- The entry of the index `p` in the array `j` of the batch: the rank `r` has the index in its box and the array `x`, where the entry is at the
position of `p` in the layout of the box. -/
def EntryAt (boxes : List Box) (data : List (Data ℂ ℝ)) (j : Nat) (p : A3 Int) (v : ℂ) : Prop :=
  ∃ (r : Nat) (b : Box) (x : Data ℂ ℝ), boxes[r]? = some b ∧ data[r]? = some x ∧ p ∈ b ∧ (x.rd (j * b.points.card + b.offset p)).map asComplex = some v

/-- Two worlds of the same shape up to the order of the axes: the axis `d` of `w'` has the length of the axis `σ d` of `w`. -/
def SameExtents (w w' : Box) (σ : Equiv.Perm (Fin 3)) : Prop := ∀ d, w'.extent d = w.extent (σ d)

/-- The index of `w'` in the place of the index `p` of `w`. -/
def moved (w w' : Box) (σ : Equiv.Perm (Fin 3)) (p : A3 Int) : A3 Int := A3.of fun d => w'.low.get d + (p.get (σ d) - w.low.get (σ d))

/-- One dimensional transform of the values `f 0, …, f (n - 1)`. -/
noncomputable def line (fwd : Bool) (n : Nat) (f : Nat → ℂ) (k : Nat) : ℂ := ∑ a ∈ Finset.range n, f a * root fwd n (a * k)

end Verif
