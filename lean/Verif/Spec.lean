import Verif.Basic
import Mathlib.Data.Finset.Prod
import Mathlib.Data.Int.Interval
import Mathlib.Data.Finset.Card

/-!
# Specification vocabulary for geometry

Independent of the model functions: an index triple is in a box when it is
between the bounds, a list of boxes tiles a region when every index of the
region is in exactly one of them.
-/

namespace Verif

/-- An index triple belongs to a box. -/
def Box.Mem (b : Box) (p : A3 Int) : Prop := ∀ d, b.low.get d ≤ p.get d ∧ p.get d ≤ b.high.get d

instance : Membership (A3 Int) Box := ⟨Box.Mem⟩

theorem Box.mem_def {b : Box} {p : A3 Int} :
    p ∈ b ↔ ∀ d, b.low.get d ≤ p.get d ∧ p.get d ≤ b.high.get d := Iff.rfl

theorem forall_fin3 {P : Fin 3 → Prop} : (∀ d, P d) ↔ P 0 ∧ P 1 ∧ P 2 := by
  constructor
  · intro h; exact ⟨h 0, h 1, h 2⟩
  · rintro ⟨h0, h1, h2⟩ d
    match d with
    | 0 => exact h0
    | 1 => exact h1
    | 2 => exact h2

theorem exists_fin3 {P : Fin 3 → Prop} : (∃ d, P d) ↔ P 0 ∨ P 1 ∨ P 2 := by
  constructor
  · rintro ⟨d, h⟩
    match d with
    | 0 => exact .inl h
    | 1 => exact .inr (.inl h)
    | 2 => exact .inr (.inr h)
  · rintro (h | h | h)
    exacts [⟨_, h⟩, ⟨_, h⟩, ⟨_, h⟩]

theorem Box.mem_iff {b : Box} {p : A3 Int} :
    p ∈ b ↔ (b.low.x ≤ p.x ∧ p.x ≤ b.high.x) ∧ (b.low.y ≤ p.y ∧ p.y ≤ b.high.y) ∧
      (b.low.z ≤ p.z ∧ p.z ≤ b.high.z) := by
  rw [Box.mem_def, forall_fin3]; rfl

instance (b : Box) (p : A3 Int) : Decidable (p ∈ b) := decidable_of_iff _ Box.mem_iff.symm

/-- Index triples as nested pairs. -/
def tripleEquiv : Int × Int × Int ≃ A3 Int where
  toFun t := ⟨t.1, t.2.1, t.2.2⟩
  invFun a := (a.x, a.y, a.z)
  left_inv _ := rfl
  right_inv _ := rfl

/-- The finite set of index triples of a box. -/
def Box.points (b : Box) : Finset (A3 Int) :=
  (Finset.Icc b.low.x b.high.x ×ˢ Finset.Icc b.low.y b.high.y ×ˢ Finset.Icc b.low.z b.high.z).map
    tripleEquiv.toEmbedding

@[simp] theorem Box.mem_points {b : Box} {p : A3 Int} : p ∈ b.points ↔ p ∈ b := by
  rw [Box.mem_iff]
  simp only [Box.points, Finset.mem_map_equiv, Finset.mem_product, Finset.mem_Icc]
  rfl

/-- How many of the boxes contain the index triple. -/
def owners (boxes : List Box) (p : A3 Int) : Nat := boxes.countP fun b => decide (p ∈ b)

/-- Every index triple of `w` is in exactly one of the boxes and the boxes contain no
other index triples. -/
def Tiles (boxes : List Box) (w : Box) : Prop :=
  ∀ p : A3 Int, owners boxes p = if p ∈ w then 1 else 0

/-- A box spans the region `w` in direction `d`. -/
def Spans (b w : Box) (d : Fin 3) : Prop := b.low.get d = w.low.get d ∧ b.high.get d = w.high.get d

/-- A box without index triples. -/
def Box.NoIndex (b : Box) : Prop := ∀ p : A3 Int, p ∉ b

/-- The surface that `proc_setup_min_surface` is documented to minimise, for a grid of ranks. -/
def boxSurface (w : Box) (g : A3 Nat) : Int :=
  (w.size.x / g.x) * (w.size.y / g.y) + (w.size.y / g.y) * (w.size.z / g.z) + (w.size.z / g.z) * (w.size.x / g.x)

/-- A grid that uses all the ranks and is not larger than the world. -/
def UsesAll (w : Box) (n : Nat) (g : A3 Nat) : Prop :=
  g.x * g.y * g.z = n ∧ ∀ d, (g.get d : Int) ≤ w.size.get d

end Verif
