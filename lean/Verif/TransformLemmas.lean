import Verif.SpecFlow
import Verif.Props.Reshape
import Verif.Props.Exec

/-!
# Lemmas about the arrays of one rank and the loops over a batch
-/

namespace Verif
variable {α β γ : Type}

/-! ## Arrays of complex or real numbers -/

namespace Data

def size : Data α β → Nat
  | .inl l => l.length
  | .inr l => l.length

def rd : Data α β → Int → Option (α ⊕ β)
  | .inl l, a => (Verif.rd l a).map .inl
  | .inr l, a => (Verif.rd l a).map .inr

def isReal : Data α β → Bool
  | .inl _ => false
  | .inr _ => true

end Data

/-- The same type and length. -/
def Alike (x y : Data α β) : Prop := x.isReal = y.isReal ∧ x.size = y.size

theorem Alike.refl (x : Data α β) : Alike x x := ⟨rfl, rfl⟩
theorem Alike.symm {x y : Data α β} (h : Alike x y) : Alike y x := ⟨h.1.symm, h.2.symm⟩
theorem Alike.trans {x y z : Data α β} (h : Alike x y) (h' : Alike y z) : Alike x z := ⟨h.1.trans h'.1, h.2.trans h'.2⟩

/-! ## Complex numbers as pairs -/

theorem toReals_length (K : Kernel α β) (l : List α) : (K.toReals l).length = 2 * l.length := by
  unfold Kernel.toReals
  induction l with
  | nil => rfl
  | cons a t ih => rw [List.flatMap_cons, List.length_append, ih]; simp; omega

theorem toReals_cons (K : Kernel α β) (z : α) (t : List α) :
    K.toReals (z :: t) = (K.parts z).1 :: (K.parts z).2 :: K.toReals t := rfl

theorem toReals_append (K : Kernel α β) (s t : List α) : K.toReals (s ++ t) = K.toReals s ++ K.toReals t := by
  unfold Kernel.toReals; rw [List.flatMap_append]

theorem toReals_toComplex (K : Kernel α β) (hK : ∀ a b, K.parts (K.join a b) = (a, b)) :
    ∀ (n : Nat) (l : List β), l.length = 2 * n → K.toReals (K.toComplex l) = l
  | 0, l, h => by
    obtain rfl : l = [] := List.length_eq_zero_iff.1 (by omega)
    rfl
  | n + 1, a :: b :: t, h => by
    have e : K.toComplex (a :: b :: t) = K.join a b :: K.toComplex t := rfl
    rw [e, toReals_cons, hK, toReals_toComplex K hK n t (by simp at h; omega)]
  | n + 1, [], h => by simp at h
  | n + 1, [a], h => by simp at h; omega

theorem toComplex_length (K : Kernel α β) : ∀ (n : Nat) (l : List β), l.length = 2 * n → (K.toComplex l).length = n
  | 0, l, h => by
    obtain rfl : l = [] := List.length_eq_zero_iff.1 (by omega)
    rfl
  | n + 1, a :: b :: t, h => by
    have e : K.toComplex (a :: b :: t) = K.join a b :: K.toComplex t := rfl
    rw [e, List.length_cons, toComplex_length K n t (by simp at h; omega)]
  | n + 1, [], h => by simp at h
  | n + 1, [a], h => by simp at h; omega

theorem toReals_take (K : Kernel α β) (l : List α) (n : Nat) : K.toReals (l.take n) = (K.toReals l).take (2 * n) := by
  induction l generalizing n with
  | nil => simp [Kernel.toReals]
  | cons a t ih =>
    cases n with
    | zero => simp [Kernel.toReals]
    | succ n => rw [List.take_succ_cons, toReals_cons, toReals_cons, ih, show 2 * (n + 1) = 2 * n + 2 from by ring]; rfl

/-! ## The arrays of a rank -/

section Lens
variable (K : Kernel α β) (E : Env)

theorem Mem.get_pointer (m : Mem α β) (b : Buf) : m.get K E (E.pointer b) = m.get K E b := by
  unfold Env.pointer
  split
  · rename_i h; obtain ⟨h1, rfl⟩ := h; simp [Mem.get, h1]
  · rfl

/-- What stays the same during a call: the input, and type and size of the arrays. -/
structure Stays (m0 m : Mem α β) : Prop where
  input : m.input = m0.input
  output : Alike m.output m0.output
  work : m.work.length = m0.work.length

theorem Stays.refl (m : Mem α β) : Stays m m := ⟨rfl, Alike.refl _, rfl⟩

theorem Stays.trans {m0 m1 m2 : Mem α β} (h : Stays m0 m1) (h' : Stays m1 m2) : Stays m0 m2 :=
  ⟨h'.input.trans h.input, h'.output.trans h.output, h'.work.trans h.work⟩

theorem Stays.get {m0 m : Mem α β} (h : Stays m0 m) (b : Buf) : Alike (m.get K E b) (m0.get K E b) := by
  cases b with
  | input =>
    unfold Mem.get
    by_cases hi : E.inplace = true
    · rw [if_pos hi, if_pos hi]; exact h.output
    · rw [if_neg hi, if_neg hi, h.input]; exact Alike.refl _
  | output => exact h.output
  | temp => refine ⟨rfl, ?_⟩; simp [Mem.get, Data.size, h.work]
  | real => refine ⟨rfl, ?_⟩; simp [Mem.get, Data.size, toReals_length, h.work]

/-- Storing an array of the right type and size. -/
theorem Mem.put_ok (hK : ∀ a b, K.parts (K.join a b) = (a, b)) (m : Mem α β) {b : Buf} (hb : E.pointer b ≠ .input)
    {x : Data α β} (hx : Alike x (m.get K E b)) :
    ∃ m', m.put K E b x = .ok m' ∧ Stays m m' ∧ m'.get K E b = x ∧
      ∀ b', E.pointer b' ≠ E.pointer b → m'.get K E b' = m.get K E b' := by
  have hout : ∃ m' : Mem α β, m' = { m with output := x } := ⟨_, rfl⟩
  cases b with
  | input =>
    have hi : E.inplace = true := by
      by_contra hc
      exact hb (by unfold Env.pointer; rw [if_neg (fun h => hc h.1)])
    refine ⟨{ m with output := x }, by simp [Mem.put, hi], ⟨rfl, ?_, rfl⟩, by simp [Mem.get, hi], ?_⟩
    · unfold Mem.get at hx; rw [if_pos hi] at hx; exact hx
    · intro b' hb'
      cases b' with
      | input => exact absurd rfl hb'
      | output => exact absurd (by simp [Env.pointer, hi]) hb'
      | temp => rfl
      | real => rfl
  | output =>
    refine ⟨{ m with output := x }, rfl, ⟨rfl, hx, rfl⟩, rfl, ?_⟩
    intro b' hb'
    cases b' with
    | input =>
      have hi : E.inplace = false := by
        by_contra hc
        rw [Bool.not_eq_false] at hc
        exact hb' (by simp [Env.pointer, hc])
      simp [Mem.get, hi]
    | output => exact absurd rfl hb'
    | temp => rfl
    | real => rfl
  | temp =>
    cases x with
    | inr l => exact absurd hx.1 (by simp [Mem.get, Data.isReal])
    | inl l =>
      have hl : l.length = m.work.length - E.tempOff := by
        have := hx.2; simpa [Mem.get, Data.size] using this
      have e1 : (m.work.take E.tempOff ++ l).drop E.tempOff = l := by
        by_cases h : E.tempOff ≤ m.work.length
        · rw [List.drop_append_of_le_length (by simp [h])]
          simp
        · have : l = [] := List.length_eq_zero_iff.1 (by omega)
          subst this
          rw [List.append_nil, List.drop_of_length_le (by simp)]
      have e2 : (m.work.take E.tempOff ++ l).take E.tempOff = m.work.take E.tempOff := by
        by_cases h : E.tempOff ≤ m.work.length
        · rw [List.take_append_of_le_length (by simp [h]), List.take_take, min_self]
        · have : l = [] := List.length_eq_zero_iff.1 (by omega)
          subst this
          rw [List.append_nil, List.take_take, min_self]
      refine ⟨{ m with work := m.work.take E.tempOff ++ l }, rfl, ⟨rfl, Alike.refl _, ?_⟩, ?_, ?_⟩
      · simp only [List.length_append, List.length_take, hl]; omega
      · simp only [Mem.get, e1]
      · intro b' hb'
        cases b' with
        | input => rfl
        | output => rfl
        | temp => exact absurd rfl hb'
        | real => simp only [Mem.get, e2]
  | real =>
    cases x with
    | inl l => exact absurd hx.1 (by simp [Mem.get, Data.isReal])
    | inr l =>
      have hl : l.length = 2 * min E.tempOff m.work.length := by
        have := hx.2; simpa [Mem.get, Data.size, toReals_length] using this
      have hc := toComplex_length K _ l hl
      have e1 : (K.toComplex l ++ m.work.drop E.tempOff).take E.tempOff = K.toComplex l := by
        by_cases h : E.tempOff ≤ m.work.length
        · rw [List.take_append_of_le_length (by omega), List.take_of_length_le (by omega)]
        · rw [List.drop_of_length_le (by omega), List.append_nil, List.take_of_length_le (by omega)]
      have e2 : (K.toComplex l ++ m.work.drop E.tempOff).drop E.tempOff = m.work.drop E.tempOff := by
        by_cases h : E.tempOff ≤ m.work.length
        · rw [List.drop_append_of_le_length (by omega), List.drop_of_length_le (by omega), List.nil_append]
        · rw [List.drop_of_length_le (l := m.work) (by omega), List.append_nil, List.drop_of_length_le (by omega)]
      refine ⟨{ m with work := K.toComplex l ++ m.work.drop E.tempOff }, rfl, ⟨rfl, Alike.refl _, ?_⟩, ?_, ?_⟩
      · simp only [List.length_append, List.length_drop, hc]; omega
      · simp only [Mem.get, e1]
        rw [toReals_toComplex K hK _ l hl]
      · intro b' hb'
        cases b' with
        | input => rfl
        | output => rfl
        | temp => simp only [Mem.get, e2]
        | real => exact absurd rfl hb'

end Lens

/-! ## Data in an array -/

/-- Values of all indexes for every entry of the batch, all complex or all real. -/
abbrev Field (α β : Type) := (Nat → A3 Int → α) ⊕ (Nat → A3 Int → β)

namespace Field

def val : Field α β → Nat → A3 Int → α ⊕ β
  | .inl g, j, p => .inl (g j p)
  | .inr g, j, p => .inr (g j p)

def isReal : Field α β → Bool
  | .inl _ => false
  | .inr _ => true

end Field

/-- The entry `j` of the batch has its values in the layout of the box. -/
def HoldsSlot (b : Box) (j : Nat) (x : Data α β) (g : Field α β) : Prop :=
  ∀ p : A3 Int, p ∈ b → x.rd (j * b.points.card + b.offset p) = some (g.val j p)

theorem holdsSlot_inl {b : Box} {j : Nat} {l : List α} {g : Nat → A3 Int → α} :
    HoldsSlot (β := β) b j (.inl l) (.inl g) ↔ Holds b l (j * b.points.card) (g j) := by
  unfold HoldsSlot Holds
  refine forall_congr' fun p => imp_congr_right fun _ => ?_
  simp only [Data.rd, Field.val]
  cases rd l (j * b.points.card + b.offset p) <;> simp

theorem holdsSlot_inr {b : Box} {j : Nat} {l : List β} {g : Nat → A3 Int → β} :
    HoldsSlot (α := α) b j (.inr l) (.inr g) ↔ Holds b l (j * b.points.card) (g j) := by
  unfold HoldsSlot Holds
  refine forall_congr' fun p => imp_congr_right fun _ => ?_
  simp only [Data.rd, Field.val]
  cases rd l (j * b.points.card + b.offset p) <;> simp

/-- Two boxes with the same indexes in the same places. -/
def SameLayout (a b : Box) : Prop := (∀ p : A3 Int, p ∈ a ↔ p ∈ b) ∧ ∀ p : A3 Int, p ∈ a → a.offset p = b.offset p

theorem SameLayout.refl (a : Box) : SameLayout a a := ⟨fun _ => Iff.rfl, fun _ _ => rfl⟩

theorem SameLayout.symm {a b : Box} (h : SameLayout a b) : SameLayout b a :=
  ⟨fun p => (h.1 p).symm, fun p hp => (h.2 p ((h.1 p).2 hp)).symm⟩

theorem SameLayout.trans {a b c : Box} (h : SameLayout a b) (h' : SameLayout b c) : SameLayout a c :=
  ⟨fun p => (h.1 p).trans (h'.1 p), fun p hp => (h.2 p hp).trans (h'.2 p ((h.1 p).1 hp))⟩

theorem SameLayout.points {a b : Box} (h : SameLayout a b) : a.points = b.points := by
  ext p; rw [Box.mem_points, Box.mem_points]; exact h.1 p

theorem SameLayout.holds {a b : Box} (h : SameLayout a b) {j : Nat} {x : Data α β} {g : Field α β} (hx : HoldsSlot a j x g) :
    HoldsSlot b j x g := fun p hp => by
  rw [← h.points, ← h.2 p ((h.1 p).2 hp)]
  exact hx p ((h.1 p).2 hp)

theorem sameLayout_empty {a b : Box} (ha : ∀ p : A3 Int, p ∉ a) (hb : ∀ p : A3 Int, p ∉ b) : SameLayout a b :=
  ⟨fun p => ⟨fun h => absurd h (ha p), fun h => absurd h (hb p)⟩, fun p hp => absurd hp (ha p)⟩

end Verif
