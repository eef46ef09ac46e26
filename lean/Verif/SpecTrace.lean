import Verif.Spec
import Mathlib.Data.Rat.Defs
import Mathlib.Algebra.Order.Ring.Unbundled.Rat

/-!
# What a log of events is

Independent of the code: scopes of a program are entered and left like brackets; an event is a scope that was left, with the time of the
entry and the time in between.
-/

namespace Verif

/-- A scope with a name is entered or the innermost scope is left. -/
inductive TraceOp where
  | enter (name : String)
  | leave
deriving DecidableEq, Repr

/-- Sequences where the brackets match. -/
inductive Nested : List TraceOp → Prop
  | nil : Nested []
  | scope (name : String) {a b : List TraceOp} : Nested a → Nested b → Nested (.enter name :: (a ++ .leave :: b))

/-- The scope `name` is entered at position `i` and left at position `j`. -/
def ScopeAt (ops : List TraceOp) (name : String) (i j : Nat) : Prop :=
  ∃ a b c, ops = a ++ .enter name :: (b ++ .leave :: c) ∧ Nested b ∧ i = a.length ∧ j = a.length + b.length + 1

/-- A line of the log: name, start and duration. -/
structure Event where
  name : String
  start : ℚ
  duration : ℚ
deriving DecidableEq, Repr

/-- The events of the program `ops` when position `k` is reached at the time `clock k`: one for each scope that is left, in the order in
which they are left. -/
def EventsOf (clock : Nat → ℚ) (ops : List TraceOp) (log : List Event) : Prop :=
  ∃ scopes : List (String × Nat × Nat), (scopes.map fun s => s.2.2).Pairwise (· < ·) ∧
    (∀ name i j, (name, i, j) ∈ scopes ↔ ScopeAt ops name i j) ∧
    log = scopes.map fun s => ⟨s.1, clock s.2.1, clock s.2.2 - clock s.2.1⟩

/-- The name of a scope that is entered. -/
def TraceOp.name? : TraceOp → Option String
  | .enter name => some name
  | .leave => none

/-- The number of points that rank `q` has before and rank `r` has after a reshape. -/
def sharedPoints (bin bout : List Box) (q r : Nat) : Nat :=
  match bin[q]?, bout[r]? with
  | some a, some b => (a.points ∩ b.points).card
  | _, _ => 0

end Verif
