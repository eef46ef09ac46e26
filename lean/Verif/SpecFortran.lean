import Mathlib.Logic.Function.Basic
import Verif.Basic

/-!
# What a Fortran program may expect of its plan variables

A variable of the Fortran type holds no plan, or names a plan and either owns it or not. The variable to which a new plan is assigned owns
it; `v = w` lets `v` name the plan of `w` without owning it; a plan is destroyed when the variable that owns it is released or gets
another value. Plans are numbered in the order in which they are created. Nothing here mentions pointers, flags or addresses.
-/

namespace Verif

/-- The statements of a program about its variables 0, 1, 2, ...: `v = heffte_fft3d(args)`, `v = w`, `call v%release()` and the call of
another method of `v` with the arguments `c`. -/
inductive FStmt (α κ : Type) where
  | make (v : Nat) (args : α)
  | copy (v w : Nat)
  | release (v : Nat)
  | call (v : Nat) (c : κ)

/-- What happens: plan `k` is created (and is the object `x`), plan `k` is destroyed, a method of plan `k`, the object `x`, is executed, a
method is refused because the variable holds no plan. -/
inductive FEvent (ω κ : Type) where
  | created (k : Nat) (x : ω)
  | destroyed (k : Nat)
  | called (k : Nat) (x : ω) (c : κ)
  | refused

/-- How a program ends: it has executed all its statements, a constructor has thrown an exception and the program is terminated, or the
behaviour is undefined. -/
inductive FOutcome (σ : Type) where
  | finished (s : σ)
  | terminated (e : Err) (s : σ)
  | undefined

variable {α ω κ : Type}

/-- The expected state: what the variables hold (the number of a plan and whether the variable owns it), the objects of all the plans that
have been created, and what has happened. -/
structure FSpec (ω κ : Type) where
  vars : Nat → Option (Nat × Bool)
  plans : List ω
  events : List (FEvent ω κ)

/-- The start of the program. -/
def FSpec.start : FSpec ω κ := ⟨fun _ => none, [], []⟩

/-- Some variable owns plan `k`. -/
def FSpec.Living (t : FSpec ω κ) (k : Nat) : Prop := ∃ v, t.vars v = some (k, true)

/-- The plan that is destroyed because its owner `v` gets another value. -/
def FSpec.drops (t : FSpec ω κ) (v : Nat) : List (FEvent ω κ) :=
  match t.vars v with
  | some (j, true) => [.destroyed j]
  | _ => []

/-- Variable `v` gets another value. -/
def FSpec.assign (t : FSpec ω κ) (v : Nat) (h : Option (Nat × Bool)) : FSpec ω κ :=
  { t with vars := Function.update t.vars v h, events := t.events ++ t.drops v }

/-- A new plan, with the next number, is assigned to variable `v`. -/
def FSpec.create (t : FSpec ω κ) (v : Nat) (x : ω) : FSpec ω κ :=
  ⟨Function.update t.vars v (some (t.plans.length, true)), t.plans ++ [x], t.events ++ .created t.plans.length x :: t.drops v⟩

/-- One statement. -/
def FSpec.step (build : α → Res ω) (t : FSpec ω κ) : FStmt α κ → FOutcome (FSpec ω κ)
  | .make v args =>
    match build args with
    | .error .ub => .undefined
    | .error e => .terminated e t
    | .ok x => .finished (t.create v x)
  | .copy v w => .finished <|
    match t.vars v, t.vars w with
    | none, none => t
    | none, some (k, _) => t.assign v (some (k, false))
    | some _, none => t.assign v none
    | some (j, _), some (k, _) => if j = k then t else t.assign v (some (k, false))
  | .release v => .finished (t.assign v none)
  | .call v c => .finished <|
    match t.vars v with
    | none => { t with events := t.events ++ [.refused] }
    | some (k, _) =>
      match t.plans[k]? with
      | some x => { t with events := t.events ++ [.called k x c] }
      | none => t

/-- A whole program. -/
def FSpec.run (build : α → Res ω) (t : FSpec ω κ) : List (FStmt α κ) → FOutcome (FSpec ω κ)
  | [] => .finished t
  | x :: xs =>
    match t.step build x with
    | .finished t' => t'.run build xs
    | .terminated e t' => .terminated e t'
    | .undefined => .undefined

/-- What a program must respect. A new plan is assigned to a variable that holds no plan or a plan that has not been destroyed. `v = w` is
used when `v` holds no plan, or `v` owns its plan and `w` holds none, or both name the same plan, or `w` does not own its plan and neither
plan has been destroyed. Methods are called for variables that hold no plan or a plan that has not been destroyed. -/
def FSpec.Permitted (build : α → Res ω) (t : FSpec ω κ) : FStmt α κ → Prop
  | .make v args => build args ≠ .error .ub ∧ ∀ k mine, t.vars v = some (k, mine) → t.Living k
  | .copy v w =>
    match t.vars v, t.vars w with
    | none, _ => True
    | some (_, mine), none => mine = true
    | some (j, _), some (k, mine) => j = k ∨ (mine = false ∧ t.Living j ∧ t.Living k)
  | .release _ => True
  | .call v _ => ∀ k mine, t.vars v = some (k, mine) → t.Living k

/-- Every statement that is executed is permitted. -/
def FSpec.PermittedRun (build : α → Res ω) (t : FSpec ω κ) : List (FStmt α κ) → Prop
  | [] => True
  | x :: xs => t.Permitted build x ∧ ∀ t', t.step build x = .finished t' → t'.PermittedRun build xs

/-- What has to hold of an event after the events `l`: plans are numbered consecutively, only existing plans that have not been destroyed
are destroyed or used. -/
def Orderly (l : List (FEvent ω κ)) : FEvent ω κ → Prop
  | .created k _ => ∀ j, (∃ x, .created j x ∈ l) ↔ j < k
  | .destroyed k => (∃ x, .created k x ∈ l) ∧ .destroyed k ∉ l
  | .called k x _ => .created k x ∈ l ∧ .destroyed k ∉ l
  | .refused => True

/-- A sequence of events in which every plan is created once, destroyed at most once and not used afterwards. -/
def Lifetimes (l : List (FEvent ω κ)) : Prop := ∀ pre e post, l = pre ++ e :: post → Orderly pre e

/-- The boxes that a list of integers stands for: the lowest and the highest indexes of the input box, then (if they are given) its
orders, then the same for the output box. -/
def StandsFor (l : List Int) (inbox outbox : Box) : Prop :=
  (l.length = 12 ∧ inbox.order = ⟨0, 1, 2⟩ ∧ outbox.order = ⟨0, 1, 2⟩ ∧ ∀ d : Fin 3, l[(d : Nat)]? = some (inbox.low.get d) ∧
    l[3 + (d : Nat)]? = some (inbox.high.get d) ∧ l[6 + (d : Nat)]? = some (outbox.low.get d) ∧ l[9 + (d : Nat)]? = some (outbox.high.get d)) ∨
  (l.length = 18 ∧ ∀ d : Fin 3, l[(d : Nat)]? = some (inbox.low.get d) ∧ l[3 + (d : Nat)]? = some (inbox.high.get d) ∧
    l[6 + (d : Nat)]? = some ((inbox.order.get d : Nat) : Int) ∧ l[9 + (d : Nat)]? = some (outbox.low.get d) ∧
    l[12 + (d : Nat)]? = some (outbox.high.get d) ∧ l[15 + (d : Nat)]? = some ((outbox.order.get d : Nat) : Int))

end Verif
