import Mathlib.Logic.Function.Basic

/-!
# Plans in variables of C++: the promises

A program declares variables of the type `fft3d` or `fft3d_r2c`, moves plans between them, calls them and lets them go out of scope.
What is promised: a value lives in one variable at a time, and whatever was acquired for it is used only while it is held and is
released exactly once.
-/

namespace Verif

/-- Something that has to be given back: memory, a communicator, a plan of an FFT library, a queue.  `plan` is the number of the
constructor call it belongs to, `member` the member of the plan, `part` the part of that member (`none`: the memory of the object). -/
structure Resource where
  plan : Nat
  member : Nat
  part : Option Nat
deriving DecidableEq, Repr

inductive ResEvent where
  | acquire (r : Resource)
  | use (r : Resource)
  | release (r : Resource)
deriving DecidableEq, Repr

def ResEvent.resource : ResEvent → Resource
  | .acquire r => r
  | .use r => r
  | .release r => r

/-- The life of a resource. -/
inductive Phase where
  | fresh | held | gone
deriving DecidableEq, Repr

/-- The only legal steps: acquire what is fresh, use and release what is held. -/
def Phase.after : Phase → ResEvent → Option Phase
  | .fresh, .acquire _ => some .held
  | .held, .use _ => some .held
  | .held, .release _ => some .gone
  | _, _ => none

/-- The phase of `r` after a log, `none` if something illegal has happened to it. -/
def phaseFrom (r : Resource) : Option Phase → List ResEvent → Option Phase
  | ph, [] => ph
  | ph, e :: es => phaseFrom r (if e.resource = r then ph.bind (·.after e) else ph) es

def phaseOf (log : List ResEvent) (r : Resource) : Option Phase := phaseFrom r (some .fresh) log

/-- Nothing is acquired twice, used before it is acquired or after it is released, or released twice. -/
def UsedRight (log : List ResEvent) : Prop := ∀ r, phaseOf log r ≠ none

/-- Everything acquired has been released. -/
def GivenBack (log : List ResEvent) : Prop := ∀ r, phaseOf log r = some .fresh ∨ phaseOf log r = some .gone

/-- What a program does with its variables.  `γ`: the arguments of a call. -/
inductive VarOp (γ : Type) where
  /-- `fft3d<tag> v(inbox, outbox, comm, options);` -/
  | make (v : Nat)
  /-- `fft3d<tag> v(std::move(w));`, also an entry of a growing `std::vector`, or the result of a function -/
  | moveInit (v w : Nat)
  /-- `v = std::move(w);` -/
  | moveAssign (v w : Nat)
  | call (v : Nat) (args : γ)
  /-- the end of the scope of `v` -/
  | destroy (v : Nat)

/-- Where the values are: the number of plans made so far, and for each variable `none` if it does not exist, `some none` if its value
has been moved away, `some (some p)` if it has the value made by the constructor call number `p`. -/
structure Owners where
  next : Nat
  holds : Nat → Option (Option Nat)

/-- No variables at the start. -/
def Owners.start : Owners := ⟨0, fun _ => none⟩

/-- Moving as everybody understands it; `none`: the program is not a valid program. -/
def Owners.step {γ : Type} (o : Owners) : VarOp γ → Option Owners
  | .make v => if o.holds v = none then some ⟨o.next + 1, Function.update o.holds v (some (some o.next))⟩ else none
  | .moveInit v w =>
    if o.holds v = none then
      match o.holds w with
      | some x => some ⟨o.next, Function.update (Function.update o.holds v (some x)) w (some none)⟩
      | none => none
    else none
  | .moveAssign v w =>
    if o.holds v = none then none
    else match o.holds w with
      | some x => if v = w then some o else some ⟨o.next, Function.update (Function.update o.holds v (some x)) w (some none)⟩
      | none => none
  | .call v _ => match o.holds v with
    | some (some _) => some o
    | _ => none
  | .destroy v => if o.holds v = none then none else some ⟨o.next, Function.update o.holds v none⟩

def Owners.run {γ : Type} : Owners → List (VarOp γ) → Option Owners
  | o, [] => some o
  | o, op :: ops => (o.step op).bind fun o' => o'.run ops

/-- All the variables have gone out of scope. -/
def Owners.Over (o : Owners) : Prop := ∀ v, o.holds v = none

/-- The program moves no plan. -/
def VarOp.isMove {γ : Type} : VarOp γ → Bool
  | .moveInit _ _ | .moveAssign _ _ => true
  | _ => false

end Verif
