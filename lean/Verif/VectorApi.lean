import Verif.Api

/-!
# Model of the methods that take and return vectors

`fft3d::forward`, `backward` and `backward_real` (`/repo/include/heffte_fft3d.h`, cited as `fft3d.h`), `fft3d_r2c::forward` and `backward`
(`/repo/include/heffte_fft3d_r2c.h`, cited as `fft3d_r2c.h`).

Simplifications: all the ranks make the call together.  When the size check fails on some of the ranks, the result is the list of those
ranks; the other ranks are not followed any further (they wait for messages that never come or return, depending on the plan).
-/

namespace Verif

/-- The methods with vectors. -/
inductive Method where
  /-- `fft3d::forward`, with data of the type of the output or with real data for a Fourier transform (fft3d.h:440-448). -/
  | forward (fromReal : Bool)
  /-- `fft3d::backward` (fft3d.h:521-530). -/
  | backward
  /-- `fft3d::backward_real` (fft3d.h:535-542). -/
  | backwardReal
  /-- `fft3d_r2c::forward` (fft3d_r2c.h:210-219). -/
  | r2cForward
  /-- `fft3d_r2c::backward` (fft3d_r2c.h:284-291). -/
  | r2cBackward
deriving DecidableEq, Repr

/-- The direction of the transform. -/
def Method.fwd : Method → Bool
  | .forward _ => true
  | .r2cForward => true
  | _ => false

/-- The overload of `compute_transform` that the types of the vectors select. -/
def Method.mode : Method → Mode
  | .forward false => .same
  | .forward true => .r2c
  | .backward => .same
  | .backwardReal => .c2r
  | .r2cForward => .r2c
  | .r2cBackward => .c2r

/-- The methods with `if (input.size() < ...) throw` (fft3d.h:442-443, 525-526; fft3d_r2c.h:212-213); the other two have no such line. -/
def Method.checks : Method → Bool
  | .backwardReal => false
  | .r2cBackward => false
  | _ => true

/-- What happens on the ranks. -/
inductive VectorResult (α β : Type) where
  /-- The vectors returned. -/
  | returned (outs : List (Data α β))
  /-- The ranks that throw `std::invalid_argument`. -/
  | threw (ranks : List Nat)
  /-- The call on arrays fails. -/
  | failed (e : Err)

section
variable {α β : Type}

/-- `make_buffer_container` (common.h:643-646) of the type of the output: `std::vector` starts with zeros, the vectors of the GPU backends
with anything; `x` and `y` are that content. -/
def Method.makeOutput (v : Method) (x : Nat → α) (y : Nat → β) (n : Int) : Data α β :=
  if v.mode = .c2r then .inr ((List.range n.toNat).map y) else .inl ((List.range n.toNat).map x)

/-- The size a vector must have on rank `r` and the size of the vector returned. -/
def Object.sizeFrom (o : Object) (v : Method) (r : Nat) : Int := if v.fwd then o.sizeInbox r else o.sizeOutbox r
def Object.sizeTo (o : Object) (v : Method) (r : Nat) : Int := if v.fwd then o.sizeOutbox r else o.sizeInbox r

/-- Number of entries of a vector. -/
def vectorSize : Data α β → Nat
  | .inl l => l.length
  | .inr l => l.length

/-- The ranks with a vector that is too short, in the order of the ranks. -/
def Object.shortRanks (o : Object) (v : Method) (inputs : List (Data α β)) : List Nat :=
  (List.range inputs.length).filter fun r => match inputs[r]? with
    | some x => decide ((vectorSize x : Int) < o.sizeFrom v r)
    | none => false

/-- A method on all the ranks: the check, the output, the workspace of `size_workspace` (fft3d.h:358, 473; fft3d_r2c.h:152, 239), the call
of the method with arrays.  `fillA r` and `fillB r` are the contents of new memory on rank `r`. -/
def Object.vectorCall (o : Object) (call : Mode → Bool → List (Mem α β) → Res (List (Mem α β))) (fillA : Nat → Nat → α) (fillB : Nat → Nat → β)
    (ws : Executor → Int) (v : Method) (inputs : List (Data α β)) : VectorResult α β :=
  if v.checks ∧ o.shortRanks v inputs ≠ [] then .threw (o.shortRanks v inputs)
  else
    match call v.mode v.fwd (inputs.mapIdx fun r x =>
      ⟨x, v.makeOutput (fillA r) (fillB r) (o.sizeTo v r), (List.range (o.sizeWorkspace ws r).toNat).map (fillA r)⟩) with
    | .ok ms => .returned (ms.map Mem.output)
    | .error e => .failed e

end
end Verif
