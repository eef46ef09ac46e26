import Mathlib.Data.List.Basic
import Mathlib.Tactic.Common

/-!
# The vectors in device memory

`/repo/include/heffte_backend_vector.h` is cited as `vector.h`, `/repo/include/heffte_backend_cuda.h`, `heffte_backend_rocm.h` and
`heffte_backend_oneapi.h` in the same directory as `cuda.h`, `rocm.h` and `oneapi.h`.

The memory of the devices is a heap of blocks; a vector is a pointer with a number of entries and a queue.  Undefined behaviour is a
separate outcome: a second free, a copy from or to memory that is not allocated or too small, memory of one context used with a queue of
another one (oneAPI).

Simplifications: a queue stands for its context; copies are complete when the next operation starts (all the operations of a vector use
the stream of the vector, `cudaFree` and `hipFree` wait for the device, oneAPI waits for each copy); copies do not fail.
-/

namespace Verif

/-- An allocation: the context of the queue and the contents. -/
structure DevBlock (α : Type) where
  context : Nat
  data : List α

/-- `device_vector` (vector.h:148-154): `device`, `num`, `device_data`. -/
structure DevVec where
  queue : Nat
  num : Nat
  data : Option Nat

/-- The memory, the vectors of the program, the raw pointers of the program. -/
structure DevState (α : Type) where
  heap : Nat → Option (DevBlock α)
  vecs : Nat → Option DevVec
  raws : Nat → Option Nat

/-- CUDA and ROCm check the allocations and free memory without a stream; oneAPI does neither. -/
inductive DevApi where
  | checked
  | oneapi
deriving DecidableEq

/-- The answer of the system to an allocation: no memory; a null pointer for zero entries; a new block with arbitrary contents. -/
inductive DevAnswer (α : Type) where
  | failed
  | null
  | block (a : Nat) (junk : List α)

/-- The outcome of an operation; after an exception the program goes on. -/
inductive DevEnd (σ : Type) where
  | ok (s : σ)
  | throws (s : σ)
  | ub

section
variable {α : Type}

/-- `data_manipulator::allocate` (cuda.h:237-241, rocm.h:264-268, oneapi.h:231-235). -/
def devAllocate (api : DevApi) (heap : Nat → Option (DevBlock α)) (queue : Nat) : DevAnswer α → Option ((Nat → Option (DevBlock α)) × Option Nat)
  | .block a junk => some (Function.update heap a (some ⟨queue, junk⟩), some a)
  | .null => some (heap, none)
  | .failed => match api with
    | .checked => none
    | .oneapi => some (heap, none)

/-- `data_manipulator::free` (cuda.h:244-247, rocm.h:271-274, oneapi.h:238-241); `none` is undefined behaviour. -/
def devFree (api : DevApi) (heap : Nat → Option (DevBlock α)) (queue : Nat) : Option Nat → Option (Nat → Option (DevBlock α))
  | none => some heap
  | some a =>
    match heap a with
    | none => none
    | some b => if api = .oneapi ∧ b.context ≠ queue then none else some (Function.update heap a none)

/-- `data_manipulator::copy_device_to_device` (cuda.h:274-277, rocm.h:301-304, oneapi.h:264-266) of `n` entries from entry `i` on. -/
def devCopy (api : DevApi) (heap : Nat → Option (DevBlock α)) (queue : Nat) (src : Option Nat) (i n : Nat) (dst : Option Nat) : Option (Nat → Option (DevBlock α)) :=
  if n = 0 then some heap else
  match src, dst with
  | some s, some d =>
    match heap s, heap d with
    | some a, some b =>
      if i + n ≤ a.data.length ∧ n ≤ b.data.length ∧ (api = .oneapi → a.context = queue ∧ b.context = queue) then
        some (Function.update heap d (some { b with data := (a.data.drop i).take n ++ b.data.drop n }))
      else none
    | _, _ => none
  | _, _ => none

/-- The operations of a program on vectors and raw pointers, given by their numbers. -/
inductive DevOp (α : Type) where
  | make (v queue n : Nat)
  | range (v queue w i n : Nat)
  | copy (v w : Nat)
  | move (v w : Nat)
  | assign (v w : Nat)
  | moveAssign (v w : Nat)
  | capture (v queue r n : Nat)
  | release (v r : Nat)
  | destroy (v : Nat)
  | discard (r queue : Nat)
  | write (v i : Nat) (x : α)

/-- A new vector (vector.h:62-73) on the heap. -/
def newVec (api : DevApi) (heap : Nat → Option (DevBlock α)) (queue n : Nat) (ans : DevAnswer α) : Option ((Nat → Option (DevBlock α)) × DevVec) :=
  match devAllocate api heap queue ans with
  | none => none
  | some (h, p) => some (h, ⟨queue, n, p⟩)

/-- The copy constructor (vector.h:85-88): first a new vector on the device of the other one, then the copy.  `none` is an exception. -/
def copyVec (api : DevApi) (heap : Nat → Option (DevBlock α)) (other : DevVec) (ans : DevAnswer α) : Option (Option ((Nat → Option (DevBlock α)) × DevVec)) :=
  match newVec api heap other.queue other.num ans with
  | none => none
  | some (h, d) => some ((devCopy api h d.queue other.data 0 d.num d.data).map fun h => (h, d))

/-- The end of an assignment (vector.h:114-117, 122-125): take over the device of `temp`, exchange numbers and pointers, and the destructor of
`temp`. -/
def takeOver (api : DevApi) (heap : Nat → Option (DevBlock α)) (this temp : DevVec) : Option ((Nat → Option (DevBlock α)) × DevVec) :=
  (devFree api heap temp.queue this.data).map fun h => (h, ⟨temp.queue, temp.num, temp.data⟩)

/-- One operation. -/
def devStep (api : DevApi) (st : DevState α) : DevOp α → DevAnswer α → DevEnd (DevState α)
  -- vector.h:62-73
  | .make v queue n, ans =>
    match newVec api st.heap queue n ans with
    | none => .throws st
    | some (h, d) => .ok { st with heap := h, vecs := Function.update st.vecs v (some d) }
  -- vector.h:74-83
  | .range v queue w i n, ans =>
    match st.vecs w with
    | none => .ub
    | some other =>
      match newVec api st.heap queue n ans with
      | none => .throws st
      | some (h, d) =>
        match devCopy api h d.queue other.data i d.num d.data with
        | none => .ub
        | some h => .ok { st with heap := h, vecs := Function.update st.vecs v (some d) }
  -- vector.h:85-88
  | .copy v w, ans =>
    match st.vecs w with
    | none => .ub
    | some other =>
      match copyVec api st.heap other ans with
      | none => .throws st
      | some none => .ub
      | some (some (h, d)) => .ok { st with heap := h, vecs := Function.update st.vecs v (some d) }
  -- vector.h:90-94
  | .move v w, _ =>
    match st.vecs w with
    | none => .ub
    | some other => .ok { st with vecs := Function.update (Function.update st.vecs w (some ⟨other.queue, 0, none⟩)) v (some ⟨other.queue, other.num, other.data⟩) }
  -- vector.h:113-118
  | .assign v w, ans =>
    match st.vecs v, st.vecs w with
    | some this, some other =>
      match copyVec api st.heap other ans with
      | none => .throws st
      | some none => .ub
      | some (some (h, temp)) =>
        match takeOver api h this temp with
        | none => .ub
        | some (h, d) => .ok { st with heap := h, vecs := Function.update st.vecs v (some d) }
    | _, _ => .ub
  -- vector.h:121-126
  | .moveAssign v w, _ =>
    match st.vecs w with
    | none => .ub
    | some other =>
      let vecs := Function.update st.vecs w (some ⟨other.queue, 0, none⟩)
      match vecs v with
      | none => .ub
      | some this =>
        match takeOver api st.heap this ⟨other.queue, other.num, other.data⟩ with
        | none => .ub
        | some (h, d) => .ok { st with heap := h, vecs := Function.update vecs v (some d) }
  -- vector.h:97-107
  | .capture v queue r n, _ =>
    .ok { st with vecs := Function.update st.vecs v (some ⟨queue, n, st.raws r⟩), raws := Function.update st.raws r none }
  -- vector.h:139-142
  | .release v r, _ =>
    match st.vecs v with
    | none => .ub
    | some d => .ok { st with vecs := Function.update st.vecs v (some ⟨d.queue, 0, none⟩), raws := Function.update st.raws r d.data }
  -- vector.h:110
  | .destroy v, _ =>
    match st.vecs v with
    | none => .ub
    | some d =>
      match devFree api st.heap d.queue d.data with
      | none => .ub
      | some h => .ok { st with heap := h, vecs := Function.update st.vecs v none }
  -- the user frees a raw pointer
  | .discard r queue, _ =>
    match devFree api st.heap queue (st.raws r) with
    | none => .ub
    | some h => .ok { st with heap := h, raws := Function.update st.raws r none }
  -- the user writes entry `i` of `data()` (vector.h:129)
  | .write v i x, _ =>
    match st.vecs v with
    | none => .ub
    | some d =>
      match d.data with
      | none => .ub
      | some a =>
        match st.heap a with
        | none => .ub
        | some b => if i < b.data.length then .ok { st with heap := Function.update st.heap a (some { b with data := b.data.set i x }) } else .ub

/-- A program; `none` is undefined behaviour. -/
def devRun (api : DevApi) : List (DevOp α × DevAnswer α) → DevState α → Option (DevState α)
  | [], st => some st
  | (op, ans) :: rest, st =>
    match devStep api st op ans with
    | .ok st => devRun api rest st
    | .throws st => devRun api rest st
    | .ub => none

/-- The start of the program. -/
def devStart : DevState α := ⟨fun _ => none, fun _ => none, fun _ => none⟩

/-- What the program sees of a vector: `size()` and the entries of `data()` (vector.h:129-136). -/
def DevState.entries (st : DevState α) (d : DevVec) : Option (List α) :=
  if d.num = 0 then some [] else
  match d.data with
  | none => none
  | some a =>
    match st.heap a with
    | none => none
    | some b => if d.num ≤ b.data.length then some (b.data.take d.num) else none

end
end Verif
