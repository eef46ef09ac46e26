import Verif.CApi
import Verif.SpecFortran

/-!
# Model of the Fortran interface

`/repo/fortran/generated/heffte_stockFORTRAN_wrap.cxx` is cited as `wrap.cxx`, `/repo/fortran/generated/heffte_stock.f90` as `stock.f90`; the
files of the other backends differ in the names only. A variable of the Fortran type `heffte_fft3d_stock` or `heffte_fft3d_r2c_stock` holds a
pointer to a C++ object and flags; the module decides when the object is deleted.

Simplifications: the two bits of `cmemflags` are Booleans; a pointer carries, besides its address, the number of the object it was obtained
for, so that a pointer to a deleted object stays distinguishable from a pointer to a new object at the same address (the code compares
addresses only); an allocation does not fail; a method of an existing object returns (what it computes is the subject of the other files);
one variable is one memory location (no variable is copied except by the defined assignment).
-/

namespace Verif

/-- A pointer to an object of class `fft3d` or `fft3d_r2c`. -/
structure CPtr where
  addr : Nat
  id : Nat
deriving DecidableEq

/-- `SwigClassWrapper` (wrap.cxx:409-412) with the flags `SWIG_MEM_OWN` and `SWIG_MEM_RVALUE` (wrap.cxx:210-213). -/
structure SwigWrapper where
  cptr : Option CPtr
  own : Bool
  rvalue : Bool
deriving DecidableEq

/-- `SwigClassWrapper_uninitialized` (wrap.cxx:415-420); the initial value of a variable (stock.f90, `SwigClassWrapper`). -/
def SwigWrapper.null : SwigWrapper := ⟨none, false, false⟩

/-- The state of a process: the objects in memory by address (with the number of the object), the number of objects created so far, the
variables, `heffte_stock_ierr`, and what has happened. -/
structure FState (ω κ : Type) where
  heap : Nat → Option (Nat × ω)
  made : Nat
  vars : Nat → SwigWrapper
  ierr : Int
  events : List (FEvent ω κ)

/-- The start of the program. -/
def FState.start {ω κ : Type} : FState ω κ := ⟨fun _ => none, 0, fun _ => .null, 0, []⟩

section
variable {α ω κ : Type}

/-- `delete`: nothing for the null pointer; undefined if the object of the pointer does not exist any more. -/
def FState.delete (s : FState ω κ) : Option CPtr → Res (FState ω κ)
  | none => .ok s
  | some p =>
    match s.heap p.addr with
    | some (j, _) => if j = p.id then .ok { s with heap := Function.update s.heap p.addr none, events := s.events ++ [.destroyed j] } else .error .ub
    | none => .error .ub

/-- `swig::capture` (wrap.cxx:482-485). -/
def SwigWrapper.capture (other : SwigWrapper) : SwigWrapper := { other with rvalue := false }

/-- `AssignmentPolicy::alias` (wrap.cxx:492-496). -/
def SwigWrapper.alias (other : SwigWrapper) : SwigWrapper := { other with own := false }

/-- `AssignmentPolicy::destroy` (wrap.cxx:489-491, 464-470). -/
def FState.destroy (s : FState ω κ) (self : SwigWrapper) : Res (SwigWrapper × FState ω κ) :=
  (s.delete self.cptr).map fun s' => (.null, s')

/-- `AssignmentPolicy::move_alias` (wrap.cxx:497-502). -/
def FState.moveAlias (s : FState ω κ) (self other : SwigWrapper) : Res (SwigWrapper × FState ω κ) :=
  if self.own then (s.destroy self).map fun r => (other.capture, r.2) else .ok (other.capture, s)

/-- `AssignmentPolicy::copy_alias` (wrap.cxx:503-508). -/
def FState.copyAlias (s : FState ω κ) (self other : SwigWrapper) : Res (SwigWrapper × FState ω κ) :=
  if self.own then (s.destroy self).map fun r => (other.capture, r.2) else .ok (other.capture, s)

/-- `SWIG_assign` (wrap.cxx:539-566) with the default policy (wrap.cxx:236-237). -/
def FState.swigAssign (s : FState ω κ) (self other : SwigWrapper) : Res (SwigWrapper × FState ω κ) :=
  match self.cptr with
  | none => if other.rvalue then .ok (other.capture, s) else .ok (other.alias, s)
  | some p =>
    match other.cptr with
    | none => s.destroy self
    | some q =>
      if p.addr = q.addr then .ok (self, s)
      else if other.rvalue then s.moveAlias self other
      else s.copyAlias self other

/-- The defined assignment `v = other` (stock.f90:3110-3121, wrap.cxx:1836-1844). -/
def FState.opAssign (s : FState ω κ) (v : Nat) (other : SwigWrapper) : Res (FState ω κ) :=
  (s.swigAssign (s.vars v) other).map fun r => { r.2 with vars := Function.update r.2.vars v r.1 }

/-- `_wrap_new_heffte_fft3d_stock` (wrap.cxx:596-734): the object `x` is placed at address `a`; the wrapper that is returned. -/
def FState.wrapNew (s : FState ω κ) (a : Nat) (x : ω) : SwigWrapper × FState ω κ :=
  (⟨some ⟨a, s.made⟩, true, true⟩,
   { s with heap := Function.update s.heap a (some (s.made, x)), made := s.made + 1, events := s.events ++ [.created s.made x] })

/-- `release` (stock.f90:3096-3108, wrap.cxx:1828-1833). -/
def FState.release (s : FState ω κ) (v : Nat) : Res (FState ω κ) :=
  let self := s.vars v
  (if self.own then s.delete self.cptr else .ok s).map fun s' => { s' with vars := Function.update s'.vars v .null }

/-- The other methods (wrap.cxx:738-1825): `SWIG_check_nonnull` (wrap.cxx:216-221) stores -13 in `heffte_stock_ierr` and the method returns; a
pointer to an object that does not exist any more is undefined behaviour. -/
def FState.method (s : FState ω κ) (v : Nat) (c : κ) : Res (FState ω κ) :=
  match (s.vars v).cptr with
  | none => .ok { s with ierr := -13, events := s.events ++ [.refused] }
  | some p =>
    match s.heap p.addr with
    | some (j, x) => if j = p.id then .ok { s with events := s.events ++ [.called j x c] } else .error .ub
    | none => .error .ub

/-- The end of a statement that throws no exception. -/
def FOutcome.ofRes {σ : Type} : Res σ → FOutcome σ
  | .ok s => .finished s
  | .error _ => .undefined

/-- One statement. The constructor throws before anything is assigned; no wrapper catches exceptions, so the program is terminated. -/
def FState.step (alloc : FState ω κ → Nat) (build : α → Res ω) (s : FState ω κ) : FStmt α κ → FOutcome (FState ω κ)
  | .make v args =>
    match build args with
    | .error .ub => .undefined
    | .error e => .terminated e s
    | .ok x =>
      let r := s.wrapNew (alloc s) x
      .ofRes (r.2.opAssign v r.1)
  | .copy v w => .ofRes (s.opAssign v (s.vars w))
  | .release v => .ofRes (s.release v)
  | .call v c => .ofRes (s.method v c)

/-- A whole program; `alloc` chooses the address of a new object. -/
def FState.run (alloc : FState ω κ → Nat) (build : α → Res ω) (s : FState ω κ) : List (FStmt α κ) → FOutcome (FState ω κ)
  | [] => .finished s
  | x :: xs =>
    match s.step alloc build x with
    | .finished s' => s'.run alloc build xs
    | .terminated e s' => .terminated e s'
    | .undefined => .undefined

end

/-! ## The constructors -/

/-- An element of the array `order` of a box that is one of the three directions. -/
def direction (n : Int) : Option (Fin 3) := if n = 0 then some 0 else if n = 1 then some 1 else if n = 2 then some 2 else none

/-- The two boxes of the constructors for Fortran (fft3d.h:302-323, fft3d_r2c.h:97-118) from the integer arguments; an order that is not a
triple of directions is used as an index later. -/
def fortranBoxes : List Int → Res (Box × Box)
  | [il0, il1, il2, ih0, ih1, ih2, ol0, ol1, ol2, oh0, oh1, oh2] =>
    .ok (⟨⟨il0, il1, il2⟩, ⟨ih0, ih1, ih2⟩, ⟨0, 1, 2⟩⟩, ⟨⟨ol0, ol1, ol2⟩, ⟨oh0, oh1, oh2⟩, ⟨0, 1, 2⟩⟩)
  | [il0, il1, il2, ih0, ih1, ih2, io0, io1, io2, ol0, ol1, ol2, oh0, oh1, oh2, oo0, oo1, oo2] =>
    match direction io0, direction io1, direction io2, direction oo0, direction oo1, direction oo2 with
    | some a, some b, some c, some d, some e, some f =>
      .ok (⟨⟨il0, il1, il2⟩, ⟨ih0, ih1, ih2⟩, ⟨a, b, c⟩⟩, ⟨⟨ol0, ol1, ol2⟩, ⟨oh0, oh1, oh2⟩, ⟨d, e, f⟩⟩)
    | _, _, _, _, _, _ => .error .ub
  | _ => .error .ub

/-- The argument `algorithm` is cast to `reshape_algorithm` (plan_logic.h:48-57) without a check; `make_reshape3d` (reshape3d.h:530-565) and the
point-to-point reshape (reshape3d.cpp:525) treat every other number like `p2p`. -/
def castAlgorithm (n : Int) : Alg := if n = 0 then .alltoallv else if n = 3 then .alltoall else if n = 1 then .p2pPlined else .p2p

/-- The options: the default ones or those of the three arguments (fft3d.h:309, plan_logic.h:142-144). -/
def fortranOptions : Option (Bool × Int × Bool) → Opts
  | none => Opts.default true
  | some (reorder, algorithm, pencils) => { Opts.default true with useReorder := reorder, algorithm := castAlgorithm algorithm, usePencils := pencils }

/-- The arguments of a constructor: the integers of all the ranks, the direction for `fft3d_r2c`, the options. -/
structure FortranArgs where
  ints : List (List Int)
  direction : Option Int
  options : Option (Bool × Int × Bool)

/-- The constructors for Fortran (fft3d.h:302-323, fft3d_r2c.h:97-118); all the ranks call them together with the same options. -/
def fortranNew (B : CBuild) (bk : Backend) (x : FortranArgs) : Res Object := do
  let boxes ← x.ints.mapM fortranBoxes
  match x.direction with
  | none => construct B bk (boxes.map Prod.fst) (boxes.map Prod.snd) (fortranOptions x.options)
  | some d => constructR2C B (boxes.map Prod.fst) (boxes.map Prod.snd) d (fortranOptions x.options)

/-- The arguments of a `forward` or `backward`: the direction, the types of the arrays, the number of batches and the argument `scale`. -/
structure FortranCall where
  fwd : Bool
  types : CTypes
  batch : Nat
  scale : Int

/-- What a `forward` or `backward` executes (wrap.cxx:805-1825): the method of the C++ object. -/
noncomputable def fortranCall {α β : Type} (K : Kernel α β) (f : ℝ → α → α) (g : ℝ → β → β) (W : World α β) (ob : Object) (c : FortranCall)
    (inplace : Nat → Bool) (mems : List (Mem α β)) : Res (List (Mem α β)) :=
  ob.call K f g W (c.types.mode c.fwd) c.fwd c.batch inplace (scalingOf c.scale) mems

end Verif
