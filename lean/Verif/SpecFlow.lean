import Verif.Transform

/-!
# What it means to run the stages of a transform in order

The data go through the reshapes and executors of the plan in the order reshape 0, executor 0, reshape 1, ..., executor 2, reshape
3.  `flow` replays a list of operations against this schedule and follows the array that has the data.  It does not use how the list
was made.
-/

namespace Verif

/-- The reason why there is an executor or not: it runs; there is none since the box is empty; there is none since another
executor does the work (two and three dimensional executors). -/
inductive Kind where
  | run
  | empty
  | merged
deriving DecidableEq, Repr

/-- The executor whose size is used. -/
def Sz.k : Sz → Fin 3
  | .box k => k
  | .cplx k => k

/-- One situation of a rank. -/
structure Case where
  mode : Mode
  /-- the object is an `fft3d_r2c`: the real executor changes the number of entries -/
  halved : Bool
  /-- the batch size is larger than one -/
  many : Bool
  s0 : Bool
  s1 : Bool
  s2 : Bool
  s3 : Bool
  k0 : Kind
  k1 : Kind
  k2 : Kind
  inplace : Bool
deriving DecidableEq, Repr

namespace Case

/-- Reshape `i` exists on the rank. -/
def s (c : Case) : Nat → Bool
  | 0 => c.s0
  | 1 => c.s1
  | 2 => c.s2
  | 3 => c.s3
  | _ => false

def kind (c : Case) : Fin 3 → Kind
  | 0 => c.k0
  | 1 => c.k1
  | 2 => c.k2

/-- What `compute_transform` sees. -/
def pattern (c : Case) : Pattern :=
  ⟨c.s0, c.s1, c.s2, c.s3, c.k0 = .run, c.k1 = .run, c.k2 = .run, c.inplace⟩

/-- The data of reshape `i` are real. -/
def realAt (c : Case) (i : Nat) : Bool :=
  match c.mode with
  | .same => false
  | .r2c => i = 0
  | .c2r => i = 3

/-- The arrays of real numbers. -/
def isReal (c : Case) (b : Buf) : Bool :=
  match c.mode with
  | .same => false
  | .r2c => b = .input ∨ b = .real
  | .c2r => b = .output ∨ b = .real

/-- The input is the output in a call in place. -/
def pointer (c : Case) (b : Buf) : Buf := if c.inplace ∧ b = .input then .output else b

/-- No reshape with number `a, ..., b - 1`. -/
def quiet (c : Case) (a b : Nat) : Bool := (List.range' a (b - a)).all fun i => !c.s i

/-- The data are in the array `b`, or there are no data. -/
def found (c : Case) (loc : Option Buf) (b : Buf) : Bool := loc = none ∨ loc = some (c.pointer b)

/-- The step between the entries of a batch has the value it should have: it is the size of the right executor, or of the first one
if the number of entries does not change in between. -/
def stepOk (c : Case) (want step : Sz) : Bool :=
  c.kind step.k = .run && (!c.many || step = want || match want with
    | .box k => !c.halved && step = .box 0 && c.quiet 1 (k + 1)
    | _ => false)

/-- Executor `k` may be called like this: in place, or between arrays of different types; the final array is used only if no reshape
follows. -/
def callOk (c : Case) (k : Fin 3) (loc : Option Buf) (x : Call) : Bool :=
  x.k = k && c.found loc x.src && c.isReal x.src = c.realAt k && c.isReal x.dst = c.realAt (k + 1) &&
  if c.realAt k = c.realAt (k + 1) then
    x.dst = x.src && x.sstep = x.dstep && (x.src = .output || x.src = .temp) && c.stepOk (.box k) x.sstep
  else if c.realAt k then
    (x.dst = .temp || x.dst = .output && c.quiet (k + 1) 4) && c.stepOk (.box k) x.sstep && c.stepOk (.cplx k) x.dstep
  else
    x.src = .temp && (x.dst = .real && c.s (k + 1) || x.dst = .output && c.quiet (k + 1) 4) && c.stepOk (.cplx k) x.sstep && c.stepOk (.box k) x.dstep

/-- Reshape `i` may be applied like this. -/
def reshapeOk (c : Case) (i : Fin 4) (loc : Option Buf) (src dst : Buf) : Bool :=
  c.found loc src && c.isReal src = c.realAt i && c.isReal dst = c.realAt i &&
  if c.realAt i then (src = .input && dst = .real) || (src = .real && dst = .output && c.quiet (i + 1) 4)
  else src ≠ .real && ((dst = .temp && decide (i < 3)) || (dst = .output && c.quiet (i + 1) 4))

/-- All the data can be copied with the size of executor `k`. -/
def copyOk (c : Case) (k : Fin 3) (loc : Option Buf) (src dst : Buf) : Bool :=
  c.kind k = .run && src = .input && loc = some .input && c.isReal .input = c.isReal dst && c.quiet 0 (k + 1) &&
    (!c.halved || k < 2) && (dst = .temp || dst = .output && c.quiet 0 4)

/-- The calls in the body of one loop over the batch, for the executors `ks` without a reshape in between: where the data are
afterwards. -/
def calls (c : Case) : List (Fin 3) → Option Buf → List Call → Option (Option Buf)
  | [], loc, [] => some loc
  | [], _, _ :: _ => none
  | k :: ks, loc, xs =>
    match c.kind k with
    | .empty => c.calls ks none xs
    | .merged => c.calls ks loc xs
    | .run =>
      match xs with
      | [] => none
      | x :: xs => if c.callOk k loc x then c.calls ks (some x.dst) xs else none

end Case

/-- The items of the schedule; `start` is the place for a copy of the input. -/
inductive Item where
  | start
  | resh (i : Fin 4)
  | exec (k : Fin 3)
deriving DecidableEq, Repr

def schedule : List Item := [.start, .resh 0, .exec 0, .resh 1, .exec 1, .resh 2, .exec 2, .resh 3]

/-- The operations do what is left of the schedule, each item once and in order, on the array that has the data; the data end in
the output. -/
def flow (c : Case) : List Item → Option Buf → List Instr → Bool
  | [], loc, prog => prog = [] && (loc = none || loc = some .output)
  | .start :: rest, loc, prog =>
    match prog with
    | .copy k src dst :: t => c.copyOk k loc src dst && flow c rest (some dst) t
    | _ => flow c rest loc prog
  | .resh i :: rest, loc, prog =>
    if c.s i then
      match prog with
      | .reshape j src dst :: t => j = i && c.reshapeOk i loc src dst && flow c rest (some dst) t
      | _ => false
    else flow c rest loc prog
  | .exec k :: rest, loc, prog =>
    match c.kind k with
    | .empty => flow c rest none prog
    | .merged => flow c rest loc prog
    | .run =>
      match prog with
      | .batch [x] :: t => c.callOk k loc x && flow c rest (some x.dst) t
      | .batch xs :: t =>
        match rest with
        | [.resh _, .exec _, .resh _, .exec _, .resh i] =>
          decide (k = 0) && c.quiet 1 3 && match c.calls [0, 1, 2] loc xs with
            | some loc' => flow c [.resh i] loc' t
            | none => false
        | _ => false
      | _ => false

/-- `compute_transform` returns a list of operations that does the schedule. -/
def Runs (c : Case) : Prop :=
  ∃ prog, program c.mode c.pattern = .ok prog ∧
    flow c schedule (some (if c.inplace then .output else .input)) prog = true

instance (c : Case) : Decidable (Runs c) :=
  match h : program c.mode c.pattern with
  | .ok prog =>
    if hf : flow c schedule (some (if c.inplace then .output else .input)) prog = true then .isTrue ⟨prog, h, hf⟩
    else .isFalse fun ⟨p, h1, h2⟩ => hf (by rw [h] at h1; obtain rfl := Except.ok.inj h1; exact h2)
  | .error _ => .isFalse fun ⟨p, h1, _⟩ => by rw [h] at h1; cases h1

/-! ## Which situations exist, and which of them go wrong -/

namespace Case

/-- The situations that a plan can give rise to.  Without a reshape in between the boxes of two executors have the same indexes; an
executor is merged into a neighbour without a reshape in between; calls in place have one type; an `fft3d_r2c` is called with real data
on one side and has no merged executors; the executor that changes the type is not merged. -/
def consistent (c : Case) : Bool :=
  (c.s1 || decide (c.k0 = .empty) == decide (c.k1 = .empty)) && (c.s2 || decide (c.k1 = .empty) == decide (c.k2 = .empty)) &&
  (c.k0 ≠ .merged || (!c.s1 && !c.s2 && c.k1 = .merged && c.k2 = .run)) &&
  (c.k2 ≠ .merged || (!c.s1 && !c.s2 && c.k1 = .merged && c.k0 = .run)) &&
  (c.k1 ≠ .merged || (!c.s1 && c.k0 = .run) || (!c.s2 && c.k2 = .run)) &&
  (!c.inplace || c.mode = .same) &&
  (!c.halved || (c.mode ≠ .same && c.k0 ≠ .merged && c.k1 ≠ .merged && c.k2 ≠ .merged)) &&
  (c.mode ≠ .r2c || c.k0 ≠ .merged) && (c.mode ≠ .c2r || c.k2 ≠ .merged)

/-- The number of reshapes. -/
def active (c : Case) : Nat := [c.s0, c.s1, c.s2, c.s3].count true

/-- The situations that go wrong. Same types, out of place, no first reshape: no indexes ahead of the first executor and not exactly one
reshape, or the first executor merged and a last reshape.  Real to complex, `fft3d_r2c`: a batch, and no reshape behind the first
executor.  Complex to real: no first reshape and no indexes ahead of the first executor. -/
def bad (c : Case) : Bool :=
  match c.mode with
  | .same => !c.inplace && !c.s0 && ((c.k0 = .empty && c.active ≠ 1) || (c.k0 = .merged && c.s3))
  | .r2c => c.halved && c.many && !c.s1 && !c.s2 && !c.s3 && c.k0 = .run
  | .c2r => !c.s0 && c.k0 = .empty

/-- All the situations. -/
def all : List Case :=
  let bools := [false, true]
  let kinds := [Kind.run, .empty, .merged]
  [Mode.same, .r2c, .c2r].flatMap fun m => bools.flatMap fun h => bools.flatMap fun n => bools.flatMap fun s0 => bools.flatMap fun s1 =>
    bools.flatMap fun s2 => bools.flatMap fun s3 => kinds.flatMap fun k0 => kinds.flatMap fun k1 => kinds.flatMap fun k2 =>
    bools.map fun i => ⟨m, h, n, s0, s1, s2, s3, k0, k1, k2, i⟩

theorem mem_all (c : Case) : c ∈ all := by
  have hb : ∀ b : Bool, b ∈ [false, true] := by decide
  have hk : ∀ k : Kind, k ∈ [Kind.run, .empty, .merged] := by intro k; cases k <;> simp
  have hm : ∀ m : Mode, m ∈ [Mode.same, .r2c, .c2r] := by intro m; cases m <;> simp
  obtain ⟨m, h, n, s0, s1, s2, s3, k0, k1, k2, i⟩ := c
  simp only [all, List.mem_flatMap, List.mem_map]
  exact ⟨m, hm m, h, hb h, n, hb n, s0, hb s0, s1, hb s1, s2, hb s2, s3, hb s3, k0, hk k0, k1, hk k1, k2, hk k2, i, hb i, rfl⟩

end Case

end Verif
