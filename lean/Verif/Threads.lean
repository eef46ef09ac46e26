import Verif.StockFFT

/-!
# Several threads that call one executor of the stock backend

`/repo/include/heffte_backend_stock.h` is cited as `stock.h`, `/repo/include/stock_fft/heffte_stock_algos.h` as `algos.h`.

The methods `forward` and `backward` of the executors are `const`, but they change two things of the executor: the pointer to the plan (`mutable`,
`make_plan`, stock.h:533-535), and the work memory in the nodes of the plan (algos.h:79-90).  Everything else that a call writes belongs to the caller: its arrays and
the local vectors `inp` and `out`.  A thread is a list of steps, and the steps of the threads alternate in any way.
-/

namespace Verif.Stock
variable {K : Type}

/-- What the threads share: the `unique_ptr` to the plan, the number of plans made so far (the next address), which of them have not been deleted,
and the work memory of their nodes. -/
structure SharedPlan (K : Type) where
  slot : Option Nat
  made : Nat
  live : Nat → Bool
  work : Nat → Nat → Arr K

/-- Where a thread is in `forward` or `backward` (stock.h:475-501). -/
inductive CallPc where
  /-- before `if (!plan)` -/
  | test
  /-- after the test of a null pointer, before the assignment -/
  | make
  /-- before the next `zforward->execute(data + i * block_stride)` -/
  | next
  /-- inside of `execute` of the plan at the address, before a line -/
  | inside (a : Nat)
  /-- inside of `composite_FFT` at the root, after its first loop -/
  | between (a : Nat)
  | done
deriving DecidableEq, Repr

/-- A thread in a call: the lines of the current block, the blocks to come, the transformed lines. -/
structure Caller (K : Type) where
  pc : CallPc
  lines : List (List K)
  blocks : List (List (List K))
  out : List (List K)

/-- A thread at the begin of a call. -/
def Caller.fresh (b : List (List (List K))) : Caller K := ⟨.test, [], b, []⟩

variable [Zero K] [One K] [Add K] [Sub K] [Mul K] [Neg K] [Div K] [NatCast K] (tw : Tw K)

/-- The first loop of `composite_FFT` (algos.h:289-303): the work memory afterwards. -/
def compositeFill (N N1 N2 n : Nat) (right : Arr K → Nat → Nat → Arr K → Nat → Nat → (Nat → Arr K) → Out K) (dir : Bool)
    (x : Arr K) (xo si : Nat) (W : Nat → Arr K) : Nat → Arr K :=
  let w1 := tw.om dir 1 N
  let s := forRange 0 N1 (fun j1 (s : Arr K × K × (Nat → Arr K)) =>
    let wj1 := s.2.1
    let o := right x (xo + j1 * si) (N1 * si) s.1 (N2 * j1) 1 s.2.2
    let z := if 0 < j1 then
        (forRange 1 (N2 - 1) (fun k2 (t : Arr K × K) => (st t.1 (j1 * N2 + k2) (t.1 (j1 * N2 + k2) * t.2), t.2 * wj1)) (o.1, wj1)).1
      else o.1
    (z, wj1 * w1, o.2)) (W n, 1, W)
  setWs s.2.2 n s.1

/-- The second loop of `composite_FFT` (algos.h:309-311). -/
def compositeDrain (N2 n : Nat) (left : Arr K → Nat → Nat → Arr K → Nat → Nat → (Nat → Arr K) → Out K) (y : Arr K) (yo so : Nat) (W : Nat → Arr K) : Out K :=
  forRange 0 N2 (fun k2 (o : Out K) => left (W n) k2 N2 o.1 (yo + k2 * so) (N2 * so) o.2) (y, W)

/-- The work memory of the plan at the address `a`. -/
def SharedPlan.setWork (s : SharedPlan K) (a : Nat) (W : Nat → Arr K) : SharedPlan K := { s with work := fun b => if b = a then W else s.work b }

/-- The line `v` has been transformed into `out`. -/
def Caller.put (c : Caller K) (a : Nat) (ls : List (List K)) (N : Nat) (out : Arr K) : Caller K :=
  { c with pc := .inside a, lines := ls, out := c.out ++ [(List.range N).map out] }

/-- One step of a thread in a call of the executor for lines of length `N` with the call graph `t`; `out0` is what `out` holds in the beginning. -/
def threadStep (t : Tree) (N : Nat) (dir : Bool) (out0 : Arr K) (s : SharedPlan K) (c : Caller K) : Res (SharedPlan K × Caller K) :=
  match c.pc with
  | .test => .ok (s, { c with pc := if s.slot.isNone then .make else .next })
  | .make =>
    -- the new plan, and the deletion of what was there
    .ok ({ s with slot := some s.made, made := s.made + 1, live := fun b => b == s.made || (s.live b && s.slot != some b) }, { c with pc := .next })
  | .next =>
    match c.blocks with
    | [] => .ok (s, { c with pc := .done })
    | b :: bs =>
      match s.slot with
      | none => .error .ub
      | some a => .ok (s, { c with pc := .inside a, lines := b, blocks := bs })
  | .inside a =>
    match c.lines with
    | [] => .ok (s, { c with pc := .next })
    | v :: vs =>
      if !s.live a || v.length ≠ N then .error .ub
      else match t with
        | .composite M l r =>
          .ok (s.setWork a (compositeFill tw M l.sz r.sz 0 (r.fft tw (0 + (1 + l.count)) dir) dir (fun n => v.getD n 0) 0 1 (s.work a)), { c with pc := .between a })
        | t =>
          let o := t.fft tw 0 dir (fun n => v.getD n 0) 0 1 out0 0 1 (s.work a)
          .ok (s.setWork a o.2, c.put a vs N o.1)
  | .between a =>
    match c.lines, t with
    | _ :: vs, .composite _ l r =>
      if !s.live a then .error .ub
      else
        let o := compositeDrain r.sz 0 (l.fft tw (0 + 1) dir) out0 0 1 (s.work a)
        .ok (s.setWork a o.2, c.put a vs N o.1)
    | _, _ => .error .ub
  | .done => .ok (s, c)

/-- The threads and what they share. -/
structure Threads (K : Type) where
  shared : SharedPlan K
  callers : Nat → Caller K

/-- The executor of lines of length `N` runs the threads in the order of the schedule.  The plan is made by `plan_stock_fft` (stock.h:399-405). -/
def Threads.run (N : Nat) (dir : Bool) (out0 : Arr K) : List Nat → Threads K → Res (Threads K)
  | [], ts => .ok ts
  | i :: is, ts => do
    let nodes ← stockPlan N
    match loadTree nodes nodes.length 0 with
    | none => .error .ub
    | some t =>
      let (s, c) ← threadStep tw t N dir out0 ts.shared (ts.callers i)
      Threads.run N dir out0 is ⟨s, fun j => if j = i then c else ts.callers j⟩

end Verif.Stock
