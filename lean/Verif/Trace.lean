import Verif.SpecTrace
import Verif.MpiSession

/-!
# Tracing (`-D Heffte_ENABLE_TRACING=ON`)

The log of events of heffte_trace.h and the places where events are recorded.
-/

namespace Verif

/-- The variables `event_log` and `log_filename` (reshape3d.cpp:17-18), the objects of type `add_trace` that exist, the last one first, and the
files that have been written, the last one first. -/
structure Tracer where
  file : String := ""
  log : List Event := []
  alive : List (String × ℚ) := []
  disk : List (String × List Event) := []

/-- The calls: `init_tracing`, `finalize_tracing`, and the constructor or the destructor of `add_trace`. -/
inductive TraceCall where
  | init (root : String)
  | finalize
  | op (o : TraceOp)

/-- heffte_trace.h:82-121.  `now` is what `MPI_Wtime` returns.  `finalize_tracing` opens (and empties) the file and writes one line for each
event; a file with the empty name cannot be opened, then nothing is written.  A destructor without an object is not possible in C++. -/
def Tracer.step (rank : Nat) (now : ℚ) (s : Tracer) : TraceCall → Res Tracer
  | .init root => .ok { s with log := [], file := root ++ "_" ++ toString rank ++ ".log" }
  | .finalize => .ok (if s.file = "" then s else { s with disk := (s.file, s.log) :: s.disk })
  | .op (.enter name) => .ok { s with alive := (name, now) :: s.alive }
  | .op .leave =>
    match s.alive with
    | [] => .error .ub
    | (name, start) :: rest => .ok { s with alive := rest, log := s.log ++ [⟨name, start, now - start⟩] }

/-- A sequence of calls; the call number `k` reads the clock at the time `clock k`. -/
def Tracer.run (rank : Nat) (clock : Nat → ℚ) : Nat → Tracer → List TraceCall → Res Tracer
  | _, s, [] => .ok s
  | k, s, c :: t => do Tracer.run rank clock (k + 1) (← s.step rank (clock k) c) t

/-! ## The events of a reshape -/

/-- `{ add_trace name(...); ... }`: a scope without further scopes. -/
def flatScope (name : String) : List TraceOp := [.enter name, .leave]

/-- The names of the events of `reshape3d_pointtopoint::apply_base` (reshape3d.cpp:627-714) and, with `staged`, of `no_gpuaware_send_recv`
(reshape3d.cpp:534-620), in order.  `done` is the order in which `MPI_Waitany` reports the requests.  In the name of `isend` of
`no_gpuaware_send_recv` the size is not multiplied with the size of the batch (568); the name of the unpacking is made of the
number of the request in `apply_base` (704) and of the rank of the sender in `no_gpuaware_send_recv` (614).  Integers do not
overflow (see C79). -/
def PointToPoint.events (o : PointToPoint) (staged plined : Bool) (nb : Nat) (done : List Nat) : List String :=
  ((dropSelf o.selfToSelf o.unpacks).map fun e => "irecv " ++ toString ((nb : Int) * e.size) ++ " from " ++ toString e.proc) ++
  ((dropSelf o.selfToSelf o.packs).flatMap fun e => ["packing",
    if plined then "isend " ++ toString (if staged then e.size else (nb : Int) * e.size) ++ " for " ++ toString e.proc
    else "send " ++ toString ((nb : Int) * e.size) ++ " for " ++ toString e.proc]) ++
  (if o.selfToSelf then ["self packing", "self unpacking"] else []) ++
  done.flatMap fun i => ["waitany", "unpacking from " ++
    (if staged then (match o.unpacks[i]? with | some e => toString e.proc | none => "") else toString i)]

/-- The names of the events of `apply`: reshape3d.cpp:248, 271, 286 (all-to-all), 376, 400, 431 (all-to-all with counts); there is none
in `reshape3d_transpose` (reshape3d.h:452-485). -/
def Shaper.events (staged plined : Bool) (nb : Nat) (done : List Nat) : Option Shaper → List String
  | some (.alltoall _ _) => ["packing", "all2all", "unpacking"]
  | some (.alltoallv _ _) => ["packing", "all2allv", "unpacking"]
  | some (.p2p _ o) => o.events staged plined nb done
  | some (.transpose _) | none => []

/-! ## The events of a transform -/

/-- A step of a call: an event begins or ends, or something is done. -/
inductive TStep where
  | mark (o : TraceOp)
  | work (c : Instr)
deriving DecidableEq, Repr

/-- `{ add_trace name(...); body }`. -/
def traced (name : String) (body : Res (List TStep)) : Res (List TStep) := do
  .ok (.mark (.enter name) :: ((← body) ++ [.mark .leave]))

/-- Operations without an event of their own. -/
def works (l : Res (List Instr)) : Res (List TStep) := do .ok ((← l).map .work)

/-- `for(int i=a; i<b; i++) body(i)`. -/
def tloop (a b : Nat) (body : Nat → Res (List TStep)) : Res (List TStep) :=
  (List.range' a (b - a)).foldlM (fun acc (i : Nat) => do .ok (acc ++ (← body i))) []

/-- `apply_fft` (compute_transform.cpp:34-48). -/
def tracedFft (P : Pattern) (buf : Buf) (i : Nat) : Res (List TStep) := traced "fft-1d" (works (applyFft P buf i))

/-- `while(not shaper[active_shaper]) apply_fft(active_shaper++, output)` (compute_transform.cpp:103-106). -/
def tracedWhile (P : Pattern) : List Nat → Res (List TStep × Nat)
  | [] => .error .ub
  | i :: t =>
    if P.s i then .ok ([], i)
    else do
      let f ← tracedFft P .output i
      let (l, k) ← tracedWhile P t
      .ok (f ++ l, k)

/-- `compute_transform` with the same type of input and output (compute_transform.cpp:15-127). -/
def tracedSame (P : Pattern) : Res (List TStep) :=
  let last := P.last
  if last < 1 then
    traced "reshape/copy" do
      let move ← works (if last = 0 then applyShaper P 0 .input .output
        else if !P.inplace then copyAll P P.valid .input .output
        else .ok [])
      let ffts ← tloop 0 3 (tracedFft P .output)
      .ok (move ++ ffts)
  else if P.active = 1 then do
    let eff : Buf := if !P.inplace then .temp else .output
    let move ← if !P.inplace then traced "copy" (works (.ok (if P.e 0 then [Instr.copy 0 .input .temp] else []))) else .ok []
    let before ← tloop 0 last.toNat (tracedFft P eff)
    let move2 ← traced "reshape" (works (applyShaper P last.toNat eff .output))
    let after ← tloop last.toNat 3 (tracedFft P .output)
    .ok (move ++ before ++ move2 ++ after)
  else do
    let (first, active) ←
      if P.s 0 || !P.inplace then do
        let l ← if P.s 0 then traced "reshape" (works (applyShaper P 0 .input .temp))
          else traced "copy" (works (copyAll P 0 .input .temp))
        pure (l, 1)
      else do
        let (l, a) ← tracedWhile P [0, 1, 2, 3]
        let sh ← traced "reshape" (works (applyShaper P a .output .temp))
        pure (l ++ sh, a + 1)
    let fft ← tracedFft P .temp (active - 1)
    let middle ← tloop active last.toNat fun (i : Nat) => do
      let f ← tracedFft P .temp i
      if P.s i then pure ((← traced "reshape" (works (applyShaper P i .temp .temp))) ++ f) else pure f
    let move ← traced "reshape" (works (applyShaper P last.toNat .temp .output))
    let after ← tloop last.toNat 3 (tracedFft P .output)
    .ok (first ++ fft ++ middle ++ move ++ after)

/-- `compute_transform` from real to complex (compute_transform.cpp:129-196). -/
def tracedR2C (P : Pattern) : Res (List TStep) := do
  let last := P.last
  let first ← if P.s 0 then traced "reshape" (.ok [.work (.reshape 0 .input .real)]) else .ok []
  let eff : Buf := if P.s 0 then .real else .input
  if last < 1 then
    if !P.e 0 && (P.e 1 || P.e 2) then .error .ub
    else
      let calls := (if P.e 0 then [Call.mk 0 eff (.box 0) .output (.cplx 0)] else []) ++
        (if P.e 1 then [Call.mk 1 .output (.box 0) .output (.box 0)] else []) ++
        (if P.e 2 then [Call.mk 2 .output (.box 0) .output (.box 0)] else [])
      .ok (first ++ (← traced "fft-1d x3" (works (.ok (if calls = [] then [] else [.batch calls])))))
  else
    let fft ← traced "fft-1d" (works (.ok (if P.e 0 then [Instr.batch [⟨0, eff, .box 0, .temp, .cplx 0⟩]] else [])))
    let middle ← tloop 1 last.toNat fun (i : Nat) => do
      let f ← traced "fft-1d" (works (applyFft P .temp i))
      if P.s i then pure ((← traced "reshape" (works (applyShaper P i .temp .temp))) ++ f) else pure f
    let move ← traced "reshape" (works (applyShaper P last.toNat .temp .output))
    let after ← tloop last.toNat 3 fun i => traced "fft-1d" (works (applyFft P .output i))
    .ok (first ++ fft ++ middle ++ move ++ after)

/-- `compute_transform` from complex to real (compute_transform.cpp:197-258); the events of the first two transforms have the name
`fft-1d x3` (223). -/
def tracedC2R (P : Pattern) : Res (List TStep) := do
  let first ← if P.s 0 then traced "reshape" (works (applyShaper P 0 .input .temp))
    else traced "copy" (works (copyAll P P.valid .input .temp))
  let middle ← tloop 0 2 fun (i : Nat) => do
    let f ← traced "fft-1d x3" (works (applyFft P .temp i))
    if P.s (i + 1) then pure (f ++ (← traced "reshape" (works (applyShaper P (i + 1) .temp .temp)))) else pure f
  let tail ←
    if P.s 3 then do
      let f ← traced "fft-1d" (works (.ok (if P.e 2 then [Instr.batch [⟨2, .temp, .cplx 2, .real, .box 2⟩]] else [])))
      pure (f ++ (← traced "reshape" (.ok [.work (.reshape 3 .real .output)])))
    else traced "fft-1d" (works (.ok (if P.e 2 then [Instr.batch [⟨2, .temp, .cplx 2, .output, .box 2⟩]] else [])))
  .ok (first ++ middle ++ tail)

/-- The three overloads of `compute_transform`. -/
def tracedProgram : Mode → Pattern → Res (List TStep)
  | .same => tracedSame
  | .r2c => tracedR2C
  | .c2r => tracedC2R

/-- The events of the steps; a reshape has the events `sub i`. -/
def expand (sub : Fin 4 → List TraceOp) (l : List TStep) : List TraceOp := l.flatMap fun c => match c with
  | .mark o => [o]
  | .work (.reshape i _ _) => sub i
  | .work _ => []

/-- The events of a call of `forward` or `backward` on the rank `r` (fft3d.h:373-402, 660-679; fft3d_r2c.h:350-368): the transform and, unless the
scaling is `scale::none`, the event `scale`. -/
def MpiPlan.traceOps (P : MpiPlan) (staged : Bool) (mode : Mode) (fwd inplace scaled : Bool) (nb : Nat) (done : Fin 4 → List Nat) (r : Nat) :
    Res (List TraceOp) := do
  let shs := shaperAt (P.obj.fft.shapers fwd) r
  let l ← tracedProgram mode (patternOf shs (P.obj.fft.executors fwd r) inplace)
  .ok (expand (fun i => (Shaper.events staged (decide (P.alg = .p2pPlined)) nb (done i) (shs i)).flatMap flatScope) l ++
    if scaled then flatScope "scale" else [])

end Verif
