import Verif.Net
import Verif.Transform

/-!
# Transforms of ranks that run at their own speed

`/repo/src/heffte_reshape3d.cpp` is cited as `reshape3d.cpp`, `/repo/include/heffte_reshape3d.h` as `reshape3d.h`,
`/repo/src/heffte_compute_transform.cpp` as `compute_transform.cpp`, `/repo/include/heffte_fft3d.h` as `fft3d.h`.

In `Transform` all the ranks meet in each reshape.  Here every rank runs the program of the user, with any number of transforms of any plans, on
its own; it only waits for messages.  The operations are the ones of `Transform` and `Reshape`, cut into the parts before and after the
messages.

Simplifications: the contents of a message are taken when it is sent (the send buffer is not modified before the send is complete,
C72); a collective call is a message to each member and a message from each member; a message is written into its receive buffer when
it is waited for, and the unpacking follows after the last one (in the code each message is unpacked when it has arrived; source,
destination and the two halves of the workspace are different memory).
-/

namespace Verif

/-- The contents of a message: complex or real numbers, `none` for entries read outside of the memory. -/
abbrev Packet (α β : Type) := List (Option α) ⊕ List (Option β)

/-- Messages of one type. -/
structure Lane (α β γ : Type) where
  inj : List (Option γ) → Packet α β
  prj : Packet α β → Option (List (Option γ))

section
variable {α β γ υ : Type}

def complexLane : Lane α β α where
  inj := .inl
  prj := fun p => match p with
    | .inl l => some l
    | .inr _ => none

def realLane : Lane α β β where
  inj := .inr
  prj := fun p => match p with
    | .inl _ => none
    | .inr l => some l

/-- `apply_base` up to the sends (reshape3d.cpp:236-268, 366-396, 651-674): pack, and the messages. -/
def startExchange (L : Lane α β γ) (P : Port α β γ) (job : Job) (m : Mem α β) (sd : Buf × Buf) : Res (List (Nat × Packet α β)) :=
  match P.arrays m sd with
  | none => .error .ub
  | some a => do
    let ws ← copyMoves job.packs a.src a.ws
    .ok (job.sends.map fun s => (s.peer, L.inj ((loop s.len).map fun t => rd ws (s.addr + t))))

/-- What the messages write into the workspace, in the order of their arrival.  A message of another type or length is undefined behaviour. -/
def arrivals (L : Lane α β γ) (job : Job) : List (Nat × Packet α β) → Res (List (Int × Option γ))
  | [] => .ok []
  | (j, p) :: t =>
    match job.recvs[j]?, L.prj p with
    | some q, some l => if l.length = q.len.toNat then do
        let rest ← arrivals L job t
        .ok (((loop q.len).map fun k => (q.addr + k, (l[k.toNat]?).join)) ++ rest)
      else .error .ub
    | _, _ => .error .ub

/-- `apply_base` after the messages (reshape3d.cpp:276-299, 421-449, 676-713) and `reshape3d_transpose::transpose` (reshape3d.h:471-485): the
messages are in the workspace, pack the own part, unpack. -/
def endExchange (L : Lane α β γ) (P : Port α β γ) (stride nb : Nat) (sh : Shaper) (inplace : Bool) (m : Mem α β) (sd : Buf × Buf)
    (got : List (Nat × Packet α β)) : Res (Mem α β) :=
  let job := Shaper.job stride nb (got.map (·.1)) (some sh)
  match P.arrays m sd with
  | none => .error .ub
  | some a => do
    let ws ← copyMoves job.packs a.src a.ws
    let ws ← writeAll (← arrivals L job got) ws
    let ws ← copyMoves job.selfPacks a.src ws
    let dst ← copyMoves job.unpacks ws a.dst
    let dst ← match sh with
      | .transpose plan => transposeLocal stride nb plan inplace a
      | _ => .ok dst
    P.put m sd dst

/-- A transform in the program of the user: the number and the object of the plan, the kind of call, what the user passes and what the
user does with the arrays afterwards (also the scaling). -/
structure OwnCall (υ α β : Type) where
  plan : Nat
  fft : Fft
  mode : Mode
  fwd : Bool
  nb : Nat
  inplace : Nat → Bool
  world : World α β
  args : Nat → υ → Mem α β
  result : Nat → υ → Mem α β → Res υ

/-- What a rank is doing: between two calls; in a call, with the operations that remain; in a reshape, with the messages received so
far. -/
inductive Spot (α β : Type) where
  | idle
  | busy (todo : List Instr) (m : Mem α β)
  | wait (todo : List Instr) (m : Mem α β) (i : Fin 4) (sd : Buf × Buf) (got : List (Nat × Packet α β))

/-- The local state of a rank: the number of completed calls, the memory of the user, what it is doing.  `past` records the orders in
which the messages of the completed reshapes have arrived and has no influence. -/
structure OwnRank (υ α β : Type) where
  calls : Nat
  user : υ
  spot : Spot α β
  past : List (Nat × Fin 4 × List Nat)

def OwnCall.env (C : OwnCall υ α β) (r : Nat) : Env := C.fft.env C.fwd C.nb C.inplace r

/-- The reshape number `i` is one of real numbers (compute_transform.cpp:148-149, 248-249). -/
def OwnCall.real (C : OwnCall υ α β) (i : Fin 4) : Bool := decide (C.mode = .r2c ∧ i = 0 ∨ C.mode = .c2r ∧ i = 3)

def OwnCall.cport (K : Kernel α β) (C : OwnCall υ α β) (i : Fin 4) (r : Nat) : Port α β α := complexPort K (C.env r) (C.world.junk i r)

def OwnCall.rport (K : Kernel α β) (C : OwnCall υ α β) (i : Fin 4) (r : Nat) : Port α β β :=
  realPort K (C.env r) (realCut C.mode (C.env r).execs) (C.world.junkReal i r)

/-- The communicator of a reshape: the one of the user for messages, its own one for collective calls. -/
def OwnCall.key (C : OwnCall υ α β) (i : Fin 4) : Shaper → Option (Nat × Bool × Fin 4)
  | .p2p _ _ => none
  | _ => some (C.plan, C.fwd, i)

def OwnCall.sends (K : Kernel α β) (C : OwnCall υ α β) (r : Nat) (i : Fin 4) (sh : Shaper) (m : Mem α β) (sd : Buf × Buf) : Res (List (Nat × Packet α β)) :=
  let job := Shaper.job C.world.stride C.nb [] (some sh)
  if C.real i then startExchange realLane (C.rport K i r) job m sd else startExchange complexLane (C.cport K i r) job m sd

def OwnCall.ends (K : Kernel α β) (C : OwnCall υ α β) (r : Nat) (i : Fin 4) (sh : Shaper) (m : Mem α β) (sd : Buf × Buf) (got : List (Nat × Packet α β)) :
    Res (Mem α β) :=
  let inplace := decide ((C.env r).pointer sd.1 = (C.env r).pointer sd.2)
  if C.real i then endExchange realLane (C.rport K i r) C.world.stride C.nb sh inplace m sd got
  else endExchange complexLane (C.cport K i r) C.world.stride C.nb sh inplace m sd got

/-- The messages for which a rank waits: `MPI_Waitany` reports any of the ones that have arrived (`allow` restricts the choice), a
collective call needs all of them. -/
def awaited (allow : List Nat → Nat → Bool) (recvs : List Msg) (got : List Nat) : Shaper → List Nat
  | .p2p _ _ => (List.range recvs.length).filter fun j => decide (j ∉ got) && allow got j
  | _ => [got.length]

/-- The next step of rank `r`. -/
def ownNext (K : Kernel α β) (allow : Nat → Fin 4 → Nat → List Nat → Nat → Bool) (calls : List (OwnCall υ α β)) (r : Nat) (x : OwnRank υ α β) :
    Todo (Option (Nat × Bool × Fin 4)) (Packet α β) (OwnRank υ α β) :=
  match calls[x.calls]? with
  | none => .stop
  | some C =>
    match x.spot with
    | .idle =>
      match program C.mode (patternOf (shaperAt (C.fft.shapers C.fwd) r) (C.env r).execs (C.inplace r)) with
      | .ok l => .work { x with spot := .busy l (C.args r x.user) }
      | .error _ => .fail
    | .busy [] m =>
      match C.result r x.user m with
      | .ok u => .work { x with calls := x.calls + 1, user := u, spot := .idle }
      | .error _ => .fail
    | .busy (.reshape i s d :: t) m =>
      match shaperAt (C.fft.shapers C.fwd) r i with
      | none => .fail
      | some sh =>
        match C.sends K r i sh m (s, d) with
        | .ok msgs => .send (C.key i sh) msgs { x with spot := .wait t m i (s, d) [] }
        | .error _ => .fail
    | .busy (c :: t) m =>
      match runInstr K (C.env r) c m with
      | .ok m => .work { x with spot := .busy t m }
      | .error _ => .fail
    | .wait t m i sd got =>
      match shaperAt (C.fft.shapers C.fwd) r i with
      | none => .fail
      | some sh =>
        let recvs := (Shaper.job C.world.stride C.nb [] (some sh)).recvs
        if got.length < recvs.length then
          .recv (C.key i sh) ((awaited (allow x.calls i r) recvs (got.map (·.1)) sh).map fun j =>
            (((recvs[j]?).map Msg.peer).getD 0, fun p => { x with spot := .wait t m i sd (got ++ [(j, p)]) }))
        else
          match C.ends K r i sh m sd got with
          | .ok m => .work { x with spot := .busy t m, past := x.past ++ [(x.calls, i, got.map (·.1))] }
          | .error _ => .fail

/-- `MPI_Waitany` may report any message that has arrived. -/
def anyOrder : Nat → Fin 4 → Nat → List Nat → Nat → Bool := fun _ _ _ _ _ => true

/-- The messages arrive in the order `D`. -/
def orderBy (D : Nat → Fin 4 → Nat → List Nat) : Nat → Fin 4 → Nat → List Nat → Nat → Bool := fun c i r got j => decide ((D c i r)[got.length]? = some j)

/-- The start: the memory of the user on each rank, no messages. -/
def ownStart (us : Nat → υ) : Net (Option (Nat × Bool × Fin 4)) (Packet α β) (OwnRank υ α β) :=
  ⟨fun r => ⟨0, us r, .idle, []⟩, fun _ _ _ => []⟩

/-! ## The same program in lockstep -/

/-- One call of all the ranks together. -/
def OwnCall.together (K : Kernel α β) (C : OwnCall υ α β) (us : List υ) : Res (List υ) := do
  let ms ← transform K C.world C.mode C.fft C.fwd C.nb C.inplace (us.mapIdx C.args)
  mapRes (fun r (x : υ × Mem α β) => C.result r x.1 x.2) 0 (us.zip ms)

/-- All the calls, one after the other, each of them by all the ranks together. -/
def allTogether (K : Kernel α β) : List (OwnCall υ α β) → List υ → Res (List υ)
  | [], us => .ok us
  | C :: t, us => do allTogether K t (← C.together K us)

/-- Messages arrive in the order `D`. -/
def OwnCall.withOrder (C : OwnCall υ α β) (D : Fin 4 → Nat → List Nat) : OwnCall υ α β := { C with world := { C.world with done := D } }

end
end Verif
