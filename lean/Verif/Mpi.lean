import Mathlib.Data.List.Basic

/-!
# Message passing between ranks that run at their own speed

The calls of MPI that the library makes and what the MPI standard says about when they return.  A blocking call is split in two steps:
the call is entered and the call returns, e.g., `MPI_Send` is `isend` and `endSend`, a collective call is `enter` and `leave`.

There are two notions of a step.  `MpiMove` says what may happen: an implementation of MPI may buffer messages, so `MPI_Send` may return at
once, and a collective call may return before the other ranks have entered it.  `MpiReady` says what has to happen in the end: a send returns
when the receive is posted, a collective call returns when all the members have entered it.  A program is free of deadlocks if in
all the situations that may arise (`MpiMove`), there is a rank that has to get on (`MpiReady`).
-/

namespace Verif

/-- A communicator: the one given by the user (`key = none`) or one that was created by the constructor of a plan for the reshape
`key`; `members` are the ranks (in the numbering of the communicator of the user). -/
structure Comm where
  key : Option (Nat × Nat)
  members : List Nat
deriving DecidableEq, Repr

/-- The collective calls with the arguments that have to fit together. -/
inductive CollCall where
  /-- `MPI_Allgather` -/
  | allgather
  /-- `MPI_Comm_create` -/
  | create (group : List Nat)
  /-- `MPI_Alltoall` -/
  | alltoall (len : Int)
  /-- `MPI_Alltoallv` -/
  | alltoallv (send recv : List Int)
  /-- `MPI_Comm_free` -/
  | free
deriving DecidableEq, Repr

/-- The steps of one rank. -/
inductive MpiStep where
  /-- `MPI_Irecv`: the source and the number of entries -/
  | irecv (src : Nat) (len : Int)
  /-- `MPI_Isend` or the begin of `MPI_Send` -/
  | isend (dst : Nat) (len : Int)
  /-- `MPI_Send` returns -/
  | endSend
  /-- `MPI_Waitany` on the receives -/
  | waitany
  /-- `MPI_Waitall` on the sends -/
  | waitall
  /-- begin of a collective call -/
  | enter (c : Comm) (op : CollCall)
  /-- a collective call returns -/
  | leave (c : Comm)
deriving DecidableEq, Repr

def MpiStep.isIrecv (src : Nat) : MpiStep → Bool
  | .irecv s _ => decide (s = src)
  | _ => false

def MpiStep.isIsend (dst : Nat) : MpiStep → Bool
  | .isend d _ => decide (d = dst)
  | _ => false

def MpiStep.isEnter (c : Comm) : MpiStep → Bool
  | .enter c' _ => decide (c' = c)
  | _ => false

/-- The situation: how many steps the ranks have done, and the receives that are posted but not waited for (source and number of the
receive among the ones from this source). -/
structure MpiState where
  done : Nat → Nat
  pending : Nat → List (Nat × Nat)

/-- Nothing has happened. -/
def MpiState.init : MpiState := ⟨fun _ => 0, fun _ => []⟩

section
variable (n : Nat) (progs : Nat → List MpiStep)

/-- The number of receives from `src` that rank `r` has posted. -/
def posted (st : MpiState) (r src : Nat) : Nat := ((progs r).take (st.done r)).countP (MpiStep.isIrecv src)

/-- The number of messages to `dst` that rank `r` has started. -/
def started (st : MpiState) (r dst : Nat) : Nat := ((progs r).take (st.done r)).countP (MpiStep.isIsend dst)

/-- The number of collective calls on `c` that rank `r` has entered. -/
def entered (st : MpiState) (r : Nat) (c : Comm) : Nat := ((progs r).take (st.done r)).countP (MpiStep.isEnter c)

/-- A posted receive has its message: messages of one pair of ranks do not overtake each other (all of them have the same tag and the
same communicator), so the receive number `k` takes the message number `k`. -/
def arrived (st : MpiState) (r : Nat) (q : Nat × Nat) : Prop := q.2 < started progs st q.1 r

/-- What MPI guarantees about the next step of rank `r`. -/
def MpiReady (st : MpiState) (r : Nat) : Prop :=
  match (progs r)[st.done r]? with
  | none => False
  | some (.irecv _ _) | some (.isend _ _) | some (.enter _ _) => True
  | some .endSend | some .waitall => ∀ d, started progs st r d ≤ posted progs st d r
  | some .waitany => ∃ q ∈ st.pending r, arrived progs st r q
  | some (.leave c) => ∀ s ∈ c.members, entered progs st r c ≤ entered progs st s c

/-- The state after a step of rank `r` that leaves the receives `p` pending. -/
def MpiState.next (st : MpiState) (r : Nat) (p : List (Nat × Nat)) : MpiState :=
  ⟨fun i => if i = r then st.done r + 1 else st.done i, fun i => if i = r then p else st.pending i⟩

/-- What may happen: one of the `n` ranks does its next step.  Only a receive needs its message. -/
inductive MpiMove : MpiState → MpiState → Prop where
  | post {st : MpiState} {r src : Nat} {len : Int} : r < n → (progs r)[st.done r]? = some (.irecv src len) →
      MpiMove st (st.next r (st.pending r ++ [(src, posted progs st r src)]))
  | wait {st : MpiState} {r : Nat} {q : Nat × Nat} : r < n → (progs r)[st.done r]? = some .waitany → q ∈ st.pending r → arrived progs st r q →
      MpiMove st (st.next r ((st.pending r).erase q))
  | other {st : MpiState} {r : Nat} {s : MpiStep} : r < n → (progs r)[st.done r]? = some s → (∀ src len, s ≠ .irecv src len) → s ≠ .waitany →
      MpiMove st (st.next r (st.pending r))

/-- A possible history. -/
inductive MpiRun : Nat → MpiState → Prop where
  | start : MpiRun 0 MpiState.init
  | step {k : Nat} {st st' : MpiState} : MpiRun k st → MpiMove n progs st st' → MpiRun (k + 1) st'

/-- The ranks below `n` have done all of their steps. -/
def Finished (st : MpiState) : Prop := ∀ r, r < n → st.done r = (progs r).length

/-- Free of deadlocks: no history is longer than the number of all the steps, and as long as there are steps left, there is a rank that
gets on. -/
structure Completes : Prop where
  bounded : ∀ k st, MpiRun n progs k st → k ≤ ((List.range n).map fun r => (progs r).length).sum
  progress : ∀ k st, MpiRun n progs k st → Finished n progs st ∨ ∃ r, r < n ∧ MpiReady progs st r

end

/-! ## Calls that fit together -/

/-- The messages of a program to `dst`: the label and the number of entries. -/
def messagesTo (dst : Nat) (prog : List (Nat × MpiStep)) : List (Nat × Int) :=
  prog.filterMap fun x => match x.2 with
    | .isend d len => if d = dst then some (x.1, len) else none
    | _ => none

/-- The receives of a program from `src`. -/
def messagesFrom (src : Nat) (prog : List (Nat × MpiStep)) : List (Nat × Int) :=
  prog.filterMap fun x => match x.2 with
    | .irecv s len => if s = src then some (x.1, len) else none
    | _ => none

/-- The collective calls of a program on the communicator `c`. -/
def callsOn (c : Comm) (prog : List (Nat × MpiStep)) : List (Nat × CollCall) :=
  prog.filterMap fun x => match x.2 with
    | .enter c' op => if c' = c then some (x.1, op) else none
    | _ => none

/-- The arguments of the ranks `r` and `s` in a collective call on `c` fit together: the same call; `MPI_Comm_create`: all the members of the
new communicator give the same group; `MPI_Alltoall`: the same number of entries; `MPI_Alltoallv`: one number for each member, and
what `r` sends to `s` is what `s` receives from `r`. -/
def CallFits (c : Comm) (r s : Nat) : CollCall → CollCall → Prop
  | .allgather, .allgather => True
  | .create g, .create g' => s ∈ g → g' = g
  | .alltoall len, .alltoall len' => len = len'
  | .alltoallv send recv, .alltoallv send' recv' => send.length = c.members.length ∧ recv.length = c.members.length ∧
      ∀ i j : Nat, c.members[i]? = some r → c.members[j]? = some s → send[j]? = recv'[i]?
  | .free, .free => True
  | _, _ => False

/-- The calls of `n` ranks fit together; the labels tell to which call of the library a call of MPI belongs.  The message number `k`
of `s` to `d` belongs to the same call of the library as the receive number `k` of `d` from `s` and has the same length; the
collective calls number `k` on a communicator belong to the same call of the library and fit together. -/
structure Matched (n : Nat) (progs : Nat → List (Nat × MpiStep)) : Prop where
  messages : ∀ s d, s < n → d < n → messagesTo d (progs s) = messagesFrom s (progs d)
  peers : ∀ r, r < n → ∀ x ∈ progs r, ∀ p len, x.2 = .isend p len ∨ x.2 = .irecv p len → p < n ∧ p ≠ r
  members : ∀ r, r < n → ∀ x ∈ progs r, ∀ c op, x.2 = .enter c op → r ∈ c.members ∧ ∀ s ∈ c.members, s < n
  collective : ∀ c r s, r < n → s < n → r ∈ c.members → s ∈ c.members →
    List.Forall₂ (fun a b => a.1 = b.1 ∧ CallFits c r s a.2 b.2) (callsOn c (progs r)) (callsOn c (progs s))

end Verif
