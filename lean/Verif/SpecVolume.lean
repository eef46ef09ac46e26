import Verif.Mpi
import Verif.Spec

/-!
# Specification vocabulary for the amount of communication

The number of values that a rank hands to MPI for other ranks and that it gets from other ranks.
-/

namespace Verif

/-- The entries of `counts` for the members other than rank `r`. -/
def othersSum (r : Nat) : List Nat → List Int → Int
  | q :: members, c :: counts => (if q = r then 0 else c) + othersSum r members counts
  | _, _ => 0

/-- The number of values for other ranks in a step of rank `r`. -/
def MpiStep.wireOut (r : Nat) : MpiStep → Int
  | .isend _ len => len
  | .enter c (.alltoall len) => othersSum r c.members (c.members.map fun _ => len)
  | .enter c (.alltoallv send _) => othersSum r c.members send
  | _ => 0

/-- The number of values from other ranks in a step of rank `r`. -/
def MpiStep.wireIn (r : Nat) : MpiStep → Int
  | .irecv _ len => len
  | .enter c (.alltoall len) => othersSum r c.members (c.members.map fun _ => len)
  | .enter c (.alltoallv _ recv) => othersSum r c.members recv
  | _ => 0

def wireOut (r : Nat) (steps : List MpiStep) : Int := (steps.map (MpiStep.wireOut r)).sum
def wireIn (r : Nat) (steps : List MpiStep) : Int := (steps.map (MpiStep.wireIn r)).sum

/-- The number of points that rank `r` has in the first list of boxes and not in the second one. -/
def pointsLost (bin bout : List Box) (r : Nat) : Nat :=
  match bin[r]?, bout[r]? with
  | some a, some b => (a.points \ b.points).card
  | _, _ => 0

/-- The ranks to which a rank sends in single messages, and the lengths. -/
def lettersOut (steps : List MpiStep) : List (Nat × Int) := steps.filterMap fun x => match x with
  | .isend d len => some (d, len)
  | _ => none

/-- The collective calls. -/
def gatherings (steps : List MpiStep) : List (List Nat × CollCall) := steps.filterMap fun x => match x with
  | .enter c op => some (c.members, op)
  | _ => none

end Verif
