import Verif.MpiMain
import Verif.Props.Calls

/-!
# Properties of the communication of a whole session (C73)

A session is a sequence of constructors, transforms and destructors of any number of plans, the same on all the ranks, mixed with
communication of the program of the user.  The ranks run at their own speed.
-/

namespace Verif
variable {n : Nat} {plans : Nat → MpiPlan} {acts : List Act}

/-- **C73.** No session gets stuck: whatever the speed of the ranks and the order in which messages arrive, as long as there is a call of
MPI left, there is a rank that gets on, and the number of steps is bounded.  Blocking sends need not be buffered, collective calls need
not synchronise. -/
theorem C73_no_deadlock (h : ∀ a ∈ acts, a.Allowed n plans) : Completes n fun r => (sessionSteps n plans acts r).map (·.2) :=
  session_completes h

/-- **C73.** Every message is received by the same call of the library that sent it, with the same length; there are no messages to ranks
that do not exist or to the rank itself; the members of a communicator make the same collective calls on it, from the same call
of the library, with arguments that fit together. -/
theorem C73_messages_match (h : ∀ a ∈ acts, a.Allowed n plans) : Matched n (sessionSteps n plans acts) := session_matched h

theorem mapRes_all {β γ : Type} {f : Nat → β → Res γ} : ∀ {l : List β} {k : Nat} {out : List γ}, mapRes f k l = .ok out →
    ∀ i b, l[i]? = some b → ∃ c, f (k + i) b = .ok c
  | [], _, _, _, i, b, hb => by simp at hb
  | a :: t, k, out, h, i, b, hb => by
    unfold mapRes at h
    cases h1 : f k a with
    | error e => rw [h1] at h; cases h
    | ok c =>
      rw [h1] at h
      dsimp only at h
      cases h2 : mapRes f (k + 1) t with
      | error e => rw [h2] at h; cases h
      | ok cs =>
        cases i with
        | zero =>
          simp only [List.getElem?_cons_zero, Option.some.injEq] at hb
          exact ⟨c, by rw [← hb]; exact h1⟩
        | succ i =>
          rw [List.getElem?_cons_succ] at hb
          obtain ⟨c, hc⟩ := mapRes_all h2 i b hb
          exact ⟨c, by rw [← hc]; congr 1; omega⟩

/-- **C73.** The calls of which C41, C54 and C55 tell the results are allowed in a session. -/
theorem C73_allowed {α β : Type} {K : Kernel α β} {W : World α β} {i : Nat} {mode : Mode} {fwd : Bool} {inplace : Nat → Bool} {nb : Nat}
    {mems ms : List (Mem α β)} (hm : Made n (plans i)) (hl : mems.length = n)
    (h : transform K W mode (plans i).obj.fft fwd nb inplace mems = .ok ms) : (Act.call i mode fwd inplace nb).Allowed n plans := by
  refine ⟨hm, fun r hr => ?_⟩
  unfold transform at h
  simp only [bind, Except.bind] at h
  split at h
  · cases h
  · rename_i s hs
    obtain ⟨c, hc⟩ := mapRes_all hs r mems[r] (by rw [List.getElem?_eq_getElem])
    rw [Nat.zero_add] at hc
    unfold MpiPlan.instrs
    cases hp : program mode (patternOf (shaperAt ((plans i).obj.fft.shapers fwd) r) ((plans i).obj.fft.executors fwd r) (inplace r)) with
    | ok l => exact ⟨l, rfl⟩
    | error e =>
      have hp' : program mode (patternOf (shaperAt ((plans i).obj.fft.shapers fwd) r) ((plans i).obj.fft.env fwd nb inplace r).execs (inplace r)) = .error e := hp
      rw [hp'] at hc
      cases hc

/-! ## Communicators -/

/-- The communicators that a rank gets: the groups given to `MPI_Comm_create`, without the empty ones (they give `MPI_COMM_NULL`). -/
def communicatorsMade (l : List MpiStep) : List (List Nat) := l.filterMap fun s => match s with
  | .enter _ (.create g) => if g = [] then none else some g
  | _ => none

/-- The communicators that a rank frees. -/
def communicatorsFreed (l : List MpiStep) : List (List Nat) := l.filterMap fun s => match s with
  | .enter c .free => some c.members
  | _ => none

theorem made_append (a b : List MpiStep) : communicatorsMade (a ++ b) = communicatorsMade a ++ communicatorsMade b := List.filterMap_append
theorem freed_append (a b : List MpiStep) : communicatorsFreed (a ++ b) = communicatorsFreed a ++ communicatorsFreed b := List.filterMap_append

theorem made_freed {bin bout : List Box} {w : Box} {alg : Alg} {shs : List (Option Shaper)} (h : Redistribution bin bout w)
    (hs : shapersOf alg bin bout = .ok shs) (m : Nat) (key : Nat × Nat) {r : Nat} (hr : r < bin.length) :
    communicatorsMade (mpiMake m alg bin bout (shAt shs r)) = communicatorsFreed (Shaper.mpiFree key (shAt shs r)) := by
  rcases shapersOf_cases h alg with ⟨hm, e⟩ | ⟨hm, g, hg, e⟩
  · rw [hs] at e
    obtain rfl := Except.ok.inj e
    rw [shAt_map hr]
    unfold mpiMake
    rw [hm]
    rcases matchShaper_mpi (bin := bin) (bout := bout) r with e | ⟨p, e⟩ <;> rw [e] <;> rfl
  · rw [hs] at e
    obtain rfl := Except.ok.inj e
    rw [shAt_map hr]
    unfold mpiMake
    rw [commShaper_group, hm]
    cases alg with
    | alltoallv => by_cases he : g r = [] <;> simp [commShaper, objV, he, Shaper.mpiFree, collSteps, communicatorsMade, communicatorsFreed]
    | alltoall => by_cases he : g r = [] <;> simp [commShaper, objA, he, Shaper.mpiFree, collSteps, communicatorsMade, communicatorsFreed]
    | p2p => rfl
    | p2pPlined => rfl

/-- **C73.** No communicator is lost: the destructor of a plan frees the communicators that the constructor has made on this rank, each of
them once. -/
theorem C73_communicators {P : MpiPlan} (h : Made n P) (i : Nat) {r : Nat} (hr : r < n) :
    (communicatorsFreed (P.destructor i r)).Perm (communicatorsMade (P.constructor n r)) := by
  obtain ⟨r2c, wi, wo, ex, hp, hs⟩ := h.facts
  have hf : ∀ j, communicatorsFreed (Shaper.mpiFree (shaperKey i true j) (shaperAt P.obj.fft.fwd r j)) =
      communicatorsMade (mpiMake n P.alg (P.obj.plan.stageBoxes j).1 (P.obj.plan.stageBoxes j).2 (shaperAt P.obj.fft.fwd r j)) := by
    intro j
    rw [stageBoxes_eq]
    exact (made_freed (hp.redis j) (hs.fwd j) n (shaperKey i true j) (by rw [hp.lenIn]; exact hr)).symm
  have hb : ∀ j : Fin 4, communicatorsFreed (Shaper.mpiFree (shaperKey i false j) (shaperAt P.obj.fft.bwd r j)) =
      communicatorsMade (mpiMake n P.alg (P.obj.plan.stageBoxes j.rev).2 (P.obj.plan.stageBoxes j.rev).1 (shaperAt P.obj.fft.bwd r j)) := by
    intro j
    rw [stageBoxes_eq]
    exact (made_freed (hp.redis j.rev).symm (hs.bwd j) n (shaperKey i false j) (by rw [hp.lenOut]; exact hr)).symm
  have h0 : communicatorsMade (collSteps (userComm n) .allgather) = [] := rfl
  rw [List.perm_iff_count]
  intro g
  simp only [MpiPlan.destructor, MpiPlan.constructor, List.flatMap_cons, List.flatMap_nil, List.append_nil, made_append, freed_append, hf, hb, h0,
    List.count_append, List.nil_append]
  have e0 : (0 : Fin 4).rev = 3 := rfl
  have e1 : (1 : Fin 4).rev = 2 := rfl
  have e2 : (2 : Fin 4).rev = 1 := rfl
  have e3 : (3 : Fin 4).rev = 0 := rfl
  have f0 : (3 - 0 : Fin 4) = 3 := rfl
  have f1 : (3 - 1 : Fin 4) = 2 := rfl
  have f2 : (3 - 2 : Fin 4) = 1 := rfl
  have f3 : (3 - 3 : Fin 4) = 0 := rfl
  rw [e0, e1, e2, e3, f0, f1, f2, f3]
  omega

/-! ## Open messages of the user -/

/-- A message of the user from rank 0 to rank 1: the receive is posted before a transform. -/
def userPosts (r : Nat) : List MpiStep := if r = 1 then [.irecv 0 24] else []

/-- The rest of the exchange, after the transform. -/
def userSends (r : Nat) : List MpiStep := if r = 0 then [.isend 1 24, .endSend] else if r = 1 then [.waitany] else []

theorem userPiece : Piece 4 (fun r => userPosts r ++ userSends r) := by
  constructor
  · decide
  · intro s d hs hd
    have h1 : s = 0 ∨ s = 1 ∨ s = 2 ∨ s = 3 := by omega
    have h2 : d = 0 ∨ d = 1 ∨ d = 2 ∨ d = 3 := by omega
    rcases h1 with rfl | rfl | rfl | rfl <;> rcases h2 with rfl | rfl | rfl | rfl <;> rfl
  · intro r hr x hx p len hxp
    have : r = 0 ∨ r = 1 ∨ r = 2 ∨ r = 3 := by omega
    rcases this with rfl | rfl | rfl | rfl <;> simp [userPosts, userSends] at hx
    · rcases hx with rfl | rfl <;> simp at hxp
      omega
    · rcases hx with rfl | rfl <;> simp at hxp
      omega
  · decide
  · intro r hr x hx c hxc
    have : r = 0 ∨ r = 1 ∨ r = 2 ∨ r = 3 := by omega
    rcases this with rfl | rfl | rfl | rfl <;> simp [userPosts, userSends] at hx <;> rcases hx with rfl | rfl <;> simp at hxc
  · intro c r s hr hs _ _
    have key : ∀ r, r < 4 → collOps' c (userPosts r ++ userSends r) = [] := by
      intro r hr
      have : r = 0 ∨ r = 1 ∨ r = 2 ∨ r = 3 := by omega
      rcases this with rfl | rfl | rfl | rfl <;> rfl
    rw [key r hr, key s hs]
    exact .nil

def exOpts (alg : Alg) : Opts := { Opts.default true with algorithm := alg }

theorem exUser (alg : Alg) (h : alg = .p2p ∨ alg = .p2pPlined) : (makeFft3d .stock exIn exOut (exOpts alg)).map (fun ob =>
      let prog := sessionSteps 4 (fun _ => ⟨alg, ob⟩) [.own userPosts, .call 0 .same true (fun _ => false) 1, .own userSends]
      decide (messagesTo 1 (prog 0) = [(1, 24), (2, 24)] ∧ messagesFrom 0 (prog 1) = [(0, 24), (1, 24)])) = .ok true := by
  rcases h with rfl | rfl <;> decide +kernel

/-- **C73** needs that no message of the user is open during a call: the library sends on the communicator of the user with tag 0.  The exchange of
the user is complete in itself (`Piece`), and so is the transform, but if the user posts a receive before a transform and the message is sent
after it, then the first message of rank 0 to rank 1 is the one of the transform (label 1) while the first receive of rank 1 from
rank 0 is the one of the user (label 0): the user gets the data of the transform, the transform gets the message of the user. -/
theorem C73_false_open_messages (alg : Alg) (h : alg = .p2p ∨ alg = .p2pPlined) : ∃ ob, makeFft3d .stock exIn exOut (exOpts alg) = .ok ob ∧
    Piece 4 (fun r => userPosts r ++ userSends r) ∧ Made 4 ⟨alg, ob⟩ ∧
    let prog := sessionSteps 4 (fun _ => ⟨alg, ob⟩) [.own userPosts, .call 0 .same true (fun _ => false) 1, .own userSends]
    messagesTo 1 (prog 0) = [(1, 24), (2, 24)] ∧ messagesFrom 0 (prog 1) = [(0, 24), (1, 24)] ∧ ¬ Matched 4 prog := by
  have hu := exUser alg h
  obtain ⟨wi, wo, geo, -⟩ := exGeometry
  cases hob : makeFft3d .stock exIn exOut (exOpts alg) with
  | error e => rw [hob] at hu; cases hu
  | ok ob =>
    rw [hob] at hu
    have hu := of_decide_eq_true (Except.ok.inj hu)
    refine ⟨ob, rfl, userPiece, .c2c _ exIn exOut wi wo _ rfl geo hob (by rfl), hu.1, hu.2, fun hm => ?_⟩
    have := hm.messages 0 1 (by omega) (by omega)
    rw [hu.1, hu.2] at this
    exact absurd this (by decide)

/-! ## Examples -/

def exMpiCall : Alg → List MpiStep
  | .alltoallv => [.enter ⟨some (0, 1), [0, 2]⟩ (.alltoallv [48, 48] [48, 48]), .leave ⟨some (0, 1), [0, 2]⟩,
                   .enter ⟨some (0, 2), [0, 1]⟩ (.alltoallv [48, 48] [48, 48]), .leave ⟨some (0, 2), [0, 1]⟩]
  | .alltoall => [.enter ⟨some (0, 1), [0, 2]⟩ (.alltoall 48), .leave ⟨some (0, 1), [0, 2]⟩,
                  .enter ⟨some (0, 2), [0, 1]⟩ (.alltoall 48), .leave ⟨some (0, 2), [0, 1]⟩]
  | .p2p => [.irecv 2 48, .isend 2 48, .endSend, .waitany, .irecv 1 48, .isend 1 48, .endSend, .waitany]
  | .p2pPlined => [.irecv 2 48, .isend 2 48, .waitany, .waitall, .irecv 1 48, .isend 1 48, .waitany, .waitall]

def isOk {γ : Type} : Res γ → Bool
  | .ok _ => true
  | .error _ => false

theorem isOk_ok {γ : Type} {x : Res γ} (h : isOk x = true) : ∃ c, x = .ok c := by
  cases x with
  | ok c => exact ⟨c, rfl⟩
  | error e => cases h

/-- The communication of rank 0 in a transform of two arrays; the groups of the communicators made by the constructor. -/
theorem exMpi (alg : Alg) : (makeFft3d .stock exIn exOut (exOpts alg)).map (fun ob =>
      ((List.range 4).all fun r => [true, false].all fun fwd => [true, false].all fun i => isOk (MpiPlan.instrs ⟨alg, ob⟩ .same fwd i r)) &&
      decide (MpiPlan.call ⟨alg, ob⟩ 0 .same true false 2 0 = exMpiCall alg) &&
      decide (communicatorsMade (MpiPlan.constructor 4 ⟨alg, ob⟩ 0) = match alg with | .alltoallv | .alltoall => [[0, 2], [0, 2], [0, 1], [0, 1]] | _ => [])) = .ok true := by
  cases alg <;> decide +kernel

/-- Two plans with different algorithms, constructed, used and destroyed, with a message of the user between the calls. -/
def exSession : List Act := [.make 0, .make 1, .call 0 .same true (fun _ => false) 2, .own (fun r => userPosts r ++ userSends r),
  .call 1 .same false (fun _ => false) 1, .call 0 .same true (fun r => r == 0) 1, .destroy 0, .destroy 1]

theorem exPlan (alg : Alg) : ∃ ob, Made 4 ⟨alg, ob⟩ ∧ (∀ r, r < 4 → ∀ fwd i, ∃ l, MpiPlan.instrs ⟨alg, ob⟩ .same fwd i r = .ok l) ∧
    MpiPlan.call ⟨alg, ob⟩ 0 .same true false 2 0 = exMpiCall alg := by
  have hu := exMpi alg
  obtain ⟨wi, wo, geo, -⟩ := exGeometry
  cases hob : makeFft3d .stock exIn exOut (exOpts alg) with
  | error e => rw [hob] at hu; cases hu
  | ok ob =>
    rw [hob] at hu
    have hu := Except.ok.inj hu
    rw [Bool.and_eq_true, Bool.and_eq_true] at hu
    refine ⟨ob, .c2c _ exIn exOut wi wo _ rfl geo hob (by rfl), fun r hr fwd i => isOk_ok ?_, of_decide_eq_true hu.1.2⟩
    have h := List.all_eq_true.1 (List.all_eq_true.1 (List.all_eq_true.1 hu.1.1 r (List.mem_range.2 hr)) fwd (by cases fwd <;> simp)) i (by cases i <;> simp)
    exact h

/-- The session is allowed, for all pairs of algorithms: it does not get stuck, all its messages match, and rank 0 does communicate. -/
example (a b : Alg) : ∃ plans, (∀ act ∈ exSession, act.Allowed 4 plans) ∧ (plans 0).alg = a ∧ (plans 1).alg = b ∧
    (Completes 4 fun r => (sessionSteps 4 plans exSession r).map (·.2)) ∧ Matched 4 (sessionSteps 4 plans exSession) ∧
    Act.steps 4 plans 0 (.call 0 .same true (fun _ => false) 2) = exMpiCall a := by
  obtain ⟨oa, ha, hia, hca⟩ := exPlan a
  obtain ⟨ob, hb, hib, -⟩ := exPlan b
  have hall : ∀ act ∈ exSession, act.Allowed 4 fun i => if i = 0 then ⟨a, oa⟩ else ⟨b, ob⟩ := by
    intro act h
    simp only [exSession, List.mem_cons, List.not_mem_nil, or_false] at h
    rcases h with rfl | rfl | rfl | rfl | rfl | rfl | rfl | rfl
    · exact ha
    · exact hb
    · exact ⟨ha, fun r hr => hia r hr _ _⟩
    · exact userPiece
    · exact ⟨hb, fun r hr => hib r hr _ _⟩
    · exact ⟨ha, fun r hr => hia r hr _ _⟩
    · exact ha
    · exact hb
  exact ⟨_, hall, rfl, rfl, C73_no_deadlock hall, C73_messages_match hall, hca⟩

/-- Programs of two ranks that get stuck after the first step of both. -/
theorem stuck_two {progs : Nat → List MpiStep} {s0 s1 : MpiStep} (h0 : (progs 0)[0]? = some s0) (h1 : (progs 1)[0]? = some s1)
    (n0 : ∀ src len, s0 ≠ .irecv src len) (n1 : ∀ src len, s1 ≠ .irecv src len) (w0 : s0 ≠ .waitany) (w1 : s1 ≠ .waitany)
    (hs : ∀ st : MpiState, st.done 0 = 1 → st.done 1 = 1 → ¬ MpiReady progs st 0 ∧ ¬ MpiReady progs st 1) (hl : 1 < (progs 0).length) :
    ¬ Completes 2 progs := by
  intro h
  have r1 := MpiRun.step .start (MpiMove.other (n := 2) (progs := progs) (st := MpiState.init) (r := 0) (by omega) h0 n0 w0)
  have r2 := MpiRun.step r1 (MpiMove.other (r := 1) (by omega) (by simpa [MpiState.next, MpiState.init] using h1) n1 w1)
  obtain ⟨q0, q1⟩ := hs ((MpiState.init.next 0 []).next 1 []) rfl rfl
  rcases h.progress _ _ r2 with hf | ⟨r, hr, hready⟩
  · have := hf 0 (by omega)
    simp [MpiState.next, MpiState.init] at this
    omega
  · have : r = 0 ∨ r = 1 := by omega
    rcases this with rfl | rfl
    · exact q0 hready
    · exact q1 hready

/-- `Completes` is not true of everything: two ranks that send before they post their receives get stuck if nothing is buffered. -/
example : ¬ Completes 2 fun r => [.isend (1 - r) 24, .endSend, .irecv (1 - r) 24, .waitany] := by
  refine stuck_two (s0 := .isend 1 24) (s1 := .isend 0 24) rfl rfl (by simp) (by simp) (by simp) (by simp) (fun st e0 e1 => ⟨?_, ?_⟩) (by simp)
  · intro h
    simp only [MpiReady, e0, List.getElem?_cons_succ, List.getElem?_cons_zero] at h
    have := h 1
    simp [started, posted, e0, e1, MpiStep.isIsend, MpiStep.isIrecv] at this
  · intro h
    simp only [MpiReady, e1, List.getElem?_cons_succ, List.getElem?_cons_zero] at h
    have := h 0
    simp [started, posted, e0, e1, MpiStep.isIsend, MpiStep.isIrecv] at this

/-- Two ranks that use two plans in different orders get stuck: the session has to be the same on all the ranks. -/
example : ¬ Completes 2 fun r => if r = 0
    then collSteps ⟨some (0, 1), [0, 1]⟩ (.alltoall 6) ++ collSteps ⟨some (1, 1), [0, 1]⟩ (.alltoall 6)
    else collSteps ⟨some (1, 1), [0, 1]⟩ (.alltoall 6) ++ collSteps ⟨some (0, 1), [0, 1]⟩ (.alltoall 6) := by
  refine stuck_two (s0 := .enter ⟨some (0, 1), [0, 1]⟩ (.alltoall 6)) (s1 := .enter ⟨some (1, 1), [0, 1]⟩ (.alltoall 6)) rfl rfl (by simp) (by simp)
    (by simp) (by simp) (fun st e0 e1 => ⟨?_, ?_⟩) (by simp [collSteps])
  · intro h
    simp only [MpiReady, e0, collSteps] at h
    have := h 1 (by simp)
    simp [entered, e0, e1, collSteps, MpiStep.isEnter] at this
  · intro h
    simp only [MpiReady, e1, collSteps] at h
    have := h 0 (by simp)
    simp [entered, e0, e1, collSteps, MpiStep.isEnter] at this

end Verif
