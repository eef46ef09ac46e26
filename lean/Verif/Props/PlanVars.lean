import Verif.PlanVarsMpi
import Verif.Props.Mpi

/-!
# Plans in variables of C++
-/

namespace Verif

variable {n : Nat} {lib : FftLibrary} {magma : Bool} {plans : Nat → MpiPlan} {r : Nat} {ops : List (VarOp CallArgs)} {o : Owners} {σ : VarState}

/-- A program has undefined behaviour exactly if it is not valid for the owners: it uses a variable that does not exist, declares one
twice, or calls a plan whose value has been moved away. -/
theorem C90_defined (hm : magma = false ∨ ∀ op ∈ ops, op.isMove = false) :
    (VarState.start.run (planBuild lib magma plans r) ops).isSome = (Owners.start.run ops).isSome := by
  have h := run_agree (ops := ops) (planBuild_sound lib magma plans r) inv_start hm
  revert h
  cases Owners.start.run ops <;> cases VarState.start.run (planBuild lib magma plans r) ops <;> intro h
  · rfl
  · exact h.elim
  · exact h.elim
  · rfl

theorem run_inv (hm : magma = false ∨ ∀ op ∈ ops, op.isMove = false) (ho : Owners.start.run ops = some o)
    (h : VarState.start.run (planBuild lib magma plans r) ops = some σ) : VarInv (planBuild lib magma plans r) o σ := by
  have ha := run_agree (ops := ops) (planBuild_sound lib magma plans r) inv_start hm
  rw [ho, h] at ha
  exact ha

/-- **Every resource of every plan is acquired once, used only while it is held and released at most once**, after every program, for all
libraries and all plans: without a queue of MAGMA, or if the program moves no plan. -/
theorem C90_used_right_partial (hm : magma = false ∨ ∀ op ∈ ops, op.isMove = false)
    (h : VarState.start.run (planBuild lib magma plans r) ops = some σ) : UsedRight σ.log := by
  have hs := C90_defined (lib := lib) (plans := plans) (r := r) hm
  rw [h] at hs
  obtain ⟨o, ho⟩ := Option.isSome_iff_exists.1 hs.symm
  have hi := run_inv hm ho h
  intro x
  by_cases hx : ∃ v, o.holds v = some (some x.plan)
  · obtain ⟨v, hv⟩ := hx
    obtain ⟨-, P, -, -, hp⟩ := hi.full v x.plan hv
    rw [hp x rfl]
    simp
  · rcases hi.over x fun v hv => hx ⟨v, hv⟩ with h | h <;> rw [h] <;> simp

/-- **Nothing is lost**: once the value of a plan is in no variable any more, all its resources have been given back; at the end of the
program, when all the variables have gone out of scope, all the resources have. -/
theorem C90_given_back_partial (hm : magma = false ∨ ∀ op ∈ ops, op.isMove = false) (ho : Owners.start.run ops = some o)
    (h : VarState.start.run (planBuild lib magma plans r) ops = some σ) :
    (∀ x : Resource, (∀ v, o.holds v ≠ some (some x.plan)) → phaseOf σ.log x = some .fresh ∨ phaseOf σ.log x = some .gone) ∧
    (o.Over → GivenBack σ.log) := by
  have hi := run_inv hm ho h
  refine ⟨hi.over, fun hover x => hi.over x fun v hv => ?_⟩
  rw [hover v] at hv
  cases hv

theorem objects_at {l : List (Option HeldObj)} {p : Nat} (hn : NamedFrom p 0 l) (m : Nat) :
    (l[m]?).map (Option.map fun o => (o.plan, o.member, o.kind)) = (l[m]?).map fun x => (x.map HeldObj.kind).map fun k => (p, m, k) := by
  cases e : l[m]? with
  | none => rfl
  | some x =>
    cases x with
    | none => rfl
    | some o =>
      have := named_get hn m o e
      show some (some (o.plan, o.member, o.kind)) = some (some (p, m, o.kind))
      rw [this.1, this.2, Nat.zero_add]

/-- **Values move**: a variable that should have the value made by the constructor call `p` has the members made by that call, each at its
place, whatever has been moved before, and all the memory and communicators of them are held. -/
theorem C90_value_partial (hm : magma = false ∨ ∀ op ∈ ops, op.isMove = false) (ho : Owners.start.run ops = some o)
    (h : VarState.start.run (planBuild lib magma plans r) ops = some σ) (v p : Nat) (hv : o.holds v = some (some p)) :
    ∃ P, σ.vars v = some P ∧
      (∀ m : Nat, (P.members[m]?).map (Option.map fun x : HeldObj => (x.plan, x.member, x.kind)) = (((plans p).memberKinds r)[m]?).map (Option.map fun k => (p, m, k))) ∧
      (∀ m k, ((plans p).memberKinds r)[m]? = some (some k) → phaseOf σ.log ⟨p, m, none⟩ = some .held) ∧
      ∀ m, ((plans p).memberKinds r)[m]? = some (some (.reshape true)) → phaseOf σ.log ⟨p, m, some 0⟩ = some .held := by
  obtain ⟨-, P, hP, hH, hph⟩ := (run_inv hm ho h).full v p hv
  have hk : ∀ m : Nat, ((plans p).memberKinds r)[m]? = (P.members[m]?).map (Option.map HeldObj.kind) := by
    intro m
    have := congrArg (fun l => l[m]?) hH.kinds
    simp only [kindsOf, List.getElem?_map] at this
    exact this.symm
  have obj : ∀ (m : Nat) k, ((plans p).memberKinds r)[m]? = some (some k) → ∃ x, P.members[m]? = some (some x) ∧ x.kind = k ∧ x.plan = p ∧ x.member = m := by
    intro m k e
    rw [hk m] at e
    cases e' : P.members[m]? with
    | none => rw [e'] at e; cases e
    | some y =>
      rw [e'] at e
      cases y with
      | none => cases e
      | some x =>
        have := named_get hH.named m x e'
        exact ⟨x, rfl, Option.some.inj (Option.some.inj e), this.1, by rw [this.2, Nat.zero_add]⟩
  refine ⟨P, hP, fun m => ?_, fun m k e => ?_, fun m e => ?_⟩
  · rw [objects_at hH.named m, hk m]
    cases P.members[m]? <;> rfl
  · obtain ⟨x, hx, -, rfl, rfl⟩ := obj m k e
    rw [hph _ rfl]
    have : (⟨x.plan, x.member, none⟩ : Resource) ∈ P.all :=
      List.mem_append_right _ (List.mem_flatMap.2 ⟨x, mem_objects hx, List.mem_cons_self⟩)
    simp only [stand, this, if_true]
  · obtain ⟨x, hx, hxk, rfl, rfl⟩ := obj m _ e
    rw [hph _ rfl]
    have hparts := (hH.parts x (mem_objects hx)).2 _ hxk
    have : (⟨x.plan, x.member, some 0⟩ : Resource) ∈ P.all := by
      refine List.mem_append_right _ (List.mem_flatMap.2 ⟨x, mem_objects hx, List.mem_cons_of_mem _ (mem_held.2 ⟨0, ?_, rfl⟩)⟩)
      rw [hparts, hxk]; rfl
    simp only [stand, this, if_true]

/-- **No deadlock**: all the ranks of a communicator run the same program with their variables, which makes, moves, assigns, calls and
destroys plans of any algorithms.  Then nobody waits for ever, for all ways of interleaving the ranks; assigning over a plan frees
its communicators in another order than its destructor, but all the ranks in the same order. -/
theorem C90_no_deadlock_partial (hm : magma = false ∨ ∀ op ∈ ops, op.isMove = false) (hv : (Owners.start.run ops).isSome)
    (hP : ∀ p, Made n (plans p)) (hc : CallsAllowed n plans .start ops) :
    Completes n fun r => varSteps n lib magma plans r .start ops := by
  have := C73_no_deadlock (acts_allowed hP hc)
  have e : (fun r => varSteps n lib magma plans r .start ops) = fun r => (sessionSteps n plans (varActs plans .start ops) r).map (·.2) := by
    funext r
    rw [session_flat, var_steps inv_start hm hv]
  rw [e]
  exact this

theorem phase_hit (x : Resource) (ph : Option Phase) (e : ResEvent) (l : List ResEvent) (h : e.resource = x) :
    phaseFrom x ph (e :: l) = phaseFrom x (ph.bind (·.after e)) l := by
  show phaseFrom x (if e.resource = x then _ else _) l = _
  rw [if_pos h]

theorem phase_gone (x : Resource) : ∀ (l : List ResEvent) (ph : Option Phase), ph = some .gone ∨ ph = none → phaseFrom x ph l = some .gone ∨ phaseFrom x ph l = none
  | [], _, h => h
  | e :: l, ph, h => by
    by_cases he : e.resource = x
    · rw [phase_hit x ph e l he]
      refine phase_gone x l _ (Or.inr ?_)
      rcases h with rfl | rfl
      · cases e <;> rfl
      · rfl
    · show phaseFrom x (if e.resource = x then _ else _) l = _ ∨ phaseFrom x (if e.resource = x then _ else _) l = _
      rw [if_neg he]
      exact phase_gone x l ph h

/-- Destroying a variable with the queue of `p`. -/
theorem phase_destroyed {p : Nat} {P : HeldPlan} (hq : P.queue = some p) (ph : Option Phase) :
    phaseFrom (queueOf p) ph (P.destroyed.map .release) =
      phaseFrom (queueOf p) (ph.bind (·.after (.release (queueOf p)))) (((objectsOf P.members).reverse.flatMap HeldObj.released).map .release) := by
  unfold HeldPlan.destroyed
  rw [hq]
  exact phase_hit _ _ _ _ rfl

theorem destroyed_once {p : Nat} {P : HeldPlan} (hq : P.queue = some p) (ph : Option Phase) :
    phaseFrom (queueOf p) ph (P.destroyed.map .release) = some .gone ∨ phaseFrom (queueOf p) ph (P.destroyed.map .release) = none := by
  rw [phase_destroyed hq]
  refine phase_gone _ _ _ ?_
  match ph with
  | none => exact Or.inr rfl
  | some .fresh => exact Or.inr rfl
  | some .held => exact Or.inl rfl
  | some .gone => exact Or.inr rfl

theorem destroyed_twice {p : Nat} {P : HeldPlan} (hq : P.queue = some p) {ph : Option Phase} (h : ph = some .gone ∨ ph = none) :
    phaseFrom (queueOf p) ph (P.destroyed.map .release) = none := by
  rw [phase_destroyed hq]
  have : ∀ l, phaseFrom (queueOf p) none l = none := by
    intro l
    induction l with
    | nil => rfl
    | cons e l ih =>
      show phaseFrom (queueOf p) (if e.resource = queueOf p then none else none) l = none
      rw [ite_self, ih]
  rcases h with rfl | rfl
  · exact this _
  · exact this _

/-- The state after the constructors of a variable with a queue. -/
theorem made_queue (lib : FftLibrary) (plans : Nat → MpiPlan) (r : Nat) : ∃ σ P, VarState.start.run (planBuild lib true plans r) [.make 0] = some σ ∧
    σ.vars 0 = some P ∧ σ.vars 1 = none ∧ P.queue = some 0 ∧ ∃ a b l, P.members = some a :: some b :: l :=
  ⟨_, _, rfl, rfl, rfl, rfl, _, _, _, rfl⟩

/-- **With MAGMA on a GPU, moving a plan destroys its queue twice**, for every plan: two variables, one movement, and the end of their
scopes. -/
theorem C90_false_magma (lib : FftLibrary) (plans : Nat → MpiPlan) (r : Nat) :
    ∃ σ, VarState.start.run (planBuild lib true plans r) [.make 0, .moveInit 1 0, .destroy 1, .destroy 0] = some σ ∧ ¬ UsedRight σ.log := by
  obtain ⟨σ, P, hσ, h0, h1, hq, -⟩ := made_queue lib plans r
  have run : VarState.start.run (planBuild lib true plans r) [.make 0, .moveInit 1 0, .destroy 1, .destroy 0] =
      σ.run (planBuild lib true plans r) [.moveInit 1 0, .destroy 1, .destroy 0] := by
    cases hσ; rfl
  refine ⟨⟨σ.next, fun v => if v = 0 ∨ v = 1 then none else σ.vars v, (σ.log ++ P.destroyed.map .release) ++ P.moved.destroyed.map .release⟩, ?_, fun h => h (queueOf 0) ?_⟩
  · rw [run]
    simp [VarState.run, VarState.step, h0, h1, Function.update]
    funext v
    by_cases hv0 : v = 0 <;> by_cases hv1 : v = 1 <;> simp [hv0, hv1]
  · rw [phaseOf, phaseFrom_append, phaseFrom_append]
    exact destroyed_twice (P := P.moved) hq (destroyed_once hq _)

/-- **... and the plan cannot be used after the variable it came from is gone**: its scaling uses the destroyed queue, for every plan. -/
theorem C90_false_magma_use (lib : FftLibrary) (plans : Nat → MpiPlan) (r : Nat) (c : CallArgs) (hs : c.scaled = true) :
    ∃ σ, VarState.start.run (planBuild lib true plans r) [.make 0, .moveInit 1 0, .destroy 0, .call 1 c] = some σ ∧ ¬ UsedRight σ.log := by
  obtain ⟨σ, P, hσ, h0, h1, hq, a, b, l, hm⟩ := made_queue lib plans r
  have run : VarState.start.run (planBuild lib true plans r) [.make 0, .moveInit 1 0, .destroy 0, .call 1 c] =
      σ.run (planBuild lib true plans r) [.moveInit 1 0, .destroy 0, .call 1 c] := by
    cases hσ; rfl
  obtain ⟨σ', hσ', hlog⟩ : ∃ σ', σ.run (planBuild lib true plans r) [.moveInit 1 0, .destroy 0, .call 1 c] = some σ' ∧
      σ'.log = (σ.log ++ P.moved.destroyed.map .release) ++ (calledMembers lib c P.members).2 ++ [.use (queueOf 0)] := by
    simp [VarState.run, VarState.step, h0, h1, Function.update, hm, HeldPlan.scaled, hq, hs, planBuild]
  refine ⟨σ', by rw [run, hσ'], fun h => h (queueOf 0) ?_⟩
  rw [hlog, phaseOf, phaseFrom_append, phaseFrom_append, phaseFrom_append, phase_hit (queueOf 0) _ (.use (queueOf 0)) [] rfl]
  rcases phase_gone (queueOf 0) (calledMembers lib c P.members).2 _ (destroyed_once (P := P.moved) hq (phaseFrom (queueOf 0) (some Phase.fresh) σ.log)) with e | e <;> rw [e] <;> rfl

/-! ## The hypotheses can be met -/

def exCallArgs (fwd double : Bool) : CallArgs := ⟨.same, fwd, fun _ => false, 2, double, true⟩

/-- Two plans; the first is used in both directions and overwritten by the second, which goes on to a third variable and back. -/
def exVars : List (VarOp CallArgs) := [.make 0, .make 1, .call 0 (exCallArgs true true), .call 0 (exCallArgs false true), .moveAssign 0 1,
  .moveInit 2 0, .call 2 (exCallArgs true false), .moveAssign 1 2, .moveAssign 1 1, .call 1 (exCallArgs true false), .destroy 2, .destroy 1, .destroy 0]

theorem exVars_valid : ∃ o, Owners.start.run exVars = some o ∧ o.next = 2 ∧ o.Over := by
  refine ⟨_, rfl, rfl, fun v => ?_⟩
  by_cases h0 : v = 0 <;> by_cases h1 : v = 1 <;> by_cases h2 : v = 2 <;> simp [h0, h1, h2, Function.update, Owners.start]

/-- The program runs, uses everything right, gives everything back, and does not get stuck, for all libraries and pairs of algorithms. -/
example (lib : FftLibrary) (a b : Alg) : ∃ plans : Nat → MpiPlan, (plans 0).alg = a ∧ (plans 1).alg = b ∧
    (∀ r, ∃ σ, VarState.start.run (planBuild lib false plans r) exVars = some σ ∧ UsedRight σ.log ∧ GivenBack σ.log) ∧
    Completes 4 fun r => varSteps 4 lib false plans r .start exVars := by
  obtain ⟨oa, ha, hia, -⟩ := exPlan a
  obtain ⟨ob, hb, hib, -⟩ := exPlan b
  obtain ⟨o, ho, -, hover⟩ := exVars_valid
  refine ⟨fun i => if i = 0 then ⟨a, oa⟩ else ⟨b, ob⟩, rfl, rfl, fun r => ?_, ?_⟩
  · have hd := C90_defined (lib := lib) (plans := fun i => if i = 0 then ⟨a, oa⟩ else ⟨b, ob⟩) (r := r) (ops := exVars) (Or.inl rfl)
    rw [ho] at hd
    obtain ⟨σ, hσ⟩ := Option.isSome_iff_exists.1 hd
    exact ⟨σ, hσ, C90_used_right_partial (Or.inl rfl) hσ, (C90_given_back_partial (Or.inl rfl) ho hσ).2 hover⟩
  · have hP : ∀ p, Made 4 ((fun i => if i = 0 then ⟨a, oa⟩ else ⟨b, ob⟩ : Nat → MpiPlan) p) := by
      intro p
      by_cases h : p = 0
      · simp only [h, if_true]; exact ha
      · simp only [h, if_false]; exact hb
    refine C90_no_deadlock_partial (Or.inl rfl) (by rw [ho]; rfl) hP ?_
    have hcall : ∀ p fwd i r, r < 4 → ∃ l, ((fun i => if i = 0 then ⟨a, oa⟩ else ⟨b, ob⟩ : Nat → MpiPlan) p).instrs .same fwd i r = .ok l := by
      intro p fwd i r hr
      by_cases h : p = 0
      · simp only [h, if_true]; exact hia r hr fwd i
      · simp only [h, if_false]; exact hib r hr fwd i
    have all : ∀ (ops : List (VarOp CallArgs)) (o : Owners), (∀ v c, .call v c ∈ ops → c.mode = .same) → CallsAllowed 4 (fun i => if i = 0 then ⟨a, oa⟩ else ⟨b, ob⟩) o ops := by
      intro ops
      induction ops with
      | nil => intros; trivial
      | cons op ops ih =>
        intro o h
        refine ⟨fun v c p hop _ r hr => ?_, fun o' _ => ih o' fun v c hc => h v c (List.mem_cons_of_mem _ hc)⟩
        rw [h v c (hop ▸ List.mem_cons_self)]
        exact hcall p _ _ r hr
    refine all _ _ fun v c hc => ?_
    simp only [exVars, List.mem_cons, VarOp.call.injEq, reduceCtorEq, false_or, or_false, List.not_mem_nil] at hc
    rcases hc with ⟨-, rfl⟩ | ⟨-, rfl⟩ | ⟨-, rfl⟩ | ⟨-, rfl⟩ <;> rfl

/-- A plan by hand: two reshapes with communicators, three complex executors; the log of a life with a call and a movement, which the
counting of the events is about. -/
def exKinds : List (Option MemberKind) := [some .box, some .box, some (.reshape true), none, none, none, some (.reshape true), none, none, none,
  some (.executor .c2c), some (.executor .c2c), some (.executor .c2c)]

example : ∃ σ, VarState.start.run ⟨.fftw, false, fun _ => exKinds⟩ [.make 0, .call 0 (exCallArgs true true), .moveInit 1 0, .destroy 0, .destroy 1] = some σ ∧
    σ.log.length = 9 + 7 + 12 ∧ phaseOf σ.log ⟨0, 10, some 2⟩ = some .gone ∧ phaseOf σ.log ⟨0, 10, some 3⟩ = some .fresh := by
  refine ⟨_, rfl, ?_, ?_, ?_⟩ <;> decide +kernel

/-- Overwriting a plan with MAGMA loses its queue: nobody ever destroys it. -/
theorem C90_false_magma_leak : ∃ (conf : Nat → List (Option MemberKind)) (σ : VarState), VarState.start.run ⟨.cufft, true, conf⟩
    [.make 0, .make 1, .moveAssign 0 1, .destroy 1, .destroy 0] = some σ ∧ phaseOf σ.log (queueOf 0) = some .held ∧ ¬ GivenBack σ.log := by
  refine ⟨fun _ => exKinds, _, rfl, by decide +kernel, fun h => ?_⟩
  have h0 := h (queueOf 0)
  revert h0
  decide +kernel

end Verif
