import Verif.PlanVarsMain

/-!
# Plans in variables of C++: the calls of MPI
-/

namespace Verif

variable {n : Nat} {lib : FftLibrary} {magma : Bool} {plans : Nat → MpiPlan} {r : Nat}

theorem planBuild_sound (lib : FftLibrary) (magma : Bool) (plans : Nat → MpiPlan) (r : Nat) : (planBuild lib magma plans r).Sound :=
  fun _ => ⟨rfl, _, _, _, rfl⟩

/-- The calls of MPI when the object behind a pointer is deleted. -/
def optFree (plans : Nat → MpiPlan) (r : Nat) : Option HeldObj → List MpiStep
  | none => []
  | some o => o.released.flatMap (freeSteps plans r)

theorem objects_free (plans : Nat → MpiPlan) (r : Nat) : ∀ l : List (Option HeldObj),
    ((objectsOf l).flatMap HeldObj.released).flatMap (freeSteps plans r) = l.flatMap (optFree plans r)
  | [] => rfl
  | none :: l => objects_free plans r l
  | some o :: l => by
    show (o.released ++ (objectsOf l).flatMap HeldObj.released).flatMap _ = o.released.flatMap _ ++ l.flatMap _
    rw [List.flatMap_append, objects_free plans r l]

theorem memory_free (plans : Nat → MpiPlan) (r : Nat) (o : HeldObj) : freeSteps plans r o.memory = [] := rfl

theorem optFree_some (plans : Nat → MpiPlan) (r : Nat) (o : HeldObj) : optFree plans r (some o) = o.held.reverse.flatMap (freeSteps plans r) := by
  show (o.held.reverse ++ [o.memory]).flatMap _ = _
  rw [List.flatMap_append, List.flatMap_cons, memory_free]
  simp

/-- A reshape with the communicator of the shaper `s`. -/
theorem optFree_reshape {x : Option HeldObj} {s : Option Shaper} {p m : Nat} {st : List MpiStep} (hk : x.map HeldObj.kind = Shaper.memberKind s)
    (ho : ∀ o, x = some o → o.plan = p ∧ o.member = m ∧ PartsOk lib o) (hf : freeSteps plans r ⟨p, m, some 0⟩ = st)
    (hs : Shaper.memberKind s ≠ some (.reshape true) → st = []) : optFree plans r x = st := by
  cases x with
  | none =>
    refine (hs ?_).symm
    rw [← hk]; simp
  | some o =>
    obtain ⟨rfl, rfl, hp⟩ := ho o rfl
    have hk' : some o.kind = Shaper.memberKind s := hk
    rw [optFree_some]
    have hb : ∃ b, o.kind = .reshape b := by
      match s with
      | none => cases hk'
      | some (.alltoall _ _) => exact ⟨_, Option.some.inj hk'⟩
      | some (.alltoallv _ _) => exact ⟨_, Option.some.inj hk'⟩
      | some (.p2p _ _) => exact ⟨_, Option.some.inj hk'⟩
      | some (.transpose _) => exact ⟨_, Option.some.inj hk'⟩
    obtain ⟨b, hb⟩ := hb
    have hparts := hp.2 b hb
    rw [hb] at hparts
    cases b with
    | true =>
      have e : o.held = [⟨o.plan, o.member, some 0⟩] := by
        unfold HeldObj.held
        rw [hparts]
        rfl
      rw [e]
      show freeSteps plans r _ ++ [] = _
      rw [List.append_nil, hf]
    | false =>
      have e : o.held = [] := by
        unfold HeldObj.held
        rw [hparts]
        rfl
      rw [e, hs]
      · rfl
      · rw [← hk', hb]; simp

theorem mpiFree_nil {key : Nat × Nat} {s : Option Shaper} (h : Shaper.memberKind s ≠ some (.reshape true)) : Shaper.mpiFree key s = [] := by
  match s with
  | none => rfl
  | some (.alltoall _ _) => exact absurd rfl h
  | some (.alltoallv _ _) => exact absurd rfl h
  | some (.p2p _ _) => rfl
  | some (.transpose _) => rfl

/-- Boxes and executors have no communicators. -/
theorem optFree_other {x : Option HeldObj} {m : Nat} (ho : ∀ o, x = some o → o.member = m) (hm : m < 2 ∨ 10 ≤ m) : optFree plans r x = [] := by
  cases x with
  | none => rfl
  | some o =>
    have hmem := ho o rfl
    rw [optFree_some]
    refine List.flatMap_eq_nil_iff.2 fun y hy => ?_
    obtain ⟨j, -, rfl⟩ := mem_held.1 (List.mem_reverse.1 hy)
    show (if h : _ then _ else _) = _
    rw [dif_neg (by show ¬ (2 ≤ o.member ∧ o.member < 6); omega), dif_neg (by show ¬ (6 ≤ o.member ∧ o.member < 10); omega)]

theorem named_get {p : Nat} : ∀ {k : Nat} {l : List (Option HeldObj)}, NamedFrom p k l → ∀ m o, l[m]? = some (some o) → o.plan = p ∧ o.member = k + m
  | _, [], _, m, o, h => by simp at h
  | k, none :: l, hn, 0, o, h => by simp at h
  | k, none :: l, hn, m + 1, o, h => by
    have := named_get (k := k + 1) (l := l) hn m o (by simpa using h)
    exact ⟨this.1, by omega⟩
  | k, some x :: l, hn, 0, o, h => by
    have : x = o := by simpa using h
    subst this
    exact ⟨hn.1, hn.2.1⟩
  | k, some x :: l, hn, m + 1, o, h => by
    have := named_get (k := k + 1) (l := l) hn.2.2 m o (by simpa using h)
    exact ⟨this.1, by omega⟩

theorem mem_objects {l : List (Option HeldObj)} {m : Nat} {o : HeldObj} (h : l[m]? = some (some o)) : o ∈ objectsOf l :=
  List.mem_filterMap.2 ⟨some o, List.mem_of_getElem? h, rfl⟩

/-- The calls of MPI for the members of a plan, in the order of their declaration and in the reverse order. -/
theorem members_free {p : Nat} {P : HeldPlan} (h : HoldsPlan (planBuild lib magma plans r) p P) :
    P.members.flatMap (optFree plans r) =
      ([(0 : Fin 4), 1, 2, 3].flatMap fun j => Shaper.mpiFree (shaperKey p true j) (shaperAt (plans p).obj.fft.fwd r j)) ++
      [(0 : Fin 4), 1, 2, 3].flatMap (fun j => Shaper.mpiFree (shaperKey p false j) (shaperAt (plans p).obj.fft.bwd r j)) ∧
    P.members.reverse.flatMap (optFree plans r) = (plans p).destructor p r := by
  have hl := h.length (planBuild_sound lib magma plans r)
  have hn := fun m o => named_get h.named m o
  have hp := fun m o (e : P.members[m]? = some (some o)) => h.parts o (mem_objects e)
  have hk := h.kinds
  have other : ∀ m, (m < 2 ∨ 10 ≤ m) → ∀ x, P.members[m]? = some x → optFree plans r x = [] := by
    intro m hm x hx
    refine optFree_other (m := m) (fun o e => ?_) hm
    subst e
    have := (hn m o hx).2
    omega
  have fwd : ∀ j : Fin 4, ∀ x, P.members[2 + j.val]? = some x →
      optFree plans r x = Shaper.mpiFree (shaperKey p true j) (shaperAt (plans p).obj.fft.fwd r j) := by
    intro j x hx
    have hk' : x.map HeldObj.kind = Shaper.memberKind (shaperAt (plans p).obj.fft.fwd r j) := by
      have := congrArg (fun l => l[2 + j.val]?) hk
      simp only [kindsOf, List.getElem?_map, hx] at this
      match j with
      | 0 => exact Option.some.inj this
      | 1 => exact Option.some.inj this
      | 2 => exact Option.some.inj this
      | 3 => exact Option.some.inj this
    refine optFree_reshape (lib := lib) hk' (fun o e => ?_) (m := 2 + j.val) (p := p) ?_ mpiFree_nil
    · subst e
      exact ⟨(hn _ o hx).1, by have := (hn _ o hx).2; omega, hp _ o hx⟩
    · match j with
      | 0 => rfl
      | 1 => rfl
      | 2 => rfl
      | 3 => rfl
  have bwd : ∀ j : Fin 4, ∀ x, P.members[6 + j.val]? = some x →
      optFree plans r x = Shaper.mpiFree (shaperKey p false j) (shaperAt (plans p).obj.fft.bwd r j) := by
    intro j x hx
    have hk' : x.map HeldObj.kind = Shaper.memberKind (shaperAt (plans p).obj.fft.bwd r j) := by
      have := congrArg (fun l => l[6 + j.val]?) hk
      simp only [kindsOf, List.getElem?_map, hx] at this
      match j with
      | 0 => exact Option.some.inj this
      | 1 => exact Option.some.inj this
      | 2 => exact Option.some.inj this
      | 3 => exact Option.some.inj this
    refine optFree_reshape (lib := lib) hk' (fun o e => ?_) (m := 6 + j.val) (p := p) ?_ mpiFree_nil
    · subst e
      exact ⟨(hn _ o hx).1, by have := (hn _ o hx).2; omega, hp _ o hx⟩
    · match j with
      | 0 => rfl
      | 1 => rfl
      | 2 => rfl
      | 3 => rfl
  clear hn hp hk
  match hm : P.members, hl with
  | [a0, a1, a2, a3, a4, a5, a6, a7, a8, a9, a10, a11, a12], _ =>
    rw [hm] at other fwd bwd
    have e0 := other 0 (by omega) a0 rfl
    have e1 := other 1 (by omega) a1 rfl
    have e10 := other 10 (by omega) a10 rfl
    have e11 := other 11 (by omega) a11 rfl
    have e12 := other 12 (by omega) a12 rfl
    have e2 := fwd 0 a2 rfl
    have e3 := fwd 1 a3 rfl
    have e4 := fwd 2 a4 rfl
    have e5 := fwd 3 a5 rfl
    have e6 := bwd 0 a6 rfl
    have e7 := bwd 1 a7 rfl
    have e8 := bwd 2 a8 rfl
    have e9 := bwd 3 a9 rfl
    constructor
    · simp only [List.flatMap_cons, List.flatMap_nil, e0, e1, e2, e3, e4, e5, e6, e7, e8, e9, e10, e11, e12, List.nil_append, List.append_nil, List.append_assoc]
    · simp only [MpiPlan.destructor, List.reverse_cons, List.reverse_nil, List.nil_append, List.cons_append, List.flatMap_cons, List.flatMap_nil,
        e0, e1, e2, e3, e4, e5, e6, e7, e8, e9, e10, e11, e12, List.append_nil, List.append_assoc]

/-- The actions of a statement as a session of `MpiSession`. -/
def stepActs (plans : Nat → MpiPlan) (o : Owners) : VarOp CallArgs → List Act
  | .make _ => [.make o.next]
  | .moveInit _ _ => []
  | .moveAssign v w =>
    match o.holds v with
    | some (some q) => if v = w then [] else
      ([(0 : Fin 4), 1, 2, 3].map fun j => .own fun r => Shaper.mpiFree (shaperKey q true j) (shaperAt (plans q).obj.fft.fwd r j)) ++
      [(0 : Fin 4), 1, 2, 3].map fun j => .own fun r => Shaper.mpiFree (shaperKey q false j) (shaperAt (plans q).obj.fft.bwd r j)
    | _ => []
  | .call v c =>
    match o.holds v with
    | some (some p) => [.call p c.mode c.fwd c.inplace c.batch]
    | _ => []
  | .destroy v =>
    match o.holds v with
    | some (some p) => [.destroy p]
    | _ => []

def varActs (plans : Nat → MpiPlan) : Owners → List (VarOp CallArgs) → List Act
  | _, [] => []
  | o, op :: ops => stepActs plans o op ++ match o.step op with
    | some o' => varActs plans o' ops
    | none => []

theorem objects_none {l : List (Option HeldObj)} (h : ∀ x ∈ l, x = none) : objectsOf l = [] := by
  refine List.eq_nil_iff_forall_not_mem.2 fun a ha => ?_
  obtain ⟨z, hz, hz'⟩ := List.mem_filterMap.1 ha
  rw [h z hz] at hz'
  cases hz'

theorem destroyed_free (plans : Nat → MpiPlan) (r : Nat) (P : HeldPlan) : P.destroyed.flatMap (freeSteps plans r) = P.members.reverse.flatMap (optFree plans r) := by
  unfold HeldPlan.destroyed
  rw [List.flatMap_append]
  have hq : ∀ p, freeSteps plans r (queueOf p) = [] := fun _ => rfl
  have : (objectsOf P.members).reverse = objectsOf P.members.reverse := (List.filterMap_reverse).symm
  rw [this, objects_free]
  cases P.queue <;> simp [hq]

theorem step_steps {o : Owners} {σ : VarState} (h : VarInv (planBuild lib magma plans r) o σ) (op : VarOp CallArgs) (hv : (o.step op).isSome) :
    op.mpiSteps n plans r σ = (stepActs plans o op).flatMap (Act.steps n plans r) := by
  cases op with
  | make v =>
    show (plans σ.next).constructor n r = (plans o.next).constructor n r ++ []
    rw [h.next, List.append_nil]
  | moveInit v w => rfl
  | moveAssign v w =>
    cases e : o.holds v with
    | none => simp [Owners.step, e] at hv
    | some x =>
      cases x with
      | none =>
        obtain ⟨P, hP, hnone, -⟩ := h.empty v e
        simp only [VarOp.mpiSteps, stepActs, hP, e, objects_none hnone, List.flatMap_nil, ite_self]
      | some q =>
        obtain ⟨-, P, hP, hH, -⟩ := h.full v q e
        simp only [VarOp.mpiSteps, stepActs, hP, e]
        by_cases hvw : v = w
        · simp only [hvw, if_true, List.flatMap_nil]
        · simp only [hvw, if_false]
          rw [objects_free, (members_free hH).1, List.flatMap_append, List.flatMap_map, List.flatMap_map]
          rfl
  | call v c =>
    cases e : o.holds v with
    | none => simp [Owners.step, e] at hv
    | some x =>
      cases x with
      | none => simp [Owners.step, e] at hv
      | some p =>
        obtain ⟨-, P, hP, hH, -⟩ := h.full v p e
        simp only [VarOp.mpiSteps, stepActs, hP, e]
        have hk := hH.kinds
        match hm : P.members with
        | [] => rw [hm] at hk; simp [kindsOf, planBuild, MpiPlan.memberKinds] at hk
        | none :: l => rw [hm] at hk; simp [kindsOf, planBuild, MpiPlan.memberKinds] at hk
        | some ob :: l =>
          have := hH.named
          rw [hm] at this
          show (plans ob.plan).call ob.plan c.mode c.fwd (c.inplace r) c.batch r = (plans p).call p c.mode c.fwd (c.inplace r) c.batch r ++ []
          rw [this.1, List.append_nil]
  | destroy v =>
    cases e : o.holds v with
    | none => simp [Owners.step, e] at hv
    | some x =>
      cases x with
      | none =>
        obtain ⟨P, hP, hnone, -⟩ := h.empty v e
        simp only [VarOp.mpiSteps, stepActs, hP, e, List.flatMap_nil, destroyed_free]
        refine List.flatMap_eq_nil_iff.2 fun y hy => ?_
        rw [hnone y (List.mem_reverse.1 hy)]
        rfl
      | some p =>
        obtain ⟨-, P, hP, hH, -⟩ := h.full v p e
        simp only [VarOp.mpiSteps, stepActs, hP, e, destroyed_free, (members_free hH).2]
        show _ = (plans p).destructor p r ++ []
        rw [List.append_nil]

theorem var_steps : ∀ {ops : List (VarOp CallArgs)} {o : Owners} {σ : VarState}, VarInv (planBuild lib magma plans r) o σ →
    (magma = false ∨ ∀ op ∈ ops, op.isMove = false) → (o.run ops).isSome →
    varSteps n lib magma plans r σ ops = (varActs plans o ops).flatMap (Act.steps n plans r)
  | [], _, _, _, _, _ => rfl
  | op :: ops, o, σ, h, hm, hv => by
    have hs := step_agree (planBuild_sound lib magma plans r) h op (hm.imp id fun h => h op List.mem_cons_self)
    simp only [Owners.run] at hv
    cases e1 : o.step op with
    | none => rw [e1] at hv; cases hv
    | some o' =>
      rw [e1] at hv hs
      have hv' : (o'.run ops).isSome := hv
      cases e2 : σ.step (planBuild lib magma plans r) op with
      | none => rw [e2] at hs; exact hs.elim
      | some σ' =>
        rw [e2] at hs
        have ih := var_steps (ops := ops) hs (hm.imp id fun h x hx => h x (List.mem_cons_of_mem _ hx)) hv'
        simp only [varSteps, varActs, e1, e2]
        rw [List.flatMap_append, ih, step_steps h op (by rw [e1]; rfl)]

theorem session_flat (n : Nat) (plans : Nat → MpiPlan) (acts : List Act) (r : Nat) : (sessionSteps n plans acts r).map (·.2) = acts.flatMap (Act.steps n plans r) := by
  unfold sessionSteps
  rw [List.map_flatMap]
  have : ∀ (l : List Act) (k : Nat), ((l.zipIdx k).flatMap fun x => ((x.1.steps n plans r).map fun s => (x.2, s)).map (·.2)) = l.flatMap (Act.steps n plans r) := by
    intro l
    induction l with
    | nil => intro k; rfl
    | cons a l ih =>
      intro k
      rw [List.zipIdx_cons, List.flatMap_cons, List.flatMap_cons, ih (k + 1), List.map_map]
      congr 1
      exact List.map_id _
  exact this acts 0

/-- The calls of the program are calls that the plans can do. -/
def CallsAllowed (n : Nat) (plans : Nat → MpiPlan) : Owners → List (VarOp CallArgs) → Prop
  | _, [] => True
  | o, op :: ops => (∀ v c p, op = .call v c → o.holds v = some (some p) → ∀ r, r < n → ∃ l, (plans p).instrs c.mode c.fwd (c.inplace r) r = .ok l) ∧
    ∀ o', o.step op = some o' → CallsAllowed n plans o' ops

theorem acts_allowed (hP : ∀ p, Made n (plans p)) : ∀ {ops : List (VarOp CallArgs)} {o : Owners}, CallsAllowed n plans o ops →
    ∀ a ∈ varActs plans o ops, a.Allowed n plans
  | [], _, _, a, ha => by cases ha
  | op :: ops, o, h, a, ha => by
    rcases List.mem_append.1 ha with ha | ha
    · cases op with
      | make v => rw [List.mem_singleton.1 ha]; exact hP _
      | moveInit v w => cases ha
      | moveAssign v w =>
        cases e : o.holds v with
        | none => simp only [stepActs, e] at ha; cases ha
        | some x =>
          cases x with
          | none => simp only [stepActs, e] at ha; cases ha
          | some q =>
            simp only [stepActs, e] at ha
            by_cases hvw : v = w
            · rw [if_pos hvw] at ha; cases ha
            · rw [if_neg hvw] at ha
              obtain ⟨r2c, wi, wo, ex, hp, hs⟩ := (hP q).facts
              rcases List.mem_append.1 ha with ha | ha
              · obtain ⟨j, -, rfl⟩ := List.mem_map.1 ha
                exact piece_fwd_free hp hs _ j
              · obtain ⟨j, -, rfl⟩ := List.mem_map.1 ha
                exact piece_bwd_free hp hs _ j
      | call v c =>
        cases e : o.holds v with
        | none => simp only [stepActs, e] at ha; cases ha
        | some x =>
          cases x with
          | none => simp only [stepActs, e] at ha; cases ha
          | some p =>
            simp only [stepActs, e] at ha
            rw [List.mem_singleton.1 ha]
            exact ⟨hP p, h.1 v c p rfl e⟩
      | destroy v =>
        cases e : o.holds v with
        | none => simp only [stepActs, e] at ha; cases ha
        | some x =>
          cases x with
          | none => simp only [stepActs, e] at ha; cases ha
          | some p =>
            simp only [stepActs, e] at ha
            rw [List.mem_singleton.1 ha]
            exact hP p
    · cases e : o.step op with
      | none => rw [e] at ha; cases ha
      | some o' =>
        rw [e] at ha
        exact acts_allowed hP (h.2 o' e) a ha

end Verif
