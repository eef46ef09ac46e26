import Verif.MpiPieces

/-!
# Any session completes
-/

namespace Verif

/-- The plan is what a constructor returned on `n` ranks for a valid geometry. -/
inductive Made (n : Nat) (P : MpiPlan) : Prop where
  | c2c (bk : Backend) (bin bout : List Box) (wi wo : Box) (opts : Opts) : bin.length = n → Geometry bin bout none wi wo →
      makeFft3d bk bin bout opts = .ok P.obj → P.alg = opts.algorithm → Made n P
  | r2c (bin bout : List Box) (d : Fin 3) (wi wo : Box) (opts : Opts) : bin.length = n → Geometry bin bout (some d) wi wo → RankZeroHolds bin →
      (∀ b ∈ bin, b.count < 2 ^ 31) → makeFft3dR2C bin bout d opts = .ok P.obj → P.alg = opts.algorithm → Made n P

/-- The actions are allowed: the plans were made by constructors, no rank dereferences a null pointer in a transform, and what the
program of the user does in its own way fits together. -/
def Act.Allowed (n : Nat) (plans : Nat → MpiPlan) : Act → Prop
  | .make i => Made n (plans i)
  | .call i mode fwd inplace _ => Made n (plans i) ∧ ∀ r, r < n → ∃ l, (plans i).instrs mode fwd (inplace r) r = .ok l
  | .destroy i => Made n (plans i)
  | .own steps => Piece n steps

theorem Made.facts {n : Nat} {P : MpiPlan} (h : Made n P) : ∃ r2c wi wo ex, PlanFacts P.obj.plan r2c wi wo n ∧ SetupOk P.alg P.obj.plan P.obj.fft n ex := by
  cases h with
  | c2c bk bin bout wi wo opts hn geo hm ha =>
    obtain ⟨-, -, hp, -, -, -, -, hs⟩ := makeFft3d_ok geo hm
    rw [hn] at hp hs
    rw [ha]
    exact ⟨_, _, _, _, hp, hs⟩
  | r2c bin bout d wi wo opts hn geo hz hc hm ha =>
    obtain ⟨hp, -, -, -, -, -, hs⟩ := makeFft3dR2C_ok geo hz hc hm
    rw [hn] at hp hs
    rw [ha]
    exact ⟨_, _, _, _, hp, hs⟩

/-- The reshape of an operation. -/
def Instr.stageOf : Instr → Option (Fin 4)
  | .reshape j _ _ => some j
  | _ => none

def Pattern.all : List Pattern :=
  [true, false].flatMap fun a => [true, false].flatMap fun b => [true, false].flatMap fun c => [true, false].flatMap fun d =>
  [true, false].flatMap fun e => [true, false].flatMap fun f => [true, false].flatMap fun g => [true, false].map fun h => ⟨a, b, c, d, e, f, g, h⟩

theorem Pattern.mem_all (P : Pattern) : P ∈ Pattern.all := by
  obtain ⟨a, b, c, d, e, f, g, h⟩ := P
  simp only [Pattern.all, List.mem_flatMap, List.mem_map]
  have hb : ∀ x : Bool, x ∈ [true, false] := by intro x; cases x <;> simp
  exact ⟨a, hb a, b, hb b, c, hb c, d, hb d, e, hb e, f, hb f, g, hb g, h, hb h, rfl⟩

theorem program_table : ([Mode.same, .r2c, .c2r].all fun m => Pattern.all.all fun P => match program m P with
    | .ok l => decide (l.filterMap Instr.stageOf = [(0 : Fin 4), 1, 2, 3].filter fun j => P.s j.val)
    | .error _ => true) = true := by decide +kernel

/-- All the ranks that have a reshape do it, in the same order. -/
theorem program_order {m : Mode} {P : Pattern} {l : List Instr} (h : program m P = .ok l) :
    l.filterMap Instr.stageOf = [(0 : Fin 4), 1, 2, 3].filter fun j => P.s j.val := by
  have h1 := List.all_eq_true.1 program_table m (by cases m <;> simp)
  have h2 := List.all_eq_true.1 h1 P (Pattern.mem_all P)
  rw [h] at h2
  exact of_decide_eq_true h2

theorem flatMap_stageOf {β : Type} (f : Fin 4 → List β) (l : List Instr) : (l.flatMap fun c => match c with
    | .reshape j _ _ => f j
    | _ => []) = (l.filterMap Instr.stageOf).flatMap f := by
  induction l with
  | nil => rfl
  | cons c t ih => cases c <;> simp [List.flatMap_cons, Instr.stageOf, ih, List.filterMap_cons]

theorem patternOf_s (s : Fin 4 → Option Shaper) (e : Fin 3 → Option Executor) (b : Bool) (j : Fin 4) : (patternOf s e b).s j.val = (s j).isSome := by
  match j with
  | 0 => rfl
  | 1 => rfl
  | 2 => rfl
  | 3 => rfl

theorem mpiApply_none {alg : Alg} {key : Nat × Nat} {nb : Nat} : Shaper.mpiApply alg key nb none = [] := rfl

theorem filter_flatMap_some (s : Fin 4 → Option Shaper) (f : Fin 4 → Option Shaper → List MpiStep) (hf : ∀ j, f j none = []) (l : List (Fin 4)) :
    (l.filter fun j => (s j).isSome).flatMap (fun j => f j (s j)) = l.flatMap fun j => f j (s j) := by
  induction l with
  | nil => rfl
  | cons j t ih =>
    rw [List.filter_cons]
    rcases h : s j with _ | x
    · simp [h, ih, hf]
    · simp [h, ih]

/-- A transform is four reshapes. -/
theorem call_eq (P : MpiPlan) (i : Nat) (mode : Mode) (fwd inplace : Bool) (nb r : Nat)
    (h : (∃ l, P.instrs mode fwd inplace r = .ok l) ∨ ∀ j, shaperAt (P.obj.fft.shapers fwd) r j = none) :
    P.call i mode fwd inplace nb r = [(0 : Fin 4), 1, 2, 3].flatMap fun j =>
      Shaper.mpiApply P.alg (shaperKey i fwd j) nb (shaperAt (P.obj.fft.shapers fwd) r j) := by
  unfold MpiPlan.call
  cases hp : P.instrs mode fwd inplace r with
  | ok l =>
    dsimp only
    refine (flatMap_stageOf (fun j => Shaper.mpiApply P.alg (shaperKey i fwd j) nb (shaperAt (P.obj.fft.shapers fwd) r j)) l).trans ?_
    rw [program_order hp]
    simp only [patternOf_s]
    exact filter_flatMap_some (shaperAt (P.obj.fft.shapers fwd) r) (fun j s => Shaper.mpiApply P.alg (shaperKey i fwd j) nb s) (fun _ => rfl) _
  | error e =>
    rcases h with ⟨l, h⟩ | h
    · rw [hp] at h; cases h
    · simp [h, mpiApply_none]

/-- The pieces of an action. -/
def Act.pieces (n : Nat) (plans : Nat → MpiPlan) : Act → List (Nat → List MpiStep)
  | .make i => (fun _ => collSteps (userComm n) .allgather) :: [(0 : Fin 4), 1, 2, 3].flatMap fun j =>
      [fun r => mpiMake n (plans i).alg ((plans i).obj.plan.stageBoxes j).1 ((plans i).obj.plan.stageBoxes j).2 (shaperAt (plans i).obj.fft.fwd r j),
       fun r => mpiMake n (plans i).alg ((plans i).obj.plan.stageBoxes j).2 ((plans i).obj.plan.stageBoxes j).1 (shaperAt (plans i).obj.fft.bwd r (3 - j))]
  | .call i _ fwd _ nb => [(0 : Fin 4), 1, 2, 3].map fun j r =>
      Shaper.mpiApply (plans i).alg (shaperKey i fwd j) nb (shaperAt ((plans i).obj.fft.shapers fwd) r j)
  | .destroy i => ([(3 : Fin 4), 2, 1, 0].map fun j r => Shaper.mpiFree (shaperKey i false j) (shaperAt (plans i).obj.fft.bwd r j)) ++
      [(3 : Fin 4), 2, 1, 0].map fun j r => Shaper.mpiFree (shaperKey i true j) (shaperAt (plans i).obj.fft.fwd r j)
  | .own steps => [steps]

section
variable {n : Nat} {P : MpiPlan} {r2c : Option (Fin 3)} {wi wo : Box} {ex : Nat → A3 (Option Executor)}

theorem stageBoxes_eq (p : Plan) (j : Fin 4) : p.stageBoxes j = (p.inAt j, p.outAt j) := by
  match j with
  | 0 => rfl
  | 1 => rfl
  | 2 => rfl
  | 3 => rfl

theorem piece_fwd_apply (hp : PlanFacts P.obj.plan r2c wi wo n) (hs : SetupOk P.alg P.obj.plan P.obj.fft n ex) (key : Nat × Nat) (nb : Nat) (j : Fin 4) :
    Piece n fun r => Shaper.mpiApply P.alg key nb (shaperAt P.obj.fft.fwd r j) := by
  have := piece_apply (hp.redis j) (hs.fwd j) key nb
  rwa [hp.lenIn] at this

theorem piece_bwd_apply (hp : PlanFacts P.obj.plan r2c wi wo n) (hs : SetupOk P.alg P.obj.plan P.obj.fft n ex) (key : Nat × Nat) (nb : Nat) (j : Fin 4) :
    Piece n fun r => Shaper.mpiApply P.alg key nb (shaperAt P.obj.fft.bwd r j) := by
  have := piece_apply (hp.redis j.rev).symm (hs.bwd j) key nb
  rwa [hp.lenOut] at this

theorem piece_fwd_free (hp : PlanFacts P.obj.plan r2c wi wo n) (hs : SetupOk P.alg P.obj.plan P.obj.fft n ex) (key : Nat × Nat) (j : Fin 4) :
    Piece n fun r => Shaper.mpiFree key (shaperAt P.obj.fft.fwd r j) := by
  have := piece_free (hp.redis j) (hs.fwd j) key
  rwa [hp.lenIn] at this

theorem piece_bwd_free (hp : PlanFacts P.obj.plan r2c wi wo n) (hs : SetupOk P.alg P.obj.plan P.obj.fft n ex) (key : Nat × Nat) (j : Fin 4) :
    Piece n fun r => Shaper.mpiFree key (shaperAt P.obj.fft.bwd r j) := by
  have := piece_free (hp.redis j.rev).symm (hs.bwd j) key
  rwa [hp.lenOut] at this

theorem piece_fwd_make (hp : PlanFacts P.obj.plan r2c wi wo n) (hs : SetupOk P.alg P.obj.plan P.obj.fft n ex) (j : Fin 4) :
    Piece n fun r => mpiMake n P.alg (P.obj.plan.stageBoxes j).1 (P.obj.plan.stageBoxes j).2 (shaperAt P.obj.fft.fwd r j) := by
  have := piece_make (hp.redis j) (hs.fwd j)
  rw [hp.lenIn] at this
  simp only [stageBoxes_eq]
  exact this

theorem rev_rev_sub (j : Fin 4) : (3 - j).rev = j := by
  match j with
  | 0 => rfl
  | 1 => rfl
  | 2 => rfl
  | 3 => rfl

theorem piece_bwd_make (hp : PlanFacts P.obj.plan r2c wi wo n) (hs : SetupOk P.alg P.obj.plan P.obj.fft n ex) (j : Fin 4) :
    Piece n fun r => mpiMake n P.alg (P.obj.plan.stageBoxes j).2 (P.obj.plan.stageBoxes j).1 (shaperAt P.obj.fft.bwd r (3 - j)) := by
  have hb := hs.bwd (3 - j)
  rw [rev_rev_sub] at hb
  have := piece_make (hp.redis j).symm hb
  rw [hp.lenOut] at this
  simp only [stageBoxes_eq]
  exact this

end

variable {n : Nat} {plans : Nat → MpiPlan}

theorem act_pieces {a : Act} (h : a.Allowed n plans) : ∀ b ∈ a.pieces n plans, Piece n b := by
  cases a with
  | make i =>
    obtain ⟨r2c, wi, wo, ex, hp, hs⟩ := Made.facts h
    intro b hb
    rcases List.mem_cons.1 hb with rfl | hb
    · exact piece_user n (fun _ => .allgather) fun _ _ _ _ => trivial
    · obtain ⟨j, -, hj⟩ := List.mem_flatMap.1 hb
      simp only [List.mem_cons, List.not_mem_nil, or_false] at hj
      rcases hj with rfl | rfl
      · exact piece_fwd_make hp hs j
      · exact piece_bwd_make hp hs j
  | call i mode fwd inplace nb =>
    obtain ⟨r2c, wi, wo, ex, hp, hs⟩ := Made.facts h.1
    intro b hb
    obtain ⟨j, -, rfl⟩ := List.mem_map.1 hb
    cases fwd
    · exact piece_bwd_apply hp hs _ nb j
    · exact piece_fwd_apply hp hs _ nb j
  | destroy i =>
    obtain ⟨r2c, wi, wo, ex, hp, hs⟩ := Made.facts h
    intro b hb
    rcases List.mem_append.1 hb with hb | hb
    · obtain ⟨j, -, rfl⟩ := List.mem_map.1 hb
      exact piece_bwd_free hp hs _ j
    · obtain ⟨j, -, rfl⟩ := List.mem_map.1 hb
      exact piece_fwd_free hp hs _ j
  | own steps =>
    intro b hb
    simp only [Act.pieces, List.mem_singleton] at hb
    subst hb
    exact h

theorem act_steps {a : Act} (h : a.Allowed n plans) (r : Nat) : a.steps n plans r = (a.pieces n plans).flatMap fun b => b r := by
  cases a with
  | make i =>
    simp [Act.steps, MpiPlan.constructor, Act.pieces, List.flatMap_cons, List.append_assoc]
  | call i mode fwd inplace nb =>
    obtain ⟨r2c, wi, wo, ex, hp, hs⟩ := Made.facts h.1
    simp only [Act.steps, Act.pieces]
    rw [call_eq, List.flatMap_map]
    by_cases hr : r < n
    · exact .inl (h.2 r hr)
    · refine .inr fun j => ?_
      have hl : ((plans i).obj.fft.shapers fwd j).length = n := by
        cases fwd
        · have := shapersOf_length (hp.redis j.rev).symm (hs.bwd j)
          rwa [hp.lenOut] at this
        · have := shapersOf_length (hp.redis j) (hs.fwd j)
          rwa [hp.lenIn] at this
      unfold shaperAt
      rw [List.getElem?_eq_none (by omega)]
      rfl
  | destroy i => simp [Act.steps, MpiPlan.destructor, Act.pieces, List.flatMap_cons]
  | own steps => simp [Act.steps, Act.pieces]

/-- The pieces of a session. -/
def sessionPieces (n : Nat) (plans : Nat → MpiPlan) (acts : List Act) : List (Nat × (Nat → List MpiStep)) :=
  acts.zipIdx.flatMap fun x => (x.1.pieces n plans).map fun b => (x.2, b)

theorem session_pieces {acts : List Act} (h : ∀ a ∈ acts, a.Allowed n plans) : ∀ p ∈ sessionPieces n plans acts, Piece n p.2 := by
  intro p hp
  obtain ⟨x, hx, hp⟩ := List.mem_flatMap.1 hp
  obtain ⟨b, hb, rfl⟩ := List.mem_map.1 hp
  exact act_pieces (h _ (List.fst_mem_of_mem_zipIdx hx)) b hb

theorem session_eq {acts : List Act} (h : ∀ a ∈ acts, a.Allowed n plans) : sessionSteps n plans acts = assemble (sessionPieces n plans acts) := by
  funext r
  unfold sessionSteps assemble sessionPieces
  rw [List.flatMap_assoc]
  refine List.flatMap_congr fun x hx => ?_
  rw [act_steps (h _ (List.fst_mem_of_mem_zipIdx hx)) r, List.map_flatMap, List.flatMap_map]

theorem session_completes {acts : List Act} (h : ∀ a ∈ acts, a.Allowed n plans) :
    Completes n fun r => (sessionSteps n plans acts r).map (·.2) := by
  rw [session_eq h]
  exact completes_of_pieces (session_pieces h)

theorem session_matched {acts : List Act} (h : ∀ a ∈ acts, a.Allowed n plans) : Matched n (sessionSteps n plans acts) := by
  rw [session_eq h]
  exact matched_of_pieces (session_pieces h)

end Verif
