import Verif.TransformIntLemmas
import Verif.WorkLemmas
import Verif.PlanIntLemmas

/-!
# The calls and the constructors in machine integers agree with the ones in unbounded integers
-/

namespace Verif

/-! ## compute_transform -/

section
variable {α β γ : Type} {K : Kernel α β} {E : Env}

/-- The executors of a rank fit. -/
def EnvFits (w : Nat) (E : Env) : Prop := ∀ k e, E.execs k = some e → ExecFits w E.nb e

theorem size_box (k : Fin 3) : E.size (.box k) = match E.execs k with
    | some e => .ok e.boxSize
    | none => .error .ub := rfl

theorem size_cplx (k : Fin 3) : E.size (.cplx k) = match E.execs k with
    | some e => .ok e.complexSize
    | none => .error .ub := rfl

theorem EnvFits.sizeM {w : Nat} (h : EnvFits w E) (s : Sz) : E.sizeM s = E.size s := by
  unfold Env.sizeM
  cases s with
  | box k =>
    rw [size_box]
    rcases he : E.execs k with _ | e
    · rfl
    · dsimp only; rw [res_bind, (h k e he).boxSize.2.2.2]
  | cplx k =>
    rw [size_cplx]
    rcases he : E.execs k with _ | e
    · rfl
    · dsimp only; rw [res_bind, (h k e he).complexSize.2.2.2]

theorem EnvFits.size_lt {w : Nat} (h : EnvFits w E) {s : Sz} {n : Int} (hn : E.size s = .ok n) : 0 ≤ n ∧ E.nb * n < 2 ^ 31 := by
  cases s with
  | box k =>
    rw [size_box] at hn
    rcases he : E.execs k with _ | e <;> rw [he] at hn
    · cases hn
    · cases hn; exact ⟨(h k e he).boxSize.1, (h k e he).boxSize.2.2.1⟩
  | cplx k =>
    rw [size_cplx] at hn
    rcases he : E.execs k with _ | e <;> rw [he] at hn
    · cases hn
    · cases hn; exact ⟨(h k e he).complexSize.1, (h k e he).complexSize.2.2.1⟩

theorem EnvFits.runCall (M : Machine) (h : EnvFits K.lanes E) {j : Nat} (hj : j < E.nb) (m : Mem α β) (c : Call) :
    runCallM M K E j m c = Verif.runCall K E j m c := by
  unfold runCallM Verif.runCall
  cases he : E.execs c.k with
  | none => rfl
  | some e =>
    have hf := h c.k e he
    dsimp only
    rw [h.sizeM, h.sizeM]
    rcases hs : E.size c.sstep with x | so
    · rfl
    obtain ⟨s0, s1⟩ := h.size_lt hs
    obtain ⟨a0, a1⟩ := jmul_lt hj s0 s1
    rw [res_bind, res_bind, intArith_of a0 a1, res_bind]
    rcases hd : E.size c.dstep with x | dof
    · rfl
    obtain ⟨d0, d1⟩ := h.size_lt hd
    obtain ⟨b0, b1⟩ := jmul_lt hj d0 d1
    rw [res_bind, res_bind, intArith_of b0 b1, res_bind]
    generalize m.get K E c.src = x
    generalize m.get K E c.dst = y
    rcases x with x | x <;> rcases y with y | y <;> simp only [hf.runC2C M, hf.runR2C M, hf.runC2R M]

theorem foldlM_congr {σ τ ε : Type} {f g : σ → τ → Except ε σ} : ∀ (l : List τ) (s : σ), (∀ x ∈ l, ∀ s, f s x = g s x) →
    l.foldlM f s = l.foldlM g s
  | [], _, _ => rfl
  | x :: l, s, h => by
    rw [List.foldlM_cons, List.foldlM_cons, h x (by simp)]
    congr 1
    funext s'
    exact foldlM_congr l s' fun y hy => h y (by simp [hy])

theorem EnvFits.runInstr (M : Machine) (h : EnvFits K.lanes E) (c : Instr) (m : Mem α β) :
    runInstrM M K E c m = Verif.runInstr K E c m := by
  cases c with
  | copy k src dst =>
    unfold runInstrM Verif.runInstr
    dsimp only
    rw [h.sizeM]
    rcases hs : E.size (.box k) with x | n
    · rfl
    obtain ⟨s0, s1⟩ := h.size_lt hs
    have s2 : 0 ≤ E.nb * n := mul_nonneg (by omega) s0
    rw [res_bind, res_bind, intArith_of s2 s1, res_bind, toSize_of s2 (by omega)]
  | batch calls =>
    unfold runInstrM Verif.runInstr
    apply foldlM_congr
    intro j hj m
    apply foldlM_congr
    intro c _ m
    exact h.runCall M (List.mem_range.1 hj) m c
  | reshape _ _ _ => rfl

theorem EnvFits.advance (M : Machine) (h : EnvFits K.lanes E) (i : Fin 4) : ∀ (l : List Instr) (m : Mem α β),
    advanceM M K E i l m = Verif.advance K E i l m
  | [], _ => rfl
  | .reshape k s d :: t, m => rfl
  | .copy k s d :: t, m => by
    unfold advanceM Verif.advance
    rw [h.runInstr M]
    congr 1
    funext m'
    exact EnvFits.advance M h i t m'
  | .batch c :: t, m => by
    unfold advanceM Verif.advance
    rw [h.runInstr M]
    congr 1
    funext m'
    exact EnvFits.advance M h i t m'

theorem EnvFits.finish (M : Machine) (h : EnvFits K.lanes E) : ∀ (l : List Instr) (m : Mem α β),
    finishM M K E l m = Verif.finish K E l m
  | [], _ => rfl
  | c :: t, m => by
    unfold finishM Verif.finish
    rw [h.runInstr M]
    congr 1
    funext m'
    exact EnvFits.finish M h t m'

theorem runStageM_eq (M : Machine) {env : Nat → Env} (he : ∀ r, EnvFits K.lanes (env r)) (port : Nat → Port α β γ) (i : Fin 4)
    {bin bout : List Box} {w : Box} {alg : Alg} {stride nb : Nat} (h : Redistribution bin bout w) (room : CallRoom alg bin bout stride nb)
    (done : Nat → List Nat) {shs : List (Option Shaper)} (hshs : shapersOf alg bin bout = .ok shs) (sts : State α β) :
    runStageM M K env port i stride nb done shs sts = runStage K env port i stride nb done shs sts := by
  have ha : stageAdvanceM M K env i = stageAdvance K env i := by
    funext r x
    unfold stageAdvanceM stageAdvance
    obtain ⟨x1, x2, x3⟩ := x
    dsimp only
    rw [(he r).advance M]
    rcases x1 with _ | x1
    · rfl
    · rcases advance K (env r) i x2 x3 with e | ⟨t, sd, m⟩ <;> rfl
  unfold runStageM runStage
  rw [ha]
  congr 1
  congr 1
  funext adv
  congr 1
  funext arrs
  rw [reshapeAllM_eq M.index h room hshs]

/-- The sizes of `get_max_box_size` and the like. -/
theorem sizeOr0_congr {f g : Executor → Int} {e : Option Executor} (h : ∀ x, e = some x → f x = g x) : sizeOr0 f e = sizeOr0 g e := by
  cases e with
  | none => rfl
  | some x => exact h x rfl

theorem EnvFits.boxSizeM {w : Nat} (h : EnvFits w E) (k : Fin 3) :
    sizeOr0 (fun x => toSize (toInt32 x.boxSize)) (E.execs k) = sizeOr0 Executor.boxSize (E.execs k) ∧
    sizeOr0 (fun x => toInt32 x.boxSize) (E.execs k) = sizeOr0 Executor.boxSize (E.execs k) ∧
    0 ≤ sizeOr0 Executor.boxSize (E.execs k) ∧ E.nb * sizeOr0 Executor.boxSize (E.execs k) < 2 ^ 31 := by
  refine ⟨sizeOr0_congr fun x hx => ?_, sizeOr0_congr fun x hx => (h k x hx).boxSize.2.2.2, ?_, ?_⟩
  · obtain ⟨a, b, -, c⟩ := (h k x hx).boxSize
    rw [c, toSize_of a (by omega)]
  · exact sizeOr0_nonneg Executor.boxSize_nonneg _
  · cases he : E.execs k with
    | none => simp [sizeOr0]
    | some x => exact (h k x he).boxSize.2.2.1

theorem EnvFits.realCutM {w : Nat} (h : EnvFits w E) (mode : Mode) : Verif.realCutM mode E.execs = realCut mode E.execs := by
  have h0 := (h.boxSizeM 0).1
  have h1 := (h.boxSizeM 1).1
  have h2 := (h.boxSizeM 2).1
  have h3 := (h.boxSizeM 2).2.1
  cases mode
  · unfold Verif.realCutM realCut maxBoxSizeM maxBoxSize; dsimp only; rw [h0, h1, h2]
  · unfold Verif.realCutM realCut maxBoxSizeM maxBoxSize; dsimp only; rw [h0, h1, h2]
  · exact h3

/-- `compute_transform` in machine integers. -/
theorem transformM_eq (M : Machine) {W : World α β} (mode : Mode) {o : MachineObject} {fwd : Bool} {nb : Nat} {inplace : Nat → Bool}
    {p : Plan} {r2c : Option (Fin 3)} {wi wo : Box} {n : Nat} {alg : Alg} {ex : Nat → A3 (Option Executor)}
    (hp : PlanFacts p r2c wi wo n) (hs : SetupOk alg p o.fft n ex)
    (room : ∀ i, CallRoom alg (p.before fwd i) (p.after fwd i) W.stride nb)
    (he : ∀ r, EnvFits K.lanes (o.fft.env fwd nb inplace r)) (henv : o.env fwd nb inplace = o.fft.env fwd nb inplace)
    (mems : List (Mem α β)) :
    transformM M K W mode o fwd nb inplace mems = transform K W mode o.fft fwd nb inplace mems := by
  have hcut : cutFitsM (o.fft.shapers fwd 3) (o.fft.env fwd nb inplace) = true := by
    unfold cutFitsM
    rw [List.all_eq_true]
    intro x _
    have := (he x.2).boxSizeM 2
    rw [Bool.or_eq_true]
    right
    unfold realCutM
    rw [this.2.1]
    exact fitsInt_of (mul_nonneg (by omega) this.2.2.1) this.2.2.2
  have st {γ : Type} (port : Nat → Port α β γ) (i : Fin 4) (sts : State α β) :
      runStageM M K (o.fft.env fwd nb inplace) port i W.stride nb (W.done i) (o.fft.shapers fwd i) sts =
      runStage K (o.fft.env fwd nb inplace) port i W.stride nb (W.done i) (o.fft.shapers fwd i) sts :=
    runStageM_eq M he port i (hp.call fwd i) (room i) _ (hs.shapers fwd i) sts
  have fin : (fun r (x : List Instr × Mem α β) => finishM M K (o.fft.env fwd nb inplace r) x.1 x.2) =
      fun r (x : List Instr × Mem α β) => finish K (o.fft.env fwd nb inplace r) x.1 x.2 := by
    funext r x
    exact (he r).finish M _ _
  unfold transformM transform
  simp only [henv, hcut, st, fin, if_true, fun r => (he r).realCutM mode]

theorem scaleDataM_eq (f : α → α) (g : β → β) {n : Int} (h0 : 0 ≤ n) (h1 : n < 2 ^ 62) (x : Data α β) :
    scaleDataM f g n x = scaleData f g n x := by
  cases x with
  | inr l => rfl
  | inl l =>
    unfold scaleDataM
    dsimp only
    have hb : IndexType.longLong.bound = 2 ^ 63 := rfl
    have : IndexType.longLong.arith (2 * n) = .ok (2 * n) := by
      unfold IndexType.arith
      rw [if_pos (IndexType.fits_iff.2 ⟨by omega, by omega⟩)]
    rw [this, res_bind]

theorem applyScaleM_eq (f : ℝ → α → α) (g : ℝ → β → β) (o : Object) (fwd : Bool) {nb : Nat} (s : Scaling) {r : Nat} (m : Mem α β)
    (h : nb * (if fwd then o.sizeOutbox r else o.sizeInbox r) < 2 ^ 31) (h0 : 0 ≤ if fwd then o.sizeOutbox r else o.sizeInbox r) :
    applyScaleM f g o fwd nb s r m = applyScale f g o fwd nb s r m := by
  have h0 : 0 ≤ nb * (if fwd then o.sizeOutbox r else o.sizeInbox r) := mul_nonneg (by omega) h0
  unfold applyScaleM applyScale
  generalize (if fwd = true then o.sizeOutbox r else o.sizeInbox r) = c at *
  split_ifs
  · rw [IndexType.arith_of h0 h, res_bind, scaleDataM_eq _ _ h0 (by omega)]
  · rfl

end

/-! ## The constructors -/

theorem sizeWorkspace_le {bin bout : List Box} {w : Box} (h : Redistribution bin bout w) {alg : Alg} {stride nb : Nat}
    (room : CallRoom alg bin bout stride nb) (hlen : bin.length < 2 ^ 31) {shs : List (Option Shaper)}
    (hshs : shapersOf alg bin bout = .ok shs) {r : Nat} {sh : Shaper} (hsh : shs[r]? = some (some sh)) : sh.sizeWorkspace ≤ 2 ^ 62 := by
  have hs := h.setup (direct := directOf bin bout) rfl
  rcases shapersOf_cases h alg with ⟨hm, hc⟩ | ⟨-, g, hg, hc⟩
  · rw [hc] at hshs
    cases hshs
    obtain ⟨hlt, he⟩ := range_map_get.1 hsh
    unfold matchShaper at he
    split at he
    · cases he
    · split at he
      · cases he
      · rename_i hne
        rw [Bool.not_eq_true] at hne
        cases he
        obtain ⟨e1, e2⟩ := planSizeM_eq .int (hs.ordO hlt) hne (room.outOne r hlt)
        have c1 := count_collide_le (s := boxAt bout r) (b := boxAt bin r)
        have c2 := room.outOne r hlt
        have e3 : (transposePlan (boxAt bout r) ((boxAt bout r).collide (boxAt bin r)) (boxAt bin r).order).size 0 *
            (transposePlan (boxAt bout r) ((boxAt bout r).collide (boxAt bin r)) (boxAt bin r).order).size 1 *
            (transposePlan (boxAt bout r) ((boxAt bout r).collide (boxAt bin r)) (boxAt bin r).order).size 2 =
            ((boxAt bout r).collide (boxAt bin r)).count := e2
        unfold Shaper.sizeWorkspace
        dsimp only
        rw [e3]
        omega
  · rw [hc] at hshs
    cases hshs
    obtain ⟨hlt, he⟩ := range_map_get.1 hsh
    have c1 := room.inOne r hlt
    have c2 := room.outOne r hlt
    have key : (boxAt bin r).count + (boxAt bout r).count ≤ 2 ^ 62 := by omega
    unfold commShaper at he
    cases alg with
    | alltoallv =>
      simp only [objV] at he
      split at he
      · cases he
      · cases he
        exact key
    | p2p => cases he; exact key
    | p2pPlined => cases he; exact key
    | alltoall =>
      obtain ⟨M, hM, hM0, hM2, -⟩ := room.padded rfl
      simp only [objA] at he
      split at he
      · cases he
      · cases he
        have hE0 := getMaxSize_nonneg (g r) bin bout
        have hE := getMaxSize_le hM0 hM (g r)
        have hl : (g r).length ≤ bin.length := by
          have hsub : (g r) ⊆ List.range bin.length := fun q hq => List.mem_range.2 (hg.lt hlt hq)
          simpa using ((hg.nodup hlt).subperm hsub).length_le
        have hl' : ((g r).length : Int) ≤ 2 ^ 31 := by
          have : (g r).length ≤ 2 ^ 31 := by omega
          exact_mod_cast this
        unfold Shaper.sizeWorkspace AllToAll.sizeWorkspace
        dsimp only
        rw [overlapA_send h.length (fun q hq => hg.lt hlt hq), List.length_map]
        have p : 2 * getMaxSize (g r) bin bout * ((g r).length : Int) ≤ 2 ^ 31 * 2 ^ 31 :=
          mul_le_mul (by omega) hl' (by omega) (by norm_num)
        omega

theorem workspaceOfM_eq {t : IndexType} {s : Fin 4 → Option Shaper}
    (h : ∀ i sh, s i = some sh → sh.sizeWorkspaceM t = .ok sh.sizeWorkspace ∧ sh.sizeWorkspace ≤ 2 ^ 62) :
    workspaceOfM t s = .ok (workspaceOf s) ∧ workspaceOf s ≤ 2 ^ 62 := by
  have key : ∀ (l : List (Option Shaper)) (a : Int), a ≤ 2 ^ 62 →
      (∀ sh, some sh ∈ l → sh.sizeWorkspaceM t = .ok sh.sizeWorkspace ∧ sh.sizeWorkspace ≤ 2 ^ 62) →
      l.foldlM (fun acc x => match x with
        | some sh => do
          let n ← sh.sizeWorkspaceM t
          .ok (max acc n)
        | none => .ok acc) a = (.ok (l.foldl (fun acc x => match x with
        | some sh => max acc sh.sizeWorkspace
        | none => acc) a) : Res Int) ∧ l.foldl (fun acc x => match x with
        | some sh => max acc sh.sizeWorkspace
        | none => acc) a ≤ 2 ^ 62 := by
    intro l
    induction l with
    | nil => intro a ha _; exact ⟨rfl, ha⟩
    | cons x l ih =>
      intro a ha hl
      cases x with
      | none =>
        rw [List.foldlM_cons, List.foldl_cons]
        exact ih a ha fun sh hsh => hl sh (by simp [hsh])
      | some sh =>
        obtain ⟨e1, e2⟩ := hl sh (by simp)
        rw [List.foldlM_cons, List.foldl_cons]
        dsimp only
        rw [e1, res_bind, res_bind]
        exact ih _ (max_le ha e2) fun sh hsh => hl sh (by simp [hsh])
  refine key [s 0, s 1, s 2, s 3] 0 (by norm_num) ?_
  intro sh hsh
  simp only [List.mem_cons, List.not_mem_nil, or_false] at hsh
  rcases hsh with e | e | e | e
  · exact h 0 sh e.symm
  · exact h 1 sh e.symm
  · exact h 2 sh e.symm
  · exact h 3 sh e.symm

/-- The sizes of a plan fit, for the constructors and the calls with the batch size `nb`. -/
structure PlanRoom (t : IndexType) (alg : Alg) (w stride nb n : Nat) (p : Plan) : Prop where
  ranks : n < 2 ^ 31
  room : ∀ fwd i, CallRoom alg (p.before fwd i) (p.after fwd i) stride nb
  both : ∀ fwd i r, r < n → (boxAt (p.before fwd i) r).count + (boxAt (p.after fwd i) r).count < t.bound
  lines : ∀ r, r < n → ∀ x, (p.box r x).count + w + 2 < 2 ^ 31

section
variable {t : IndexType} {alg : Alg} {w stride nb n : Nat} {p : Plan} {r2c : Option (Fin 3)} {wi wo : Box} {o : Fft}
  {ex : Nat → A3 (Option Executor)}

theorem shaperAt_some {l : Fin 4 → List (Option Shaper)} {r : Nat} {i : Fin 4} {sh : Shaper} (h : shaperAt l r i = some sh) :
    (l i)[r]? = some (some sh) := by
  unfold shaperAt at h
  rcases he : (l i)[r]? with _ | x
  · rw [he] at h; cases h
  · rw [he] at h; exact congrArg some h

theorem PlanRoom.commSizeM (R : PlanRoom t alg w stride nb n p) (hp : PlanFacts p r2c wi wo n) (hs : SetupOk alg p o n ex) (r : Nat) :
    commSizeM t (shaperAt o.fwd r) (shaperAt o.bwd r) = .ok (commSize (shaperAt o.fwd r) (shaperAt o.bwd r)) ∧
      commSize (shaperAt o.fwd r) (shaperAt o.bwd r) ≤ 2 ^ 62 := by
  have key : ∀ fwd i sh, shaperAt (o.shapers fwd) r i = some sh → sh.sizeWorkspaceM t = .ok sh.sizeWorkspace ∧ sh.sizeWorkspace ≤ 2 ^ 62 := by
    intro fwd i sh h
    have h := shaperAt_some h
    have hl := hp.lenBefore fwd i
    exact ⟨sizeWorkspaceM_eq t (hp.call fwd i) (R.room fwd i) (by rw [hl]; exact R.ranks) (by rw [hl]; exact R.both fwd i) (hs.shapers fwd i) h,
      sizeWorkspace_le (hp.call fwd i) (R.room fwd i) (by rw [hl]; exact R.ranks) (hs.shapers fwd i) h⟩
  obtain ⟨a1, a2⟩ := workspaceOfM_eq (s := shaperAt o.fwd r) (key true)
  obtain ⟨b1, b2⟩ := workspaceOfM_eq (s := shaperAt o.bwd r) (key false)
  unfold Verif.commSizeM commSize
  rw [a1, res_bind, b1, res_bind]
  exact ⟨rfl, max_le a2 b2⟩

/-- The executors of all ranks fit. -/
def ExecsFit (w nb n : Nat) (ex : Nat → A3 (Option Executor)) : Prop :=
  ∀ r, r < n → ∀ k e, (ex r).get k = some e → ExecFits w nb e

theorem PlanRoom.fits (R : PlanRoom t alg w stride nb n p) (hp : PlanFacts p r2c wi wo n) {r : Nat} (hr : r < n) (x : Fin 3)
    (hb : (p.box r x).empty = false) {e : Executor} (he : e.theBox = p.box r x) (hd : ∀ b d1 d2, e = .two b d1 d2 → d1 ≠ d2)
    (hm : ∀ z b d, e ≠ .trig z b d) : ExecFits w nb e := by
  have hl := hp.lenOut x.castSucc
  have hi := hp.lenIn x.castSucc
  refine ⟨⟨?_, ?_, ?_⟩, ?_, hd, hm⟩
  · rw [he]; exact (hp.redis x.castSucc).validOut _ (boxAt_mem (by rw [hl]; exact hr))
  · rw [he]; exact hb
  · rw [he]; exact R.lines r hr x
  · rw [he]
    have := (R.room true x.castSucc).outBatch r (by show r < (p.inAt _).length; rw [hi]; exact hr)
    exact this

theorem ExecFits.construct (t : IndexType) {e : Executor} (h : ExecFits w nb e) : constructM t (some e) = .ok () := by
  cases e with
  | one b d =>
    have hb : BoxFits w b := h.box
    unfold constructM
    dsimp only
    rw [hb.lines, res_bind]
  | two b d1 d2 =>
    have hb : BoxFits w b := h.box
    obtain ⟨m, hm⟩ := hb.merged t (h.dirs b d1 d2 rfl)
    unfold constructM
    dsimp only
    rw [hm, res_bind]
  | three b => rfl
  | r2c b d =>
    have hb : BoxFits w b := h.box
    unfold constructM
    dsimp only
    rw [hb.linesR2C, res_bind]
  | trig z b d => exact absurd rfl (h.modelled z b d)

theorem constructAllM_eq (t : IndexType) {e : A3 (Option Executor)} (h : ∀ k x, e.get k = some x → ExecFits w nb x) : constructAllM t e = .ok () := by
  have key : ∀ k, constructM t (e.get k) = .ok () := by
    intro k
    rcases he : e.get k with _ | x
    · rfl
    · exact (h k x he).construct t
  unfold constructAllM
  rw [show constructM t e.x = .ok () from key 0, res_bind, show constructM t e.y = .ok () from key 1, res_bind]
  exact key 2

theorem PlanRoom.shapersM (R : PlanRoom t alg w stride nb n p) (hp : PlanFacts p r2c wi wo n) (fwd : Bool) (i : Fin 4) :
    shapersOfM t alg (p.before fwd i) (p.after fwd i) = shapersOf alg (p.before fwd i) (p.after fwd i) :=
  shapersOfM_eq t (hp.call fwd i) alg (R.room fwd i).inOne (R.room fwd i).outOne

theorem PlanRoom.forwardShapersM (R : PlanRoom t alg w stride nb n p) (hp : PlanFacts p r2c wi wo n) :
    Verif.forwardShapersM t alg p = forwardShapers alg p := by
  unfold Verif.forwardShapersM forwardShapers
  rw [show shapersOfM t alg p.in0 p.out0 = _ from R.shapersM hp true 0, show shapersOfM t alg p.in1 p.out1 = _ from R.shapersM hp true 1,
    show shapersOfM t alg p.in2 p.out2 = _ from R.shapersM hp true 2, show shapersOfM t alg p.in3 p.out3 = _ from R.shapersM hp true 3]
  rfl

theorem PlanRoom.backwardShapersM (R : PlanRoom t alg w stride nb n p) (hp : PlanFacts p r2c wi wo n) :
    Verif.backwardShapersM t alg p = backwardShapers alg p := by
  unfold Verif.backwardShapersM backwardShapers
  rw [show shapersOfM t alg p.out0 p.in0 = _ from R.shapersM hp false 3, show shapersOfM t alg p.out1 p.in1 = _ from R.shapersM hp false 2,
    show shapersOfM t alg p.out2 p.in2 = _ from R.shapersM hp false 1, show shapersOfM t alg p.out3 p.in3 = _ from R.shapersM hp false 0]
  rfl

/-- `setup` in machine integers. -/
theorem setupM_eq (R : PlanRoom t alg w stride nb n p) (hp : PlanFacts p r2c wi wo n)
    {make : Box → Box → Box → Bool → Bool → A3 (Option Executor)}
    (h : (do
      let f ← forwardShapers alg p
      let b ← backwardShapers alg p
      let ex ← mapRes (fun r (_ : Box) => do
        let (b0, b1, b2) ← p.execBoxes r
        .ok (make b0 b1 b2 (shaperAt f r 1).isSome (shaperAt f r 2).isSome)) 0 p.in0
      .ok (⟨f, b, ex⟩ : Fft)) = .ok o)
    (he : ∀ r, r < n → ∀ s1 s2 k e, (make (p.box r 0) (p.box r 1) (p.box r 2) s1 s2).get k = some e → ExecFits w nb e) :
    setupM t alg p make = .ok o := by
  rw [← h]
  unfold setupM
  rw [R.forwardShapersM hp, R.backwardShapersM hp]
  congr 1
  funext f
  congr 1
  funext b
  congr 1
  apply mapRes_congr
  intro r x hx
  rw [Nat.zero_add]
  have hr : r < n := by rw [← hp.lenIn 0]; exact (List.getElem?_eq_some_iff.1 hx).1
  rw [hp.execBoxes hr, res_bind, res_bind]
  dsimp only
  rw [constructAllM_eq t fun k e => he r hr _ _ k e, res_bind]

/-- The list of `comm_buffer_offset`. -/
def commList (o : Fft) (n : Nat) : List Int := (List.range n).map fun r => commSize (shaperAt o.fwd r) (shaperAt o.bwd r)

theorem PlanRoom.commAllM (R : PlanRoom t alg w stride nb n p) (hp : PlanFacts p r2c wi wo n) (hs : SetupOk alg p o n ex) :
    Verif.commAllM t o = .ok (commList o n) := by
  unfold Verif.commAllM
  rw [mapRes_index (F := fun r => commSize (shaperAt o.fwd r) (shaperAt o.bwd r)) o.execs 0 fun r _ => by
    rw [Nat.zero_add]; exact (R.commSizeM hp hs r).1, hs.lenExecs]
  simp only [Nat.zero_add]
  rfl

/-- Also for numbers that are no rank. -/
theorem commList_getD (hp : PlanFacts p r2c wi wo n) (hs : SetupOk alg p o n ex) (r : Nat) :
    (commList o n).getD r 0 = commSize (shaperAt o.fwd r) (shaperAt o.bwd r) := by
  unfold commList
  by_cases hr : r < n
  · simp [List.getD_eq_getElem?_getD, hr]
  · have h0 : ∀ fwd i, shaperAt (o.shapers fwd) r i = none := by
      intro fwd i
      unfold shaperAt
      rw [List.getElem?_eq_none (by rw [shapersOf_length (hp.call fwd i) (hs.shapers fwd i), hp.lenBefore fwd i]; omega)]
      rfl
    have h1 : workspaceOf (shaperAt o.fwd r) = 0 := by
      unfold workspaceOf
      rw [show shaperAt o.fwd r = fun _ => none from funext fun i => h0 true i]; rfl
    have h2 : workspaceOf (shaperAt o.bwd r) = 0 := by
      unfold workspaceOf
      rw [show shaperAt o.bwd r = fun _ => none from funext fun i => h0 false i]; rfl
    unfold commSize
    rw [h1, h2, List.getD_eq_getElem?_getD, List.getElem?_eq_none (by simp; omega)]
    rfl

theorem maxBoxSizeM_eq {e : A3 (Option Executor)} (h : ∀ k x, e.get k = some x → ExecFits w nb x) :
    maxBoxSizeM e = maxBoxSize e ∧ 0 ≤ maxBoxSize e ∧ maxBoxSize e < 2 ^ 31 := by
  have key : ∀ k, sizeOr0 (fun x => toSize (toInt32 x.boxSize)) (e.get k) = sizeOr0 Executor.boxSize (e.get k) ∧
      0 ≤ sizeOr0 Executor.boxSize (e.get k) ∧ sizeOr0 Executor.boxSize (e.get k) < 2 ^ 31 := by
    intro k
    refine ⟨sizeOr0_congr fun x hx => ?_, sizeOr0_nonneg Executor.boxSize_nonneg _, ?_⟩
    · obtain ⟨a, b, -, c⟩ := (h k x hx).boxSize
      rw [c, toSize_of a (by omega)]
    · rcases he : e.get k with _ | x
      · simp [sizeOr0]
      · exact (h k x he).boxSize.2.1
  obtain ⟨a0, b0, c0⟩ := key 0
  obtain ⟨a1, b1, c1⟩ := key 1
  obtain ⟨a2, b2, c2⟩ := key 2
  unfold maxBoxSizeM maxBoxSize
  change sizeOr0 _ e.x = _ at a0
  change sizeOr0 _ e.y = _ at a1
  change sizeOr0 _ e.z = _ at a2
  rw [a0, a1, a2]
  exact ⟨rfl, le_max_of_le_right b2, max_lt (max_lt c0 c1) c2⟩

theorem maxBoxSizeR2CM_eq {e : A3 (Option Executor)} (h : ∀ k x, e.get k = some x → ExecFits w nb x) :
    maxBoxSizeR2CM e = maxBoxSizeR2C e ∧ 0 ≤ maxBoxSizeR2C e ∧ maxBoxSizeR2C e < 2 ^ 31 := by
  have key : ∀ k, sizeOr0 (fun x => toSize (toInt32 x.boxSize)) (e.get k) = sizeOr0 Executor.boxSize (e.get k) ∧
      0 ≤ sizeOr0 Executor.boxSize (e.get k) ∧ sizeOr0 Executor.boxSize (e.get k) < 2 ^ 31 := by
    intro k
    refine ⟨sizeOr0_congr fun x hx => ?_, sizeOr0_nonneg Executor.boxSize_nonneg _, ?_⟩
    · obtain ⟨a, b, -, c⟩ := (h k x hx).boxSize
      rw [c, toSize_of a (by omega)]
    · rcases he : e.get k with _ | x
      · simp [sizeOr0]
      · exact (h k x he).boxSize.2.1
  have keyc : sizeOr0 (fun x => toSize (toInt32 x.complexSize)) (e.get 0) = sizeOr0 Executor.complexSize (e.get 0) ∧
      sizeOr0 Executor.complexSize (e.get 0) < 2 ^ 31 := by
    refine ⟨sizeOr0_congr fun x hx => ?_, ?_⟩
    · obtain ⟨a, b, -, c⟩ := (h 0 x hx).complexSize
      rw [c, toSize_of a (by omega)]
    · rcases he : e.get 0 with _ | x
      · simp [sizeOr0]
      · exact (h 0 x he).complexSize.2.1
  obtain ⟨a0, c0⟩ := keyc
  obtain ⟨a1, b1, c1⟩ := key 1
  obtain ⟨a2, b2, c2⟩ := key 2
  unfold maxBoxSizeR2CM maxBoxSizeR2C
  change sizeOr0 _ e.x = _ at a0
  change sizeOr0 _ e.y = _ at a1
  change sizeOr0 _ e.z = _ at a2
  rw [a0, a1, a2]
  exact ⟨rfl, le_max_of_le_right b2, max_lt (max_lt c0 c1) c2⟩

/-- The object with its cached sizes. -/
def machineObject (ob : Object) (n : Nat) : MachineObject :=
  ⟨ob, commList ob.fft n, (List.range n).map (ob.sizeWorkspace fun _ => 0)⟩

theorem mapRes_range {γ : Type} {l : List γ} {β : Type} {F : Nat → β} {f : Nat → γ → Res β} (h : ∀ r x, l[r]? = some x → f r x = .ok (F r)) :
    mapRes f 0 l = .ok ((List.range l.length).map F) := by
  rw [mapRes_congr (f' := fun r _ => .ok (F r)) l 0 (fun i x hx => by rw [Nat.zero_add]; exact h i x hx),
    mapRes_index (F := F) l 0 fun r _ => rfl]
  simp only [Nat.zero_add]

theorem lastChunkM_eq {e : A3 (Option Executor)} (h : ∀ k x, e.get k = some x → ExecFits w nb x) (bwd : Fin 4 → Option Shaper) :
    ∃ c, lastChunkM bwd e = .ok c ∧ 0 ≤ c ∧ c < 2 ^ 31 ∧ c = match e.x with
      | none => 0
      | some x => if (bwd 3).isSome then (x.boxSize + 1) / 2 else 0 := by
  unfold lastChunkM
  rcases he : e.x with _ | x
  · exact ⟨0, rfl, le_rfl, by norm_num, rfl⟩
  · dsimp only
    obtain ⟨a, b, -, c⟩ := (h 0 x he).boxSize
    have d := (h 0 x he).box.count
    rw [← x.boxSize_theBox] at d
    split_ifs with hb
    · rw [c, intArith_of (by omega) (by omega), res_bind]
      exact ⟨_, rfl, by omega, by omega, rfl⟩
    · exact ⟨0, rfl, le_rfl, by norm_num, rfl⟩

variable {bin bout : List Box} {opts : Opts} {ob : Object}

theorem execsC2C_fit {bk : Backend} (hbk : ∀ z, bk.family ≠ .stock z) (R : PlanRoom t alg w stride nb n p) (hp : PlanFacts p r2c wi wo n) {r : Nat}
    (hr : r < n) (s1 s2 : Bool) (k : Fin 3) (e : Executor)
    (he : (executorsC2C bk p.dirs (p.box r 0) (p.box r 1) (p.box r 2) s1 s2).get k = some e) : ExecFits w nb e := by
  have one : ∀ x d, makeExecutor (p.box r x) (bk.one (p.box r x) d) = some e → ExecFits w nb e := by
    intro x d h
    obtain ⟨h1, rfl⟩ := makeExecutor_some h
    rw [one_same hbk]
    exact R.fits hp hr x h1 rfl (fun _ _ _ h => by cases h) (fun _ _ _ h => by cases h)
  have two : ∀ x d d', d ≠ d' → makeExecutor (p.box r x) (.two (p.box r x) d d') = some e → ExecFits w nb e := by
    intro x d d' hd h
    obtain ⟨h1, rfl⟩ := makeExecutor_some h
    exact R.fits hp hr x h1 rfl (fun _ _ _ h => by cases h; exact hd) (fun _ _ _ h => by cases h)
  have three : makeExecutor (p.box r 0) (.three (p.box r 0)) = some e → ExecFits w nb e := by
    intro h
    obtain ⟨h1, rfl⟩ := makeExecutor_some h
    exact R.fits hp hr 0 h1 rfl (fun _ _ _ h => by cases h) (fun _ _ _ h => by cases h)
  have hd := hp.dirs
  unfold executorsC2C at he
  split_ifs at he
  · match k with
    | 0 => exact three he
    | 1 => cases he
    | 2 => cases he
  · match k with
    | 0 => exact two 0 _ _ hd.1 he
    | 1 => cases he
    | 2 => exact one 2 _ he
  · match k with
    | 0 => exact one 0 _ he
    | 1 => cases he
    | 2 => exact two 2 _ _ hd.2.2 he
  · match k with
    | 0 => exact one 0 _ he
    | 1 => exact one 1 _ he
    | 2 => exact one 2 _ he

theorem execsR2C_fit (R : PlanRoom t alg w stride nb n p) (hp : PlanFacts p r2c wi wo n) {r : Nat}
    (hr : r < n) (k : Fin 3) (e : Executor)
    (he : (executorsR2C p.dirs (p.box r 0) (p.box r 1) (p.box r 2)).get k = some e) : ExecFits w nb e := by
  have one : ∀ x d, makeExecutor (p.box r x) (.one (p.box r x) d) = some e → ExecFits w nb e := by
    intro x d h
    obtain ⟨h1, rfl⟩ := makeExecutor_some h
    exact R.fits hp hr x h1 rfl (fun _ _ _ h => by cases h) (fun _ _ _ h => by cases h)
  match k with
  | 0 =>
    obtain ⟨h1, rfl⟩ := makeExecutor_some he
    exact R.fits hp hr 0 h1 rfl (fun _ _ _ h => by cases h) (fun _ _ _ h => by cases h)
  | 1 => exact one 1 _ he
  | 2 => exact one 2 _ he

/-- The constructor of `fft3d` in machine integers. -/
theorem makeFft3dM_eq {bk : Backend} (hbk : ∀ z, bk.family ≠ .stock z) (geo : Geometry bin bout none wi wo)
    (grid : MachineGrid t bin bout wi) (h : makeFft3d bk bin bout opts = .ok ob) (R : PlanRoom t opts.algorithm w stride nb bin.length ob.plan) :
    makeFft3dM t bk bin bout opts = .ok (machineObject ob bin.length) := by
  obtain ⟨hpl, -, hp, -, -, -, -, hs⟩ := makeFft3d_ok geo h
  unfold makeFft3d at h
  rw [hpl, res_bind] at h
  rcases hset : setupC2C bk opts.algorithm ob.plan with e | f
  · rw [hset] at h; cases h
  rw [hset, res_bind] at h
  have hob : ob = ⟨ob.plan, f, false, bk.family⟩ := by
    simp only [bind, Except.bind] at h
    split at h
    · cases h
    · exact (Except.ok.inj h).symm
  have hf : ob.fft = f := congrArg Object.fft hob
  have hm := setupM_eq R hp (make := executorsC2C bk ob.plan.dirs) hset fun r hr s1 s2 k e he => execsC2C_fit hbk R hp hr s1 s2 k e he
  unfold makeFft3dM
  rw [planOperationsM_eq geo grid, hpl, res_bind, hm, res_bind, ← hf, R.commAllM hp hs, res_bind,
    mapRes_range (F := ob.sizeWorkspace fun _ => 0) ?_, res_bind, hs.lenExecs]
  · unfold machineObject
    rw [hf, ← hob]
  · intro r e hr
    have hlt : r < bin.length := by rw [← hs.lenExecs]; exact (List.getElem?_eq_some_iff.1 hr).1
    have hx := hs.execs r hlt
    rw [hr] at hx
    have hx := Option.some.inj hx
    have hfit : ∀ k x, e.get k = some x → ExecFits w nb x := by
      rw [hx]; exact fun k x hk => execsC2C_fit hbk R hp hlt _ _ k x hk
    obtain ⟨c, c1, c2, c3, c4⟩ := lastChunkM_eq hfit (shaperAt ob.fft.bwd r)
    obtain ⟨m1, m2, m3⟩ := maxBoxSizeM_eq hfit
    have q1 := (R.commSizeM hp hs r).2
    have q2 := commSize_nonneg (shaperAt ob.fft.fwd r) (shaperAt ob.fft.bwd r)
    rw [c1, res_bind, commList_getD hp hs, m1, toSize_of (by omega) (by omega)]
    unfold Object.sizeWorkspace
    rw [hr, show ob.halved = false from congrArg Object.halved hob]
    simp only [Option.getD_some, Bool.false_eq_true, if_false]
    unfold sizeWorkC2C maxWorkSize
    rw [c4]
    have z : ∀ x : Option Executor, sizeOr0 (fun _ => 0) x = 0 := by intro x; cases x <;> rfl
    rw [z, z, z]
    congr 1
    simp only [max_self, add_zero]
    rcases e.x with _ | x <;> rfl

/-- The constructor of `fft3d_r2c` in machine integers. -/
theorem makeFft3dR2CM_eq {d : Fin 3} (geo : Geometry bin bout (some d) wi wo) (hz : RankZeroHolds bin) (hc : ∀ b ∈ bin, b.count < 2 ^ 31)
    (grid : MachineGrid t bin bout wi) (h : makeFft3dR2C bin bout d opts = .ok ob) (R : PlanRoom t opts.algorithm w stride nb bin.length ob.plan) :
    makeFft3dR2CM t bin bout d opts = .ok (machineObject ob bin.length) := by
  obtain ⟨hp, -, -, -, -, -, hs⟩ := makeFft3dR2C_ok geo hz hc h
  unfold makeFft3dR2C at h
  rcases hpl : planOperations bin bout (some d) opts with e | p
  · rw [hpl] at h; cases h
  rw [hpl, res_bind] at h
  rcases hset : setupR2C opts.algorithm p with e | f
  · rw [hset] at h; cases h
  rw [hset, res_bind] at h
  have hob : ob = ⟨p, f, true, .fourier⟩ := (Except.ok.inj h).symm
  obtain rfl : ob.plan = p := congrArg Object.plan hob
  have hf : ob.fft = f := congrArg Object.fft hob
  have hm := setupM_eq R hp (make := fun b0 b1 b2 _ _ => executorsR2C ob.plan.dirs b0 b1 b2) hset fun r hr s1 s2 k e he => execsR2C_fit R hp hr k e he
  unfold makeFft3dR2CM
  rw [planOperationsM_eq geo grid, hpl, res_bind, hm, res_bind, ← hf, R.commAllM hp hs, res_bind,
    mapRes_range (F := ob.sizeWorkspace fun _ => 0) ?_, res_bind, hs.lenExecs]
  · unfold machineObject
    rw [hf, ← hob]
  · intro r e hr
    have hlt : r < bin.length := by rw [← hs.lenExecs]; exact (List.getElem?_eq_some_iff.1 hr).1
    have hx := hs.execs r hlt
    rw [hr] at hx
    have hx := Option.some.inj hx
    have hfit : ∀ k x, e.get k = some x → ExecFits w nb x := by
      rw [hx]; exact fun k x hk => execsR2C_fit R hp hlt k x hk
    obtain ⟨m1, m2, m3⟩ := maxBoxSizeR2CM_eq hfit
    have q1 := (R.commSizeM hp hs r).2
    have q2 := commSize_nonneg (shaperAt ob.fft.fwd r) (shaperAt ob.fft.bwd r)
    rw [commList_getD hp hs, m1, toSize_of (by omega) (by omega)]
    unfold Object.sizeWorkspace
    rw [hr, show ob.halved = true from congrArg Object.halved hob]
    simp only [Option.getD_some, if_true]
    unfold sizeWorkR2C maxWorkSize
    have z : ∀ x : Option Executor, sizeOr0 (fun _ => 0) x = 0 := by intro x; cases x <;> rfl
    rw [z, z, z]
    simp only [max_self, add_zero]

/-- The calls in machine integers. -/
theorem machine_call {α β : Type} {K : Kernel α β} {W : World α β} {M : Machine} (f : ℝ → α → α) (g : ℝ → β → β) (mode : Mode) (fwd : Bool)
    (inplace : Nat → Bool) (s : Scaling) (hp : PlanFacts ob.plan r2c wi wo n) (hs : SetupOk alg ob.plan ob.fft n ex)
    (R : PlanRoom t alg K.lanes W.stride nb n ob.plan) (hx : ExecsFit K.lanes nb n ex) (m0s : List (Mem α β)) :
    (machineObject ob n).call M K f g W mode fwd nb inplace s m0s = ob.call K f g W mode fwd nb inplace s m0s := by
  have he : ∀ r, EnvFits K.lanes (ob.fft.env fwd nb inplace r) := by
    intro r k e hke
    have hke : ob.fft.executors fwd r k = some e := hke
    by_cases hr : r < n
    · rw [hs.executors fwd hr] at hke
      exact hx r hr _ e hke
    · unfold Fft.executors at hke
      rw [List.getElem?_eq_none (by rw [hs.lenExecs]; omega)] at hke
      cases hke
  have henv : (machineObject ob n).env fwd nb inplace = ob.fft.env fwd nb inplace := by
    funext r
    unfold MachineObject.env Fft.env
    rw [show (machineObject ob n).comm = commList ob.fft n from rfl, commList_getD hp hs]
    rfl
  have hcount : ∀ (r : Nat) (i : Fin 4) (l : List Box), (l = ob.plan.inAt i ∨ l = ob.plan.outAt i) →
      0 ≤ countAt l r ∧ nb * countAt l r < 2 ^ 31 := by
    intro r i l hl
    have e : l.length = n := by
      rcases hl with rfl | rfl
      · exact hp.lenIn i
      · exact hp.lenOut i
    unfold countAt
    by_cases hr : r < n
    · rw [boxAt_get (by rw [e]; exact hr)]
      refine ⟨Box.count_nonneg _, ?_⟩
      have hr' : r < (ob.plan.before true i).length := by rw [hp.lenBefore]; exact hr
      rcases hl with rfl | rfl
      · exact (R.room true i).inBatch r hr'
      · exact (R.room true i).outBatch r hr'
    · rw [List.getElem?_eq_none (by rw [e]; omega)]
      simp
  unfold MachineObject.call Object.call
  rw [transformM_eq M mode hp hs (R.room fwd) he henv]
  congr 1
  funext ms
  apply mapRes_congr
  intro r m _
  rw [Nat.zero_add]
  have a := hcount r 3 _ (.inr rfl)
  have b := hcount r 0 _ (.inl rfl)
  apply applyScaleM_eq
  · cases fwd
    · exact b.2
    · exact a.2
  · cases fwd
    · exact b.1
    · exact a.1

end

end Verif
