import Verif.TransformMain
import Verif.FlowTable
import Verif.Props.Plan

/-!
# From a plan to the calls
-/

namespace Verif
variable {α β : Type}

/-! ## The boxes of a plan -/

def Plan.inAt (p : Plan) : Fin 4 → List Box
  | 0 => p.in0
  | 1 => p.in1
  | 2 => p.in2
  | 3 => p.in3

def Plan.outAt (p : Plan) : Fin 4 → List Box
  | 0 => p.out0
  | 1 => p.out1
  | 2 => p.out2
  | 3 => p.out3

/-- The boxes before reshape `i` of a call. -/
def Plan.before (p : Plan) (fwd : Bool) (i : Fin 4) : List Box := if fwd then p.inAt i else p.outAt i.rev

/-- The boxes after reshape `i` of a call. -/
def Plan.after (p : Plan) (fwd : Bool) (i : Fin 4) : List Box := if fwd then p.outAt i else p.inAt i.rev

/-- The world of stage `x`: real only ahead of the first transform. -/
def worldAt (wi wo : Box) (x : Nat) : Box := if x = 0 then wi else wo

/-- The facts about a plan that the calls depend on. -/
structure PlanFacts (p : Plan) (r2c : Option (Fin 3)) (wi wo : Box) (n : Nat) : Prop where
  pos : 0 < n
  lenIn : ∀ i, (p.inAt i).length = n
  lenOut : ∀ i, (p.outAt i).length = n
  redis : ∀ i, Redistribution (p.inAt i) (p.outAt i) (worldAt wi wo i)
  in1 : p.in1 = applyR2c p.out0 r2c
  in2 : p.in2 = p.out1
  in3 : p.in3 = p.out2
  spans : ∀ x : Fin 3, ∀ b ∈ p.outAt x.castSucc, b.empty = false → Spans b (worldAt wi wo x) (p.dirs x)
  dirs : AllDirs p.dirs.x p.dirs.y p.dirs.z
  dir0 : ∀ k, r2c = some k → p.dirs.x = k
  complex : ComplexWorld wi wo r2c

theorem planFacts {bin bout : List Box} {r2c : Option (Fin 3)} {wi wo : Box} {opts : Opts} {p : Plan}
    (geo : Geometry bin bout r2c wi wo) (hg : r2c ≠ none → RankZeroHolds bin ∧ ∀ b ∈ bin, b.count < 2 ^ 31)
    (h : planOperations bin bout r2c opts = .ok p) : PlanFacts p r2c wi wo bin.length := by
  have ho := C18_same_order geo hg h
  obtain ⟨r, -, ok⟩ := planOperations_ok geo h
  have weak : ∀ l, (∃ o, UsesOrder r2c.isNone l o) → ∃ o, UsesOrder false l o := fun l ⟨o, a, b, c⟩ =>
    ⟨o, a, fun x hx hh => b x hx (Or.inr (by simpa using hh)), c⟩
  have hne : bin ≠ [] := by
    obtain ⟨q, hq⟩ := geo.nonempty
    have := geo.tilesIn q
    rw [if_pos hq] at this
    rintro rfl
    simp at this
  have lin : ∀ i, (p.inAt i).length = bin.length := by
    intro i
    match i with
    | 0 => exact congrArg List.length ok.in0
    | 1 => exact ok.m0.length
    | 2 => exact (congrArg List.length ok.in2).trans ok.s1.stage.length
    | 3 => exact (congrArg List.length ok.in3).trans ok.s2.stage.length
  have lout : ∀ i, (p.outAt i).length = bin.length := by
    intro i
    match i with
    | 0 => exact ok.s0.stage.length
    | 1 => exact ok.s1.stage.length
    | 2 => exact ok.s2.stage.length
    | 3 => exact (congrArg List.length ok.out3).trans geo.length
  have nen : ∀ i, p.inAt i ≠ [] := fun i e => hne (List.length_eq_zero_iff.1 (by rw [← lin i, e]; rfl))
  refine ⟨List.length_pos_iff.2 hne, lin, lout, ?_, ok.in1, ok.in2, ok.in3, ?_, ok.dirs, ok.dir0, geo.complex⟩
  · intro i
    refine ⟨nen i, (lout i).trans (lin i).symm, ?_, ?_, ?_, ?_⟩
    · match i with
      | 0 => show Tiles p.in0 wi; rw [ok.in0]; exact geo.tilesIn
      | 1 => exact ok.m0.tiles
      | 2 => show Tiles p.in2 wo; rw [ok.in2]; exact ok.s1.stage.tiles
      | 3 => show Tiles p.in3 wo; rw [ok.in3]; exact ok.s2.stage.tiles
    · match i with
      | 0 => exact ok.s0.stage.tiles
      | 1 => exact ok.s1.stage.tiles
      | 2 => exact ok.s2.stage.tiles
      | 3 => show Tiles p.out3 wo; rw [ok.out3]; exact geo.tilesOut
    · match i with
      | 0 => exact weak _ (ho p.in0 (by simp))
      | 1 => exact weak _ (ho p.in1 (by simp))
      | 2 => exact weak _ (ho p.in2 (by simp))
      | 3 => exact weak _ (ho p.in3 (by simp))
    · match i with
      | 0 => exact weak _ (ho p.out0 (by simp))
      | 1 => exact weak _ (ho p.out1 (by simp))
      | 2 => exact weak _ (ho p.out2 (by simp))
      | 3 => exact weak _ (ho p.out3 (by simp))
  · intro x
    match x with
    | 0 => exact ok.s0.stage.spans
    | 1 => exact ok.s1.stage.spans
    | 2 => exact ok.s2.stage.spans

/-- The number of the world of reshape `i` of a call. -/
def stageOf (fwd : Bool) (i : Fin 4) : Fin 4 := if fwd then i else i.rev

section
variable {p : Plan} {r2c : Option (Fin 3)} {wi wo : Box} {n : Nat}

theorem PlanFacts.call (h : PlanFacts p r2c wi wo n) (fwd : Bool) (i : Fin 4) :
    Redistribution (p.before fwd i) (p.after fwd i) (worldAt wi wo (stageOf fwd i)) := by
  cases fwd
  · exact (h.redis i.rev).symm
  · exact h.redis i

theorem PlanFacts.lenBefore (h : PlanFacts p r2c wi wo n) (fwd : Bool) (i : Fin 4) : (p.before fwd i).length = n := by
  cases fwd
  · exact h.lenOut _
  · exact h.lenIn _

theorem PlanFacts.lenAfter (h : PlanFacts p r2c wi wo n) (fwd : Bool) (i : Fin 4) : (p.after fwd i).length = n := by
  cases fwd
  · exact h.lenIn _
  · exact h.lenOut _

/-- The box of the executor with number `x` in forward order. -/
def Plan.box (p : Plan) (r : Nat) (x : Fin 3) : Box := boxAt (p.outAt x.castSucc) r

/-- The box of the complex side of the executor. -/
def Plan.cbox (p : Plan) (r : Nat) (x : Fin 3) : Box := boxAt (p.inAt x.succ) r

theorem boxAt_map {l : List Box} {f : Box → Box} {r : Nat} (hr : r < l.length) : boxAt (l.map f) r = f (boxAt l r) := by
  have h1 := boxAt_get hr
  have h2 := boxAt_get (l := l.map f) (r := r) (by simpa using hr)
  rw [List.getElem?_map, h1] at h2
  exact (Option.some.inj h2).symm

theorem PlanFacts.cbox_zero (h : PlanFacts p r2c wi wo n) {r : Nat} (hr : r < n) :
    p.cbox r 0 = match r2c with
      | none => p.box r 0
      | some d => (p.box r 0).r2c d := by
  show boxAt p.in1 r = _
  rw [h.in1]
  cases r2c with
  | none => rfl
  | some d => exact boxAt_map (by rw [show p.out0.length = n from h.lenOut 0]; exact hr)

theorem PlanFacts.cbox_one (h : PlanFacts p r2c wi wo n) (r : Nat) : p.cbox r 1 = p.box r 1 := by
  show boxAt p.in2 r = boxAt p.out1 r; rw [h.in2]

theorem PlanFacts.cbox_two (h : PlanFacts p r2c wi wo n) (r : Nat) : p.cbox r 2 = p.box r 2 := by
  show boxAt p.in3 r = boxAt p.out2 r; rw [h.in3]

theorem PlanFacts.cbox_same (h : PlanFacts p r2c wi wo n) {r : Nat} (hr : r < n) {x : Fin 3} (hx : r2c = none ∨ x ≠ 0) :
    p.cbox r x = p.box r x := by
  match x with
  | 0 =>
    rcases hx with rfl | hx
    · exact h.cbox_zero hr
    · exact absurd rfl hx
  | 1 => exact h.cbox_one r
  | 2 => exact h.cbox_two r

theorem PlanFacts.cbox_empty (h : PlanFacts p r2c wi wo n) {r : Nat} (hr : r < n) (x : Fin 3) : (p.cbox r x).empty = (p.box r x).empty := by
  by_cases hx : r2c = none ∨ x ≠ 0
  · rw [h.cbox_same hr hx]
  · push Not at hx
    obtain ⟨h1, rfl⟩ := hx
    rw [h.cbox_zero hr]
    cases r2c with
    | none => rfl
    | some d => exact r2c_empty d

/-- The number of an executor in forward order. -/
def execNo (fwd : Bool) (k : Fin 3) : Fin 3 := if fwd then k else k.rev

/-- The executor `k` of a call starts from this box. -/
theorem after_box (p : Plan) (fwd : Bool) (k : Fin 3) (r : Nat) :
    boxAt (p.after fwd k.castSucc) r = if fwd then p.box r (execNo fwd k) else p.cbox r (execNo fwd k) := by
  cases fwd
  · match k with
    | 0 => rfl
    | 1 => rfl
    | 2 => rfl
  · rfl

/-- The executor `k` of a call ends in this box. -/
theorem before_box (p : Plan) (fwd : Bool) (k : Fin 3) (r : Nat) :
    boxAt (p.before fwd k.succ) r = if fwd then p.cbox r (execNo fwd k) else p.box r (execNo fwd k) := by
  cases fwd
  · match k with
    | 0 => rfl
    | 1 => rfl
    | 2 => rfl
  · rfl

end

/-! ## The objects -/

/-- `setup` returned `o`; `ex r` are the executors of rank `r`. -/
structure SetupOk (alg : Alg) (p : Plan) (o : Fft) (n : Nat) (ex : Nat → A3 (Option Executor)) : Prop where
  fwd : ∀ i, shapersOf alg (p.inAt i) (p.outAt i) = .ok (o.fwd i)
  bwd : ∀ i : Fin 4, shapersOf alg (p.outAt i.rev) (p.inAt i.rev) = .ok (o.bwd i)
  lenExecs : o.execs.length = n
  execs : ∀ r, r < n → o.execs[r]? = some (ex r)

theorem shapersOf_total {bin bout : List Box} {w : Box} (h : Redistribution bin bout w) (alg : Alg) :
    ∃ s, shapersOf alg bin bout = .ok s := by
  rcases shapersOf_cases h alg with ⟨-, e⟩ | ⟨-, g, -, e⟩
  · exact ⟨_, e⟩
  · exact ⟨_, e⟩

section
variable {p : Plan} {r2c : Option (Fin 3)} {wi wo : Box} {n : Nat} {alg : Alg} {o : Fft} {ex : Nat → A3 (Option Executor)}

theorem forwardShapers_ok (h : PlanFacts p r2c wi wo n) (alg : Alg) :
    ∃ f, forwardShapers alg p = .ok f ∧ ∀ i, shapersOf alg (p.inAt i) (p.outAt i) = .ok (f i) := by
  obtain ⟨s0, e0⟩ := shapersOf_total (h.redis 0) alg
  obtain ⟨s1, e1⟩ := shapersOf_total (h.redis 1) alg
  obtain ⟨s2, e2⟩ := shapersOf_total (h.redis 2) alg
  obtain ⟨s3, e3⟩ := shapersOf_total (h.redis 3) alg
  refine ⟨fun i => [s0, s1, s2, s3].getD i [], ?_, ?_⟩
  · unfold forwardShapers
    simp only [Plan.inAt, Plan.outAt] at e0 e1 e2 e3
    rw [e0, e1, e2, e3]
    rfl
  · intro i
    match i with
    | 0 => exact e0
    | 1 => exact e1
    | 2 => exact e2
    | 3 => exact e3

theorem backwardShapers_ok (h : PlanFacts p r2c wi wo n) (alg : Alg) :
    ∃ f, backwardShapers alg p = .ok f ∧ ∀ i : Fin 4, shapersOf alg (p.outAt i.rev) (p.inAt i.rev) = .ok (f i) := by
  obtain ⟨s0, e0⟩ := shapersOf_total (h.redis 0).symm alg
  obtain ⟨s1, e1⟩ := shapersOf_total (h.redis 1).symm alg
  obtain ⟨s2, e2⟩ := shapersOf_total (h.redis 2).symm alg
  obtain ⟨s3, e3⟩ := shapersOf_total (h.redis 3).symm alg
  refine ⟨fun i => [s3, s2, s1, s0].getD i [], ?_, ?_⟩
  · unfold backwardShapers
    simp only [Plan.inAt, Plan.outAt] at e0 e1 e2 e3
    rw [e0, e1, e2, e3]
    rfl
  · intro i
    match i with
    | 0 => exact e3
    | 1 => exact e2
    | 2 => exact e1
    | 3 => exact e0

theorem PlanFacts.execBoxes (h : PlanFacts p r2c wi wo n) {r : Nat} (hr : r < n) :
    p.execBoxes r = .ok (p.box r 0, p.box r 1, p.box r 2) := by
  have h0 := boxAt_get (l := p.out0) (r := r) (by rw [show p.out0.length = n from h.lenOut 0]; exact hr)
  have h1 := boxAt_get (l := p.out1) (r := r) (by rw [show p.out1.length = n from h.lenOut 1]; exact hr)
  have h2 := boxAt_get (l := p.out2) (r := r) (by rw [show p.out2.length = n from h.lenOut 2]; exact hr)
  unfold Plan.execBoxes
  rw [h0, h1, h2]
  rfl

/-- `setup` of `fft3d` returns. -/
theorem setupC2C_ok (h : PlanFacts p r2c wi wo n) (bk : Backend) (alg : Alg) :
    ∃ o, setupC2C bk alg p = .ok o ∧ SetupOk alg p o n fun r =>
      executorsC2C bk p.dirs (p.box r 0) (p.box r 1) (p.box r 2) (shaperAt o.fwd r 1).isSome (shaperAt o.fwd r 2).isSome := by
  obtain ⟨f, hf, hf'⟩ := forwardShapers_ok h alg
  obtain ⟨b, hb, hb'⟩ := backwardShapers_ok h alg
  obtain ⟨ex, e1, e2, e3⟩ := mapRes_ok (f := fun r (_ : Box) => do
    let (b0, b1, b2) ← p.execBoxes r
    .ok (executorsC2C bk p.dirs b0 b1 b2 (shaperAt f r 1).isSome (shaperAt f r 2).isSome)) (P := fun r _ e => e = executorsC2C bk p.dirs (p.box r 0) (p.box r 1) (p.box r 2) (shaperAt f r 1).isSome
      (shaperAt f r 2).isSome) p.in0 0 (by
    intro r _ hr
    rw [Nat.zero_add]
    have hr : r < n := by rw [← h.lenIn 0]; exact (List.getElem?_eq_some_iff.1 hr).1
    rw [h.execBoxes hr]
    exact ⟨_, rfl, rfl⟩)
  refine ⟨⟨f, b, ex⟩, ?_, hf', hb', e2.trans (h.lenIn 0), ?_⟩
  · unfold setupC2C
    rw [hf, hb]
    simp only [bind, Except.bind] at e1 ⊢
    rw [e1]
  · intro r hr
    obtain ⟨c, hc, hp⟩ := e3 r _ (boxAt_get (l := p.in0) (r := r) (by rw [show p.in0.length = n from h.lenIn 0]; exact hr))
    rw [Nat.zero_add] at hp
    rw [hc, hp]

/-- `setup` of `fft3d_r2c` returns. -/
theorem setupR2C_ok (h : PlanFacts p r2c wi wo n) (alg : Alg) :
    ∃ o, setupR2C alg p = .ok o ∧ SetupOk alg p o n fun r => executorsR2C p.dirs (p.box r 0) (p.box r 1) (p.box r 2) := by
  obtain ⟨f, hf, hf'⟩ := forwardShapers_ok h alg
  obtain ⟨b, hb, hb'⟩ := backwardShapers_ok h alg
  obtain ⟨ex, e1, e2, e3⟩ := mapRes_ok (f := fun r (_ : Box) => do
    let (b0, b1, b2) ← p.execBoxes r
    .ok (executorsR2C p.dirs b0 b1 b2)) (P := fun r _ e => e = executorsR2C p.dirs (p.box r 0) (p.box r 1) (p.box r 2)) p.in0 0 (by
    intro r _ hr
    rw [Nat.zero_add]
    have hr : r < n := by rw [← h.lenIn 0]; exact (List.getElem?_eq_some_iff.1 hr).1
    rw [h.execBoxes hr]
    exact ⟨_, rfl, rfl⟩)
  refine ⟨⟨f, b, ex⟩, ?_, hf', hb', e2.trans (h.lenIn 0), ?_⟩
  · unfold setupR2C
    rw [hf, hb]
    simp only [bind, Except.bind] at e1 ⊢
    rw [e1]
  · intro r hr
    obtain ⟨c, hc, hp⟩ := e3 r _ (boxAt_get (l := p.in0) (r := r) (by rw [show p.in0.length = n from h.lenIn 0]; exact hr))
    rw [Nat.zero_add] at hp
    rw [hc, hp]

theorem SetupOk.shapers (h : SetupOk alg p o n ex) (fwd : Bool) (i : Fin 4) :
    shapersOf alg (p.before fwd i) (p.after fwd i) = .ok (o.shapers fwd i) := by
  cases fwd
  · exact h.bwd i
  · exact h.fwd i

theorem SetupOk.executors (h : SetupOk alg p o n ex) (fwd : Bool) {r : Nat} (hr : r < n) (k : Fin 3) :
    o.executors fwd r k = (ex r).get (execNo fwd k) := by
  unfold Fft.executors
  rw [h.execs r hr]
  cases fwd
  · show (ex r).get (2 - k) = _
    congr 1
    match k with
    | 0 => rfl
    | 1 => rfl
    | 2 => rfl
  · rfl

end
end Verif
