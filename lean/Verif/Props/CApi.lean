import Verif.CApi
import Verif.Props.Calls
import Verif.Props.Geometry
import Verif.Props.Plan

/-!
# Properties of the C interface (C49, C55) and of the option `use_subcomm` (C50)
-/

namespace Verif
open Stock

/-! ## C49: the contract of the functions that create a plan -/

/-- The contract (heffte_c.h:49-51): the return code is zero and there is a complete plan, or it is not zero and no plan was handed out. -/
def Honours : CResult → Prop
  | .returns code (.plan _ _ (some _)) => code = 0
  | .returns code .untouched => code ≠ 0
  | _ => False

/-- The algorithms of the C interface (c_defines.h:95-105). -/
def KnownAlgorithm (c : Option COptions) : Prop := ∀ o, c = some o → o.algorithm = 0 ∨ o.algorithm = 1 ∨ o.algorithm = 2

/-- The backends of a CPU build (c_defines.h:54-61): stock is 0, FFTW is 1 and needs the library. -/
def AvailableBackend (B : CBuild) (backend : Int) : Prop := backend = 0 ∨ (backend = 1 ∧ B.fftw = true)

theorem valid_iff {B : CBuild} {backend : Int} : B.valid backend = true ↔ AvailableBackend B backend := by
  unfold CBuild.valid AvailableBackend
  simp [and_comm]

/-- The C++ options that belong to the C options (null for the defaults). -/
def optsOf (B : CBuild) (backend : Int) (options : Option COptions) (junk : COptions) : Res Opts :=
  COptions.toOpts (match options with
    | some c => c
    | none => (setDefaultOptions B backend junk).2)

theorem objectWorkspace_nonneg (ob : Object) (r : Nat) : 0 ≤ ob.sizeWorkspace noWork r := by
  have hn : ∀ e, 0 ≤ noWork e := fun _ => le_rfl
  unfold Object.sizeWorkspace
  simp only
  split
  · refine le_trans ?_ sizeWorkR2C_ge
    exact add_nonneg (add_nonneg (commSize_nonneg _ _) (le_trans (sizeOr0_nonneg Executor.boxSize_nonneg _) (le_max_right _ _))) (maxWorkSize_nonneg hn _)
  · refine le_trans ?_ (sizeWorkC2C_ge hn)
    exact add_nonneg (add_nonneg (commSize_nonneg _ _) (le_trans (sizeOr0_nonneg Executor.boxSize_nonneg _) (le_max_right _ _))) (maxWorkSize_nonneg hn _)

/-- The C++ options that the arguments stand for (c_defines.h:107-121): 0 is false, everything else is true; a null pointer stands for
reordering, pencils and `alltoallv`. -/
def optsMeant : Option COptions → Opts
  | none => { Opts.default true with useReorder := true, usePencils := true, algorithm := .alltoallv }
  | some c => { Opts.default true with
      useReorder := decide (c.useReorder ≠ 0)
      usePencils := decide (c.usePencils ≠ 0)
      algorithm := if c.algorithm = 0 then .alltoallv else if c.algorithm = 1 then .p2pPlined else .p2p }

/-- The C++ backend: 0 is stock, 1 is FFTW. -/
def backendMeant (backend : Int) : Backend := if backend = 0 then .stock else .fftw

theorem backendOf_meant {B : CBuild} {backend : Int} (h : AvailableBackend B backend) : backendOf backend = backendMeant backend := by
  unfold backendOf backendMeant
  rcases h with rfl | ⟨rfl, -⟩ <;> rfl

section
variable {B : CBuild} {backend : Int} {options : Option COptions} {junk : COptions} {inbox outbox : List CBox} {wi wo : Box}

theorem createWith_valid {r2c : Bool} {make : Opts → Res Object} (hb : B.valid backend = true) : createWith B r2c make backend options junk =
    match optsOf B backend options junk with
    | .error e => .throws e (.plan backend r2c none)
    | .ok o =>
      match make o with
      | .ok ob => .returns 0 (.plan backend r2c (some ob))
      | .error .runtime => .returns 2 .dangling
      | .error .invalid => .throws .invalid (.plan backend r2c none)
      | .error .ub => .undefined := by
  unfold createWith optsOf
  rw [hb]
  rfl

theorem optsOf_known (hb : B.valid backend = true) (h : KnownAlgorithm options) : optsOf B backend options junk = .ok (optsMeant options) := by
  cases options with
  | none =>
    unfold optsOf COptions.toOpts setDefaultOptions
    rw [hb]
    rfl
  | some c =>
    have e : ∀ x : Int, (x != 0) = decide (x ≠ 0) := fun x => by by_cases hx : x = 0 <;> simp [hx]
    rcases h c rfl with h | h | h
    all_goals
      unfold optsOf COptions.toOpts optsMeant
      simp only [h, e]
      rfl

theorem optsOf_unknown (h : ¬ KnownAlgorithm options) : optsOf B backend options junk = .error .runtime := by
  cases options with
  | none => exact absurd (fun o ho => by cases ho) h
  | some c =>
    have hc : ¬ (c.algorithm = 0 ∨ c.algorithm = 1 ∨ c.algorithm = 2) := fun hc => h fun o ho => by cases ho; exact hc
    unfold optsOf COptions.toOpts
    simp only
    rw [if_neg (fun h => hc (.inl h)), if_neg (fun h => hc (.inr (.inl h))), if_neg (fun h => hc (.inr (.inr h)))]

theorem same_complex {r2c : Option (Fin 3)} (h : ComplexWorld wi wo r2c) (hne : wi.empty = false) :
    (match r2c with
      | none => wi.sameBounds wo
      | some d => (wi.r2c d).sameBounds wo) = true := by
  cases r2c with
  | none =>
    simp only [Box.sameBounds, List.all_eq_true, Bool.and_eq_true, beq_iff_eq]
    intro d _
    have := h d
    simp only [reduceCtorEq, if_false] at this
    exact ⟨this.1.symm, this.2.symm⟩
  | some e =>
    simp only [Box.sameBounds, List.all_eq_true, Bool.and_eq_true, beq_iff_eq]
    intro d _
    have h1 := h d
    have h2 := r2c_bounds hne e d
    refine ⟨h2.1.trans h1.1.symm, h2.2.trans (Eq.trans ?_ h1.2.symm)⟩
    simp only [Option.some.injEq]

/-- The checks of a debug build accept every valid geometry that starts at zero. -/
theorem asserts_geometry {bin bout : List Box} {r2c : Option (Fin 3)} (geo : Geometry bin bout r2c wi wo) (h0 : wi.low = ⟨0, 0, 0⟩) :
    planAsserts bin bout r2c = .ok () := by
  have hz : ∀ d, wi.low.get d = 0 := by
    intro d
    rw [h0]
    match d with
    | 0 => rfl
    | 1 => rfl
    | 2 => rfl
  have hzo : ∀ d, wo.low.get d = 0 := fun d => ((geo.complex d).1).trans (hz d)
  have c1 := (worldComplete_iff_tiles geo.worldIn).2 ⟨hz, geo.tilesIn⟩
  have c2 := (worldComplete_iff_tiles geo.worldOut).2 ⟨hzo, geo.tilesOut⟩
  have ord : ∀ l : List Box, (∃ o, IsOrder o ∧ ∀ b ∈ l, b.order = o) → orderIsIdentical l = true := by
    rintro l ⟨o, -, h⟩
    cases l with
    | nil => rfl
    | cons a l =>
      unfold orderIsIdentical
      simp only [List.all_eq_true, beq_iff_eq]
      intro b hb d _
      rw [h b hb, h a (List.mem_cons_self ..)]
  have same := same_complex geo.complex (Box.empty_false_iff_mem.2 geo.nonempty)
  unfold planAsserts
  simp only [bind, Except.bind]
  rw [geo.worldIn]
  simp only
  rw [geo.worldOut]
  simp only
  rw [c1]
  simp only
  rw [c2]
  simp only
  refine if_pos ?_
  rw [Bool.and_eq_true, Bool.and_eq_true]
  exact ⟨⟨by cases r2c <;> exact same, ord _ geo.orderIn⟩, ord _ geo.orderOut⟩

/-- The object of the constructor, or the exception of the planner. -/
theorem construct_cases {bin bout : List Box} (geo : Geometry bin bout none wi wo) (h0 : B.debug = true → wi.low = ⟨0, 0, 0⟩) (hsmall : wi.count < 2 ^ 31)
    (opts : Opts) : construct B (backendOf backend) bin bout opts = makeFft3d (backendOf backend) bin bout opts ∧
    ((∃ p ob, planOperations bin bout none opts = .ok p ∧ makeFft3d (backendOf backend) bin bout opts = .ok ob ∧ ob.plan = p) ∨
     (planOperations bin bout none opts = .error .runtime ∧ makeFft3d (backendOf backend) bin bout opts = .error .runtime)) := by
  have hbk : ∀ z, (backendOf backend).family ≠ .stock z := by
    unfold backendOf
    split <;> exact fun z h => Family.noConfusion h
  constructor
  · unfold construct
    split
    · rename_i hd
      simp only [bind, Except.bind]
      rw [asserts_geometry geo (h0 hd)]
    · rfl
  · rcases (C14_planner_defined (opts := opts) geo hsmall).1 with ⟨p, hp⟩ | he
    · obtain ⟨ob, h1, h2⟩ := C54_object geo (backendOf backend) hbk hp
      exact .inl ⟨p, ob, hp, h1, h2⟩
    · refine .inr ⟨he, ?_⟩
      unfold makeFft3d
      rw [setOptions_same hbk]
      simp only [bind, Except.bind]
      rw [he]

theorem construct_cases_r2c {bin bout : List Box} {d : Fin 3} (geo : Geometry bin bout (some d) wi wo) (hz : RankZeroHolds bin)
    (h0 : B.debug = true → wi.low = ⟨0, 0, 0⟩) (hsmall : wi.count < 2 ^ 31) (opts : Opts) :
    constructR2C B bin bout (d : Nat) opts = makeFft3dR2C bin bout d opts ∧
    ((∃ p ob, planOperations bin bout (some d) opts = .ok p ∧ constructR2C B bin bout (d : Nat) opts = .ok ob ∧ ob.plan = p) ∨
    (planOperations bin bout (some d) opts = .error .runtime ∧ constructR2C B bin bout (d : Nat) opts = .error .runtime)) := by
  have e : constructR2C B bin bout (d : Nat) opts = makeFft3dR2C bin bout d opts := by
    unfold constructR2C
    have hd : (0 : Int) ≤ ((d : Nat) : Int) ∧ ((d : Nat) : Int) < 3 := by have := d.2; omega
    rw [dif_pos hd]
    have e : (⟨((d : Nat) : Int).toNat, by omega⟩ : Fin 3) = d := by ext; simp
    simp only [e]
    split
    · rename_i hd
      simp only [bind, Except.bind]
      rw [asserts_geometry geo (h0 hd)]
    · rfl
  refine ⟨e, ?_⟩
  rw [e]
  have hcnt : ∀ b ∈ bin, b.count < 2 ^ 31 := fun b hb => lt_of_le_of_lt (geo.tilesIn.count_le hb) hsmall
  rcases (C14_planner_defined (opts := opts) geo hsmall).1 with ⟨p, hp⟩ | he
  · obtain ⟨ob, h1, h2⟩ := C54_object_r2c geo hz hcnt hp
    exact .inl ⟨p, ob, hp, h1, h2⟩
  · refine .inr ⟨he, ?_⟩
    unfold makeFft3dR2C
    simp only [bind, Except.bind]
    rw [he]

/-- C49: an unknown backend gives the code 1 and no plan, whatever the other arguments are; a plan with such a backend is reported with
the code 3 and stays what it is. -/
theorem C49_invalid_backend (ha : ¬ AvailableBackend B backend) (d : Int) :
    planCreate B backend inbox outbox options junk = .returns 1 .untouched ∧
    planCreateR2C B backend inbox outbox d options junk = .returns 1 .untouched ∧ setDefaultOptions B backend junk = (1, junk) ∧
    ∀ r2c fft, planDestroy B (.plan backend r2c fft) = .returns 3 (.plan backend r2c fft) := by
  have hb : B.valid backend = false := by
    cases h : B.valid backend
    · rfl
    · exact absurd (valid_iff.1 h) ha
  unfold planCreate planCreateR2C createWith setDefaultOptions
  rw [hb]
  exact ⟨rfl, rfl, rfl, fun r2c fft => by simp [planDestroy, hb]⟩

/-- C49, the part that holds: for valid boxes with at least as many indexes as ranks in each direction, and a known algorithm or no options,
a plan is created; it remembers the backend, the two sizes are the sizes of the boxes (for boxes below 2^31 indexes), and it can be destroyed. -/
theorem C49_created_partial (ha : AvailableBackend B backend) (hk : KnownAlgorithm options)
    (geo : Geometry (inbox.map CBox.box) (outbox.map CBox.box) none wi wo) (h0 : B.debug = true → wi.low = ⟨0, 0, 0⟩) (hsmall : wi.count < 2 ^ 31)
    (hlong : ∀ d, (inbox.length : Int) ≤ wi.size.get d ∧ (inbox.length : Int) ≤ wo.size.get d) :
    ∃ h, planCreate B backend inbox outbox options junk = .returns 0 h ∧ Honours (.returns 0 h) ∧ getBackendC h = .ok backend ∧ isR2C h = .ok 0 ∧
      (∃ ob, h = .plan backend false (some ob) ∧
        makeFft3d (backendMeant backend) (inbox.map CBox.box) (outbox.map CBox.box) (optsMeant options) = .ok ob) ∧
      (∀ r, r < inbox.length → sizeInboxC h r = .ok (boxAt (inbox.map CBox.box) r).count ∧ sizeOutboxC h r = .ok (boxAt (outbox.map CBox.box) r).count) ∧
      planDestroy B h = .returns 0 .dangling := by
  have hb := valid_iff.2 ha
  obtain ⟨o, rfl, ho⟩ : ∃ o, o = optsMeant options ∧ optsOf B backend options junk = .ok o := ⟨_, rfl, optsOf_known hb hk⟩
  obtain ⟨c1, c2⟩ := construct_cases (B := B) (backend := backend) geo h0 hsmall (optsMeant options)
  obtain ⟨p, hp⟩ := (C14_planner_defined (opts := optsMeant options) geo hsmall).2 (by rw [List.length_map]; exact hlong)
  rcases c2 with ⟨p', ob, h1, h2, h3⟩ | ⟨h, -⟩
  · refine ⟨.plan backend false (some ob), ?_, rfl, rfl, rfl, ⟨ob, rfl, backendOf_meant ha ▸ h2⟩, ?_, ?_⟩
    · unfold planCreate
      rw [createWith_valid hb, ho]
      simp only
      rw [c1, h2]
    · obtain ⟨-, -, hf, e1, e2, -⟩ := makeFft3d_ok geo h2
      intro r hr
      have bound : ∀ (l : List Box) (w : Box), Tiles l w → w.count < 2 ^ 31 → ∀ b ∈ l, toInt32 b.count = b.count := by
        intro l w ht hw b hb
        have h1 := Box.count_nonneg b
        have h2 : b.count ≤ w.count := ht.count_le hb
        unfold toInt32
        rw [Int.bmod_eq_of_le (by omega) (by omega)]
      have hwo : wo.count < 2 ^ 31 := by
        have e : wo.count = wi.count := by
          have hc := geo.complex
          simp only [ComplexWorld, reduceCtorEq, if_false] at hc
          rw [Box.count_eq_card, Box.count_eq_card]
          congr 2
          ext q
          rw [Box.mem_points, Box.mem_points, Box.mem_def, Box.mem_def]
          exact forall_congr' fun d => by rw [(hc d).1, (hc d).2]
        omega
      have hr1 : r < (inbox.map CBox.box).length := by rw [List.length_map]; exact hr
      have hr2 : r < (outbox.map CBox.box).length := by rw [geo.length]; exact hr1
      have cnt : ∀ (l : List Box), r < l.length → countAt l r = (boxAt l r).count := by
        intro l hl
        unfold countAt
        rw [boxAt_get hl]
        rfl
      constructor
      · unfold sizeInboxC Object.sizeInbox
        simp only
        rw [e1, cnt _ hr1, bound _ _ geo.tilesIn hsmall _ (boxAt_mem hr1)]
      · unfold sizeOutboxC Object.sizeOutbox
        simp only
        rw [e2, cnt _ hr2, bound _ _ geo.tilesOut hwo _ (boxAt_mem hr2)]
    · simp [planDestroy, hb]
  · rw [h] at hp; cases hp

/-- C49: for a valid backend and valid boxes the contract is kept exactly when the algorithm is known and the planner does not give up. -/
theorem C49_honours_iff (ha : AvailableBackend B backend) (geo : Geometry (inbox.map CBox.box) (outbox.map CBox.box) none wi wo)
    (h0 : B.debug = true → wi.low = ⟨0, 0, 0⟩) (hsmall : wi.count < 2 ^ 31) :
    Honours (planCreate B backend inbox outbox options junk) ↔
      KnownAlgorithm options ∧ ∃ p, planOperations (inbox.map CBox.box) (outbox.map CBox.box) none (optsMeant options) = .ok p := by
  have hb := valid_iff.2 ha
  unfold planCreate
  rw [createWith_valid hb]
  by_cases hk : KnownAlgorithm options
  · obtain ⟨o, rfl, ho⟩ : ∃ o, o = optsMeant options ∧ optsOf B backend options junk = .ok o := ⟨_, rfl, optsOf_known hb hk⟩
    obtain ⟨c1, c2⟩ := construct_cases (B := B) (backend := backend) geo h0 hsmall (optsMeant options)
    rw [ho]
    simp only
    rw [c1]
    rcases c2 with ⟨p, ob, h1, h2, -⟩ | ⟨h1, h2⟩
    · rw [h2]
      exact ⟨fun _ => ⟨hk, p, h1⟩, fun _ => rfl⟩
    · rw [h2]
      refine ⟨fun h => h.elim, ?_⟩
      rintro ⟨-, p, h4⟩
      rw [h1] at h4
      cases h4
  · rw [optsOf_unknown hk]
    exact ⟨fun h => h.elim, fun h => absurd h.1 hk⟩

/-- C49: the same for the plans that shrink direction `d` (with the guard of C18). -/
theorem C49_honours_iff_r2c {d : Fin 3} (ha : AvailableBackend B backend) (geo : Geometry (inbox.map CBox.box) (outbox.map CBox.box) (some d) wi wo)
    (hz : RankZeroHolds (inbox.map CBox.box)) (h0 : B.debug = true → wi.low = ⟨0, 0, 0⟩) (hsmall : wi.count < 2 ^ 31) :
    Honours (planCreateR2C B backend inbox outbox (d : Nat) options junk) ↔
      KnownAlgorithm options ∧ ∃ p, planOperations (inbox.map CBox.box) (outbox.map CBox.box) (some d) (optsMeant options) = .ok p := by
  have hb := valid_iff.2 ha
  unfold planCreateR2C
  rw [createWith_valid hb]
  by_cases hk : KnownAlgorithm options
  · obtain ⟨o, rfl, ho⟩ : ∃ o, o = optsMeant options ∧ optsOf B backend options junk = .ok o := ⟨_, rfl, optsOf_known hb hk⟩
    rw [ho]
    simp only
    rcases (construct_cases_r2c (B := B) geo hz h0 hsmall _).2 with ⟨p, ob, h1, h2, -⟩ | ⟨h1, h2⟩
    · rw [h2]
      exact ⟨fun _ => ⟨hk, p, h1⟩, fun _ => rfl⟩
    · rw [h2]
      refine ⟨fun h => h.elim, ?_⟩
      rintro ⟨-, p, h4⟩
      rw [h1] at h4
      cases h4
  · rw [optsOf_unknown hk]
    exact ⟨fun h => h.elim, fun h => absurd h.1 hk⟩

/-- C49, the part that holds, for the plans that shrink direction `d`. -/
theorem C49_created_r2c_partial {d : Fin 3} (ha : AvailableBackend B backend) (hk : KnownAlgorithm options)
    (geo : Geometry (inbox.map CBox.box) (outbox.map CBox.box) (some d) wi wo) (hz : RankZeroHolds (inbox.map CBox.box))
    (h0 : B.debug = true → wi.low = ⟨0, 0, 0⟩) (hsmall : wi.count < 2 ^ 31)
    (hlong : ∀ d, (inbox.length : Int) ≤ wi.size.get d ∧ (inbox.length : Int) ≤ wo.size.get d) :
    ∃ h, planCreateR2C B backend inbox outbox (d : Nat) options junk = .returns 0 h ∧ Honours (.returns 0 h) ∧ getBackendC h = .ok backend ∧ isR2C h = .ok 1 ∧
      (∃ ob, h = .plan backend true (some ob) ∧ makeFft3dR2C (inbox.map CBox.box) (outbox.map CBox.box) d (optsMeant options) = .ok ob) ∧
      planDestroy B h = .returns 0 .dangling := by
  have hb := valid_iff.2 ha
  obtain ⟨o, rfl, ho⟩ : ∃ o, o = optsMeant options ∧ optsOf B backend options junk = .ok o := ⟨_, rfl, optsOf_known hb hk⟩
  obtain ⟨p, hp⟩ := (C14_planner_defined (opts := optsMeant options) geo hsmall).2 (by rw [List.length_map]; exact hlong)
  have h4 := (construct_cases_r2c (B := B) geo hz h0 hsmall (optsMeant options)).1
  rcases (construct_cases_r2c (B := B) geo hz h0 hsmall (optsMeant options)).2 with ⟨p', ob, h1, h2, h3⟩ | ⟨h, -⟩
  · refine ⟨.plan backend true (some ob), ?_, rfl, rfl, rfl, ⟨ob, rfl, h4 ▸ h2⟩, ?_⟩
    · unfold planCreateR2C
      rw [createWith_valid hb, ho]
      simp only
      rw [h2]
    · simp [planDestroy, hb]
  · rw [h] at hp; cases hp

/-- Finding (C49): the direction is not checked in a release build, it is used as an index. -/
theorem C49_direction_false (ha : AvailableBackend B backend) (hk : KnownAlgorithm options) {d : Int} (hd : d < 0 ∨ 2 < d) :
    planCreateR2C B backend inbox outbox d options junk = .undefined := by
  have hb := valid_iff.2 ha
  obtain ⟨o, rfl, ho⟩ : ∃ o, o = optsMeant options ∧ optsOf B backend options junk = .ok o := ⟨_, rfl, optsOf_known hb hk⟩
  unfold planCreateR2C
  rw [createWith_valid hb, ho]
  simp only
  unfold constructR2C
  rw [dif_neg (by omega)]

/-- Finding (C49): with an unknown algorithm an exception leaves the C function, and the caller's plan has no object: destroying it is
undefined behaviour. -/
theorem C49_escape_false (ha : AvailableBackend B backend) (hk : ¬ KnownAlgorithm options) (d : Int) :
    (∃ h, planCreate B backend inbox outbox options junk = .throws .runtime h ∧ planDestroy B h = .undefined) ∧
    ∃ h, planCreateR2C B backend inbox outbox d options junk = .throws .runtime h ∧ planDestroy B h = .undefined := by
  have hb := valid_iff.2 ha
  unfold planCreate planCreateR2C
  rw [createWith_valid hb, createWith_valid hb, optsOf_unknown hk]
  refine ⟨⟨_, rfl, ?_⟩, ⟨_, rfl, ?_⟩⟩ <;>
  · simp [planDestroy, hb]

/-- Finding (C49): whenever the planner gives up the code is 2, but the caller's plan is the address of a deleted object. -/
theorem C49_dangling_false (ha : AvailableBackend B backend) (hk : KnownAlgorithm options)
    (geo : Geometry (inbox.map CBox.box) (outbox.map CBox.box) none wi wo) (h0 : B.debug = true → wi.low = ⟨0, 0, 0⟩) (hsmall : wi.count < 2 ^ 31)
    (hp : planOperations (inbox.map CBox.box) (outbox.map CBox.box) none (optsMeant options) = .error .runtime) :
    planCreate B backend inbox outbox options junk = .returns 2 .dangling ∧ planDestroy B .dangling = .undefined := by
  have hb := valid_iff.2 ha
  obtain ⟨c1, c2⟩ := construct_cases (B := B) (backend := backend) geo h0 hsmall (optsMeant options)
  unfold planCreate
  rw [createWith_valid hb, optsOf_known hb hk]
  simp only
  rw [c1]
  rcases c2 with ⟨p, ob, h1, -⟩ | ⟨-, h2⟩
  · rw [hp] at h1; cases h1
  · rw [h2]; exact ⟨rfl, rfl⟩

/-- Finding (C49): in a debug build boxes that do not tile the world make an exception leave the C function. -/
theorem C49_invalid_boxes_false (ha : AvailableBackend B backend) (hd : B.debug = true) (hk : KnownAlgorithm options) (hne : inbox ≠ [])
    (hne' : outbox ≠ []) (hbad : ∀ w, findWorld (inbox.map CBox.box) = .ok w → ¬ (w.low = ⟨0, 0, 0⟩ ∧ Tiles (inbox.map CBox.box) w)) :
    ∃ h, planCreate B backend inbox outbox options junk = .throws .invalid h ∧ planDestroy B h = .undefined := by
  have hb := valid_iff.2 ha
  obtain ⟨o, rfl, ho⟩ : ∃ o, o = optsMeant options ∧ optsOf B backend options junk = .ok o := ⟨_, rfl, optsOf_known hb hk⟩
  obtain ⟨w, hw, hcase⟩ := C03_accepted_iff_tiled (inbox.map CBox.box) (by simpa using hne)
  obtain ⟨w', hw', -⟩ := C03_accepted_iff_tiled (outbox.map CBox.box) (by simpa using hne')
  have hinv : worldComplete (inbox.map CBox.box) w = .error .invalid := by
    rcases hcase with h | h
    · exact absurd h.2 (hbad w hw)
    · exact h.1
  refine ⟨.plan backend false none, ?_, ?_⟩
  · unfold planCreate
    rw [createWith_valid hb, ho]
    simp only
    unfold construct
    rw [if_pos hd]
    unfold planAsserts
    simp only [bind, Except.bind]
    rw [hw]
    simp only
    rw [hw']
    simp only
    rw [hinv]
  · simp [planDestroy, hb]

/-- C49: a null pointer for the options means reordering, pencils and `alltoallv`; the result does not depend on the uninitialised field. -/
theorem C49_default_options (ha : AvailableBackend B backend) (junk' : COptions) (gpu : Int) (d : Int) :
    planCreate B backend inbox outbox none junk = planCreate B backend inbox outbox (some ⟨1, 0, 1, gpu⟩) junk' ∧
    planCreateR2C B backend inbox outbox d none junk = planCreateR2C B backend inbox outbox d (some ⟨1, 0, 1, gpu⟩) junk' := by
  have hb := valid_iff.2 ha
  unfold planCreate planCreateR2C
  have e : optsOf B backend none junk = optsOf B backend (some ⟨1, 0, 1, gpu⟩) junk' := by
    unfold optsOf COptions.toOpts setDefaultOptions
    simp only [hb, Bool.not_true, Bool.false_eq_true, if_false, if_true]
    rfl
  rw [createWith_valid hb, createWith_valid hb, createWith_valid hb, createWith_valid hb, e]
  exact ⟨rfl, rfl⟩

/-- Finding (C49): the default options leave `use_gpu_aware` as it was. -/
theorem C49_default_gpu (ha : AvailableBackend B backend) (o : COptions) :
    (setDefaultOptions B backend o).1 = 0 ∧ (setDefaultOptions B backend o).2.useGpuAware = o.useGpuAware := by
  have hb := valid_iff.2 ha
  unfold setDefaultOptions
  rw [hb]
  exact ⟨rfl, rfl⟩

/-! ## C55: the functions compute what the C++ functions compute -/

/-- `Heffte_SCALE_FULL` is 1, `Heffte_SCALE_SYMMETRIC` is 2 (c_defines.h:152-162); all the other values mean no scaling. -/
noncomputable def cFactor (scale : Int) (n : Int) : ℝ := if scale = 1 then 1 / n else if scale = 2 then 1 / Real.sqrt n else 1

theorem cFactor_eq (scale n : Int) : (scalingOf scale).factor n = cFactor scale n := by
  unfold scalingOf cFactor
  split
  · rfl
  · split <;> rfl

/-- A call with complex and real numbers. -/
noncomputable def performC (h : Handle) (K : Kernel ℂ ℝ) (W : World ℂ ℝ) (fwd : Bool) (types : CTypes) (inplace : Nat → Bool) (scale : Int)
    (mems : List (Mem ℂ ℝ)) : Res (List (Mem ℂ ℝ)) := callC K (fun x z => (x : ℂ) * z) (fun x y => x * y) W h fwd types inplace scale mems

theorem created_object {h : Handle} (hb : B.valid backend = true) (hc : planCreate B backend inbox outbox options junk = .returns 0 h) :
    ∃ o ob, optsOf B backend options junk = .ok o ∧ makeFft3d (backendOf backend) (inbox.map CBox.box) (outbox.map CBox.box) o = .ok ob ∧ h = .plan backend false (some ob) := by
  unfold planCreate at hc
  rw [createWith_valid hb] at hc
  split at hc
  · cases hc
  · rename_i o ho
    split at hc
    · rename_i ob hob
      cases hc
      refine ⟨o, ob, ho, ?_, rfl⟩
      unfold construct at hob
      split at hob
      · simp only [bind, Except.bind] at hob
        split at hob
        · cases hob
        · exact hob
      · exact hob
    all_goals cases hc

theorem created_object_r2c {h : Handle} {d : Fin 3} (hb : B.valid backend = true)
    (hc : planCreateR2C B backend inbox outbox (d : Nat) options junk = .returns 0 h) :
    ∃ o ob, optsOf B backend options junk = .ok o ∧ makeFft3dR2C (inbox.map CBox.box) (outbox.map CBox.box) d o = .ok ob ∧ h = .plan backend true (some ob) := by
  unfold planCreateR2C at hc
  rw [createWith_valid hb] at hc
  split at hc
  · cases hc
  · rename_i o ho
    split at hc
    · rename_i ob hob
      cases hc
      refine ⟨o, ob, ho, ?_, rfl⟩
      unfold constructR2C at hob
      have hd : (0 : Int) ≤ ((d : Nat) : Int) ∧ ((d : Nat) : Int) < 3 := by have := d.2; omega
      rw [dif_pos hd] at hob
      have e : (⟨((d : Nat) : Int).toNat, by omega⟩ : Fin 3) = d := by ext; simp
      simp only [e] at hob
      split at hob
      · simp only [bind, Except.bind] at hob
        split at hob
        · cases hob
        · exact hob
      · exact hob
    all_goals cases hc

variable {h : Handle} {w : Nat} {scratch : Tag → Int × Int → Scratch} {inp : Tag → Int × Int → Arr ℂ} {W : World ℂ ℝ} {fwd : Bool} {inplace : Nat → Bool}
  {scale : Int} {m0s : List (Mem ℂ ℝ)}

/-- The workspace of at least the size that the C interface reports (if that is below 2^31), and the environment, for a plan. -/
structure CEnv (h : Handle) (fwd : Bool) (W : World ℂ ℝ) (need : Nat → Int) : Prop where
  world : ∀ b r2c ob, h = .plan b r2c (some ob) → WorldOk W ob.plan fwd
  small : ∀ b r2c ob, h = .plan b r2c (some ob) → ∀ r, ob.sizeWorkspace noWork r < 2 ^ 31
  need : ∀ r n, sizeWorkspaceC noWork h r = .ok n → n = need r

theorem CEnv.size {ob : Object} {b : Int} {r2c : Bool} {need : Nat → Int} (hE : CEnv (.plan b r2c (some ob)) fwd W need) : need = ob.sizeWorkspace noWork := by
  funext r
  have h1 := hE.need r _ rfl
  have h2 := hE.small b r2c ob rfl r
  have h3 : 0 ≤ ob.sizeWorkspace noWork r := objectWorkspace_nonneg ob r
  rw [← h1]
  unfold toInt32
  rw [Int.bmod_eq_of_le (by omega) (by omega)]

/-- C55: the boxes of the statements below are those of the arguments, with the order 0, 1, 2 for a null pointer. -/
theorem C55_boxes (b : CBox) : b.box.low = b.low ∧ b.box.high = b.high ∧ (∀ o, b.order = some o → b.box.order = o) ∧
    (b.order = none → b.box.order = ⟨0, 1, 2⟩) := by
  unfold CBox.box
  exact ⟨rfl, rfl, fun o h => by rw [h]; rfl, fun h => by rw [h]; rfl⟩

/-- C55: the functions for complex data compute the scaled discrete Fourier transform of the data of all the ranks. -/
theorem C55_complex (hc : planCreate B 0 inbox outbox options junk = .returns 0 h) (geo : Geometry (inbox.map CBox.box) (outbox.map CBox.box) none wi wo)
    (hlen : ∀ d, GoodLength (wi.extent d)) (hw : 0 < w) {need : Nat → Int} (hE : CEnv h fwd W need) {g : Nat → A3 Int → ℂ}
    (ha : CallArrays (srcBoxes fwd (inbox.map CBox.box) (outbox.map CBox.box)) (dstBoxes fwd (inbox.map CBox.box) (outbox.map CBox.box)) false false need 1
      inplace m0s (.inl g))
    (hs : SourceHolds (srcBoxes fwd (inbox.map CBox.box) (outbox.map CBox.box)) inplace) :
    ∃ ms, performC h (stockKernel w scratch inp) W fwd .complex inplace scale m0s = .ok ms ∧
      Outcome (dstBoxes fwd (inbox.map CBox.box) (outbox.map CBox.box)) 1 m0s ms
        (.inl fun j p => (cFactor scale wi.count : ℂ) * dft3 fwd wi (g j) p) := by
  have hb : B.valid 0 = true := by unfold CBuild.valid; simp
  obtain ⟨o, ob, -, h1, rfl⟩ := created_object hb hc
  rw [hE.size] at ha
  have S : StockC2C (inbox.map CBox.box) (outbox.map CBox.box) wi wo o ob := ⟨geo, h1, hlen⟩
  rw [← cFactor_eq]
  exact C40_complex (junk := scratch) (inp := inp) (s := scalingOf scale) S hw (hE.world _ _ _ rfl) Nat.one_pos ha hs

/-- C55: real input data of a plan without shrinking. -/
theorem C55_real_forward (hc : planCreate B 0 inbox outbox options junk = .returns 0 h) (geo : Geometry (inbox.map CBox.box) (outbox.map CBox.box) none wi wo)
    (hlen : ∀ d, GoodLength (wi.extent d)) (hw : 0 < w) {need : Nat → Int} (hE : CEnv h true W need) {g : Nat → A3 Int → ℝ}
    (ha : CallArrays (inbox.map CBox.box) (outbox.map CBox.box) true false need 1 (fun _ => false) m0s (.inr g)) :
    ∃ ms, performC h (stockKernel w scratch inp) W true .real (fun _ => false) scale m0s = .ok ms ∧
      Outcome (outbox.map CBox.box) 1 m0s ms (.inl fun j p => (cFactor scale wi.count : ℂ) * dft3 true wi (fun q => (g j q : ℂ)) p) := by
  have hb : B.valid 0 = true := by unfold CBuild.valid; simp
  obtain ⟨o, ob, -, h1, rfl⟩ := created_object hb hc
  rw [hE.size] at ha
  have S : StockC2C (inbox.map CBox.box) (outbox.map CBox.box) wi wo o ob := ⟨geo, h1, hlen⟩
  rw [← cFactor_eq]
  exact C40_real (junk := scratch) (inp := inp) (s := scalingOf scale) S hw (hE.world _ _ _ rfl) Nat.one_pos ha

/-- C55: real output data of a plan without shrinking. -/
theorem C55_real_backward (hc : planCreate B 0 inbox outbox options junk = .returns 0 h) (geo : Geometry (inbox.map CBox.box) (outbox.map CBox.box) none wi wo)
    (hlen : ∀ d, GoodLength (wi.extent d)) (hw : 0 < w) {need : Nat → Int} (hE : CEnv h false W need) {g : Nat → A3 Int → ℂ}
    (ha : CallArrays (outbox.map CBox.box) (inbox.map CBox.box) false true need 1 (fun _ => false) m0s (.inl g))
    (hs : SourceHolds (outbox.map CBox.box) fun _ => false) :
    ∃ ms, performC h (stockKernel w scratch inp) W false .real (fun _ => false) scale m0s = .ok ms ∧
      Outcome (inbox.map CBox.box) 1 m0s ms (.inr fun j p => cFactor scale wi.count * (dft3 false wi (g j) p).re) := by
  have hb : B.valid 0 = true := by unfold CBuild.valid; simp
  obtain ⟨o, ob, -, h1, rfl⟩ := created_object hb hc
  rw [hE.size] at ha
  have S : StockC2C (inbox.map CBox.box) (outbox.map CBox.box) wi wo o ob := ⟨geo, h1, hlen⟩
  rw [← cFactor_eq]
  exact C52_real (junk := scratch) (inp := inp) (s := scalingOf scale) S hw (hE.world _ _ _ rfl) Nat.one_pos ha hs

/-- C55: plans that shrink direction `d`, both directions of the transform. -/
theorem C55_r2c {d : Fin 3} (hc : planCreateR2C B 0 inbox outbox (d : Nat) options junk = .returns 0 h)
    (geo : Geometry (inbox.map CBox.box) (outbox.map CBox.box) (some d) wi wo) (hlen : ∀ d, GoodLength (wi.extent d)) (hw : 0 < w)
    (hz : RankZeroHolds (inbox.map CBox.box)) (hcnt : ∀ b ∈ inbox.map CBox.box, b.count < 2 ^ 31) {need : Nat → Int} (hE : CEnv h fwd W need) :
    (fwd = true → ∀ g : Nat → A3 Int → ℝ, CallArrays (inbox.map CBox.box) (outbox.map CBox.box) true false need 1 (fun _ => false) m0s (.inr g) →
      ∃ ms, performC h (stockKernel w scratch inp) W true .real (fun _ => false) scale m0s = .ok ms ∧
        Outcome (outbox.map CBox.box) 1 m0s ms (.inl fun j p => (cFactor scale wi.count : ℂ) * dft3 true wi (fun q => (g j q : ℂ)) p)) ∧
    (fwd = false → ∀ g : Nat → A3 Int → ℂ, CallArrays (outbox.map CBox.box) (inbox.map CBox.box) false true need 1 (fun _ => false) m0s (.inl g) →
      SourceHolds (outbox.map CBox.box) (fun _ => false) →
      ∃ ms, performC h (stockKernel w scratch inp) W false .real (fun _ => false) scale m0s = .ok ms ∧
        Outcome (inbox.map CBox.box) 1 m0s ms (.inr fun j p => cFactor scale wi.count * c2r3 wi d (g j) p)) := by
  have hb : B.valid 0 = true := by unfold CBuild.valid; simp
  obtain ⟨o, ob, -, h1, rfl⟩ := created_object_r2c hb hc
  rw [hE.size]
  have S : StockR2C (inbox.map CBox.box) (outbox.map CBox.box) d wi wo o ob := ⟨geo, h1, hlen, hz, hcnt⟩
  rw [← cFactor_eq]
  refine ⟨?_, ?_⟩
  · rintro rfl g ha
    exact C53_forward (junk := scratch) (inp := inp) (s := scalingOf scale) S hw (hE.world _ _ _ rfl) Nat.one_pos ha (.inl rfl)
  · rintro rfl g ha hs
    exact C53_backward (junk := scratch) (inp := inp) (s := scalingOf scale) S hw (hE.world _ _ _ rfl) Nat.one_pos ha hs

/-- Finding (C55): the functions for complex data do not look at the kind of the plan; with a plan of `heffte_plan_create_r2c` they use an
object of another class. -/
theorem C55_kind_false {d : Fin 3} (ha : AvailableBackend B backend) (hc : planCreateR2C B backend inbox outbox (d : Nat) options junk = .returns 0 h)
    (K : Kernel ℂ ℝ) : performC h K W fwd .complex inplace scale m0s = .error .ub := by
  have hb := valid_iff.2 ha
  obtain ⟨o, ob, -, -, rfl⟩ := created_object_r2c hb hc
  unfold performC callC
  simp

end

/-! ## Examples -/

/-- The boxes of `exIn` and `exOut` as C arguments; no order means the order 0, 1, 2. -/
def exInC : List CBox := exIn.map fun b => ⟨b.low, b.high, none⟩
def exOutCC : List CBox := exOut.map fun b => ⟨b.low, b.high, some b.order⟩
def exHalfC : List CBox := exOutC.map fun b => ⟨b.low, b.high, some b.order⟩

theorem exInC_box : exInC.map CBox.box = exIn := by decide
theorem exOutCC_box : exOutCC.map CBox.box = exOut := by decide
theorem exHalfC_box : exHalfC.map CBox.box = exOutC := by decide

/-- C49: four ranks, debug or not, any known algorithm. -/
theorem exCreated (B : CBuild) {options : Option COptions} (hk : KnownAlgorithm options) (junk : COptions) :
    ∃ h, planCreate B 0 exInC exOutCC options junk = .returns 0 h ∧ Honours (.returns 0 h) := by
  obtain ⟨wi, wo, geo, h0, -⟩ := exGeometry
  have h1 : findWorld exIn = .ok ⟨⟨0, 0, 0⟩, ⟨3, 5, 7⟩, ⟨0, 1, 2⟩⟩ := by decide
  have h2 : findWorld exOut = .ok ⟨⟨0, 0, 0⟩, ⟨3, 5, 7⟩, ⟨0, 1, 2⟩⟩ := by decide
  obtain rfl := Except.ok.inj (h1.symm.trans geo.worldIn)
  obtain rfl := Except.ok.inj (h2.symm.trans geo.worldOut)
  rw [← exInC_box, ← exOutCC_box] at geo
  obtain ⟨h, e, hh, -⟩ := C49_created_partial (B := B) (backend := 0) (junk := junk) (.inl rfl) hk geo (fun _ => rfl) (by decide) (by decide)
  exact ⟨h, e, hh⟩

theorem exCreatedR2C (B : CBuild) {options : Option COptions} (hk : KnownAlgorithm options) (junk : COptions) :
    ∃ h, planCreateR2C B 0 exInC exHalfC ((1 : Fin 3) : Nat) options junk = .returns 0 h ∧ Honours (.returns 0 h) := by
  obtain ⟨wi, wo, geo, h0, -⟩ := exGeometryC
  have h1 : findWorld exIn = .ok ⟨⟨0, 0, 0⟩, ⟨3, 5, 7⟩, ⟨0, 1, 2⟩⟩ := by decide
  have h2 : findWorld exOutC = .ok ⟨⟨0, 0, 0⟩, ⟨3, 3, 7⟩, ⟨0, 1, 2⟩⟩ := by decide
  obtain rfl := Except.ok.inj (h1.symm.trans geo.worldIn)
  obtain rfl := Except.ok.inj (h2.symm.trans geo.worldOut)
  rw [← exInC_box, ← exHalfC_box] at geo
  obtain ⟨h, e, hh, -⟩ := C49_created_r2c_partial (d := 1) (B := B) (backend := 0) (junk := junk) (.inl rfl) hk geo
    (by rw [exInC_box]; exact fun b hb => by obtain rfl := Option.some.inj hb; exact ⟨⟨0, 0, 0⟩, by decide⟩) (fun _ => rfl) (by decide) (by decide)
  exact ⟨h, e, hh⟩

/-- The options of C49 are not vacuous: 0 is a known algorithm, 3 is not. -/
example : KnownAlgorithm (some ⟨1, 0, 1, 0⟩) ∧ KnownAlgorithm none ∧ ¬ KnownAlgorithm (some ⟨1, 3, 1, 0⟩) := by
  refine ⟨fun o h => ?_, fun o h => (by cases h), fun h => ?_⟩
  · obtain rfl := Option.some.inj h; exact .inl rfl
  · have := h _ rfl; simp at this

/-- Two ranks with one index each. -/
def exTwo : List CBox := [⟨⟨0, 0, 0⟩, ⟨0, 0, 0⟩, none⟩, ⟨⟨1, 0, 0⟩, ⟨1, 0, 0⟩, none⟩]

/-- C49: the hypotheses of `C49_dangling_false` are met by two ranks with one index each and the default options: the caller gets the code 2 and a
dangling pointer. -/
theorem C49_two_false (B : CBuild) (junk : COptions) : planCreate B 0 exTwo exTwo none junk = .returns 2 .dangling := by
  obtain ⟨wi, wo, geo, h0, -⟩ : ∃ wi wo, Geometry (exTwo.map CBox.box) (exTwo.map CBox.box) none wi wo ∧ wi.low = ⟨0, 0, 0⟩ ∧ wo.low = ⟨0, 0, 0⟩ :=
    checked_geometry (by decide) rfl (by decide) (by decide) ⟨_, List.mem_cons_self .., ⟨0, 0, 0⟩, by decide⟩
  have h1 : findWorld (exTwo.map CBox.box) = .ok ⟨⟨0, 0, 0⟩, ⟨1, 0, 0⟩, ⟨0, 1, 2⟩⟩ := by decide
  obtain rfl := Except.ok.inj (h1.symm.trans geo.worldIn)
  have hp : planOperations (exTwo.map CBox.box) (exTwo.map CBox.box) none (optsMeant none) = .error .runtime := by
    have : (match planOperations (exTwo.map CBox.box) (exTwo.map CBox.box) none (optsMeant none) with
        | .error e => decide (e = .runtime)
        | .ok _ => false) = true := by decide +kernel
    split at this
    · rename_i e he; rw [he]; rw [of_decide_eq_true this]
    · cases this
  exact (C49_dangling_false (.inl rfl) (fun o h => by cases h) geo (fun _ => rfl) (by decide) hp).1

/-- C49: the hypothesis of `C49_invalid_boxes_false`: two ranks with the same box. -/
example (junk : COptions) : ∃ h, planCreate ⟨false, true⟩ 0 [⟨⟨0, 0, 0⟩, ⟨3, 3, 3⟩, none⟩, ⟨⟨0, 0, 0⟩, ⟨3, 3, 3⟩, none⟩] exTwo none junk = .throws .invalid h := by
  have hb : ∀ w, findWorld ([⟨⟨0, 0, 0⟩, ⟨3, 3, 3⟩, none⟩, ⟨⟨0, 0, 0⟩, ⟨3, 3, 3⟩, none⟩].map CBox.box) = .ok w →
      ¬ (w.low = ⟨0, 0, 0⟩ ∧ Tiles ([⟨⟨0, 0, 0⟩, ⟨3, 3, 3⟩, none⟩, ⟨⟨0, 0, 0⟩, ⟨3, 3, 3⟩, none⟩].map CBox.box) w) := by
    rintro w hw ⟨-, ht⟩
    have h1 : findWorld ([⟨⟨0, 0, 0⟩, ⟨3, 3, 3⟩, none⟩, ⟨⟨0, 0, 0⟩, ⟨3, 3, 3⟩, none⟩].map CBox.box) = .ok ⟨⟨0, 0, 0⟩, ⟨3, 3, 3⟩, ⟨0, 1, 2⟩⟩ := by decide
    obtain rfl := Except.ok.inj (h1.symm.trans hw)
    have := ht ⟨0, 0, 0⟩
    revert this
    decide
  obtain ⟨h, e, -⟩ := C49_invalid_boxes_false (B := ⟨false, true⟩) (backend := 0) (options := none) (junk := junk) (outbox := exTwo) (.inl rfl) rfl
    (fun o h => by cases h) (by simp) (by decide) hb
  exact ⟨h, e⟩

theorem exSmall (alg : Alg) (b1 b2 : Bool) : (makeFft3d .stock exIn exOut { Opts.default true with useReorder := b1, usePencils := b2, algorithm := alg }).map (fun ob =>
      decide (ob.fft.execs.length ≤ 4 ∧ (∀ i, (ob.fft.fwd i).length ≤ 4 ∧ (ob.fft.bwd i).length ≤ 4) ∧ ∀ r : Fin 4, ob.sizeWorkspace noWork r < 2 ^ 31)) = .ok true := by
  cases alg <;> cases b1 <;> cases b2 <;> decide +kernel

theorem workspace_beyond {ob : Object} {n : Nat} (h1 : ob.fft.execs.length ≤ n) (h2 : ∀ i, (ob.fft.fwd i).length ≤ n ∧ (ob.fft.bwd i).length ≤ n)
    {r : Nat} (hr : n ≤ r) : ob.sizeWorkspace noWork r = 0 := by
  have e1 : ob.fft.execs[r]? = none := List.getElem?_eq_none (by omega)
  have e2 : shaperAt ob.fft.fwd r = fun _ => none := by
    funext i
    unfold shaperAt
    rw [List.getElem?_eq_none (by have := h2 i; omega)]
    rfl
  have e3 : shaperAt ob.fft.bwd r = fun _ => none := by
    funext i
    unfold shaperAt
    rw [List.getElem?_eq_none (by have := h2 i; omega)]
    rfl
  unfold Object.sizeWorkspace
  rw [e1, e2, e3]
  cases ob.halved <;> decide

/-- C55: plans and arrays as in the hypotheses exist. -/
example (B : CBuild) (g : Nat → A3 Int → ℂ) (junk : COptions) (fwd : Bool) :
    ∃ h, ∃ (W : World ℂ ℝ) (need : Nat → Int) (m0s : List (Mem ℂ ℝ)), planCreate B 0 exInC exOutCC none junk = .returns 0 h ∧ CEnv h fwd W need ∧
      SourceHolds (srcBoxes fwd (exInC.map CBox.box) (exOutCC.map CBox.box)) (fun _ => false) ∧
      CallArrays (srcBoxes fwd (exInC.map CBox.box) (exOutCC.map CBox.box)) (dstBoxes fwd (exInC.map CBox.box) (exOutCC.map CBox.box)) false false need 1
        (fun _ => false) m0s (.inl g) := by
  obtain ⟨h, e, -⟩ := exCreated B (options := none) (fun o h => by cases h) junk
  have hb : B.valid 0 = true := by simp [CBuild.valid]
  obtain ⟨o, ob, ho, h1, rfl⟩ := created_object hb e
  obtain ⟨wi, wo, geo, -⟩ := exGeometry
  obtain ⟨W, hW⟩ := world_exists (α := ℂ) (β := ℝ) ob.plan fwd
  rw [exInC_box, exOutCC_box] at h1 ⊢
  obtain ⟨m0s, hm⟩ := arrays_exist (srcBoxes fwd exIn exOut) (dstBoxes fwd exIn exOut) false (ob.sizeWorkspace noWork) 1 (.inl g : Field ℂ ℝ) (src_order geo fwd)
  have hs := exSmall .alltoallv true true
  have ho' : optsOf B 0 none junk = .ok { Opts.default true with useReorder := true, usePencils := true, algorithm := .alltoallv } := by
    unfold optsOf COptions.toOpts setDefaultOptions
    rw [hb]
    rfl
  obtain rfl := Except.ok.inj (ho.symm.trans ho')
  rw [show makeFft3d .stock exIn exOut _ = .ok ob from h1] at hs
  obtain ⟨s1, s2, s3⟩ := of_decide_eq_true (Except.ok.inj hs)
  have small : ∀ r, ob.sizeWorkspace noWork r < 2 ^ 31 := by
    intro r
    by_cases hr : r < 4
    · exact s3 ⟨r, hr⟩
    · rw [workspace_beyond s1 s2 (by omega)]; decide
  refine ⟨_, W, ob.sizeWorkspace noWork, m0s, e, ⟨?_, ?_, ?_⟩, ?_, hm⟩
  · rintro _ _ _ ⟨⟩; exact hW
  · rintro _ _ _ ⟨⟩; exact small
  · intro r n hn
    have h3 := objectWorkspace_nonneg ob r
    have h2 := small r
    have : toInt32 (ob.sizeWorkspace noWork r) = n := Except.ok.inj hn
    rw [← this]
    unfold toInt32
    rw [Int.bmod_eq_of_le (by omega) (by omega)]
  · cases fwd <;> exact exSource _ (by simp [srcBoxes])

/-! ## C50: `use_subcomm` -/

section
variable {bin bout : List Box} {r2c : Option (Fin 3)} {wi wo : Box} {opts : Opts} {p : Plan}

/-- Finding (C50): the communicator has no effect at all; `use_subcomm` is `use_num_subranks(1)`. -/
theorem C50_ignored (comm : List Nat) : planOperations bin bout r2c (opts.useSubcomm comm) = planOperations bin bout r2c (opts.useNumSubranks 1) := rfl

/-- C50, the part that holds: the work between the two ends is done by rank 0 only, which is right for the communicator of rank 0. -/
theorem C50_subcomm_partial (geo : Geometry bin bout r2c wi wo) (comm : List Nat)
    (h : planOperations bin bout r2c (opts.useSubcomm comm) = .ok p) (h0 : comm = [0]) :
    ∀ l ∈ [p.out0, p.out1, p.out2],
      (∀ (i : Nat) (b : Box), i ∉ comm → l[i]? = some b → b.NoIndex) ∨
      SameBounds l bin ∨ (∃ s, r2c = some s ∧ SameBounds l (bin.map fun b => b.r2c s)) ∨ SameBounds l bout := by
  intro l hl
  rcases C19_subranks geo h (k := 1) rfl Nat.one_pos l hl with h | h
  · refine .inl fun i b hi => h i b ?_
    subst h0
    by_contra hc
    exact hi (by simp; omega)
  · exact .inr h

/-- The ranks of `comm`, and only those, hold indexes in the distribution. -/
def WorksOnly (comm : List Nat) (l : List Box) : Prop := ∀ (i : Nat) (b : Box), l[i]? = some b → (i ∈ comm ↔ ∃ q : A3 Int, q ∈ b)

/-- Finding (C50): with the communicator of the ranks 1 and 3 the transforms of the middle direction are all done on rank 0. -/
theorem C50_false : ∃ bin bout wi wo p, Geometry bin bout none wi wo ∧ planOperations bin bout none ((Opts.default true).useSubcomm [1, 3]) = .ok p ∧
    ¬ WorksOnly [1, 3] p.out1 ∧ WorksOnly [0] p.out1 := by
  obtain ⟨wi, wo, geo, -⟩ := exGeometry
  refine ⟨exIn, exOut, wi, wo, ?_⟩
  have key : (planOperations exIn exOut none ((Opts.default true).useSubcomm [1, 3])).map (fun p => p.out1.map fun b => b.empty) = .ok [false, true, true, true] := by
    decide +kernel
  cases hp : planOperations exIn exOut none ((Opts.default true).useSubcomm [1, 3]) with
  | error e => rw [hp] at key; cases key
  | ok p =>
    rw [hp] at key
    have k : p.out1.map (fun b => b.empty) = [false, true, true, true] := Except.ok.inj key
    have ki : ∀ (i : Nat) (b : Box), p.out1[i]? = some b → [false, true, true, true][i]? = some b.empty := by
      intro i b hi
      rw [← k, List.getElem?_map, hi]
      rfl
    refine ⟨p, geo, rfl, fun h => ?_, fun i b hi => ?_⟩
    · have hlen : p.out1.length = 4 := by have := congrArg List.length k; simpa using this
      obtain ⟨b, hb⟩ : ∃ b, p.out1[0]? = some b := ⟨_, List.getElem?_eq_getElem (by omega)⟩
      have := ki 0 b hb
      simp at this
      have := (h 0 b hb).2 (Box.empty_false_iff_mem.1 this)
      simp at this
    · have := ki i b hi
      rw [← Box.empty_false_iff_mem]
      match i with
      | 0 => simp at this; simp [← this]
      | 1 => simp at this; simp [← this]
      | 2 => simp at this; simp [← this]
      | 3 => simp at this; simp [← this]
      | i + 4 => simp at this

end

end Verif
