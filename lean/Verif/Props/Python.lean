import Verif.Python
import Verif.Props.CApi
import Verif.Props.Geometry
import Verif.PlanTotal

/-!
# The Python interface (C80)

What `fft3d`, `fft3d_r2c`, the methods `forward`, `backward` and their buffered forms, and `split_world` of the Python module do for a user.
-/

namespace Verif
open Stock

/-! ## What a user relies on -/

/-- The types of the arrays of a function (heffte_c.h:117-124, 160-167). -/
def PyFn.takes : PyFn → DType
  | .s2c => .float32
  | .c2c => .complex64
  | .d2z => .float64
  | .z2z => .complex128
  | .c2s => .complex64
  | .z2d => .complex128

def PyFn.gives : PyFn → DType
  | .s2c => .complex64
  | .c2c => .complex64
  | .d2z => .complex128
  | .z2z => .complex128
  | .c2s => .float32
  | .z2d => .float64

/-- The complex type of the same precision. -/
def PyFn.workspace : PyFn → DType
  | .s2c => .complex64
  | .c2c => .complex64
  | .c2s => .complex64
  | _ => .complex128

/-- Is there a function with these types in the direction? -/
def PyFn.has (fwd : Bool) : PyFn → Bool
  | .c2c => true
  | .z2z => true
  | .s2c => fwd
  | .d2z => fwd
  | .c2s => !fwd
  | .z2d => !fwd

def DType.isReal : DType → Bool
  | .float32 => true
  | .float64 => true
  | _ => false

section
variable {α β : Type}

/-- The arrays have the types of the function. -/
structure RightTypes (fwd : Bool) (fn : PyFn) (x : PyArgs α β) : Prop where
  has : fn.has fwd = true
  input : x.input.dtype = fn.takes
  output : x.output.dtype = fn.gives
  work : ∀ w, x.work = some w → w.dtype = fn.workspace

/-- The element number `i` of an array. -/
def NdArray.elem (x : NdArray α β) (i : Int) : Option (α ⊕ β) := x.data.rd (i * x.stride)

/-- The memory of an array holds its elements, of its type. -/
structure NdArray.Valid (x : NdArray α β) : Prop where
  type : x.data.isReal = x.dtype.isReal
  inside : ∀ i, i < x.size → i * x.stride < x.data.size

/-- An array with one element for each index of the box. -/
structure NdArray.Covers (x : NdArray α β) (b : Box) : Prop where
  valid : x.Valid
  size : x.size = b.points.card

/-- An array with the values of a box, in the layout of the box. -/
def NdArray.Shows (x : NdArray α β) (b : Box) (j : Nat) (G : Field α β) : Prop :=
  ∀ p : A3 Int, p ∈ b → x.elem (b.offset p) = some (G.val j p)

/-- The arguments of a method on all the ranks: `src` and `dst` are the boxes of the two arrays, `need` is the size of the workspace that the
plan reports, `fresh` is the workspace that the library allocates if there is none. -/
structure PyReady (fwd : Bool) (fn : PyFn) (src dst : List Box) (need : Nat → Int) (fresh : Nat → List α) (args : List (PyArgs α β)) (G : Field α β) : Prop where
  ranks : args.length = src.length
  types : ∀ (r : Nat) x, args[r]? = some x → RightTypes fwd fn x
  same : ∀ (r : Nat) x, args[r]? = some x → x.same = true → x.input = x.output
  input : ∀ (r : Nat) x, args[r]? = some x → x.input.Covers (boxAt src r) ∧ x.input.stride = 1
  output : ∀ (r : Nat) x, args[r]? = some x → x.output.Covers (boxAt dst r) ∧ x.output.stride = 1
  values : ∀ (r : Nat) x, args[r]? = some x → x.input.Shows (boxAt src r) 0 G
  work : ∀ (r : Nat) x w, args[r]? = some x → x.work = some w → w.Valid ∧ w.stride = 1 ∧ need r ≤ w.size
  fresh : ∀ (r : Nat) x, args[r]? = some x → x.work = none → need r ≤ (fresh r).length

/-- The arrays afterwards: every output array shows its part of the values, an input that is another array is as before. -/
structure PyResult (dst : List Box) (args : List (PyArgs α β)) (ms : List (Mem α β)) (F : Field α β) : Prop where
  ranks : ms.length = args.length
  output : ∀ (r : Nat) x m, args[r]? = some x → ms[r]? = some m → NdArray.Shows { x.output with data := m.output } (boxAt dst r) 0 F
  input : ∀ (r : Nat) x m, args[r]? = some x → ms[r]? = some m → m.input = x.input.data

/-! ## The checks -/

variable {ws : Executor → Int} {p : PyPlan} {r : Nat} {scaling : Int} {x : PyArgs α β} {fn : PyFn} {si so sw : Int}

theorem pyForwardFn_iff {i o : DType} {fn : PyFn} : pyForwardFn i o = .ok fn ↔ fn.has true = true ∧ i = fn.takes ∧ o = fn.gives := by
  cases i <;> cases o <;> cases fn <;> decide

theorem pyBackwardFn_iff {i o : DType} {fn : PyFn} : pyBackwardFn i o = .ok fn ↔ fn.has false = true ∧ i = fn.takes ∧ o = fn.gives := by
  cases i <;> cases o <;> cases fn <;> decide

theorem pyForwardFn_error {i o : DType} {e : PyErr} (h : pyForwardFn i o = .error e) : e = .input := by
  cases i <;> cases o <;> cases e <;> revert h <;> decide

theorem pyBackwardFn_error {i o : DType} {e : PyErr} (h : pyBackwardFn i o = .error e) : e = .input := by
  cases i <;> cases o <;> cases e <;> revert h <;> decide

theorem pyWorkType_forward {fn : PyFn} {w : DType} (h : fn.has true = true) : pyWorkType fn.takes w = true ↔ w = fn.workspace := by
  cases fn <;> cases w <;> revert h <;> decide

theorem pyWorkType_backward {fn : PyFn} {w : DType} (h : fn.has false = true) : pyWorkType fn.gives w = true ↔ w = fn.workspace := by
  cases fn <;> cases w <;> revert h <;> decide

theorem workTypes_iff {t : DType} {x : PyArgs α β} :
    x.wrongWork t = false ↔ ∀ w, x.work = some w → pyWorkType t w.dtype = true := by
  unfold PyArgs.wrongWork
  cases x.work with
  | none => simp
  | some w => simp

theorem workSize_iff {x : PyArgs α β} :
    x.shortWork sw = false ↔ ∀ w, x.work = some w → sw ≤ w.size := by
  unfold PyArgs.shortWork
  cases x.work with
  | none => simp
  | some w => simp

/-- The decision of `forward` for a plan whose attribute `use_r2c` is False. -/
theorem forward_decides (h0 : p.useR2C = false) (h1 : sizeInboxC p.handle r = .ok si) (h2 : sizeOutboxC p.handle r = .ok so)
    (h3 : sizeWorkspaceC ws p.handle r = .ok sw) :
    (p.forward ws r scaling x = .ok (.ok fn) ↔ (scaling = 0 ∨ scaling = 1 ∨ scaling = 2) ∧ (x.input.size : Int) = si ∧ (x.output.size : Int) = so ∧
      (∀ w, x.work = some w → sw ≤ w.size) ∧ RightTypes true fn x) ∧
    ((∃ fn, p.forward ws r scaling x = .ok (.ok fn)) ∨ p.forward ws r scaling x = .ok (.error .input)) := by
  unfold PyPlan.forward
  simp only [h1, h2, h3, h0, bind, Except.bind, Bool.false_eq_true, false_and, if_false]
  have e0 : scaling ∉ [0, 1, 2] ↔ ¬ (scaling = 0 ∨ scaling = 1 ∨ scaling = 2) := by simp
  split
  · rename_i hs
    rw [e0] at hs
    exact ⟨⟨fun h => by simp at h, fun h => absurd h.1 hs⟩, .inr rfl⟩
  rename_i hs
  rw [e0, not_not] at hs
  split
  · rename_i hz
    exact ⟨⟨fun h => by simp at h, fun h => by rcases hz with hz | hz; exacts [absurd h.2.1 hz, absurd h.2.2.1 hz]⟩, .inr rfl⟩
  rename_i hz
  rw [not_or, not_not, not_not] at hz
  split
  · rename_i hw
    refine ⟨⟨fun h => by simp at h, fun h => ?_⟩, .inr rfl⟩
    rw [workSize_iff.2 h.2.2.2.1] at hw
    exact absurd hw (by simp)
  rename_i hw
  rw [Bool.not_eq_true, workSize_iff] at hw
  split
  · rename_i ht
    refine ⟨⟨fun h => by simp at h, fun h => ?_⟩, .inr rfl⟩
    rw [workTypes_iff.2 fun w hx => by
      rw [h.2.2.2.2.input]; exact (pyWorkType_forward h.2.2.2.2.has).2 (h.2.2.2.2.work w hx)] at ht
    exact absurd ht (by simp)
  rename_i ht
  rw [Bool.not_eq_true, workTypes_iff] at ht
  constructor
  · constructor
    · intro h
      obtain ⟨a, b, c⟩ := pyForwardFn_iff.1 (Except.ok.inj h)
      exact ⟨hs, hz.1, hz.2, hw, a, b, c, fun w hx => (pyWorkType_forward a).1 (b ▸ ht w hx)⟩
    · rintro ⟨-, -, -, -, h⟩
      rw [pyForwardFn_iff.2 ⟨h.has, h.input, h.output⟩]
  · cases hf : pyForwardFn x.input.dtype x.output.dtype with
    | ok fn => exact .inl ⟨fn, rfl⟩
    | error e => rw [pyForwardFn_error hf]; exact .inr rfl

/-- The decision of `backward`. -/
theorem backward_decides (h0 : p.useR2C = false) (h1 : sizeInboxC p.handle r = .ok si) (h2 : sizeOutboxC p.handle r = .ok so) :
    (p.backward r scaling x = .ok (.ok fn) ↔ (scaling = 0 ∨ scaling = 1 ∨ scaling = 2) ∧ (x.input.size : Int) = si ∧ (x.output.size : Int) = so ∧
      RightTypes false fn x) ∧
    ((∃ fn, p.backward r scaling x = .ok (.ok fn)) ∨ p.backward r scaling x = .ok (.error .input)) := by
  unfold PyPlan.backward
  simp only [h1, h2, h0, bind, Except.bind, Bool.false_eq_true, false_and, if_false]
  have e0 : scaling ∉ [0, 1, 2] ↔ ¬ (scaling = 0 ∨ scaling = 1 ∨ scaling = 2) := by simp
  split
  · rename_i hs
    rw [e0] at hs
    exact ⟨⟨fun h => by simp at h, fun h => absurd h.1 hs⟩, .inr rfl⟩
  rename_i hs
  rw [e0, not_not] at hs
  split
  · rename_i hz
    exact ⟨⟨fun h => by simp at h, fun h => by rcases hz with hz | hz; exacts [absurd h.2.1 hz, absurd h.2.2.1 hz]⟩, .inr rfl⟩
  rename_i hz
  rw [not_or, not_not, not_not] at hz
  split
  · rename_i ht
    refine ⟨⟨fun h => by simp at h, fun h => ?_⟩, .inr rfl⟩
    rw [workTypes_iff.2 fun w hx => by
      rw [h.2.2.2.output]; exact (pyWorkType_backward h.2.2.2.has).2 (h.2.2.2.work w hx)] at ht
    exact absurd ht (by simp)
  rename_i ht
  rw [Bool.not_eq_true, workTypes_iff] at ht
  constructor
  · constructor
    · intro h
      obtain ⟨a, b, c⟩ := pyBackwardFn_iff.1 (Except.ok.inj h)
      exact ⟨hs, hz.1, hz.2, a, b, c, fun w hx => (pyWorkType_backward a).1 (c ▸ ht w hx)⟩
    · rintro ⟨-, -, -, h⟩
      rw [pyBackwardFn_iff.2 ⟨h.has, h.input, h.output⟩]
  · cases hf : pyBackwardFn x.input.dtype x.output.dtype with
    | ok fn => exact .inl ⟨fn, rfl⟩
    | error e => rw [pyBackwardFn_error hf]; exact .inr rfl

end

/-! ## Plans -/

section
variable {B : CBuild} {backend : Int} {inbox outbox : List CBox} {gpu : Int} {junk : COptions} {wi wo : Box} {p : PyPlan} {d : Fin 3} {r2c : Option (Fin 3)}

theorem pyFinish_made {u : Bool} {c : CResult} (h : pyFinish B u c = .made p) : c = .returns 0 p.handle ∧ p.useR2C = u := by
  unfold pyFinish at h
  split at h
  · split at h
    · split at h <;> cases h
    · rename_i code hd hc
      cases h
      rw [not_not.1 hc]
      exact ⟨rfl, rfl⟩
  · cases h

theorem pyFft3d_made (h : pyFft3d B backend inbox outbox gpu junk = .made p) :
    planCreate B backend inbox outbox (some (pyOptions gpu)) junk = .returns 0 p.handle ∧ p.useR2C = false := by
  unfold pyFft3d at h
  split at h
  · cases h
  · exact pyFinish_made h

theorem pyFft3dR2C_made {d : Int} (h : pyFft3dR2C B backend inbox outbox d gpu junk = .made p) :
    planCreateR2C B backend inbox outbox d (some (pyOptions gpu)) junk = .returns 0 p.handle ∧ p.useR2C = false := by
  unfold pyFft3dR2C at h
  split at h
  · cases h
  · split at h
    · cases h
    · exact pyFinish_made h

theorem returned_valid {h : Handle} {make : Opts → Res Object} {k : Bool} {options : Option COptions} (hc : createWith B k make backend options junk = .returns 0 h) :
    B.valid backend = true := by
  cases hb : B.valid backend
  · unfold createWith at hc
    rw [hb] at hc
    cases hc
  · rfl

/-- What a plan that was made reports about its sizes. -/
structure PySizes (p : PyPlan) (bin bout : List Box) (n : Nat) : Prop where
  flag : p.useR2C = false
  input : ∀ r, r < n → sizeInboxC p.handle r = .ok (boxAt bin r).points.card
  output : ∀ r, r < n → sizeOutboxC p.handle r = .ok (boxAt bout r).points.card

theorem object_sizes {bin bout : List Box} {b : Int} {k : Bool} {ob : Object} (geo : Geometry bin bout r2c wi wo) (hsmall : wi.count < 2 ^ 31) (h0 : p.useR2C = false)
    (hh : p.handle = .plan b k (some ob)) (e1 : ob.plan.in0 = bin) (e2 : ob.plan.out3 = bout) : PySizes p bin bout bin.length := by
  have bound : ∀ (l : List Box) (w : Box), Tiles l w → w.count < 2 ^ 31 → ∀ b ∈ l, toInt32 b.count = b.points.card := by
    intro l w ht hw b hb
    have h1 := Box.count_nonneg b
    have h2 : b.count ≤ w.count := ht.count_le hb
    unfold toInt32
    rw [Int.bmod_eq_of_le (by omega) (by omega), Box.count_eq_card]
  have cnt : ∀ (l : List Box) (r : Nat), r < l.length → countAt l r = (boxAt l r).count := by
    intro l r hl
    unfold countAt
    rw [boxAt_get hl]
    rfl
  refine ⟨h0, fun r hr => ?_, fun r hr => ?_⟩
  · rw [hh]
    unfold sizeInboxC Object.sizeInbox
    simp only
    rw [e1, cnt _ _ hr, bound _ _ geo.tilesIn hsmall _ (boxAt_mem hr)]
  · rw [hh]
    have hr2 : r < bout.length := by rw [geo.length]; exact hr
    unfold sizeOutboxC Object.sizeOutbox
    simp only
    rw [e2, cnt _ _ hr2, bound _ _ geo.tilesOut (by have := geo.count_le; omega) _ (boxAt_mem hr2)]

theorem fft3d_sizes (h : pyFft3d B backend inbox outbox gpu junk = .made p) (geo : Geometry (inbox.map CBox.box) (outbox.map CBox.box) none wi wo)
    (hsmall : wi.count < 2 ^ 31) : PySizes p (inbox.map CBox.box) (outbox.map CBox.box) inbox.length := by
  obtain ⟨h1, h2⟩ := pyFft3d_made h
  obtain ⟨o, ob, -, h3, h4⟩ := created_object (returned_valid h1) h1
  obtain ⟨-, -, -, e1, e2, -⟩ := makeFft3d_ok geo h3
  have := object_sizes geo hsmall h2 h4 e1 e2
  rwa [List.length_map] at this

theorem fft3dR2C_sizes (h : pyFft3dR2C B backend inbox outbox (d : Nat) gpu junk = .made p)
    (geo : Geometry (inbox.map CBox.box) (outbox.map CBox.box) (some d) wi wo) (hz : RankZeroHolds (inbox.map CBox.box)) (hsmall : wi.count < 2 ^ 31) :
    PySizes p (inbox.map CBox.box) (outbox.map CBox.box) inbox.length := by
  obtain ⟨h1, h2⟩ := pyFft3dR2C_made h
  obtain ⟨o, ob, -, h3, h4⟩ := created_object_r2c (returned_valid h1) h1
  obtain ⟨-, e1, e2, -⟩ := makeFft3dR2C_ok geo hz (fun b hb => lt_of_le_of_lt (geo.tilesIn.count_le hb) hsmall) h3
  have := object_sizes geo hsmall h2 h4 e1 e2
  rwa [List.length_map] at this

theorem pyOptions_known : KnownAlgorithm (some (pyOptions gpu)) := fun o h => by
  obtain rfl := Option.some.inj h
  exact .inr (.inl rfl)

theorem available_listed (ha : AvailableBackend B backend) : backend ∈ pyBackends := by
  rcases ha with rfl | ⟨rfl, -⟩ <;> decide

/-- C80: for an available backend and valid boxes with at least as many indexes as ranks in each direction `fft3d` gives a plan that reports the
sizes of the boxes and can be released; the transforms use no reordering, the pipelined point-to-point algorithm and pencils. -/
theorem C80_created (ha : AvailableBackend B backend) (geo : Geometry (inbox.map CBox.box) (outbox.map CBox.box) none wi wo)
    (h0 : B.debug = true → wi.low = ⟨0, 0, 0⟩) (hsmall : wi.count < 2 ^ 31) (hlong : ∀ d, (inbox.length : Int) ≤ wi.size.get d ∧ (inbox.length : Int) ≤ wo.size.get d) :
    ∃ p, pyFft3d B backend inbox outbox gpu junk = .made p ∧ PySizes p (inbox.map CBox.box) (outbox.map CBox.box) inbox.length ∧
      p.del B = .returns 0 .dangling ∧
      ∃ ob, p.handle = .plan backend false (some ob) ∧ makeFft3d (backendMeant backend) (inbox.map CBox.box) (outbox.map CBox.box)
        { Opts.default true with useReorder := false, usePencils := true, algorithm := .p2pPlined } = .ok ob := by
  obtain ⟨h, e, -, -, -, ⟨ob, h1, h2⟩, -, h3⟩ := C49_created_partial (junk := junk) ha (pyOptions_known (gpu := gpu)) geo h0 hsmall hlong
  have hm : pyFft3d B backend inbox outbox gpu junk = .made ⟨false, h⟩ := by
    unfold pyFft3d pyFinish
    rw [if_neg (not_not.2 (available_listed ha)), e]
    rfl
  exact ⟨_, hm, fft3d_sizes hm geo hsmall, h3, ob, h1, h2⟩

/-- C80: the same for `fft3d_r2c`. -/
theorem C80_created_r2c (ha : AvailableBackend B backend) (geo : Geometry (inbox.map CBox.box) (outbox.map CBox.box) (some d) wi wo)
    (hz : RankZeroHolds (inbox.map CBox.box)) (h0 : B.debug = true → wi.low = ⟨0, 0, 0⟩) (hsmall : wi.count < 2 ^ 31)
    (hlong : ∀ d, (inbox.length : Int) ≤ wi.size.get d ∧ (inbox.length : Int) ≤ wo.size.get d) :
    ∃ p, pyFft3dR2C B backend inbox outbox (d : Nat) gpu junk = .made p ∧ PySizes p (inbox.map CBox.box) (outbox.map CBox.box) inbox.length ∧
      p.del B = .returns 0 .dangling := by
  obtain ⟨h, e, -, -, -, -, h3⟩ := C49_created_r2c_partial (junk := junk) ha (pyOptions_known (gpu := gpu)) geo hz h0 hsmall hlong
  have hm : pyFft3dR2C B backend inbox outbox (d : Nat) gpu junk = .made ⟨false, h⟩ := by
    unfold pyFft3dR2C pyFinish
    rw [if_neg (not_not.2 (available_listed ha)), if_neg, e]
    · rfl
    · fin_cases d <;> decide
  exact ⟨_, hm, fft3dR2C_sizes hm geo hz hsmall, h3⟩

/-- C80: a backend that is not in the list, or a direction other than 0, 1, 2, raises `heffte_input_error`. -/
theorem C80_arguments (d : Int) (h : backend ∉ [0, 1, 2, 10, 11]) :
    pyFft3d B backend inbox outbox gpu junk = .raised ∧ pyFft3dR2C B backend inbox outbox d gpu junk = .raised := by
  unfold pyFft3d pyFft3dR2C
  exact ⟨if_pos h, if_pos h⟩

theorem C80_direction {d : Int} (hd : ¬ (0 ≤ d ∧ d ≤ 2)) : pyFft3dR2C B backend inbox outbox d gpu junk = .raised := by
  unfold pyFft3dR2C
  split
  · rfl
  · rw [if_pos (by simp; omega)]

/-- Finding (C80): no other failure of the factories is an exception that a user can handle: whenever the library returns a code other than zero, the
destructor of the half-made plan object destroys a null pointer or a deleted object.  A backend of the list that the library was built without
is one case. -/
theorem C80_false_failure (hb : backend ∈ pyBackends) : pyFft3d B backend inbox outbox gpu junk ≠ .raised ∧
    (∀ d : Fin 3, pyFft3dR2C B backend inbox outbox (d : Nat) gpu junk ≠ .raised) ∧
    (¬ AvailableBackend B backend → pyFft3d B backend inbox outbox gpu junk = .crashed) := by
  have key : ∀ (k : Bool) (make : Opts → Res Object), pyFinish B false (createWith B k make backend (some (pyOptions gpu)) junk) ≠ .raised := by
    intro k make
    unfold createWith
    split
    · unfold pyFinish planDestroy
      simp
    · simp only
      split
      · unfold pyFinish; simp
      · split
        · unfold pyFinish; simp
        · unfold pyFinish planDestroy; simp
        · unfold pyFinish; simp
        · unfold pyFinish; simp
  refine ⟨?_, fun d => ?_, fun ha => ?_⟩
  · unfold pyFft3d
    rw [if_neg (not_not.2 hb)]
    exact key _ _
  · unfold pyFft3dR2C
    rw [if_neg (not_not.2 hb), if_neg (by fin_cases d <;> decide)]
    exact key _ _
  · unfold pyFft3d
    rw [if_neg (not_not.2 hb), (C49_invalid_backend ha 0).1]
    unfold pyFinish planDestroy
    simp

/-! ## The decisions -/

variable {α β : Type} {scaling : Int} {x : PyArgs α β} {n r : Nat} {bin bout : List Box} {ws : Executor → Int} {sw : Int}

/-- C80: `forward` and `forward_buffered` call a function of the library exactly if the scaling is known, the arrays have as many elements as the
boxes have indexes, the workspace is long enough, and the types of the arrays are those of the function; in all the other cases they raise
`heffte_input_error`. -/
theorem C80_forward_checks (h : PySizes p bin bout n) (hr : r < n) (hw : sizeWorkspaceC ws p.handle r = .ok sw) :
    (∀ fn, p.decides ws true r scaling x = .ok (.ok fn) ↔ (scaling = 0 ∨ scaling = 1 ∨ scaling = 2) ∧ x.input.size = (boxAt bin r).points.card ∧
      x.output.size = (boxAt bout r).points.card ∧ (∀ w, x.work = some w → sw ≤ w.size) ∧ RightTypes true fn x) ∧
    ((∃ fn, p.decides ws true r scaling x = .ok (.ok fn)) ∨ p.decides ws true r scaling x = .ok (.error .input)) := by
  refine ⟨fun fn => ?_, (forward_decides (fn := .c2c) h.flag (h.input r hr) (h.output r hr) hw).2⟩
  have := (forward_decides (fn := fn) (scaling := scaling) (x := x) h.flag (h.input r hr) (h.output r hr) hw).1
  simp only [Int.natCast_inj] at this
  exact this

/-- C80, the part that holds: the same for `backward` and `backward_buffered` on a rank whose two boxes have the same number of indexes, without the
check of the workspace. -/
theorem C80_backward_checks_partial (h : PySizes p bin bout n) (hr : r < n) (he : (boxAt bin r).points.card = (boxAt bout r).points.card) :
    (∀ fn, p.decides ws false r scaling x = .ok (.ok fn) ↔ (scaling = 0 ∨ scaling = 1 ∨ scaling = 2) ∧ x.input.size = (boxAt bout r).points.card ∧
      x.output.size = (boxAt bin r).points.card ∧ RightTypes false fn x) ∧
    ((∃ fn, p.decides ws false r scaling x = .ok (.ok fn)) ∨ p.decides ws false r scaling x = .ok (.error .input)) := by
  refine ⟨fun fn => ?_, (backward_decides (fn := .c2c) h.flag (h.input r hr) (h.output r hr)).2⟩
  have := (backward_decides (fn := fn) (scaling := scaling) (x := x) h.flag (h.input r hr) (h.output r hr)).1
  simp only [Int.natCast_inj] at this
  rw [he]
  rw [he] at this
  exact this

/-- C80: a method gives results only if all the ranks call the same function, and it ends with exceptions only if all the ranks raise one;
otherwise some ranks wait for others. -/
theorem C80_all_ranks {α β : Type} {K : Kernel α β} {f : ℝ → α → α} {g : ℝ → β → β} {W : World α β} {ws : Executor → Int} {p : PyPlan} {fwd : Bool} {scaling : Int}
    {fresh : Nat → List α} {args : List (PyArgs α β)} :
    (∀ ms, p.call K f g W ws fwd scaling fresh args = .done ms →
      ∃ fn, ∀ (r : Nat) x, args[r]? = some x → p.decides ws fwd r scaling x = .ok (.ok fn)) ∧
    (p.call K f g W ws fwd scaling fresh args = .raised →
      ∀ (r : Nat) x, args[r]? = some x → ∃ e, p.decides ws fwd r scaling x = .ok (.error e)) := by
  have get : ∀ (q : Res (Except PyErr PyFn) → Bool), (args.mapIdx fun r x => p.decides ws fwd r scaling x).all q = true →
      ∀ (r : Nat) x, args[r]? = some x → q (p.decides ws fwd r scaling x) = true := by
    intro q hq r x hx
    rw [List.all_eq_true] at hq
    refine hq _ (List.mem_of_getElem? (i := r) ?_)
    rw [List.getElem?_mapIdx, hx]
    rfl
  unfold PyPlan.call
  dsimp only
  split
  · split
    · rename_i h
      refine ⟨fun ms hd => (by cases hd), fun _ r x hx => ?_⟩
      have := get _ h r x hx
      rcases hd : p.decides ws fwd r scaling x with e | (e | fn) <;> rw [hd] at this
      · cases this
      · exact ⟨e, rfl⟩
      · cases this
    · exact ⟨fun ms hd => (by cases hd), fun hd => (by cases hd)⟩
  · rename_i fn _
    split
    · rename_i h
      refine ⟨fun ms _ => ⟨fn, fun r x hx => ?_⟩, fun hd => ?_⟩
      · have := get _ h r x hx
        rcases hd : p.decides ws fwd r scaling x with e | (e | fn') <;> rw [hd] at this
        · cases this
        · cases this
        · rw [of_decide_eq_true this]
      · split at hd <;> cases hd
    · exact ⟨fun ms hd => (by cases hd), fun hd => (by cases hd)⟩
  · exact ⟨fun ms hd => (by cases hd), fun hd => (by cases hd)⟩

/-- C80: whatever the plan and the sizes, a function that is called has the types of the arrays. -/
theorem C80_types {fwd : Bool} {fn : PyFn} (h : p.decides ws fwd r scaling x = .ok (.ok fn)) : RightTypes fwd fn x := by
  unfold PyPlan.decides at h
  cases fwd
  · simp only [Bool.false_eq_true, if_false] at h
    unfold PyPlan.backward at h
    split at h
    · cases h
    cases h1 : sizeInboxC p.handle r with
    | error e => rw [h1] at h; cases h
    | ok si =>
      cases h2 : sizeOutboxC p.handle r with
      | error e => rw [h1, h2] at h; cases h
      | ok so =>
        simp only [h1, h2, bind, Except.bind] at h
        split at h
        · cases h
        split at h
        · cases h
        split at h
        · cases h
        rename_i ht
        rw [Bool.not_eq_true, workTypes_iff] at ht
        obtain ⟨a, b, c⟩ := pyBackwardFn_iff.1 (Except.ok.inj h)
        exact ⟨a, b, c, fun w hx => (pyWorkType_backward a).1 (c ▸ ht w hx)⟩
  · simp only [if_true] at h
    unfold PyPlan.forward at h
    split at h
    · cases h
    cases h1 : sizeInboxC p.handle r with
    | error e => rw [h1] at h; cases h
    | ok si =>
      cases h2 : sizeOutboxC p.handle r with
      | error e => rw [h1, h2] at h; cases h
      | ok so =>
        simp only [h1, h2, bind, Except.bind] at h
        split at h
        · cases h
        cases h3 : sizeWorkspaceC ws p.handle r with
        | error e => rw [h3] at h; cases h
        | ok sw =>
          simp only [h3] at h
          split at h
          · cases h
          split at h
          · cases h
          split at h
          · cases h
          rename_i ht
          rw [Bool.not_eq_true, workTypes_iff] at ht
          obtain ⟨a, b, c⟩ := pyForwardFn_iff.1 (Except.ok.inj h)
          exact ⟨a, b, c, fun w hx => (pyWorkType_forward a).1 (b ▸ ht w hx)⟩

/-- Finding (C80): on a rank whose boxes have different numbers of indexes `backward` rejects all the arrays that have the right sizes. -/
theorem C80_false_backward (h : PySizes p bin bout n) (hr : r < n) (he : (boxAt bin r).points.card ≠ (boxAt bout r).points.card)
    (h1 : x.input.size = (boxAt bout r).points.card) : p.decides ws false r scaling x = .ok (.error .input) := by
  rcases (backward_decides (fn := .c2c) (scaling := scaling) (x := x) h.flag (h.input r hr) (h.output r hr)).2 with ⟨fn, e⟩ | e
  · have := ((backward_decides (fn := fn) (scaling := scaling) (x := x) h.flag (h.input r hr) (h.output r hr)).1.1 e).2.1
    rw [h1] at this
    exact absurd (Int.natCast_inj.1 this).symm he
  · exact e

theorem sum_of_equal {l m : List Box} (hlen : l.length = m.length) (h : ∀ r, r < l.length → (boxAt l r).points.card = (boxAt m r).points.card) :
    (l.map Box.count).sum = (m.map Box.count).sum := by
  congr 1
  apply List.ext_getElem (by simpa using hlen)
  intro i h1 h2
  rw [List.length_map] at h1 h2
  have e1 : boxAt l i = l[i] := by
    have := boxAt_get h1
    rw [List.getElem?_eq_getElem h1] at this
    exact (Option.some.inj this).symm
  have e2 : boxAt m i = m[i] := by
    have := boxAt_get h2
    rw [List.getElem?_eq_getElem h2] at this
    exact (Option.some.inj this).symm
  have := h i h1
  rw [e1, e2] at this
  rw [List.getElem_map, List.getElem_map, Box.count_eq_card, Box.count_eq_card, this]

/-- Finding (C80): every plan of `fft3d_r2c` with at least three indexes in the shrunk direction has such a rank: `backward` with the arrays that
belong to the boxes raises an exception there. -/
theorem C80_false_backward_r2c (geo : Geometry bin bout (some d) wi wo) (h3 : 3 ≤ wi.size.get d) :
    ∃ r, r < bin.length ∧ (boxAt bin r).points.card ≠ (boxAt bout r).points.card := by
  by_contra hc
  push Not at hc
  have e := sum_of_equal geo.length.symm hc
  rw [geo.tilesIn.sum_count, geo.tilesOut.sum_count, Box.count_eq_card, Box.count_eq_card] at e
  have hsub : wo.points ⊂ wi.points := by
    rw [Finset.ssubset_iff_subset_ne]
    have key : ∀ k, wo.low.get k = wi.low.get k ∧ wo.high.get k ≤ wi.high.get k := by
      intro k
      obtain ⟨a, b⟩ := geo.complex k
      refine ⟨a, ?_⟩
      rw [b]
      split
      · obtain ⟨q, hq⟩ := geo.nonempty
        have := hq k
        omega
      · exact le_rfl
    refine ⟨fun q hq => ?_, fun heq => ?_⟩
    · rw [Box.mem_points, Box.mem_def] at hq ⊢
      intro k
      have := hq k
      have := key k
      omega
    · obtain ⟨q, hq⟩ := geo.nonempty
      have hs : wi.size.get d = wi.high.get d - wi.low.get d + 1 := by fin_cases d <;> rfl
      have hb := (geo.complex d).2
      rw [if_pos rfl] at hb
      have hm : q.set d (wi.high.get d) ∈ wi := by
        rw [Box.mem_def] at hq ⊢
        intro k
        have := hq k
        by_cases hk : k = d
        · subst hk; rw [A3.get_set_self]; omega
        · rw [A3.get_set_ne _ _ hk]; exact this
      rw [← Box.mem_points, ← heq, Box.mem_points, Box.mem_def] at hm
      have := (hm d).2
      rw [A3.get_set_self] at this
      omega
  exact absurd e (by have := Finset.card_lt_card hsub; omega)

end

/-! ## The calls -/

section
variable {α β : Type} {K : Kernel α β} {f : ℝ → α → α} {g : ℝ → β → β} {W : World α β} {ws : Executor → Int} {p : PyPlan} {fwd : Bool} {scaling : Int}
  {fresh : Nat → List α} {args : List (PyArgs α β)} {fn : PyFn}

/-- In place on the ranks that pass one array twice. -/
def sameArrays (args : List (PyArgs α β)) (r : Nat) : Bool := ((args[r]?).map PyArgs.same).getD false

theorem call_agreed (hne : args ≠ []) (hd : ∀ (r : Nat) x, args[r]? = some x → p.decides ws fwd r scaling x = .ok (.ok fn)) :
    p.call K f g W ws fwd scaling fresh args =
      match callC K f g W p.handle fwd fn.types (sameArrays args) scaling (args.mapIdx fun r x => x.mem (fresh r)) with
      | .ok ms => .done ms
      | .error _ => .undefined := by
  obtain ⟨x, t, rfl⟩ := List.exists_cons_of_ne_nil hne
  have h0 : p.decides ws fwd 0 scaling x = .ok (.ok fn) := hd 0 x rfl
  have hall : ((x :: t).mapIdx fun r x => p.decides ws fwd r scaling x).all (picks fn) = true := by
    rw [List.all_eq_true]
    intro y hy
    obtain ⟨i, hi, rfl⟩ := List.mem_mapIdx.1 hy
    rw [hd i _ (List.getElem?_eq_getElem hi)]
    simp [picks]
  unfold PyPlan.call
  simp only
  have e : ((x :: t).mapIdx fun r x => p.decides ws fwd r scaling x).head? = some (.ok (.ok fn)) := by
    rw [List.mapIdx_cons, List.head?_cons, h0]
  rw [e]
  simp only [hall, if_true]
  rfl

/-- C80: if all the ranks raise an exception nothing is called. -/
theorem call_raised (hne : args ≠ []) (hd : ∀ (r : Nat) x, args[r]? = some x → p.decides ws fwd r scaling x = .ok (.error .input)) :
    p.call K f g W ws fwd scaling fresh args = .raised := by
  obtain ⟨x, t, rfl⟩ := List.exists_cons_of_ne_nil hne
  have h0 : p.decides ws fwd 0 scaling x = .ok (.error .input) := hd 0 x rfl
  have hall : ((x :: t).mapIdx fun r x => p.decides ws fwd r scaling x).all raises = true := by
    rw [List.all_eq_true]
    intro y hy
    obtain ⟨i, hi, rfl⟩ := List.mem_mapIdx.1 hy
    rw [hd i _ (List.getElem?_eq_getElem hi)]
    rfl
  unfold PyPlan.call
  simp only
  have e : ((x :: t).mapIdx fun r x => p.decides ws fwd r scaling x).head? = some (.ok (.error .input)) := by
    rw [List.mapIdx_cons, List.head?_cons, h0]
  rw [e]
  simp only [hall, if_true]

theorem mem_at {r : Nat} {m : Mem α β} (h : (args.mapIdx fun r x => x.mem (fresh r))[r]? = some m) : ∃ x, args[r]? = some x ∧ m = x.mem (fresh r) := by
  rw [List.getElem?_mapIdx] at h
  cases hx : args[r]? with
  | none => rw [hx] at h; cases h
  | some x => rw [hx] at h; exact ⟨x, rfl, (Option.some.inj h).symm⟩

variable {src dst : List Box} {need : Nat → Int} {G F : Field α β}

theorem takes_real (h : fn.has fwd = true) : fn.takes.isReal = (fwd && decide (fn.types = .real)) := by
  cases fn <;> cases fwd <;> revert h <;> decide

theorem gives_real (h : fn.has fwd = true) : fn.gives.isReal = (!fwd && decide (fn.types = .real)) := by
  cases fn <;> cases fwd <;> revert h <;> decide

theorem workspace_complex (fn : PyFn) : fn.workspace.isReal = false := by cases fn <;> rfl

theorem Covers_card {x : NdArray α β} {b : Box} (h : x.Covers b) (hs : x.stride = 1) : b.points.card ≤ x.data.size := by
  rcases Nat.eq_zero_or_pos b.points.card with h0 | h0
  · omega
  · have := h.valid.inside (b.points.card - 1) (by rw [h.size]; omega)
    rw [hs] at this
    omega

/-- The arrays of the library. -/
theorem PyReady.arrays (h : PyReady fwd fn src dst need fresh args G) :
    CallArrays src dst (fwd && decide (fn.types = .real)) (!fwd && decide (fn.types = .real)) need 1 (sameArrays args) (args.mapIdx fun r x => x.mem (fresh r)) G := by
  have which : ∀ (r : Nat) x, args[r]? = some x → (if sameArrays args r then (x.mem (fresh r)).output else (x.mem (fresh r)).input) = x.input.data := by
    intro r x hx
    unfold sameArrays
    rw [hx]
    simp only [Option.map_some, Option.getD_some]
    split
    · rename_i hs
      rw [h.same r x hx hs]
      rfl
    · rfl
  refine ⟨by rw [List.length_mapIdx]; exact h.ranks, ?_, ?_, ?_, ?_, ?_, ?_⟩
  · intro r m hm
    obtain ⟨x, hx, rfl⟩ := mem_at hm
    rw [← takes_real (h.types r x hx).has, ← (h.types r x hx).input]
    exact (h.input r x hx).1.valid.type
  · intro r m hm
    obtain ⟨x, hx, rfl⟩ := mem_at hm
    rw [← gives_real (h.types r x hx).has, ← (h.types r x hx).output]
    exact (h.output r x hx).1.valid.type
  · intro r m hm
    obtain ⟨x, hx, rfl⟩ := mem_at hm
    rw [which r x hx, one_mul]
    exact Covers_card (h.input r x hx).1 (h.input r x hx).2
  · intro r m hm
    obtain ⟨x, hx, rfl⟩ := mem_at hm
    rw [one_mul]
    exact Covers_card (h.output r x hx).1 (h.output r x hx).2
  · intro r m hm j hj
    obtain ⟨x, hx, rfl⟩ := mem_at hm
    rw [which r x hx]
    obtain rfl : j = 0 := by omega
    intro q hq
    have := h.values r x hx q hq
    unfold NdArray.elem at this
    rw [(h.input r x hx).2] at this
    simpa using this
  · intro r m hm
    obtain ⟨x, hx, rfl⟩ := mem_at hm
    rw [Nat.cast_one, one_mul]
    cases hw : x.work with
    | none =>
      have := h.fresh r x hx hw
      unfold PyArgs.mem
      rw [hw]
      exact this
    | some w =>
      obtain ⟨a, b, c⟩ := h.work r x w hx hw
      have ht : w.data.isReal = false := by rw [a.type, (h.types r x hx).work w hw, workspace_complex]
      unfold PyArgs.mem
      rw [hw]
      cases hd : w.data with
      | inr l => rw [hd] at ht; cases ht
      | inl l =>
        simp only [hd]
        rcases Nat.eq_zero_or_pos w.size with h0 | h0
        · omega
        · have := a.inside (w.size - 1) (by omega)
          rw [b, hd] at this
          have : w.size - 1 < l.length := by simpa [Data.size] using this
          omega

/-- Arrays of different types are different arrays. -/
theorem PyReady.apart (h : PyReady fwd fn src dst need fresh args G) (hfn : fn.types = .real) : sameArrays args = fun _ => false := by
  funext r
  unfold sameArrays
  cases hx : args[r]? with
  | none => rfl
  | some x =>
    simp only [Option.map_some, Option.getD_some]
    cases hs : x.same
    · rfl
    · have t := h.types r x hx
      have e := t.input
      rw [h.same r x hx hs, t.output] at e
      revert hfn e; cases fn <;> decide

/-- The result in the terms of the user. -/
theorem PyReady.result {ms : List (Mem α β)} (h : PyReady fwd fn src dst need fresh args G)
    (ho : Outcome dst 1 (args.mapIdx fun r x => x.mem (fresh r)) ms F) : PyResult dst args ms F := by
  refine ⟨by rw [ho.ranks, List.length_mapIdx], fun r x m hx hm q hq => ?_, fun r x m hx hm => ?_⟩
  · have := ho.values r m hm 0 Nat.one_pos q hq
    unfold NdArray.elem
    simp only
    rw [(h.output r x hx).2]
    simpa using this
  · have hmem : (args.mapIdx fun r x => x.mem (fresh r))[r]? = some (x.mem (fresh r)) := by
      rw [List.getElem?_mapIdx, hx]
      rfl
    exact (ho.same r _ m hmem hm).input

/-- Ready arguments are accepted. -/
theorem PyReady.decides {bin bout : List Box} (h : PyReady fwd fn src dst need fresh args G) (hp : PySizes p bin bout src.length) (hs : scaling = 0 ∨ scaling = 1 ∨ scaling = 2)
    (hf : fwd = true → src = bin ∧ dst = bout)
    (hb : fwd = false → src = bout ∧ dst = bin ∧ ∀ r, r < src.length → (boxAt bin r).points.card = (boxAt bout r).points.card)
    (hn : ∀ r, r < src.length → sizeWorkspaceC ws p.handle r = .ok (need r)) {r : Nat} {x : PyArgs α β} (hx : args[r]? = some x) :
    p.decides ws fwd r scaling x = .ok (.ok fn) := by
  have hr : r < src.length := by
    rw [← h.ranks]
    exact (List.getElem?_eq_some_iff.1 hx).1
  cases fwd
  · obtain ⟨rfl, rfl, he⟩ := hb rfl
    exact ((C80_backward_checks_partial hp hr (he r hr)).1 fn).2 ⟨hs, (h.input r x hx).1.size, (h.output r x hx).1.size, h.types r x hx⟩
  · obtain ⟨rfl, rfl⟩ := hf rfl
    exact ((C80_forward_checks hp hr (hn r hr)).1 fn).2 ⟨hs, (h.input r x hx).1.size, (h.output r x hx).1.size,
      fun w hw => (h.work r x w hx hw).2.2, h.types r x hx⟩

end

section
variable {B : CBuild} {inbox outbox : List CBox} {gpu : Int} {junk : COptions} {wi wo : Box} {p : PyPlan} {d : Fin 3}
  {w : Nat} {scratch : Tag → Int × Int → Scratch} {inp : Tag → Int × Int → Arr ℂ} {W : World ℂ ℝ} {fwd : Bool} {scaling : Int}
  {fresh : Nat → List ℂ} {args : List (PyArgs ℂ ℝ)} {fn : PyFn} {need : Nat → Int}

/-- A method with complex and real numbers. -/
noncomputable def performPy (p : PyPlan) (K : Kernel ℂ ℝ) (W : World ℂ ℝ) (fwd : Bool) (scaling : Int) (fresh : Nat → List ℂ) (args : List (PyArgs ℂ ℝ)) :
    PyEnd ℂ ℝ := p.call K (fun x z => (x : ℂ) * z) (fun x y => x * y) W noWork fwd scaling fresh args

/-- The two boxes of every rank have the same number of indexes. -/
def EqualSizes (inbox outbox : List CBox) : Prop := ∀ r, r < inbox.length →
  (boxAt (inbox.map CBox.box) r).points.card = (boxAt (outbox.map CBox.box) r).points.card

theorem CEnv.reported {h : Handle} {b : Int} {k : Bool} {ob : Object} (e : h = .plan b k (some ob)) (hE : CEnv h fwd W need) (r : Nat) : sizeWorkspaceC noWork h r = .ok (need r) := by
  subst e
  rw [← hE.need r _ rfl]
  rfl

theorem ready_ne {src dst : List Box} {α β : Type} {fresh : Nat → List α} {args : List (PyArgs α β)} {G : Field α β} (h : PyReady fwd fn src dst need fresh args G)
    (hs : src ≠ []) : args ≠ [] := by
  intro e
  have := h.ranks
  rw [e] at this
  exact hs (List.length_eq_zero_iff.1 this.symm)

theorem geo_ne {bin bout : List Box} {r2c : Option (Fin 3)} (geo : Geometry bin bout r2c wi wo) : bin ≠ [] ∧ bout ≠ [] := by
  have h : bin ≠ [] := by
    rintro rfl
    have := geo.worldIn
    cases this
  refine ⟨h, fun e => h ?_⟩
  have := geo.length
  rw [e] at this
  exact List.length_eq_zero_iff.1 this.symm

/-- C80: with a plan of `fft3d` on the stock backend and complex arrays, contiguous and of the right sizes and types, the methods compute the scaled
discrete Fourier transform of the elements of all the ranks; for `backward` this is the case if the two boxes of each rank have the same size. -/
theorem C80_complex_partial (hm : pyFft3d B 0 inbox outbox gpu junk = .made p) (geo : Geometry (inbox.map CBox.box) (outbox.map CBox.box) none wi wo)
    (hsmall : wi.count < 2 ^ 31) (hlen : ∀ d, GoodLength (wi.extent d)) (hw : 0 < w) (hE : CEnv p.handle fwd W need) (hfn : fn.types = .complex)
    (hsc : scaling = 0 ∨ scaling = 1 ∨ scaling = 2) (hsize : fwd = false → EqualSizes inbox outbox) {g : Nat → A3 Int → ℂ}
    (ha : PyReady fwd fn (srcBoxes fwd (inbox.map CBox.box) (outbox.map CBox.box)) (dstBoxes fwd (inbox.map CBox.box) (outbox.map CBox.box)) need fresh args (.inl g))
    (hs : SourceHolds (srcBoxes fwd (inbox.map CBox.box) (outbox.map CBox.box)) (sameArrays args)) :
    ∃ ms, performPy p (stockKernel w scratch inp) W fwd scaling fresh args = .done ms ∧
      PyResult (dstBoxes fwd (inbox.map CBox.box) (outbox.map CBox.box)) args ms (.inl fun j q => (cFactor scaling wi.count : ℂ) * dft3 fwd wi (g j) q) := by
  obtain ⟨h1, h2⟩ := pyFft3d_made hm
  obtain ⟨o, ob, -, -, h4⟩ := created_object (returned_valid h1) h1
  have hsz := fft3d_sizes hm geo hsmall
  have hl : (srcBoxes fwd (inbox.map CBox.box) (outbox.map CBox.box)).length = inbox.length := by
    rw [src_length geo fwd, List.length_map]
  have harr := ha.arrays
  rw [hfn] at harr
  simp only [reduceCtorEq, decide_false, Bool.and_false] at harr
  obtain ⟨ms, e1, e2⟩ := C55_complex (scratch := scratch) (inp := inp) (scale := scaling) h1 geo hlen hw hE harr hs
  refine ⟨ms, ?_, ha.result e2⟩
  unfold performPy
  rw [call_agreed (ready_ne ha (by cases fwd; exacts [(geo_ne geo).2, (geo_ne geo).1])) fun r x hx => ha.decides (ws := noWork) (hl ▸ hsz) hsc
    (fun e => by subst e; exact ⟨rfl, rfl⟩) (fun e => by subst e; exact ⟨rfl, rfl, fun r hr => hsize rfl r (hl ▸ hr)⟩) (fun r _ => hE.reported h4 r) hx, hfn]
  unfold performC at e1
  rw [e1]

/-- C80: real input arrays with a plan of `fft3d`. -/
theorem C80_real_forward (hm : pyFft3d B 0 inbox outbox gpu junk = .made p) (geo : Geometry (inbox.map CBox.box) (outbox.map CBox.box) none wi wo)
    (hsmall : wi.count < 2 ^ 31) (hlen : ∀ d, GoodLength (wi.extent d)) (hw : 0 < w) (hE : CEnv p.handle true W need) (hfn : fn.types = .real)
    (hsc : scaling = 0 ∨ scaling = 1 ∨ scaling = 2) {g : Nat → A3 Int → ℝ}
    (ha : PyReady true fn (inbox.map CBox.box) (outbox.map CBox.box) need fresh args (.inr g)) :
    ∃ ms, performPy p (stockKernel w scratch inp) W true scaling fresh args = .done ms ∧
      PyResult (outbox.map CBox.box) args ms (.inl fun j q => (cFactor scaling wi.count : ℂ) * dft3 true wi (fun q => (g j q : ℂ)) q) := by
  obtain ⟨h1, h2⟩ := pyFft3d_made hm
  obtain ⟨o, ob, -, -, h4⟩ := created_object (returned_valid h1) h1
  have hsz := fft3d_sizes hm geo hsmall
  have hl : (inbox.map CBox.box).length = inbox.length := List.length_map _
  have harr := ha.arrays
  have hsame := ha.apart hfn
  rw [hfn, hsame] at harr
  simp only [decide_true, Bool.and_true, Bool.not_true] at harr
  obtain ⟨ms, e1, e2⟩ := C55_real_forward (scratch := scratch) (inp := inp) (scale := scaling) h1 geo hlen hw hE harr
  refine ⟨ms, ?_, ha.result e2⟩
  unfold performPy
  rw [call_agreed (ready_ne ha (geo_ne geo).1) fun r x hx => ha.decides (ws := noWork) (hl ▸ hsz) hsc
    (fun _ => ⟨rfl, rfl⟩) (fun e => by cases e) (fun r _ => hE.reported h4 r) hx, hfn, hsame]
  unfold performC at e1
  rw [e1]

/-- C80: real output arrays with a plan of `fft3d`, if the two boxes of each rank have the same size. -/
theorem C80_real_backward_partial (hm : pyFft3d B 0 inbox outbox gpu junk = .made p) (geo : Geometry (inbox.map CBox.box) (outbox.map CBox.box) none wi wo)
    (hsmall : wi.count < 2 ^ 31) (hlen : ∀ d, GoodLength (wi.extent d)) (hw : 0 < w) (hE : CEnv p.handle false W need) (hfn : fn.types = .real)
    (hsc : scaling = 0 ∨ scaling = 1 ∨ scaling = 2) (hsize : EqualSizes inbox outbox) {g : Nat → A3 Int → ℂ}
    (ha : PyReady false fn (outbox.map CBox.box) (inbox.map CBox.box) need fresh args (.inl g)) (hs : SourceHolds (outbox.map CBox.box) fun _ => false) :
    ∃ ms, performPy p (stockKernel w scratch inp) W false scaling fresh args = .done ms ∧
      PyResult (inbox.map CBox.box) args ms (.inr fun j q => cFactor scaling wi.count * (dft3 false wi (g j) q).re) := by
  obtain ⟨h1, h2⟩ := pyFft3d_made hm
  obtain ⟨o, ob, -, -, h4⟩ := created_object (returned_valid h1) h1
  have hsz := fft3d_sizes hm geo hsmall
  have hl : (outbox.map CBox.box).length = inbox.length := by rw [geo.length, List.length_map]
  have harr := ha.arrays
  have hsame := ha.apart hfn
  rw [hfn, hsame] at harr
  simp only [decide_true, Bool.and_true, Bool.not_false] at harr
  obtain ⟨ms, e1, e2⟩ := C55_real_backward (scratch := scratch) (inp := inp) (scale := scaling) h1 geo hlen hw hE harr hs
  refine ⟨ms, ?_, ha.result e2⟩
  unfold performPy
  rw [call_agreed (ready_ne ha (geo_ne geo).2) fun r x hx => ha.decides (ws := noWork) (hl ▸ hsz) hsc
    (fun e => by cases e) (fun _ => ⟨rfl, rfl, fun r hr => hsize r (hl ▸ hr)⟩) (fun r _ => hE.reported h4 r) hx, hfn, hsame]
  unfold performC at e1
  rw [e1]

/-- C80: `forward` of a plan of `fft3d_r2c` with real input arrays. -/
theorem C80_forward_r2c (hm : pyFft3dR2C B 0 inbox outbox (d : Nat) gpu junk = .made p) (geo : Geometry (inbox.map CBox.box) (outbox.map CBox.box) (some d) wi wo)
    (hz : RankZeroHolds (inbox.map CBox.box)) (hsmall : wi.count < 2 ^ 31) (hlen : ∀ d, GoodLength (wi.extent d)) (hw : 0 < w) (hE : CEnv p.handle true W need)
    (hfn : fn.types = .real) (hsc : scaling = 0 ∨ scaling = 1 ∨ scaling = 2) {g : Nat → A3 Int → ℝ}
    (ha : PyReady true fn (inbox.map CBox.box) (outbox.map CBox.box) need fresh args (.inr g)) :
    ∃ ms, performPy p (stockKernel w scratch inp) W true scaling fresh args = .done ms ∧
      PyResult (outbox.map CBox.box) args ms (.inl fun j q => (cFactor scaling wi.count : ℂ) * dft3 true wi (fun q => (g j q : ℂ)) q) := by
  obtain ⟨h1, h2⟩ := pyFft3dR2C_made hm
  obtain ⟨o, ob, -, -, h4⟩ := created_object_r2c (returned_valid h1) h1
  have hsz := fft3dR2C_sizes hm geo hz hsmall
  have hl : (inbox.map CBox.box).length = inbox.length := List.length_map _
  have harr := ha.arrays
  have hsame := ha.apart hfn
  rw [hfn, hsame] at harr
  simp only [decide_true, Bool.and_true, Bool.not_true] at harr
  obtain ⟨ms, e1, e2⟩ := (C55_r2c (scratch := scratch) (inp := inp) (scale := scaling) (m0s := args.mapIdx fun r x => x.mem (fresh r)) h1 geo hlen hw hz
    (fun b hb => lt_of_le_of_lt (geo.tilesIn.count_le hb) hsmall) hE).1 rfl g harr
  refine ⟨ms, ?_, ha.result e2⟩
  unfold performPy
  rw [call_agreed (ready_ne ha (geo_ne geo).1) fun r x hx => ha.decides (ws := noWork) (hl ▸ hsz) hsc
    (fun _ => ⟨rfl, rfl⟩) (fun e => by cases e) (fun r _ => hE.reported h4 r) hx, hfn, hsame]
  unfold performC at e1
  rw [e1]

/-- Finding (C80): complex arrays with a plan of `fft3d_r2c` are not rejected, because the attribute `use_r2c` is False for these plans: the library
uses an object of another class. -/
theorem C80_false_kind {backend : Int} (hm : pyFft3dR2C B backend inbox outbox (d : Nat) gpu junk = .made p)
    (hacc : ∀ (r : Nat) x, args[r]? = some x → p.decides noWork fwd r scaling x = .ok (.ok fn)) (hne : args ≠ []) (hfn : fn.types = .complex) (K : Kernel ℂ ℝ) :
    performPy p K W fwd scaling fresh args = .undefined := by
  obtain ⟨h1, h2⟩ := pyFft3dR2C_made hm
  have := C55_kind_false (valid_iff.1 (returned_valid h1)) h1 K (W := W) (fwd := fwd) (inplace := sameArrays args) (scale := scaling)
    (m0s := args.mapIdx fun r x => x.mem (fresh r))
  unfold performPy
  rw [call_agreed hne hacc, hfn]
  unfold performC at this
  rw [this]

end

/-! ## A line of indexes on one rank -/

/-- A box with `n` indexes in one direction. -/
def pyLine (n : Int) : CBox := ⟨⟨0, 0, 0⟩, ⟨n - 1, 0, 0⟩, none⟩

/-- The options of the plans that Python makes. -/
def pyOpts : Opts := { Opts.default true with useReorder := false, usePencils := true, algorithm := .p2pPlined }

/-- The plan, the reshapes and the executors of `fft3d_r2c` for a line. -/
def pyLinePlan (n m : Int) : Plan :=
  ⟨[(pyLine n).box], [(pyLine m).box], [(pyLine m).box], [(pyLine m).box], [(pyLine n).box], [(pyLine m).box], [(pyLine m).box], [(pyLine m).box],
    ⟨n, 1, 1⟩, ⟨0, 1, 2⟩, n⟩
def pyLineFft (n m : Int) : Fft :=
  ⟨fun i => [[none], [none], [none], [none]].getD i [], fun i => [[none], [none], [none], [none]].getD i [],
    [⟨some (.r2c (pyLine n).box 0), some (.one (pyLine m).box 1), some (.one (pyLine m).box 2)⟩]⟩
def pyLineObject (n m : Int) : Object := ⟨pyLinePlan n m, pyLineFft n m, true, .fourier⟩

/-- The plan object in Python. -/
def pyLinePy (n m : Int) : PyPlan := ⟨false, .plan 0 true (some (pyLineObject n m))⟩

theorem pyLine_made {n m : Int} (h1 : planOperations [(pyLine n).box] [(pyLine m).box] (some 0) pyOpts = .ok (pyLinePlan n m))
    (h2 : planAsserts [(pyLine n).box] [(pyLine m).box] (some 0) = .ok ()) (h3 : setupR2C .p2pPlined (pyLinePlan n m) = .ok (pyLineFft n m))
    (B : CBuild) (gpu : Int) (junk : COptions) : pyFft3dR2C B 0 [pyLine n] [pyLine m] 0 gpu junk = .made (pyLinePy n m) := by
  have hm : makeFft3dR2C [(pyLine n).box] [(pyLine m).box] 0 pyOpts = .ok (pyLineObject n m) := by
    unfold makeFft3dR2C
    rw [h1]
    simp only [bind, Except.bind]
    rw [show pyOpts.algorithm = .p2pPlined from rfl, h3]
    rfl
  unfold pyFft3dR2C planCreateR2C
  rw [createWith_valid (by simp [CBuild.valid])]
  have e : optsOf B 0 (some (pyOptions gpu)) junk = .ok pyOpts := rfl
  have c : constructR2C B [(pyLine n).box] [(pyLine m).box] 0 pyOpts = .ok (pyLineObject n m) := by
    unfold constructR2C
    rw [dif_pos ⟨le_rfl, by decide⟩]
    have h2' : ((⟨(0 : Int).toNat, by decide⟩ : Fin 3)) = 0 := rfl
    simp only [h2']
    rw [h2]
    cases B.debug
    · exact hm
    · exact hm
  rw [e]
  simp only [List.map_cons, List.map_nil]
  rw [c]
  rfl

theorem pyLine4 (B : CBuild) (gpu : Int) (junk : COptions) : pyFft3dR2C B 0 [pyLine 4] [pyLine 3] 0 gpu junk = .made (pyLinePy 4 3) :=
  pyLine_made (by decide +kernel) (by decide +kernel) (by rfl) B gpu junk

theorem pyLine2 (B : CBuild) (gpu : Int) (junk : COptions) : pyFft3dR2C B 0 [pyLine 2] [pyLine 2] 0 gpu junk = .made (pyLinePy 2 2) :=
  pyLine_made (by decide +kernel) (by decide +kernel) (by rfl) B gpu junk

section
variable {α β : Type}

theorem line_stages (K : Kernel α β) (W : World α β) (n m : Int) (fwd : Bool) (inplace : Nat → Bool) (x : Mem α β) {mode : Mode} {prog : List Instr}
    (hp : program mode (patternOf (fun _ => none) ((pyLineFft n m).executors fwd 0) (inplace 0)) = .ok prog) {ms : List (Mem α β)}
    (h : transform K W mode (pyLineFft n m) fwd 1 inplace [x] = .ok ms) :
    ∃ y, finish K ((pyLineFft n m).env fwd 1 inplace 0) prog x = .ok y := by
  have hsh : ∀ i : Fin 4, (pyLineFft n m).shapers fwd i = [none] := by
    intro i; cases fwd <;> fin_cases i <;> rfl
  have hst : ∀ {γ : Type} (env : Nat → Env) (port : Nat → Port α β γ) (i : Fin 4) (done : Nat → List Nat) (sts : State α β),
      runStage K env port i W.stride 1 done [none] sts = .ok sts := fun _ _ _ _ _ => rfl
  have hpat : program mode (patternOf (shaperAt ((pyLineFft n m).shapers fwd) 0) (((pyLineFft n m).env fwd 1 inplace 0).execs) (inplace 0)) = .ok prog := by
    rw [← hp]
    cases fwd <;> rfl
  unfold transform at h
  simp only [hsh, hst, mapRes, hpat, bind, Except.bind, ite_self] at h
  revert h
  cases hf : finish K ((pyLineFft n m).env fwd 1 inplace 0) prog x with
  | ok y => exact fun _ => ⟨y, rfl⟩
  | error e => intro h; simp at h

theorem writeAll_outside {l : List (Int × Option β)} {mem : List β} {a : Int} {v : Option β} (h : (a, v) ∈ l) (ha : mem.length ≤ a) : writeAll l mem = .error .ub := by
  induction l generalizing mem with
  | nil => cases h
  | cons e t ih =>
    obtain ⟨b, u⟩ := e
    unfold writeAll
    cases u with
    | none => rfl
    | some u =>
      simp only
      unfold wr
      by_cases hb : 0 ≤ b ∧ b < (mem.length : Int)
      · rw [if_pos hb]
        rcases List.mem_cons.1 h with h | h
        · cases h; omega
        · exact ih h (by simpa using ha)
      · rw [if_neg hb]

theorem put_temp {K : Kernel α β} {E : Env} {m m' : Mem α β} {x : Data α β} (h : m.put K E .temp x = .ok m') : m'.output = m.output := by
  unfold Mem.put at h
  cases x with
  | inl l => cases h; rfl
  | inr l => cases h

theorem copy_temp {K : Kernel α β} {E : Env} {m m' : Mem α β} {k : Fin 3} {b : Buf} (h : runInstr K E (.copy k b .temp) m = .ok m') : m'.output = m.output := by
  unfold runInstr at h
  simp only [bind, Except.bind] at h
  split at h
  · cases h
  · split at h
    · cases h
    · exact put_temp h

theorem call_temp {K : Kernel α β} {E : Env} {m m' : Mem α β} {k : Fin 3} {s : Sz} {j : Nat} (h : runCall K E j m ⟨k, .temp, s, .temp, s⟩ = .ok m') : m'.output = m.output := by
  unfold runCall at h
  split at h
  · cases h
  · simp only [bind, Except.bind] at h
    split at h
    · cases h
    · simp only [Mem.get, and_self, if_true] at h
      split at h
      · cases h
      · exact put_temp h

theorem batch_temp {K : Kernel α β} {E : Env} {m m' : Mem α β} {k : Fin 3} {s : Sz} (hnb : E.nb = 1) (h : runInstr K E (.batch [⟨k, .temp, s, .temp, s⟩]) m = .ok m') :
    m'.output = m.output := by
  have e : runInstr K E (.batch [⟨k, .temp, s, .temp, s⟩]) m = (runCall K E 0 m ⟨k, .temp, s, .temp, s⟩) := by
    unfold runInstr
    rw [hnb]
    simp only [List.range_one, List.foldlM_cons, List.foldlM_nil, bind, Except.bind, pure, Except.pure]
    cases runCall K E 0 m ⟨k, .temp, s, .temp, s⟩ <;> rfl
  rw [e] at h
  exact call_temp h

/-- The program of a complex-to-real call without reshapes. -/
theorem line_program (n m : Int) (inplace : Bool) : program .c2r (patternOf (fun _ => none) ((pyLineFft n m).executors false 0) inplace) =
    .ok [.copy 0 .input .temp, .batch [⟨0, .temp, .box 0, .temp, .box 0⟩], .batch [⟨1, .temp, .box 1, .temp, .box 1⟩],
      .batch [⟨2, .temp, .cplx 2, .output, .box 2⟩]] := by cases inplace <;> rfl

end

section
variable {K : Kernel ℂ ℝ} {W : World ℂ ℝ} {inplace : Nat → Bool} {scaling : Int}

/-- The four steps of a complex-to-real call without reshapes. -/
theorem line_steps {n m : Int} {x : Mem ℂ ℝ} {ms : List (Mem ℂ ℝ)}
    (h : performC (.plan 0 true (some (pyLineObject n m))) K W false .real inplace scaling [x] = .ok ms) :
    ∃ a b, runInstr K ((pyLineFft n m).env false 1 inplace 0) (.copy 0 .input .temp) x = .ok a ∧ b.output = x.output ∧
      ∃ c, runInstr K ((pyLineFft n m).env false 1 inplace 0) (.batch [⟨2, .temp, .cplx 2, .output, .box 2⟩]) b = .ok c := by
  unfold performC callC at h
  simp only [reduceCtorEq, false_and, if_false] at h
  unfold Object.call at h
  cases ht : transform K W (CTypes.mode false .real) (pyLineObject n m).fft false 1 inplace [x] with
  | error e => rw [ht] at h; cases h
  | ok l =>
    obtain ⟨y, hy⟩ := line_stages K W n m false inplace x (line_program n m (inplace 0)) ht
    unfold finish at hy
    cases h1 : runInstr K ((pyLineFft n m).env false 1 inplace 0) (.copy 0 .input .temp) x with
    | error e => rw [h1] at hy; cases hy
    | ok a =>
      rw [h1] at hy
      simp only [bind, Except.bind] at hy
      unfold finish at hy
      cases h2 : runInstr K ((pyLineFft n m).env false 1 inplace 0) (.batch [⟨0, .temp, .box 0, .temp, .box 0⟩]) a with
      | error e => rw [h2] at hy; cases hy
      | ok b =>
        rw [h2] at hy
        simp only [bind, Except.bind] at hy
        unfold finish at hy
        cases h3 : runInstr K ((pyLineFft n m).env false 1 inplace 0) (.batch [⟨1, .temp, .box 1, .temp, .box 1⟩]) b with
        | error e => rw [h3] at hy; cases hy
        | ok c =>
          rw [h3] at hy
          simp only [bind, Except.bind] at hy
          unfold finish at hy
          cases h4 : runInstr K ((pyLineFft n m).env false 1 inplace 0) (.batch [⟨2, .temp, .cplx 2, .output, .box 2⟩]) c with
          | error e => rw [h4] at hy; cases hy
          | ok z => exact ⟨a, c, rfl, by rw [batch_temp rfl h3, batch_temp rfl h2, copy_temp h1], z, h4⟩

/-- The output array of a backward transform of four indexes has less than four elements. -/
theorem line_short_output {x : Mem ℂ ℝ} (hK : K.lanes = 1) {l : List ℝ} (hl : x.output = .inr l) (h3 : l.length < 4) (ms : List (Mem ℂ ℝ)) :
    performC (.plan 0 true (some (pyLineObject 4 3))) K W false .real inplace scaling [x] ≠ .ok ms := by
  intro h
  obtain ⟨a, b, -, hb, c, hc⟩ := line_steps h
  have e : runInstr K ((pyLineFft 4 3).env false 1 inplace 0) (.batch [⟨2, .temp, .cplx 2, .output, .box 2⟩]) b =
      (runCall K ((pyLineFft 4 3).env false 1 inplace 0) 0 b ⟨2, .temp, .cplx 2, .output, .box 2⟩) := by
    unfold runInstr
    rw [show ((pyLineFft 4 3).env false 1 inplace 0).nb = 1 from rfl]
    simp only [List.range_one, List.foldlM_cons, List.foldlM_nil, bind, Except.bind, pure, Except.pure]
    cases runCall K ((pyLineFft 4 3).env false 1 inplace 0) 0 b ⟨2, .temp, .cplx 2, .output, .box 2⟩ <;> rfl
  rw [e] at hc
  have hx : ∀ src, ∃ e, runC2R K ⟨0, 2, 0⟩ (.r2c (pyLine 4).box 0) (((0 : Nat) : Int) * 3) (((0 : Nat) : Int) * 4) src l = .error e := by
    intro src
    have hg : laneGroups 1 (pyLine 4).box 0 (((0 : Nat) : Int) * 3) (if (0 : Fin 3) = (pyLine 4).box.order 0 then (pyLine 4).box.size 0 / 2 + 1 else 1)
        ((pyLine 4).box.osize 0 * ((pyLine 4).box.osize 1 / 2 + 1)) (((0 : Nat) : Int) * 4)
        (if (0 : Fin 3) = (pyLine 4).box.order 0 then (pyLine 4).box.size 0 else 1) ((pyLine 4).box.osize 0 * (pyLine 4).box.osize 1) = [[(0, 0)]] := by decide +kernel
    unfold runC2R execC2R
    simp only [hK]
    rw [hg]
    unfold runOut runGroup
    simp only [List.mapM_cons, List.mapM_nil, bind, Except.bind, pure, Except.pure]
    cases runLine (K.toReal ⟨0, 2, 0⟩ ((pyLine 4).box.size 0).toNat) (((pyLine 4).box.size 0 + 2) / 2).toNat (lineStride (pyLine 4).box 0) src (0, 0) with
    | error e => exact ⟨e, rfl⟩
    | ok o =>
      simp only [List.zip_cons_cons, List.zip_nil_right, List.map_cons, List.map_nil]
      rw [writeAll_outside (a := 3) (v := o[3]?) ?_ (by exact_mod_cast Nat.lt_succ_iff.1 h3)]
      · exact ⟨_, rfl⟩
      · rw [List.mem_flatMap]
        exact ⟨3, by decide, by
          rw [show lineStride (pyLine 4).box 0 = 1 by decide]
          simp⟩
  unfold runCall at hc
  have he : ((pyLineFft 4 3).env false 1 inplace 0).execs 2 = some (.r2c (pyLine 4).box 0) := rfl
  have s1 : ((pyLineFft 4 3).env false 1 inplace 0).size (.cplx 2) = .ok 3 := rfl
  have s2 : ((pyLineFft 4 3).env false 1 inplace 0).size (.box 2) = .ok 4 := rfl
  simp only [he, s1, s2, bind, Except.bind, Mem.get, hb, hl] at hc
  obtain ⟨e, he⟩ := hx (b.work.drop ((pyLineFft 4 3).env false 1 inplace 0).tempOff)
  rw [show (⟨((pyLineFft 4 3).env false 1 inplace 0).rank, 2, 0⟩ : Tag) = ⟨0, 2, 0⟩ from rfl, he] at hc
  cases hc

/-- The workspace of a backward transform of two indexes is empty. -/
theorem line_short_work {x : Mem ℂ ℝ} (hw : x.work = []) (ms : List (Mem ℂ ℝ)) :
    performC (.plan 0 true (some (pyLineObject 2 2))) K W false .real inplace scaling [x] ≠ .ok ms := by
  intro h
  obtain ⟨a, b, ha, -⟩ := line_steps h
  unfold runInstr at ha
  have s1 : ((pyLineFft 2 2).env false 1 inplace 0).size (.box 0) = .ok 2 := rfl
  have s2 : ((pyLineFft 2 2).env false 1 inplace 0).nb = 1 := rfl
  simp only [s1, s2, bind, Except.bind] at ha
  rw [show x.get K ((pyLineFft 2 2).env false 1 inplace 0) .temp = .inl [] by unfold Mem.get; rw [hw]; rfl] at ha
  unfold copyData at ha
  cases hg : x.get K ((pyLineFft 2 2).env false 1 inplace 0) .input with
  | inr l => rw [hg] at ha; cases ha
  | inl l =>
    rw [hg] at ha
    simp only [bind, Except.bind] at ha
    rw [show copyMoves ((loop (((1 : Nat) : Int) * 2)).map fun i => (i, i)) l [] = .error .ub by
      unfold copyMoves
      exact writeAll_outside (a := 0) (v := rd l 0) (by
        rw [List.map_map]
        exact List.mem_map.2 ⟨0, by simp, rfl⟩) (by simp)] at ha
    cases ha

end

/-- Finding (C80): `backward` of a plan of `fft3d_r2c` for four indexes: the arrays that belong to the boxes, three complex and four real numbers, are
rejected; four complex and three real numbers are accepted and the library writes behind the end of the output array. -/
theorem C80_false_memory (B : CBuild) (gpu : Int) (junk : COptions) {W : World ℂ ℝ} (fresh : Nat → List ℂ) {K : Kernel ℂ ℝ} (hK : K.lanes = 1) (l : List ℂ)
    (y : List ℝ) (hl : l.length = 4) (hy : y.length = 3) :
    ∃ p, pyFft3dR2C B 0 [pyLine 4] [pyLine 3] 0 gpu junk = .made p ∧
      (∀ x : NdArray ℂ ℝ, ∀ z : NdArray ℂ ℝ, x.size = 3 → z.size = 4 → performPy p K W false 0 fresh [⟨x, z, false, none⟩] = .raised) ∧
      performPy p K W false 0 fresh [⟨⟨.complex128, 4, 1, .inl l⟩, ⟨.float64, 3, 1, .inr y⟩, false, none⟩] = .undefined ∧
      NdArray.Valid (⟨.complex128, 4, 1, .inl l⟩ : NdArray ℂ ℝ) ∧ NdArray.Valid (⟨.float64, 3, 1, .inr y⟩ : NdArray ℂ ℝ) := by
  refine ⟨_, pyLine4 B gpu junk, fun x z hx hz => ?_, ?_, ⟨rfl, fun i hi => ?_⟩, ⟨rfl, fun i hi => ?_⟩⟩
  · refine call_raised (by simp) fun r a ha => ?_
    cases r with
    | succ r => simp at ha
    | zero =>
      obtain rfl := Option.some.inj ha
      unfold PyPlan.decides PyPlan.backward
      have e1 : sizeInboxC (pyLinePy 4 3).handle 0 = .ok 4 := rfl
      have e2 : sizeOutboxC (pyLinePy 4 3).handle 0 = .ok 3 := rfl
      simp only [e1, e2, hx, hz, bind, Except.bind]
      simp
  · unfold performPy
    rw [call_agreed (fn := .z2d) (by simp) fun r a ha => ?_]
    · have := line_short_output (W := W) (inplace := sameArrays [(⟨⟨.complex128, 4, 1, .inl l⟩, ⟨.float64, 3, 1, .inr y⟩, false, none⟩ : PyArgs ℂ ℝ)])
        (scaling := 0) (x := ⟨.inl l, .inr y, fresh 0⟩) hK rfl (by omega)
      unfold performC at this
      split
      · rename_i ms hms
        exact absurd hms (this ms)
      · rfl
    · cases r with
      | succ r => simp at ha
      | zero =>
        obtain rfl := Option.some.inj ha
        rfl
  · simpa [Data.size, hl] using hi
  · simpa [Data.size, hy] using hi

/-- Finding (C80): `backward_buffered` does not look at the size of the workspace, as `forward_buffered` does: with an empty workspace the library writes
behind its end. -/
theorem C80_false_workspace (B : CBuild) (gpu : Int) (junk : COptions) {W : World ℂ ℝ} (fresh : Nat → List ℂ) {K : Kernel ℂ ℝ} (l : List ℂ) (y : List ℝ) :
    ∃ p, pyFft3dR2C B 0 [pyLine 2] [pyLine 2] 0 gpu junk = .made p ∧ sizeWorkspaceC noWork p.handle 0 = .ok 2 ∧
      performPy p K W true 0 fresh [⟨⟨.float64, 2, 1, .inr y⟩, ⟨.complex128, 2, 1, .inl l⟩, false, some ⟨.complex128, 0, 1, .inl []⟩⟩] = .raised ∧
      performPy p K W false 0 fresh [⟨⟨.complex128, 2, 1, .inl l⟩, ⟨.float64, 2, 1, .inr y⟩, false, some ⟨.complex128, 0, 1, .inl []⟩⟩] = .undefined := by
  refine ⟨_, pyLine2 B gpu junk, rfl, ?_, ?_⟩
  · refine call_raised (by simp) fun r a ha => ?_
    cases r with
    | succ r => simp at ha
    | zero =>
      obtain rfl := Option.some.inj ha
      rfl
  · unfold performPy
    rw [call_agreed (fn := .z2d) (by simp) fun r a ha => ?_]
    · have := line_short_work (K := K) (W := W)
        (inplace := sameArrays [(⟨⟨.complex128, 2, 1, .inl l⟩, ⟨.float64, 2, 1, .inr y⟩, false, some ⟨.complex128, 0, 1, .inl []⟩⟩ : PyArgs ℂ ℝ)])
        (scaling := 0) (x := ⟨.inl l, .inr y, []⟩) rfl
      unfold performC at this
      split
      · rename_i ms hms
        exact absurd hms (this ms)
      · rfl
    · cases r with
      | succ r => simp at ha
      | zero =>
        obtain rfl := Option.some.inj ha
        rfl

/-! ## Arrays that are not contiguous -/

/-- One rank with two indexes: a plan, and an environment for its calls. -/
theorem pyTwo_exists (B : CBuild) (gpu : Int) (junk : COptions) : ∃ (p : PyPlan) (W : World ℂ ℝ) (need : Nat → Int), pyFft3d B 0 [pyLine 2] [pyLine 2] gpu junk = .made p ∧
    CEnv p.handle true W need ∧ need 0 ≤ 2 := by
  obtain ⟨wi, wo, geo, h0, -⟩ : ∃ wi wo, Geometry ([pyLine 2].map CBox.box) ([pyLine 2].map CBox.box) none wi wo ∧ wi.low = ⟨0, 0, 0⟩ ∧ wo.low = ⟨0, 0, 0⟩ :=
    checked_geometry (by decide) rfl (by decide) (by decide) ⟨_, List.mem_cons_self .., ⟨0, 0, 0⟩, by decide⟩
  have e : findWorld ([pyLine 2].map CBox.box) = .ok ⟨⟨0, 0, 0⟩, ⟨1, 0, 0⟩, ⟨0, 1, 2⟩⟩ := by decide
  obtain rfl := Except.ok.inj (e.symm.trans geo.worldIn)
  obtain rfl := Except.ok.inj (e.symm.trans geo.worldOut)
  obtain ⟨p, h1, -, -, ob, h2, h3⟩ := C80_created (B := B) (backend := 0) (gpu := gpu) (junk := junk) (.inl rfl) geo (fun _ => rfl) (by decide) (by decide)
  have hs : (makeFft3d .stock ([pyLine 2].map CBox.box) ([pyLine 2].map CBox.box) pyOpts).map (fun ob =>
      decide (ob.fft.execs.length ≤ 1 ∧ (∀ i, (ob.fft.fwd i).length ≤ 1 ∧ (ob.fft.bwd i).length ≤ 1) ∧ ob.sizeWorkspace noWork 0 ≤ 2)) = .ok true := by decide +kernel
  rw [show makeFft3d .stock ([pyLine 2].map CBox.box) ([pyLine 2].map CBox.box) pyOpts = .ok ob from h3] at hs
  obtain ⟨s1, s2, s3⟩ := of_decide_eq_true (Except.ok.inj hs)
  have small : ∀ r, ob.sizeWorkspace noWork r < 2 ^ 31 := by
    intro r
    rcases Nat.eq_zero_or_pos r with rfl | hr
    · omega
    · rw [workspace_beyond s1 s2 hr]; decide
  obtain ⟨W, hW⟩ := world_exists (α := ℂ) (β := ℝ) ob.plan true
  refine ⟨p, W, ob.sizeWorkspace noWork, h1, ⟨?_, ?_, ?_⟩, s3⟩
  · intro b k ob' hh; rw [h2] at hh; cases hh; exact hW
  · intro b k ob' hh; rw [h2] at hh; cases hh; exact small
  · intro r n hn
    rw [h2] at hn
    have h3 := objectWorkspace_nonneg ob r
    have h2 := small r
    have : toInt32 (ob.sizeWorkspace noWork r) = n := Except.ok.inj hn
    rw [← this]
    unfold toInt32
    rw [Int.bmod_eq_of_le (by omega) (by omega)]

/-- The values 0 and 1 at two indexes. -/
noncomputable def pyValues : Nat → A3 Int → ℂ := fun _ q => q.x

/-- Contiguous arrays for `pyValues`. -/
noncomputable def pyTwoArgs (stride : Nat) : PyArgs ℂ ℝ := ⟨⟨.complex128, 2, stride, .inl [0, 1, 0]⟩, ⟨.complex128, 2, 1, .inl [0, 0]⟩, false, none⟩

theorem pyTwoCard : (boxAt ([pyLine 2].map CBox.box) 0).points.card = 2 := by
  have h : ((boxAt ([pyLine 2].map CBox.box) 0).points.card : Int) = 2 := by rw [← Box.count_eq_card]; decide
  exact_mod_cast h

theorem pyTwo_ready {need : Nat → Int} (h : need 0 ≤ 2) : PyReady true .z2z ([pyLine 2].map CBox.box) ([pyLine 2].map CBox.box) need (fun _ => [0, 0]) [pyTwoArgs 1] (.inl pyValues) := by
  have one : ∀ {P : Nat → PyArgs ℂ ℝ → Prop}, P 0 (pyTwoArgs 1) → ∀ (r : Nat) x, [pyTwoArgs 1][r]? = some x → P r x := by
    intro P hP r x hx
    cases r with
    | succ r => simp at hx
    | zero => obtain rfl := Option.some.inj hx; exact hP
  refine ⟨rfl, one ⟨rfl, rfl, rfl, fun w hw => by cases hw⟩, one (fun h => by cases h), one ⟨⟨⟨rfl, fun i hi => ?_⟩, pyTwoCard.symm⟩, rfl⟩,
    one ⟨⟨⟨rfl, fun i hi => ?_⟩, pyTwoCard.symm⟩, rfl⟩, one fun q hq => ?_, fun r x w hx hw => ?_, one fun _ => h⟩
  · have : i < 2 := hi
    show i * 1 < 3
    omega
  · have : i < 2 := hi
    show i * 1 < 2
    omega
  · have hb : boxAt ([pyLine 2].map CBox.box) 0 = ⟨⟨0, 0, 0⟩, ⟨1, 0, 0⟩, ⟨0, 1, 2⟩⟩ := rfl
    rw [hb] at hq ⊢
    obtain ⟨x, y, z⟩ := q
    have h0 := hq 0
    have h1 := hq 1
    have h2 := hq 2
    simp only [A3.get] at h0 h1 h2
    obtain rfl : y = 0 := by omega
    obtain rfl : z = 0 := by omega
    rcases (by omega : x = 0 ∨ x = 1) with rfl | rfl
    · simp [NdArray.elem, Data.rd, rd, pyTwoArgs, pyValues, Field.val, show (⟨⟨0, 0, 0⟩, ⟨1, 0, 0⟩, ⟨0, 1, 2⟩⟩ : Box).offset ⟨0, 0, 0⟩ = 0 by decide]
    · simp [NdArray.elem, Data.rd, rd, pyTwoArgs, pyValues, Field.val, show (⟨⟨0, 0, 0⟩, ⟨1, 0, 0⟩, ⟨0, 1, 2⟩⟩ : Box).offset ⟨1, 0, 0⟩ = 1 by decide]
  · cases r with
    | succ r => simp at hx
    | zero => obtain rfl := Option.some.inj hx; cases hw

/-- Finding (C80): arrays that are not contiguous are not rejected: for a view of every second element, of which all the elements are zero, the library
transforms other numbers and the result is not zero. -/
theorem C80_false_strided (B : CBuild) (gpu : Int) (junk : COptions) {w : Nat} (hw : 0 < w) {scratch : Tag → Int × Int → Scratch} {inp : Tag → Int × Int → Arr ℂ} :
    ∃ p W ms, pyFft3d B 0 [pyLine 2] [pyLine 2] gpu junk = .made p ∧
      (pyTwoArgs 2).input.Covers (boxAt ([pyLine 2].map CBox.box) 0) ∧ (pyTwoArgs 2).input.Shows (boxAt ([pyLine 2].map CBox.box) 0) 0 (.inl fun _ _ => 0) ∧
      performPy p (stockKernel w scratch inp) W true 0 (fun _ => [0, 0]) [pyTwoArgs 2] = .done ms ∧
      ¬ PyResult ([pyLine 2].map CBox.box) [pyTwoArgs 2] ms (.inl fun _ q => dft3 true (boxAt ([pyLine 2].map CBox.box) 0) (fun _ => 0) q) := by
  have same : ∀ (p : PyPlan) (K : Kernel ℂ ℝ) (W : World ℂ ℝ), performPy p K W true 0 (fun _ => [0, 0]) [pyTwoArgs 2] = performPy p K W true 0 (fun _ => [0, 0]) [pyTwoArgs 1] := by
    intro p K W
    unfold performPy PyPlan.call
    have hd : ∀ r, p.decides noWork true r 0 (pyTwoArgs 2) = p.decides noWork true r 0 (pyTwoArgs 1) := by
      intro r
      unfold PyPlan.decides PyPlan.forward
      rfl
    have hi : (fun r : Nat => (([pyTwoArgs 2][r]?).map PyArgs.same).getD false) = fun r : Nat => (([pyTwoArgs 1][r]?).map PyArgs.same).getD false := by
      funext r
      cases r <;> rfl
    simp only [List.mapIdx_cons, List.mapIdx_nil, hd, hi, show (pyTwoArgs 2).mem [0, 0] = (pyTwoArgs 1).mem [0, 0] from rfl]
  obtain ⟨p, W, need, h1, hE, hn⟩ := pyTwo_exists B gpu junk
  obtain ⟨wi, wo, geo, h0, -⟩ : ∃ wi wo, Geometry ([pyLine 2].map CBox.box) ([pyLine 2].map CBox.box) none wi wo ∧ wi.low = ⟨0, 0, 0⟩ ∧ wo.low = ⟨0, 0, 0⟩ :=
    checked_geometry (by decide) rfl (by decide) (by decide) ⟨_, List.mem_cons_self .., ⟨0, 0, 0⟩, by decide⟩
  have e : findWorld ([pyLine 2].map CBox.box) = .ok ⟨⟨0, 0, 0⟩, ⟨1, 0, 0⟩, ⟨0, 1, 2⟩⟩ := by decide
  obtain rfl := Except.ok.inj (e.symm.trans geo.worldIn)
  have hb : boxAt ([pyLine 2].map CBox.box) 0 = ⟨⟨0, 0, 0⟩, ⟨1, 0, 0⟩, ⟨0, 1, 2⟩⟩ := rfl
  obtain ⟨ms, e1, e2⟩ := C80_complex_partial (fwd := true) (scratch := scratch) (inp := inp) (scaling := 0) h1 geo (by decide)
    (fun d => by fin_cases d <;> exact goodLength_small (by decide) (by decide)) hw hE rfl (.inl rfl) (fun h => by cases h) (pyTwo_ready hn)
    (fun r hr => .inr ⟨⟨0, 0, 0⟩, by
      have : r < 1 := hr
      obtain rfl : r = 0 := by omega
      decide⟩)
  refine ⟨p, W, ms, h1, ⟨⟨rfl, fun i hi => ?_⟩, pyTwoCard.symm⟩, fun q hq => ?_, (same _ _ _).trans e1, fun hres => ?_⟩
  · have : i < 2 := hi
    show i * 2 < 3
    omega
  · rw [hb] at hq ⊢
    obtain ⟨x, y, z⟩ := q
    have h0 := hq 0
    have h1 := hq 1
    have h2 := hq 2
    simp only [A3.get] at h0 h1 h2
    obtain rfl : y = 0 := by omega
    obtain rfl : z = 0 := by omega
    rcases (by omega : x = 0 ∨ x = 1) with rfl | rfl
    · simp [NdArray.elem, Data.rd, rd, pyTwoArgs, Field.val, show (⟨⟨0, 0, 0⟩, ⟨1, 0, 0⟩, ⟨0, 1, 2⟩⟩ : Box).offset ⟨0, 0, 0⟩ = 0 by decide]
    · simp [NdArray.elem, Data.rd, rd, pyTwoArgs, Field.val, show (⟨⟨0, 0, 0⟩, ⟨1, 0, 0⟩, ⟨0, 1, 2⟩⟩ : Box).offset ⟨1, 0, 0⟩ = 1 by decide]
  · have hlen : ms.length = 1 := hres.ranks
    obtain ⟨m, hm⟩ : ∃ m, ms[0]? = some m := ⟨ms[0], List.getElem?_eq_getElem (by omega)⟩
    have key : ∀ q : A3 Int, q ∈ (⟨⟨0, 0, 0⟩, ⟨1, 0, 0⟩, ⟨0, 1, 2⟩⟩ : Box) → dft3 true ⟨⟨0, 0, 0⟩, ⟨1, 0, 0⟩, ⟨0, 1, 2⟩⟩ (pyValues 0) q = 0 := by
      intro q hq
      have a1 := e2.output 0 _ m rfl hm q hq
      have a2 := hres.output 0 _ m rfl hm q hq
      have a3 := a1.symm.trans a2
      have a4 : ((cFactor 0 (⟨⟨0, 0, 0⟩, ⟨1, 0, 0⟩, ⟨0, 1, 2⟩⟩ : Box).count : ℝ) : ℂ) * dft3 true ⟨⟨0, 0, 0⟩, ⟨1, 0, 0⟩, ⟨0, 1, 2⟩⟩ (pyValues 0) q =
        dft3 true (boxAt ([pyLine 2].map CBox.box) 0) (fun _ => 0) q := Sum.inl.inj (Option.some.inj a3)
      rw [show cFactor 0 (⟨⟨0, 0, 0⟩, ⟨1, 0, 0⟩, ⟨0, 1, 2⟩⟩ : Box).count = 1 by unfold cFactor; norm_num] at a4
      rw [Complex.ofReal_one, one_mul] at a4
      rw [a4]
      unfold dft3
      exact Finset.sum_eq_zero fun _ _ => zero_mul _
    have hin : (⟨1, 0, 0⟩ : A3 Int) ∈ (⟨⟨0, 0, 0⟩, ⟨1, 0, 0⟩, ⟨0, 1, 2⟩⟩ : Box) := by decide
    have inv := dft3_inv true ⟨⟨0, 0, 0⟩, ⟨1, 0, 0⟩, ⟨0, 1, 2⟩⟩ (pyValues 0) hin
    have z : dft3 (!true) ⟨⟨0, 0, 0⟩, ⟨1, 0, 0⟩, ⟨0, 1, 2⟩⟩ (dft3 true ⟨⟨0, 0, 0⟩, ⟨1, 0, 0⟩, ⟨0, 1, 2⟩⟩ (pyValues 0)) ⟨1, 0, 0⟩ = 0 := by
      conv_lhs => unfold dft3
      exact Finset.sum_eq_zero fun q hq => by
        have := key q (Box.mem_points.1 hq)
        unfold dft3 at this
        rw [this, zero_mul]
    rw [z] at inv
    rw [show (⟨⟨0, 0, 0⟩, ⟨1, 0, 0⟩, ⟨0, 1, 2⟩⟩ : Box).count = 2 by decide] at inv
    simp [pyValues] at inv

/-! ## `split_world` -/

theorem truncate_int (n : Int) : truncate (n : Rat) = n := by
  unfold truncate
  simp

theorem pySplit_divides {low size : Int} {g i : Nat} (hg : 0 < g) (h : (g : Int) ∣ size) : pySplit low size g i = (cut low size g i : Int) := by
  obtain ⟨k, rfl⟩ := h
  have hg' : (g : Rat) ≠ 0 := by exact_mod_cast hg.ne'
  unfold pySplit cut
  rw [Int.mul_tdiv_cancel_left _ (by omega), show ((g : Int) * k).tmod g = 0 from Int.mul_tmod_right _ _, Int.mul_emod_right]
  push_cast
  rw [mul_div_cancel_left₀ _ hg']

/-- C80: `split_world` of Python, for a world that has the attribute `size` and a grid that divides the world, gives the boxes of the C++ function, so
they tile the world. -/
theorem C80_split_world {b : Box} {g : A3 Nat} (hg : ∀ d, 0 < g.get d) (hd : ∀ d, (g.get d : Int) ∣ b.size.get d) :
    ∃ l, pySplitWorld ⟨b.low, b.high, b.order, some b.size⟩ g = .ok l ∧ splitWorld b g Remap.all = .ok l ∧ Tiles l b := by
  refine ⟨gridBoxes b g, ?_, splitWorld_all _ _ _ rfl, gridBoxes_tiles b g hg⟩
  unfold pySplitWorld gridBoxes
  simp only
  congr 1
  refine List.flatMap_congr fun k _ => List.flatMap_congr fun j _ => List.map_congr_left fun i _ => ?_
  have key : ∀ {low size : Int} {n i : Nat}, 0 < n → (n : Int) ∣ size → truncate (pySplit low size n i) = cut low size n i ∧
      truncate (pySplit low size n (i + 1) - 1) = cut low size n (i + 1) - 1 := by
    intro low size n i hn hs
    rw [pySplit_divides hn hs, truncate_int]
    have := pySplit_divides (low := low) (i := i + 1) hn hs
    push_cast at this
    rw [this]
    refine ⟨rfl, ?_⟩
    rw [show ((cut low size n (i + 1) : Int) : Rat) - 1 = ((cut low size n (i + 1) - 1 : Int) : Rat) by push_cast; rfl, truncate_int]
  have kx := key (low := b.low.x) (i := i) (hg 0) (hd 0)
  have ky := key (low := b.low.y) (i := j) (hg 1) (hd 1)
  have kz := key (low := b.low.z) (i := k) (hg 2) (hd 2)
  unfold cellBox
  exact congrArg₂ (fun l h => (⟨l, h, b.order⟩ : Box)) (by rw [A3.mk.injEq]; exact ⟨kx.1, ky.1, kz.1⟩) (by rw [A3.mk.injEq]; exact ⟨kx.2, ky.2, kz.2⟩)

/-- Finding (C80): a `box3d` of Python has no attribute `size`, so `split_world` raises `AttributeError` for it. -/
theorem C80_false_split_world (low high : A3 Int) (order : A3 (Fin 3)) (g : A3 Nat) : pySplitWorld (.make low high order) g = .error .attribute := rfl

/-- Finding (C80): with that attribute, ten indexes on four ranks give boxes that reach beyond the world. -/
theorem C80_false_split_grid : ∃ l, pySplitWorld ⟨⟨0, 0, 0⟩, ⟨9, 0, 0⟩, ⟨0, 1, 2⟩, some ⟨10, 1, 1⟩⟩ ⟨4, 1, 1⟩ = .ok l ∧
    l.map (fun b => (b.low.x, b.high.x)) = [(0, 2), (3, 6), (7, 8), (9, 11)] ∧ ¬ Tiles l ⟨⟨0, 0, 0⟩, ⟨9, 0, 0⟩, ⟨0, 1, 2⟩⟩ := by
  refine ⟨_, rfl, by decide +kernel, fun h => ?_⟩
  have := h ⟨11, 0, 0⟩
  revert this
  decide +kernel

/-! ## Cases that meet the hypotheses -/

/-- Arguments as in the theorems exist for all boxes and values. -/
theorem pyArgs_exist {fwd : Bool} {fn : PyFn} (hf : fn.has fwd = true) {src : List Box} (dst : List Box) (need : Nat → Int) {G : Field ℂ ℝ}
    (hG : G.isReal = fn.takes.isReal) (ho : ∀ b ∈ src, IsOrder b.order) :
    ∃ fresh args, PyReady fwd fn src dst need fresh args G ∧ sameArrays args = fun _ => false := by
  obtain ⟨m0s, h⟩ := arrays_exist src dst fn.gives.isReal need 1 G ho
  have at_ : ∀ {r : Nat} {x : PyArgs ℂ ℝ}, (m0s.mapIdx fun r m => (⟨⟨fn.takes, (boxAt src r).points.card, 1, m.input⟩, ⟨fn.gives, (boxAt dst r).points.card, 1, m.output⟩, false, none⟩ : PyArgs ℂ ℝ))[r]? = some x →
      ∃ m, m0s[r]? = some m ∧ x = ⟨⟨fn.takes, (boxAt src r).points.card, 1, m.input⟩, ⟨fn.gives, (boxAt dst r).points.card, 1, m.output⟩, false, none⟩ := by
    intro r x hx
    rw [List.getElem?_mapIdx, Option.map_eq_some_iff] at hx
    obtain ⟨m, hm, rfl⟩ := hx
    exact ⟨m, hm, rfl⟩
  refine ⟨fun r => ((m0s[r]?).map Mem.work).getD [], m0s.mapIdx fun r m => ⟨⟨fn.takes, (boxAt src r).points.card, 1, m.input⟩, ⟨fn.gives, (boxAt dst r).points.card, 1, m.output⟩, false, none⟩,
    ⟨by rw [List.length_mapIdx, h.ranks], fun r x hx => ?_, fun r x hx hs => ?_, fun r x hx => ?_, fun r x hx => ?_, fun r x hx => ?_, fun r x w hx hw => ?_, fun r x hx hw => ?_⟩, ?_⟩
  · obtain ⟨m, hm, rfl⟩ := at_ hx
    exact ⟨hf, rfl, rfl, fun w hw => by cases hw⟩
  · obtain ⟨m, hm, rfl⟩ := at_ hx
    cases hs
  · obtain ⟨m, hm, rfl⟩ := at_ hx
    refine ⟨⟨⟨(h.input r m hm).trans hG, fun i hi => ?_⟩, rfl⟩, rfl⟩
    have := h.inputSize r m hm
    simp only [Bool.false_eq_true, if_false, one_mul] at this
    show i * 1 < m.input.size
    exact lt_of_lt_of_le (by simpa using hi) this
  · obtain ⟨m, hm, rfl⟩ := at_ hx
    refine ⟨⟨⟨h.output r m hm, fun i hi => ?_⟩, rfl⟩, rfl⟩
    have := h.outputSize r m hm
    simp only [one_mul] at this
    show i * 1 < m.output.size
    exact lt_of_lt_of_le (by simpa using hi) this
  · obtain ⟨m, hm, rfl⟩ := at_ hx
    intro q hq
    have := h.start r m hm 0 (by omega) q hq
    simp only [Bool.false_eq_true, if_false] at this
    unfold NdArray.elem
    simpa using this
  · obtain ⟨m, hm, rfl⟩ := at_ hx
    cases hw
  · obtain ⟨m, hm, rfl⟩ := at_ hx
    have := h.work r m hm
    rw [Nat.cast_one, one_mul] at this
    simpa [hm] using this
  · unfold sameArrays
    funext r
    rw [List.getElem?_mapIdx]
    cases m0s[r]? <;> rfl

/-- The environment of the calls of a plan with small workspaces. -/
theorem pyEnv_exists {p : PyPlan} {b : Int} {k : Bool} {ob : Object} (h2 : p.handle = .plan b k (some ob)) (fwd : Bool)
    (hs : ob.fft.execs.length ≤ 4 ∧ (∀ i, (ob.fft.fwd i).length ≤ 4 ∧ (ob.fft.bwd i).length ≤ 4) ∧ ∀ r : Fin 4, ob.sizeWorkspace noWork r < 2 ^ 31) :
    ∃ (W : World ℂ ℝ) (need : Nat → Int), CEnv p.handle fwd W need := by
  obtain ⟨s1, s2, s3⟩ := hs
  have small : ∀ r, ob.sizeWorkspace noWork r < 2 ^ 31 := by
    intro r
    by_cases hr : r < 4
    · exact s3 ⟨r, hr⟩
    · rw [workspace_beyond s1 s2 (by omega)]; decide
  obtain ⟨W, hW⟩ := world_exists (α := ℂ) (β := ℝ) ob.plan fwd
  refine ⟨W, ob.sizeWorkspace noWork, ⟨?_, ?_, ?_⟩⟩
  · intro b k ob' hh; rw [h2] at hh; cases hh; exact hW
  · intro b k ob' hh; rw [h2] at hh; cases hh; exact small
  · intro r n hn
    rw [h2] at hn
    have h3 := objectWorkspace_nonneg ob r
    have h2 := small r
    have : toInt32 (ob.sizeWorkspace noWork r) = n := Except.ok.inj hn
    rw [← this]
    unfold toInt32
    rw [Int.bmod_eq_of_le (by omega) (by omega)]

theorem pyHolds : SourceHolds (exInC.map CBox.box) fun _ => false := by
  rintro r (hr : r < 4)
  refine .inr ?_
  rcases (by omega : r = 0 ∨ r = 1 ∨ r = 2 ∨ r = 3) with rfl | rfl | rfl | rfl
  · exact ⟨(boxAt exIn 0).low, by decide⟩
  · exact ⟨(boxAt exIn 1).low, by decide⟩
  · exact ⟨(boxAt exIn 2).low, by decide⟩
  · exact ⟨(boxAt exIn 3).low, by decide⟩

/-- C80: plans, environments and arguments as in the hypotheses of `C80_complex_partial` and `C80_real_forward`, forward on four ranks. -/
example (B : CBuild) (gpu : Int) (junk : COptions) (g : Nat → A3 Int → ℂ) (k : Nat → A3 Int → ℝ) : ∃ p W need wi wo fresh args fresh' args',
    pyFft3d B 0 exInC exOutCC gpu junk = .made p ∧ CEnv p.handle true W need ∧ Geometry (exInC.map CBox.box) (exOutCC.map CBox.box) none wi wo ∧
    wi.count < 2 ^ 31 ∧ (∀ d, GoodLength (wi.extent d)) ∧
    PyReady true .z2z (exInC.map CBox.box) (exOutCC.map CBox.box) need fresh args (.inl g : Field ℂ ℝ) ∧ SourceHolds (exInC.map CBox.box) (sameArrays args) ∧
    PyReady true .d2z (exInC.map CBox.box) (exOutCC.map CBox.box) need fresh' args' (.inr k : Field ℂ ℝ) := by
  obtain ⟨wi, wo, geo, -⟩ := exGeometry
  have h1 : findWorld exIn = .ok ⟨⟨0, 0, 0⟩, ⟨3, 5, 7⟩, ⟨0, 1, 2⟩⟩ := by decide
  have h2 : findWorld exOut = .ok ⟨⟨0, 0, 0⟩, ⟨3, 5, 7⟩, ⟨0, 1, 2⟩⟩ := by decide
  obtain rfl := Except.ok.inj (h1.symm.trans geo.worldIn)
  obtain rfl := Except.ok.inj (h2.symm.trans geo.worldOut)
  rw [← exInC_box, ← exOutCC_box] at geo
  obtain ⟨p, h1, -, -, ob, h2, h3⟩ := C80_created (B := B) (backend := 0) (gpu := gpu) (junk := junk) (.inl rfl) geo (fun _ => rfl) (by decide) (by decide)
  have hs := exSmall .p2pPlined false true
  rw [← exInC_box, ← exOutCC_box, show makeFft3d .stock (exInC.map CBox.box) (exOutCC.map CBox.box) _ = .ok ob from h3] at hs
  obtain ⟨W, need, hE⟩ := pyEnv_exists h2 true (of_decide_eq_true (Except.ok.inj hs))
  have ho : ∀ b ∈ exInC.map CBox.box, IsOrder b.order := by decide
  obtain ⟨f1, a1, r1, e1⟩ := pyArgs_exist (fn := .z2z) (fwd := true) rfl (exOutCC.map CBox.box) need (G := .inl g) rfl ho
  obtain ⟨f2, a2, r2, -⟩ := pyArgs_exist (fn := .d2z) (fwd := true) rfl (exOutCC.map CBox.box) need (G := .inr k) rfl ho
  refine ⟨p, W, need, _, _, f1, a1, f2, a2, h1, hE, geo, by decide, fun d => ?_, r1, ?_, r2⟩
  · fin_cases d <;> exact goodLength_small (by decide) (by decide)
  · rw [e1]
    exact pyHolds

/-- C80: the same for the backward direction of `C80_complex_partial` and `C80_real_backward_partial`, with equal boxes. -/
example (B : CBuild) (gpu : Int) (junk : COptions) (g : Nat → A3 Int → ℂ) : ∃ p W need wi wo fresh args fresh' args',
    pyFft3d B 0 exInC exInC gpu junk = .made p ∧ CEnv p.handle false W need ∧ Geometry (exInC.map CBox.box) (exInC.map CBox.box) none wi wo ∧
    wi.count < 2 ^ 31 ∧ (∀ d, GoodLength (wi.extent d)) ∧ EqualSizes exInC exInC ∧
    PyReady false .z2z (exInC.map CBox.box) (exInC.map CBox.box) need fresh args (.inl g : Field ℂ ℝ) ∧ SourceHolds (exInC.map CBox.box) (sameArrays args) ∧
    PyReady false .z2d (exInC.map CBox.box) (exInC.map CBox.box) need fresh' args' (.inl g : Field ℂ ℝ) ∧ SourceHolds (exInC.map CBox.box) fun _ => false := by
  obtain ⟨wi, wo, geo, -⟩ : ∃ wi wo, Geometry (exInC.map CBox.box) (exInC.map CBox.box) none wi wo ∧ wi.low = ⟨0, 0, 0⟩ ∧ wo.low = ⟨0, 0, 0⟩ :=
    checked_geometry (by decide) rfl (by decide) (by decide) ⟨_, List.mem_cons_self .., ⟨0, 0, 0⟩, by decide⟩
  have h1 : findWorld (exInC.map CBox.box) = .ok ⟨⟨0, 0, 0⟩, ⟨3, 5, 7⟩, ⟨0, 1, 2⟩⟩ := by decide
  obtain rfl := Except.ok.inj (h1.symm.trans geo.worldIn)
  obtain rfl := Except.ok.inj (h1.symm.trans geo.worldOut)
  obtain ⟨p, h1, -, -, ob, h2, h3⟩ := C80_created (B := B) (backend := 0) (gpu := gpu) (junk := junk) (.inl rfl) geo (fun _ => rfl) (by decide) (by decide)
  have hs : (makeFft3d .stock (exInC.map CBox.box) (exInC.map CBox.box) pyOpts).map (fun ob =>
      decide (ob.fft.execs.length ≤ 4 ∧ (∀ i, (ob.fft.fwd i).length ≤ 4 ∧ (ob.fft.bwd i).length ≤ 4) ∧ ∀ r : Fin 4, ob.sizeWorkspace noWork r < 2 ^ 31)) = .ok true := by
    decide +kernel
  rw [show makeFft3d .stock (exInC.map CBox.box) (exInC.map CBox.box) pyOpts = .ok ob from h3] at hs
  obtain ⟨W, need, hE⟩ := pyEnv_exists h2 false (of_decide_eq_true (Except.ok.inj hs))
  have ho : ∀ b ∈ exInC.map CBox.box, IsOrder b.order := by decide
  obtain ⟨f1, a1, r1, e1⟩ := pyArgs_exist (fn := .z2z) (fwd := false) rfl (exInC.map CBox.box) need (G := .inl g) rfl ho
  obtain ⟨f2, a2, r2, -⟩ := pyArgs_exist (fn := .z2d) (fwd := false) rfl (exInC.map CBox.box) need (G := .inl g) rfl ho
  refine ⟨p, W, need, _, _, f1, a1, f2, a2, h1, hE, geo, by decide, fun d => ?_, fun _ _ => rfl, r1, ?_, r2, pyHolds⟩
  · fin_cases d <;> exact goodLength_small (by decide) (by decide)
  · rw [e1]
    exact pyHolds

/-- C80: the same for `C80_forward_r2c`. -/
example (B : CBuild) (gpu : Int) (junk : COptions) (k : Nat → A3 Int → ℝ) : ∃ p W need wi wo fresh args,
    pyFft3dR2C B 0 exInC exHalfC ((1 : Fin 3) : Nat) gpu junk = .made p ∧ CEnv p.handle true W need ∧ Geometry (exInC.map CBox.box) (exHalfC.map CBox.box) (some 1) wi wo ∧
    RankZeroHolds (exInC.map CBox.box) ∧ wi.count < 2 ^ 31 ∧ (∀ d, GoodLength (wi.extent d)) ∧
    PyReady true .d2z (exInC.map CBox.box) (exHalfC.map CBox.box) need fresh args (.inr k : Field ℂ ℝ) := by
  obtain ⟨wi, wo, geo, -⟩ := exGeometryC
  have h1 : findWorld exIn = .ok ⟨⟨0, 0, 0⟩, ⟨3, 5, 7⟩, ⟨0, 1, 2⟩⟩ := by decide
  have h2 : findWorld exOutC = .ok ⟨⟨0, 0, 0⟩, ⟨3, 3, 7⟩, ⟨0, 1, 2⟩⟩ := by decide
  obtain rfl := Except.ok.inj (h1.symm.trans geo.worldIn)
  obtain rfl := Except.ok.inj (h2.symm.trans geo.worldOut)
  rw [← exInC_box, ← exHalfC_box] at geo
  have hz : RankZeroHolds (exInC.map CBox.box) := by
    rw [exInC_box]
    exact fun b hb => by obtain rfl := Option.some.inj hb; exact ⟨⟨0, 0, 0⟩, by decide⟩
  obtain ⟨p, h1, -⟩ := C80_created_r2c (d := 1) (B := B) (backend := 0) (gpu := gpu) (junk := junk) (.inl rfl) geo hz (fun _ => rfl) (by decide) (by decide)
  obtain ⟨h3, -⟩ := pyFft3dR2C_made h1
  obtain ⟨o, ob, ho, h4, h5⟩ := created_object_r2c (returned_valid h3) h3
  have ho' : optsOf B 0 (some (pyOptions gpu)) junk = .ok pyOpts := by
    unfold optsOf COptions.toOpts
    rfl
  obtain rfl := Except.ok.inj (ho.symm.trans ho')
  have hs : (makeFft3dR2C (exInC.map CBox.box) (exHalfC.map CBox.box) 1 pyOpts).map (fun ob =>
      decide (ob.fft.execs.length ≤ 4 ∧ (∀ i, (ob.fft.fwd i).length ≤ 4 ∧ (ob.fft.bwd i).length ≤ 4) ∧ ∀ r : Fin 4, ob.sizeWorkspace noWork r < 2 ^ 31)) = .ok true := by
    decide +kernel
  rw [show makeFft3dR2C (exInC.map CBox.box) (exHalfC.map CBox.box) 1 pyOpts = .ok ob from h4] at hs
  obtain ⟨W, need, hE⟩ := pyEnv_exists h5 true (of_decide_eq_true (Except.ok.inj hs))
  have ho : ∀ b ∈ exInC.map CBox.box, IsOrder b.order := by decide
  obtain ⟨f2, a2, r2, -⟩ := pyArgs_exist (fn := .d2z) (fwd := true) rfl (exHalfC.map CBox.box) need (G := .inr k) rfl ho
  refine ⟨p, W, need, _, _, f2, a2, h1, hE, geo, hz, by decide, fun d => ?_, r2⟩
  fin_cases d <;> exact goodLength_small (by decide) (by decide)

/-- C80: the hypothesis of `C80_split_world`. -/
example : ∃ l, pySplitWorld ⟨⟨0, 0, 0⟩, ⟨3, 5, 7⟩, ⟨0, 1, 2⟩, some ⟨4, 6, 8⟩⟩ ⟨2, 3, 1⟩ = .ok l ∧ l.length = 6 ∧ Tiles l ⟨⟨0, 0, 0⟩, ⟨3, 5, 7⟩, ⟨0, 1, 2⟩⟩ := by
  obtain ⟨l, h1, h2, h3⟩ := C80_split_world (b := ⟨⟨0, 0, 0⟩, ⟨3, 5, 7⟩, ⟨0, 1, 2⟩⟩) (g := ⟨2, 3, 1⟩) (by decide) (by decide)
  refine ⟨l, h1, ?_, h3⟩
  have : splitWorld ⟨⟨0, 0, 0⟩, ⟨3, 5, 7⟩, ⟨0, 1, 2⟩⟩ ⟨2, 3, 1⟩ Remap.all = .ok (gridBoxes ⟨⟨0, 0, 0⟩, ⟨3, 5, 7⟩, ⟨0, 1, 2⟩⟩ ⟨2, 3, 1⟩) := rfl
  obtain rfl := Except.ok.inj (this.symm.trans h2)
  decide
end Verif
