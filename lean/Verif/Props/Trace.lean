import Verif.TraceLemmas
import Verif.Props.Reshape
import Verif.Props.Mpi

/-!
# The log of events (C88)

`ScopeAt`, `EventsOf` (SpecTrace.lean) say which lines the log has to have.
-/

namespace Verif

/-! ## The file -/

theorem log_name_ne (a : String) : a ++ ".log" ≠ "" := by
  intro h
  have := congrArg String.length h
  rw [String.length_append] at this
  have h2 : ".log".length = 4 := by decide
  have h3 : "".length = 0 := by decide
  omega

/-- **C88** (the file): `init_tracing(root)`, any events, `finalize_tracing()` writes one file; it has one line for each scope that was left, in
the order of the ends, with the time of the entry and the time from the entry to the end.  Other files are not touched; what was
recorded before `init_tracing` is not in the file.  The log is kept, a further `finalize_tracing` writes the longer list.  `s` is any state
without running events. -/
theorem C88_file (rank : Nat) (clock : Nat → ℚ) (k : Nat) (s s' : Tracer) (hs : s.alive = []) (root : String) (ops : List TraceOp)
    (h : Tracer.run rank clock k s (.init root :: (ops.map .op ++ [.finalize])) = .ok s') :
    ∃ log, s'.disk = (root ++ "_" ++ toString rank ++ ".log", log) :: s.disk ∧ EventsOf (fun i => clock (k + 1 + i)) ops log ∧ s'.log = log := by
  rw [tracer_cons] at h
  have h1 : Tracer.run rank clock (k + 1) { s with log := [], file := root ++ "_" ++ toString rank ++ ".log" }
    (ops.map .op ++ [.finalize]) = .ok s' := h
  rw [tracer_append] at h1
  cases hr : Tracer.run rank clock (k + 1) { s with log := [], file := root ++ "_" ++ toString rank ++ ".log" } (ops.map .op) with
  | error e => rw [hr] at h1; cases h1
  | ok m =>
    rw [hr] at h1
    obtain ⟨hf, hd⟩ := run_ops_files hr
    have hfol : LogOf (fun i => clock (k + 1 + i)) [] { s with log := [], file := root ++ "_" ++ toString rank ++ ".log" } := by
      refine ⟨⟨[], by simp, fun n i j => ?_, rfl⟩, [], .base .nil, hs⟩
      constructor
      · intro h; cases h
      · intro h; have := h.lt; simp at this
    have hr' := hr
    rw [show k + 1 = (k + 1) + 0 from rfl, run_shift] at hr'
    have := (hfol.run ops hr').events
    rw [List.nil_append] at this
    refine ⟨m.log, ?_⟩
    have h2 : (if m.file = "" then m else { m with disk := (m.file, m.log) :: m.disk }) = s' := by
      have h2 : Except.ok (if m.file = "" then m else { m with disk := (m.file, m.log) :: m.disk }) = Except.ok (ε := Err) s' := h1
      injection h2
    rw [hf] at h2
    dsimp only at h2
    rw [if_neg (log_name_ne _), hd] at h2
    rw [← h2]
    exact ⟨rfl, this, rfl⟩

/-- **C88**: events that are properly nested can be recorded at any time. -/
theorem C88_records (rank : Nat) (clock : Nat → ℚ) (k : Nat) (s : Tracer) (root : String) {ops : List TraceOp} (h : Nested ops) :
    ∃ s', Tracer.run rank clock k s (.init root :: (ops.map .op ++ [.finalize])) = .ok s' ∧ s'.alive.length = s.alive.length := by
  obtain ⟨m, h1, h2⟩ := run_depth (rank := rank) (clock := clock) (k := k + 1)
    (s := { s with log := [], file := root ++ "_" ++ toString rank ++ ".log" }) (h.depth s.alive.length)
  refine ⟨if m.file = "" then m else { m with disk := (m.file, m.log) :: m.disk }, ?_, ?_⟩
  · rw [tracer_cons]
    show Tracer.run rank clock (k + 1) { s with log := [], file := root ++ "_" ++ toString rank ++ ".log" } _ = _
    rw [tracer_append, h1]
    rfl
  · split
    · exact h2
    · exact h2

/-- **C88** (times): no duration is negative, the lines are in the order of the ends, and two events are one after the other or one
inside the other; `MPI_Wtime` does not go backwards. -/
theorem C88_times {clock : Nat → ℚ} (hc : Monotone clock) {ops : List TraceOp} {log : List Event} (h : EventsOf clock ops log) :
    (∀ e ∈ log, 0 ≤ e.duration) ∧
    log.Pairwise (fun e f => e.start + e.duration ≤ f.start + f.duration ∧ (e.start + e.duration ≤ f.start ∨ f.start ≤ e.start)) := by
  obtain ⟨sc, h1, h2, rfl⟩ := h
  constructor
  · intro e he
    obtain ⟨⟨n, i, j⟩, hm, rfl⟩ := List.mem_map.1 he
    have := hc ((h2 n i j).1 hm).lt.1.le
    dsimp only
    linarith
  · rw [List.pairwise_map]
    rw [List.pairwise_map] at h1
    refine (List.Pairwise.and_mem.1 h1).imp ?_
    rintro ⟨n, i, j⟩ ⟨n', i', j'⟩ ⟨hm, hm', hlt⟩
    dsimp only at hlt ⊢
    have hj := hc hlt.le
    refine ⟨by linarith, ?_⟩
    by_cases hi : i' ≤ i
    · exact .inr (hc hi)
    · rcases scopes_laminar ((h2 _ _ _).1 hm) ((h2 _ _ _).1 hm') (by omega) with h | h
      · have := hc h.le
        left; linarith
      · omega

/-- **C88** (completeness): when everything has been left, the log has exactly the events that were entered. -/
theorem C88_complete {clock : Nat → ℚ} {ops : List TraceOp} (hn : Nested ops) {log : List Event} (h : EventsOf clock ops log) :
    (log.map Event.name).Perm (ops.filterMap TraceOp.name?) := by
  obtain ⟨sc, h1, h2, rfl⟩ := h
  let g : Nat → Option String := fun i => (ops[i]?).bind TraceOp.name?
  have hg : ops.filterMap TraceOp.name? = (List.range ops.length).filterMap g := by
    clear h2 hn
    have : ops = (List.range ops.length).filterMap fun i => ops[i]? := by
      conv_lhs => rw [← List.take_length (l := ops)]
      generalize ops.length = n
      induction n with
      | zero => rfl
      | succ n ih =>
        rw [List.range_succ, List.filterMap_append, ← ih, List.take_add_one]
        cases h : ops[n]? <;> simp [h]
    conv_lhs => rw [this]
    rw [List.filterMap_filterMap]
  have hname : ∀ x ∈ sc, g x.2.1 = some x.1 := by
    rintro ⟨n, i, j⟩ hx
    obtain ⟨a, b, c, rfl, -, rfl, -⟩ := (h2 n i j).1 hx
    simp [g, TraceOp.name?]
  have hl : (sc.map fun s : String × Nat × Nat => (⟨s.1, clock s.2.1, clock s.2.2 - clock s.2.1⟩ : Event)).map Event.name =
      (sc.map fun s => s.2.1).filterMap g := by
    rw [List.map_map, List.filterMap_map]
    clear h1 h2
    induction sc with
    | nil => rfl
    | cons x t ih =>
      rw [List.map_cons, List.filterMap_cons]
      have := hname x (by simp)
      have ih' := ih fun y hy => hname y (by simp [hy])
      simp only [Function.comp_def] at ih' ⊢
      rw [this, ih']
  rw [hl, hg]
  have hsub : ((List.range ops.length).filter fun i => (g i).isSome).filterMap g = (List.range ops.length).filterMap g := by
    generalize List.range ops.length = l
    induction l with
    | nil => rfl
    | cons x t ih =>
      cases hx : g x with
      | none => simp [List.filterMap_cons, hx, ih]
      | some y => simp [List.filterMap_cons, hx, ih]
  rw [← hsub]
  refine List.Perm.filterMap g ?_
  rw [List.perm_ext_iff_of_nodup]
  · intro i
    rw [List.mem_map, List.mem_filter, List.mem_range]
    constructor
    · rintro ⟨⟨n, i, j⟩, hm, rfl⟩
      have := ((h2 n i j).1 hm).lt
      exact ⟨by dsimp only; omega, by rw [hname _ hm]; rfl⟩
    · rintro ⟨hi, hg⟩
      cases ho : ops[i]? with
      | none => simp [g, ho] at hg
      | some o =>
        cases o with
        | leave => simp [g, ho, TraceOp.name?] at hg
        | enter n =>
          obtain ⟨j, hj⟩ := nested_closes hn ho
          exact ⟨(n, i, j), (h2 _ _ _).2 hj, rfl⟩
  · rw [List.nodup_iff_pairwise_ne, List.pairwise_map]
    rw [List.pairwise_map] at h1
    refine (List.Pairwise.and_mem.1 h1).imp ?_
    rintro ⟨n, i, j⟩ ⟨n', i', j'⟩ ⟨hm, hm', hlt⟩ he
    dsimp only at he hlt
    subst he
    have := (scope_unique ((h2 _ _ _).1 hm) ((h2 _ _ _).1 hm')).2
    omega
  · exact List.nodup_range.filter _

/-- A monotone clock, two events inside another one, and one after it. -/
example : ∃ s', Tracer.run 3 (fun k => k) 0 {} [.init "run", .op (.enter "reshape"), .op (.enter "packing"), .op .leave, .op (.enter "all2all"),
      .op .leave, .op .leave, .op (.enter "fft-1d"), .op .leave, .finalize] = .ok s' ∧
    s'.disk = [("run_3.log", [⟨"packing", 2, 1⟩, ⟨"all2all", 4, 1⟩, ⟨"reshape", 1, 5⟩, ⟨"fft-1d", 7, 1⟩])] := by
  refine ⟨_, rfl, ?_⟩
  decide +kernel

/-- **C88** is false for the name in the documentation ("root-file-name_rank_number.txt", heffte_trace.h:40): no file of this name is
written. -/
theorem C88_false_name (rank : Nat) (clock : Nat → ℚ) (k : Nat) (s' : Tracer) (root : String) (ops : List TraceOp)
    (h : Tracer.run rank clock k {} (.init root :: (ops.map .op ++ [.finalize])) = .ok s') :
    ∀ f ∈ s'.disk, f.1 ≠ root ++ "_" ++ toString rank ++ ".txt" := by
  obtain ⟨log, hd, -, -⟩ := C88_file rank clock k {} s' rfl root ops h
  rw [hd]
  intro f hf
  simp only [List.mem_cons, List.not_mem_nil, or_false] at hf
  subst hf
  intro he
  have := congrArg String.toList he
  dsimp only at this
  rw [String.toList_append, String.toList_append (s := root ++ "_" ++ toString rank) (t := ".txt")] at this
  exact absurd (List.append_cancel_left this) (by decide)

/-- **C88** needs `init_tracing`: without it, `finalize_tracing` writes nothing, as in the benchmark of the convolution
(benchmarks/convolution.cpp:206). -/
theorem C88_false_no_init (rank : Nat) (clock : Nat → ℚ) (k : Nat) (s' : Tracer) (ops : List TraceOp)
    (h : Tracer.run rank clock k {} (ops.map .op ++ [.finalize]) = .ok s') : s'.disk = [] := by
  rw [tracer_append] at h
  cases hr : Tracer.run rank clock k {} (ops.map .op) with
  | error e => rw [hr] at h; cases h
  | ok m =>
    rw [hr] at h
    obtain ⟨hf, hd⟩ := run_ops_files hr
    have h2 : (if m.file = "" then m else { m with disk := (m.file, m.log) :: m.disk }) = s' := by
      have h2 : Except.ok (if m.file = "" then m else { m with disk := (m.file, m.log) :: m.disk }) = Except.ok (ε := Err) s' := h
      injection h2
    rw [if_pos hf] at h2
    rw [← h2, hd]

/-! ## The events of a call -/

/-- The names of the events in which an operation may happen. -/
def Instr.labels : Instr → List String
  | .copy _ _ _ => ["copy", "reshape/copy"]
  | .batch _ => ["fft-1d", "fft-1d x3"]
  | .reshape _ _ _ => ["reshape", "reshape/copy"]

/-- The operation between `u` and `v` happens during the event `name`, which is the innermost one. -/
def During (u v : List TStep) (name : String) : Prop :=
  ∃ a b c d, u = a ++ .mark (.enter name) :: b ∧ v = c ++ .mark .leave :: d ∧
    Nested (b.filterMap TStep.mark?) ∧ Nested (c.filterMap TStep.mark?)

/-- A test for `During`. -/
def duringB (u v : List TStep) (names : List String) : Bool :=
  ((List.range u.length).any fun i => (match u[i]? with
    | some (.mark (.enter n)) => names.contains n
    | _ => false) && decide (Nested ((u.drop (i + 1)).filterMap TStep.mark?))) &&
  ((List.range v.length).any fun i => decide (v[i]? = some (.mark .leave)) && decide (Nested ((v.take i).filterMap TStep.mark?)))

theorem split_at {α : Type} {l : List α} {i : Nat} {x : α} (h : l[i]? = some x) : l = l.take i ++ x :: l.drop (i + 1) := by
  obtain ⟨hlt, he⟩ := List.getElem?_eq_some_iff.1 h
  rw [← he, List.getElem_cons_drop, List.take_append_drop]

theorem during_of {u v : List TStep} {names : List String} (h : duringB u v names = true) : ∃ name ∈ names, During u v name := by
  unfold duringB at h
  simp only [Bool.and_eq_true, List.any_eq_true, decide_eq_true_eq] at h
  obtain ⟨⟨i, -, h1, h2⟩, j, -, h3, h4⟩ := h
  have : ∃ n ∈ names, u[i]? = some (.mark (.enter n)) := by
    revert h1
    split
    · rename_i n hn
      intro h1
      exact ⟨n, List.contains_iff_mem.1 h1, hn⟩
    · intro h1; cases h1
  obtain ⟨n, hn, hu⟩ := this
  exact ⟨n, hn, _, _, _, _, split_at hu, split_at h3, h2, h4⟩

/-- The operations of `l` with what is before and after. -/
def splits : List TStep → List TStep → List (List TStep × Instr × List TStep)
  | _, [] => []
  | u, .mark o :: v => splits (u ++ [.mark o]) v
  | u, .work c :: v => (u, c, v) :: splits (u ++ [.work c]) v

theorem mem_splits {l u0 u v : List TStep} {c : Instr} (h : l = u ++ .work c :: v) : (u0 ++ u, c, v) ∈ splits u0 l := by
  induction u generalizing l u0 with
  | nil => subst h; simp [splits]
  | cons x t ih =>
    subst h
    have := ih (u0 := u0 ++ [x]) rfl
    rw [List.append_assoc] at this
    cases x with
    | mark o => exact this
    | work c' => exact List.mem_cons_of_mem _ this

theorem during_table : ([Mode.same, .r2c, .c2r].all fun m => Pattern.all.all fun P => match tracedProgram m P with
    | .ok l => (splits [] l).all fun x => duringB x.1 x.2.2 x.2.1.labels
    | .error _ => true) = true := by decide +kernel

/-- **C88** (a call): on each rank, the events of a call that is performed are properly nested; without the events the steps are
the ones of the call; all the reshapes, the transforms and the copies happen during an event with a name that fits. -/
theorem C88_call (P : MpiPlan) (staged : Bool) (mode : Mode) (fwd inplace scaled : Bool) (nb : Nat) (done : Fin 4 → List Nat) (r : Nat)
    {l : List Instr} (h : P.instrs mode fwd inplace r = .ok l) :
    ∃ ops steps, P.traceOps staged mode fwd inplace scaled nb done r = .ok ops ∧ Nested ops ∧
      tracedProgram mode (patternOf (shaperAt (P.obj.fft.shapers fwd) r) (P.obj.fft.executors fwd r) inplace) = .ok steps ∧
      steps.filterMap TStep.work? = l ∧
      ∀ u v c, steps = u ++ .work c :: v → ∃ name ∈ c.labels, During u v name := by
  unfold MpiPlan.instrs at h
  generalize hpat : patternOf (shaperAt (P.obj.fft.shapers fwd) r) (P.obj.fft.executors fwd r) inplace = pat at h
  have h1 := List.all_eq_true.1 (List.all_eq_true.1 traced_table mode (by cases mode <;> simp)) pat (Pattern.mem_all pat)
  have h2 := List.all_eq_true.1 (List.all_eq_true.1 during_table mode (by cases mode <;> simp)) pat (Pattern.mem_all pat)
  cases ht : tracedProgram mode pat with
  | error e =>
    rw [ht] at h1
    have := of_decide_eq_true h1
    rw [h] at this
    cases this
  | ok steps =>
    rw [ht] at h1 h2
    simp only [Bool.and_eq_true, decide_eq_true_eq] at h1
    obtain ⟨h3, h4⟩ := h1
    rw [h] at h3
    injection h3 with h3
    refine ⟨expand (fun i => (Shaper.events staged (decide (P.alg = .p2pPlined)) nb (done i)
      (shaperAt (P.obj.fft.shapers fwd) r i)).flatMap flatScope) steps ++ if scaled then flatScope "scale" else [], steps, ?_, ?_, rfl,
      h3.symm, ?_⟩
    · unfold MpiPlan.traceOps
      dsimp only
      rw [hpat, ht]
      rfl
    · refine Nested.append ?_ ?_
      · have := nested_expand (sub := fun i => (Shaper.events staged (decide (P.alg = .p2pPlined)) nb (done i)
          (shaperAt (P.obj.fft.shapers fwd) r i)).flatMap flatScope) (fun i => nested_flat _) (a := []) (l := steps) h4
        rwa [List.nil_append] at this
      · cases scaled
        · exact .nil
        · exact .scope "scale" .nil .nil
    · intro u v c e
      have := List.all_eq_true.1 h2 (u, c, v) (by have := mem_splits (u0 := []) e; rwa [List.nil_append] at this)
      exact during_of this

theorem expand_append (sub : Fin 4 → List TraceOp) (a b : List TStep) : expand sub (a ++ b) = expand sub a ++ expand sub b := List.flatMap_append

/-- **C88** (reshapes in a call): the events of a reshape, in their order and without others in between, are inside an event with the name `reshape` (or
`reshape/copy`); with scaling, `scale` is the last event. -/
theorem C88_reshapes (P : MpiPlan) (staged : Bool) (mode : Mode) (fwd inplace scaled : Bool) (nb : Nat) (done : Fin 4 → List Nat) (r : Nat)
    {l : List Instr} (h : P.instrs mode fwd inplace r = .ok l) {ops : List TraceOp}
    (ho : P.traceOps staged mode fwd inplace scaled nb done r = .ok ops) :
    (∀ i src dst, .reshape i src dst ∈ l → ∃ name, (name = "reshape" ∨ name = "reshape/copy") ∧ ∃ a b c d,
      ops = a ++ .enter name :: (b ++ (Shaper.events staged (decide (P.alg = .p2pPlined)) nb (done i)
        (shaperAt (P.obj.fft.shapers fwd) r i)).flatMap flatScope ++ c) ++ .leave :: d ∧ Nested b ∧ Nested c) ∧
    (scaled = true → ∃ a, ops = a ++ [.enter "scale", .leave] ∧ Nested a) := by
  obtain ⟨ops', steps, h1, h2, h3, h4, h5⟩ := C88_call P staged mode fwd inplace scaled nb done r h
  rw [ho] at h1
  injection h1 with h1
  subst h1
  generalize hsub : (fun i => (Shaper.events staged (decide (P.alg = .p2pPlined)) nb (done i)
    (shaperAt (P.obj.fft.shapers fwd) r i)).flatMap flatScope) = sub
  have hops : ops = expand sub steps ++ if scaled then flatScope "scale" else [] := by
    unfold MpiPlan.traceOps at ho
    dsimp only at ho
    rw [h3] at ho
    rw [← hsub]
    injection ho with ho
    exact ho.symm
  have hnest : ∀ i, Nested (sub i) := fun i => by rw [← hsub]; exact nested_flat _
  constructor
  · intro i src dst hm
    rw [← h4, List.mem_filterMap] at hm
    obtain ⟨x, hx, hw⟩ := hm
    cases x with
    | mark o => cases hw
    | work c =>
      injection hw with hw
      subst hw
      obtain ⟨u, v, e⟩ := List.append_of_mem hx
      obtain ⟨name, hname, a, b, c, d, rfl, rfl, hb, hc⟩ := h5 u v _ e
      refine ⟨name, by simpa [Instr.labels] using hname, expand sub a, expand sub b, expand sub c, expand sub d ++ if scaled then flatScope "scale" else [],
        ?_, ?_, ?_⟩
      · rw [hops, e]
        rw [show (Shaper.events staged (decide (P.alg = .p2pPlined)) nb (done i) (shaperAt (P.obj.fft.shapers fwd) r i)).flatMap flatScope = sub i by
          rw [← hsub]]
        simp [expand, List.flatMap_append, List.flatMap_cons]
      · have := nested_expand hnest (a := []) (l := b) hb
        rwa [List.nil_append] at this
      · have := nested_expand hnest (a := []) (l := c) hc
        rwa [List.nil_append] at this
  · intro hsc
    subst hsc
    refine ⟨expand sub steps, hops, ?_⟩
    rw [nested_iff, hops, depthRun_append] at h2
    rw [nested_iff]
    cases hd : depthRun 0 (expand sub steps) with
    | none => rw [hd] at h2; cases h2
    | some m =>
      rw [hd] at h2
      have : depthRun m [TraceOp.enter "scale", .leave] = some m := rfl
      exact (this.symm.trans h2)

/-- **C88** (a program): `init_tracing`, any sequence of calls that are performed, with any plans, `finalize_tracing`: the file of the rank has one
line for each event of the calls, no other line, and no negative duration; two events are one after the other or one inside the other. -/
theorem C88_program (rank : Nat) {clock : Nat → ℚ} (hc : Monotone clock) (k : Nat) (s : Tracer) (hs : s.alive = []) (root : String)
    (calls : List (List TraceOp)) (h : ∀ ops ∈ calls, ∃ (P : MpiPlan) (staged : Bool) (mode : Mode) (fwd inplace scaled : Bool) (nb : Nat)
      (done : Fin 4 → List Nat) (l : List Instr), P.instrs mode fwd inplace rank = .ok l ∧
      P.traceOps staged mode fwd inplace scaled nb done rank = .ok ops) :
    ∃ s' log, Tracer.run rank clock k s (.init root :: (calls.flatten.map .op ++ [.finalize])) = .ok s' ∧ s'.alive = [] ∧
      s'.disk = (root ++ "_" ++ toString rank ++ ".log", log) :: s.disk ∧
      (log.map Event.name).Perm (calls.flatMap fun ops => ops.filterMap TraceOp.name?) ∧ (∀ e ∈ log, 0 ≤ e.duration) ∧
      log.Pairwise fun e f => e.start + e.duration ≤ f.start ∨ (f.start ≤ e.start ∧ e.start + e.duration ≤ f.start + f.duration) := by
  have hn : Nested calls.flatten := by
    induction calls with
    | nil => exact .nil
    | cons a t ih =>
      rw [List.flatten_cons]
      refine Nested.append ?_ (ih fun x hx => h x (by simp [hx]))
      obtain ⟨P, staged, mode, fwd, inplace, scaled, nb, done, l, h1, h2⟩ := h a (by simp)
      obtain ⟨ops, -, h3, h4, -⟩ := C88_call P staged mode fwd inplace scaled nb done rank h1
      rw [h2] at h3
      injection h3 with h3
      rw [h3]; exact h4
  obtain ⟨s', h1, h2⟩ := C88_records rank clock k s root hn
  obtain ⟨log, h3, h4, -⟩ := C88_file rank clock k s s' hs root _ h1
  have hmono : Monotone fun i => clock (k + 1 + i) := fun a b hab => hc (by omega)
  obtain ⟨h5, h6⟩ := C88_times hmono h4
  refine ⟨s', log, h1, ?_, h3, ?_, h5, h6.imp ?_⟩
  · rw [hs] at h2
    exact List.eq_nil_of_length_eq_zero h2
  · have := C88_complete hn h4
    rwa [List.filterMap_flatten] at this
  · rintro e f ⟨a, b | b⟩
    · exact .inl b
    · exact .inr ⟨b, a⟩

/-- A plan of four ranks, with any algorithm: two calls in the log. -/
example (a : Alg) : ∃ ob s' log, MpiPlan.call ⟨a, ob⟩ 0 .same true false 2 0 = exMpiCall a ∧
    (∃ x y, MpiPlan.traceOps ⟨a, ob⟩ false .same true false true 2 (fun _ => [0]) 0 = .ok x ∧
      MpiPlan.traceOps ⟨a, ob⟩ false .same false true false 1 (fun _ => [0]) 0 = .ok y ∧
      Tracer.run 0 (fun k => k) 0 {} (.init "run" :: ([x, y].flatten.map .op ++ [.finalize])) = .ok s') ∧
    s'.disk = [("run_0.log", log)] ∧ ∀ e ∈ log, 0 ≤ e.duration := by
  obtain ⟨ob, -, hi, hc⟩ := exPlan a
  obtain ⟨l1, h1⟩ := hi 0 (by decide) true false
  obtain ⟨l2, h2⟩ := hi 0 (by decide) false true
  obtain ⟨x, -, hx, -⟩ := C88_call ⟨a, ob⟩ false .same true false true 2 (fun _ => [0]) 0 h1
  obtain ⟨y, -, hy, -⟩ := C88_call ⟨a, ob⟩ false .same false true false 1 (fun _ => [0]) 0 h2
  obtain ⟨s', log, h3, -, h4, -, h5, -⟩ := C88_program 0 (clock := fun k => k) (fun i j h => by show (i : ℚ) ≤ j; exact_mod_cast h) 0 {} rfl "run" [x, y] (by
    intro ops ho
    simp only [List.mem_cons, List.not_mem_nil, or_false] at ho
    rcases ho with rfl | rfl
    · exact ⟨_, _, _, _, _, _, _, _, _, h1, hx⟩
    · exact ⟨_, _, _, _, _, _, _, _, _, h2, hy⟩)
  exact ⟨ob, s', log, hc, ⟨x, y, hx, hy, h3⟩, h4, h5⟩

/-- **C88**: the time of the event `reshape/copy` is not the time of the reshape or of the copy; the three transforms are inside. -/
theorem C88_false_reshape_copy : ∃ P u v c, tracedProgram .same P = .ok (u ++ .work (.batch c) :: v) ∧
    ∃ a b d e, u = a ++ .mark (.enter "reshape/copy") :: b ∧ v = d ++ .mark .leave :: e ∧
      Nested ((b ++ d).filterMap TStep.mark?) ∧ ¬ Nested (b.filterMap TStep.mark?) :=
  ⟨⟨true, false, false, false, true, true, true, false⟩,
    [.mark (.enter "reshape/copy"), .work (.reshape 0 .input .output), .mark (.enter "fft-1d")],
    [.mark .leave, .mark (.enter "fft-1d"), .work (.batch [⟨1, .output, .box 1, .output, .box 1⟩]), .mark .leave, .mark (.enter "fft-1d"),
      .work (.batch [⟨2, .output, .box 2, .output, .box 2⟩]), .mark .leave, .mark .leave],
    [⟨0, .output, .box 0, .output, .box 0⟩], by decide +kernel,
    [], [.work (.reshape 0 .input .output), .mark (.enter "fft-1d")],
    [.mark .leave, .mark (.enter "fft-1d"), .work (.batch [⟨1, .output, .box 1, .output, .box 1⟩]), .mark .leave, .mark (.enter "fft-1d"),
      .work (.batch [⟨2, .output, .box 2, .output, .box 2⟩]), .mark .leave], [], rfl, rfl, by decide +kernel, by decide +kernel⟩

/-- **C88**: in the transform from complex to real, an event with the name `fft-1d x3` has the transform of one direction only. -/
theorem C88_false_x3 : ∃ P a b c k, tracedProgram .c2r P = .ok (a ++ .mark (.enter "fft-1d x3") :: .work (.batch [k]) :: .mark .leave :: b) ∧
    b.filterMap TStep.work? = c ∧ ∃ k', .batch [k'] ∈ c ∧ k'.k ≠ k.k :=
  ⟨⟨true, true, true, true, true, true, true, false⟩, [.mark (.enter "reshape"), .work (.reshape 0 .input .temp), .mark .leave],
    [.mark (.enter "reshape"), .work (.reshape 1 .temp .temp), .mark .leave, .mark (.enter "fft-1d x3"),
      .work (.batch [⟨1, .temp, .box 1, .temp, .box 1⟩]), .mark .leave, .mark (.enter "reshape"), .work (.reshape 2 .temp .temp), .mark .leave,
      .mark (.enter "fft-1d"), .work (.batch [⟨2, .temp, .cplx 2, .real, .box 2⟩]), .mark .leave, .mark (.enter "reshape"),
      .work (.reshape 3 .real .output), .mark .leave], _, ⟨0, .temp, .box 0, .temp, .box 0⟩, by decide +kernel, rfl,
    ⟨1, .temp, .box 1, .temp, .box 1⟩, by decide +kernel, by decide +kernel⟩

/-! ## The names of the messages -/

section
variable {bin bout : List Box}

theorem cnt_shared (hl : bout.length = bin.length) {q r : Nat} (hq : q < bin.length) (hr : r < bin.length) :
    cnt bin bout q r = (sharedPoints bin bout q r : Int) := by
  have ha := List.getElem?_eq_getElem hq
  have hb := List.getElem?_eq_getElem (l := bout) (i := r) (by omega)
  rw [cnt_card ha hb, sharedPoints, ha, hb]

theorem shared_lt (hl : bout.length = bin.length) {q r : Nat} (h : 0 < sharedPoints bin bout q r) : q < bin.length ∧ r < bin.length := by
  unfold sharedPoints at h
  split at h
  · rename_i a b ha hb
    have h1 := (List.getElem?_eq_some_iff.1 ha).1
    have h2 := (List.getElem?_eq_some_iff.1 hb).1
    exact ⟨h1, by omega⟩
  · omega

/-- **C88** (messages): for any lists of boxes and the point-to-point algorithms, the log of a rank has, for each other rank with common points,
one `irecv` with the number of the points (times the size of the batch) and one `packing` and `send` (or `isend`) likewise, the same number that is
in the `irecv` of the receiver; then a pair of events for the points that stay; then a pair for each message that has arrived.
Without GPU-aware MPI and with `p2p_plined`, this needs a batch of one (see `C88_false_staged`).  The name of the unpacking has the rank of the
sender only without GPU-aware MPI, otherwise it is the number of the request (see `C88_false_unpacking`). -/
theorem C88_messages_partial (hl : bout.length = bin.length) (direct staged plined : Bool) (nb : Nat) (hnb : staged = true → plined = true → nb = 1)
    {r : Nat} {o : PointToPoint} (ho : makePointToPoint direct bin bout r = .ok o) :
    ∃ sources targets : List Nat, sources.Nodup ∧ targets.Nodup ∧ (∀ q, q ∈ sources ↔ q ≠ r ∧ 0 < sharedPoints bin bout q r) ∧
      (∀ q, q ∈ targets ↔ q ≠ r ∧ 0 < sharedPoints bin bout r q) ∧
      ∀ done : List Nat, (∀ i ∈ done, i < sources.length) → o.events staged plined nb done =
        (sources.map fun q => "irecv " ++ toString (nb * sharedPoints bin bout q r) ++ " from " ++ toString q) ++
        (targets.flatMap fun q => ["packing", (if plined then "isend " else "send ") ++ toString (nb * sharedPoints bin bout r q) ++ " for " ++ toString q]) ++
        (if 0 < sharedPoints bin bout r r then ["self packing", "self unpacking"] else []) ++
        done.flatMap fun i => ["waitany", "unpacking from " ++ toString (if staged then sources.getD i 0 else i)] := by
  have hr : r < bin.length := by
    unfold makePointToPoint at ho
    split at ho
    · rename_i a b ha hb
      exact (List.getElem?_eq_some_iff.1 ha).1
    · cases ho
  rw [makeP hl hr] at ho
  injection ho with ho
  subst ho
  refine ⟨(dropSelf (decide (0 < cnt bin bout r r)) (recvEntries direct bin r (boxAt bout r))).map Entry.proc,
    (dropSelf (decide (0 < cnt bin bout r r)) (sendEntries bout r (boxAt bin r))).map Entry.proc,
    dropSelf_nodup (recv_nodup (direct := direct) hr), dropSelf_nodup (send_nodup hl hr), fun q => ?_, fun q => ?_, fun done hdone => ?_⟩
  · rw [List.mem_map]
    constructor
    · rintro ⟨e, he, rfl⟩
      obtain ⟨q, h1, h2, h3, rfl⟩ := (mem_dropRecv hl hr).1 he
      rw [cnt_shared hl h1 hr] at h3
      exact ⟨h2, by exact_mod_cast h3⟩
    · rintro ⟨h1, h2⟩
      have h3 := (shared_lt hl h2).1
      refine ⟨_, (mem_dropRecv hl hr).2 ⟨q, h3, h1, ?_, rfl⟩, rfl⟩
      rw [cnt_shared hl h3 hr]
      exact_mod_cast h2
  · rw [List.mem_map]
    constructor
    · rintro ⟨e, he, rfl⟩
      obtain ⟨q, h1, h2, h3, rfl⟩ := (mem_dropSend hl hr).1 he
      rw [cnt_shared hl hr h1] at h3
      exact ⟨h2, by exact_mod_cast h3⟩
    · rintro ⟨h1, h2⟩
      have h3 := (shared_lt hl h2).2
      refine ⟨_, (mem_dropSend hl hr).2 ⟨q, h3, h1, ?_, rfl⟩, rfl⟩
      rw [cnt_shared hl hr h3]
      exact_mod_cast h2
  · unfold PointToPoint.events objP
    dsimp only
    congr 1
    · congr 1
      · congr 1
        · rw [List.map_map]
          refine List.map_congr_left fun e he => ?_
          obtain ⟨q, h1, h2, h3, rfl⟩ := (mem_dropRecv hl hr).1 he
          simp only [Function.comp, recvE_size, recvE_proc, cnt_shared hl h1 hr]
          rw [← Nat.cast_mul]
          rfl
        · rw [List.flatMap_map]
          refine List.flatMap_congr fun e he => ?_
          obtain ⟨q, h1, h2, h3, rfl⟩ := (mem_dropSend hl hr).1 he
          simp only [sendE_size, sendE_proc, cnt_shared hl hr h1]
          cases plined
          · rw [← Nat.cast_mul]
            rfl
          · cases staged
            · rw [← Nat.cast_mul]
              rfl
            · rw [hnb rfl rfl, Nat.one_mul]
              rfl
      · rw [cnt_shared hl hr hr]
        by_cases h : 0 < sharedPoints bin bout r r
        · rw [if_pos h, if_pos (by simpa using h)]
        · rw [if_neg h, if_neg (by simpa using h)]
    · refine List.flatMap_congr fun i hi => ?_
      cases staged
      · rfl
      · have hlt := hdone i hi
        rw [List.length_map] at hlt
        have hget : (dropSelf (decide (0 < cnt bin bout r r)) (recvEntries direct bin r (boxAt bout r)))[i]? =
            (recvEntries direct bin r (boxAt bout r))[i]? := by
          generalize hb : decide (0 < cnt bin bout r r) = b at hlt ⊢
          cases b
          · rfl
          · unfold dropSelf at hlt ⊢
            rw [if_pos rfl] at hlt ⊢
            rw [List.length_dropLast] at hlt
            rw [List.getElem?_dropLast, if_pos hlt]
        obtain ⟨e, he⟩ : ∃ e, (dropSelf (decide (0 < cnt bin bout r r)) (recvEntries direct bin r (boxAt bout r)))[i]? = some e :=
          ⟨_, List.getElem?_eq_getElem hlt⟩
        rw [← hget, he]
        simp [List.getD_eq_getElem?_getD, he]

end

/-- Three ranks: the receiver and the sender of a message write the same number. -/
example : (∃ o, makePointToPoint false exA exB 0 = .ok o ∧ o.events false false 2 [1, 0] =
      ["irecv 4 from 1", "irecv 4 from 2", "packing", "send 8 for 1", "packing", "send 8 for 2", "self packing", "self unpacking",
       "waitany", "unpacking from 1", "waitany", "unpacking from 0"]) ∧
    (∃ o, makePointToPoint false exA exB 1 = .ok o ∧ "irecv 8 from 0" ∈ o.events false false 2 [0, 1] ∧
      "send 4 for 0" ∈ o.events false false 2 [0, 1]) := by
  refine ⟨⟨_, rfl, ?_⟩, ⟨_, rfl, ?_, ?_⟩⟩ <;> decide +kernel

/-- **C88** is false for the names of the messages without GPU-aware MPI, with `p2p_plined` and a batch of two: the sender writes half
of the number that the receiver writes (reshape3d.cpp:568). -/
theorem C88_false_staged : ∃ bin bout w o o', Redistribution bin bout w ∧ makePointToPoint false bin bout 0 = .ok o ∧
    makePointToPoint false bin bout 1 = .ok o' ∧ "irecv 8 from 0" ∈ o'.events true true 2 [0, 1] ∧
    "isend 4 for 1" ∈ o.events true true 2 [0, 1] ∧ "isend 8 for 1" ∉ o.events true true 2 [0, 1] := by
  refine ⟨exA, exB, exW, _, _, ex_redistribution, rfl, rfl, ?_, ?_, ?_⟩ <;> decide +kernel

/-- **C88** is false for the names of the unpacking (reshape3d.cpp:704): rank 0 has messages from the ranks 1 and 2, it writes `unpacking from 0`,
which is the rank itself, and never `unpacking from 2`. -/
theorem C88_false_unpacking : ∃ bin bout w o, Redistribution bin bout w ∧ makePointToPoint false bin bout 0 = .ok o ∧
    ∀ done ∈ ([0, 1] : List Nat).permutations', "unpacking from 0" ∈ o.events false true 1 done ∧ "unpacking from 2" ∉ o.events false true 1 done ∧
      "irecv 2 from 2" ∈ o.events false true 1 done := by
  refine ⟨exA, exB, exW, _, ex_redistribution, rfl, ?_⟩
  decide +kernel

end Verif
