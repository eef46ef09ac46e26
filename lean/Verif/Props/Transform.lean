import Verif.Props.Calls
import Verif.Gauss
import Verif.FlowTable

/-!
# Properties of the order of the operations (C42), calls that go wrong, and examples

The concrete runs use the exact arithmetic of `Gauss.lean` for transforms of lengths 1, 2 and 4.
-/

namespace Verif

/-! ## C42 -/

/-- C42: `compute_transform` does the reshapes and executors in the order of the schedule, on the array that has the data, in every
consistent situation but the bad ones. -/
theorem C42_runs_iff {c : Case} (h : c.consistent = true) : Runs c ↔ c.bad = false := runs_iff h

/-- Three reshapes, the last executor without data, out of place: fine.  The same without any executor, and without reshapes: bad. -/
example : Case.consistent ⟨.same, false, true, true, false, true, true, .run, .run, .empty, false⟩ = true ∧
    Case.bad ⟨.same, false, true, true, false, true, true, .run, .run, .empty, false⟩ = false := by decide
example : Case.consistent ⟨.same, false, false, false, false, false, false, .empty, .empty, .empty, false⟩ = true ∧
    Case.bad ⟨.same, false, false, false, false, false, false, .empty, .empty, .empty, false⟩ = true := by decide

/-- C42: the situations of the ranks of an object are consistent. -/
theorem C42_consistent {α β : Type} {p : Plan} {r2c : Option (Fin 3)} {wi wo : Box} {n : Nat} {alg : Alg} {o : Fft} {ex : Nat → A3 (Option Executor)}
    {mode : Mode} {fwd : Bool} {nb : Nat} {inplace : Nat → Bool} {K : Kernel α β} {F : Fin 4 → Field α β}
    (hp : PlanFacts p r2c wi wo n) (hs : SetupOk alg p o n ex) (hm : ModeOk mode fwd r2c)
    (hx : ExecsOk K mode r2c p o n fwd nb inplace ex F) (hin : ∀ r, r < n → inplace r = true → mode = .same)
    {r : Nat} (hr : r < n) (hmerge : (p.case mode r2c o fwd nb inplace r).mergeOk = true) :
    (p.case mode r2c o fwd nb inplace r).consistent = true := case_consistent hp hs hm hx hin hr hmerge

/-- C42, what is true: if no rank is in a bad situation, the transform on all the ranks ends with the values `F 3` in the outputs, where
`F i` are the values at reshape `i` and executor `k` leads from `F k` to `F (k + 1)` (`ExecsOk`).  Any kernel, any executors, any
algorithm.  Missing: the bad situations, where this is false (`C42_false_empty`, `C42_false_merged`, `C42_false_c2r`). -/
theorem C42_execution_partial {α β : Type} {p : Plan} {r2c : Option (Fin 3)} {wi wo : Box} {n : Nat} {alg : Alg} {o : Fft}
    {ex : Nat → A3 (Option Executor)} {mode : Mode} {fwd : Bool} {nb : Nat} {inplace : Nat → Bool} {K : Kernel α β} {W : World α β}
    {F : Fin 4 → Field α β} {m0s : List (Mem α β)} {M need : Nat → Int}
    (hp : PlanFacts p r2c wi wo n) (hs : SetupOk alg p o n ex) (hm : ModeOk mode fwd r2c)
    (hx : ExecsOk K mode r2c p o n fwd nb inplace ex F)
    (ha : CallArrays (srcBoxes fwd p.in0 p.out3) (dstBoxes fwd p.in0 p.out3) (decide (mode = .r2c)) (decide (mode = .c2r)) need nb inplace m0s (F 0))
    (hW : WorldOk W p fwd) (hK : ∀ a b, K.parts (K.join a b) = (a, b)) (hnb : 0 < nb) (hin : ∀ r, r < n → inplace r = true → mode = .same)
    (hM : ∀ r, r < n → ∀ x, (p.cbox r x).count ≤ M r)
    (hneed : ∀ r, r < n → commSize (shaperAt o.fwd r) (shaperAt o.bwd r) + M r ≤ need r)
    (hmerge : ∀ r, r < n → (p.case mode r2c o fwd nb inplace r).mergeOk = true)
    (hbad : ∀ r, r < n → (p.case mode r2c o fwd nb inplace r).bad = false) :
    ∃ ms, transform K W mode o fwd nb inplace m0s = .ok ms ∧ Outcome (dstBoxes fwd p.in0 p.out3) nb m0s ms (F 3) :=
  call_run hp hs hm hx ha hW hK hnb hin hM hneed hmerge hbad

/-! ## Concrete calls that go wrong -/

/-- An environment without choices. -/
def plainWorld : World GInt Int := ⟨1, fun _ _ => [], fun _ _ l => l, fun _ _ l => l⟩

/-- An `fft3d` created and called on all the ranks: the outputs. -/
def runFft3d (bk : Backend) (bin bout : List Box) (opts : Opts) (mode : Mode) (fwd : Bool) (nb : Nat) (inplace : Bool) (mems : List (Mem GInt Int)) :
    Res (List (Data GInt Int)) := do
  let ob ← makeFft3d bk bin bout opts
  let ms ← transform (gauss 1) plainWorld mode ob.fft fwd nb (fun _ => inplace) mems
  .ok (ms.map Mem.output)

/-- An `fft3d_r2c` created and called on all the ranks: the outputs. -/
def runFft3dR2C (bin bout : List Box) (d : Fin 3) (opts : Opts) (mode : Mode) (fwd : Bool) (nb : Nat) (mems : List (Mem GInt Int)) :
    Res (List (Data GInt Int)) := do
  let ob ← makeFft3dR2C bin bout d opts
  let ms ← transform (gauss 1) plainWorld mode ob.fft fwd nb (fun _ => false) mems
  .ok (ms.map Mem.output)

/-- The boxes of 2 ranks, all the indexes on rank 0. -/
def oneHolds : List Box := [⟨⟨0, 0, 0⟩, ⟨1, 1, 0⟩, ⟨0, 1, 2⟩⟩, ⟨⟨0, 0, 0⟩, ⟨-1, -1, -1⟩, ⟨0, 1, 2⟩⟩]

/-- `use_num_subranks(1)`. -/
def oneSub : Opts := ⟨false, .alltoallv, true, 1, none⟩

/-- A large workspace. -/
def someWork : List GInt := List.replicate 40 (7, 7)

theorem oneHolds_geometry : ∃ wi wo, Geometry oneHolds oneHolds none wi wo := by
  obtain ⟨wi, wo, h, -⟩ := checked_geometry (bin := oneHolds) (bout := oneHolds) (r2c := none) (by decide) rfl (by decide) (by decide)
    ⟨⟨⟨0, 0, 0⟩, ⟨1, 1, 0⟩, ⟨0, 1, 2⟩⟩, by decide, ⟨0, 0, 0⟩, by decide⟩
  exact ⟨wi, wo, h⟩

/-- C42, negation: a rank without indexes, no reshapes, out of place: `executor[valid_executor]` is a null pointer (compute_transform.cpp:60-64).
The same call in place works.  The documentation excludes empty boxes; `use_num_subranks` and `use_subcomm` suggest them. -/
theorem C42_false_empty :
    runFft3d .stock oneHolds oneHolds oneSub .same true 1 false
      [⟨.inl [(1, 0), (2, 0), (3, 0), (4, 0)], .inl [0, 0, 0, 0], someWork⟩, ⟨.inl [], .inl [], someWork⟩] = .error .ub ∧
    runFft3d .stock oneHolds oneHolds oneSub .same true 1 true
      [⟨.inl [], .inl [(1, 0), (2, 0), (3, 0), (4, 0)], someWork⟩, ⟨.inl [], .inl [], someWork⟩] =
        .ok [.inl [(10, 0), (-2, 0), (-4, 0), (0, 0)], .inl []] := by decide +kernel

/-- C42, negation: the same for the backward transform to real data (compute_transform.cpp:217-219). -/
theorem C42_false_c2r :
    runFft3d .stock oneHolds oneHolds oneSub .c2r false 1 false
      [⟨.inl [(1, 0), (2, 0), (3, 0), (4, 0)], .inr [0, 0, 0, 0], someWork⟩, ⟨.inl [], .inr [], someWork⟩] = .error .ub := by decide +kernel

/-- One rank, the world 2 x 2 x 1 in two storage orders. -/
def orderA : List Box := [⟨⟨0, 0, 0⟩, ⟨1, 1, 0⟩, ⟨2, 1, 0⟩⟩]
def orderB : List Box := [⟨⟨0, 0, 0⟩, ⟨1, 1, 0⟩, ⟨0, 1, 2⟩⟩]
def plainOpts : Opts := ⟨false, .alltoallv, true, -1, none⟩

theorem orderAB_geometry : ∃ wi wo, Geometry orderA orderB none wi wo := by
  obtain ⟨wi, wo, h, -⟩ := checked_geometry (bin := orderA) (bout := orderB) (r2c := none) (by decide) rfl (by decide) (by decide)
    ⟨⟨⟨0, 0, 0⟩, ⟨1, 1, 0⟩, ⟨2, 1, 0⟩⟩, by decide, ⟨0, 0, 0⟩, by decide⟩
  exact ⟨wi, wo, h⟩

/-- C42, negation: FFTW, one rank, different orders of input and output: the backward transform out of place does not read the input; the
output is the transform of what the workspace holds (compute_transform.cpp:73-84: the copy is skipped since `executor[0]` is null, the
executor with three directions is the last one). -/
theorem C42_false_merged :
    runFft3d .fftw orderA orderB plainOpts .same false 1 false [⟨.inl [(1, 0), (2, 0), (3, 0), (4, 0)], .inl [0, 0, 0, 0], someWork⟩] =
      .ok [.inl [(28, 28), 0, 0, 0]] ∧
    runFft3d .fftw orderA orderB plainOpts .same false 1 false [⟨.inl [(5, 0), (0, 0), (0, 0), (0, 0)], .inl [0, 0, 0, 0], someWork⟩] =
      .ok [.inl [(28, 28), 0, 0, 0]] ∧
    runFft3d .stock orderA orderB plainOpts .same false 1 false [⟨.inl [(1, 0), (2, 0), (3, 0), (4, 0)], .inl [0, 0, 0, 0], someWork⟩] =
      .ok [.inl [(10, 0), (-4, 0), (-2, 0), (0, 0)]] := by refine ⟨?_, ?_, ?_⟩ <;> decide +kernel

/-- C40 and C41, negation for FFTW: with a storage order other than (0, 1, 2) the executor with three directions transforms other lines.
One rank, 2 x 4 x 1 indexes, order (1, 0, 2): FFTW and stock give different results for the same data (stock is right by C40). -/
theorem C40_fftw_false :
    let b : List Box := [⟨⟨0, 0, 0⟩, ⟨1, 3, 0⟩, ⟨1, 0, 2⟩⟩]
    let m : Mem GInt Int := ⟨.inl [(1, 0), (2, 0), (3, 0), (4, 0), (5, 0), (6, 0), (7, 0), (8, 0)], .inl (List.replicate 8 0), someWork⟩
    runFft3d .fftw b b plainOpts .same true 1 false [m] =
      .ok [.inl [(36, 0), (-4, 0), (-8, 8), (0, 0), (-8, 0), (0, 0), (-8, -8), (0, 0)]] ∧
    runFft3d .stock b b plainOpts .same true 1 false [m] =
      .ok [.inl [(36, 0), (-4, 4), (-4, 0), (-4, -4), (-16, 0), (0, 0), (0, 0), (0, 0)]] := by decide +kernel

/-- One rank, 4 x 1 x 1 real and 3 x 1 x 1 complex indexes. -/
def lineIn : List Box := [⟨⟨0, 0, 0⟩, ⟨3, 0, 0⟩, ⟨0, 1, 2⟩⟩]
def lineOut : List Box := [⟨⟨0, 0, 0⟩, ⟨2, 0, 0⟩, ⟨0, 1, 2⟩⟩]

theorem line_geometry : ∃ wi wo, Geometry lineIn lineOut (some 0) wi wo := by
  obtain ⟨wi, wo, h, -⟩ := checked_geometry (bin := lineIn) (bout := lineOut) (r2c := some 0) (by decide) rfl (by decide) (by decide)
    ⟨⟨⟨0, 0, 0⟩, ⟨3, 0, 0⟩, ⟨0, 1, 2⟩⟩, by decide, ⟨0, 0, 0⟩, by decide⟩
  exact ⟨wi, wo, h⟩

/-- C43, negation for the forward call of an `fft3d_r2c` without reshapes behind the first executor: the second entry of the batch is
written at `complex_size()` and the other executors work at `box_size()` (compute_transform.cpp:155-160), which is outside of an output
of two times `size_outbox()`; with a larger array the call returns, the entries behind the second one are touched.  One by one
the two entries are transformed correctly. -/
theorem C43_r2c_false :
    runFft3dR2C lineIn lineOut 0 plainOpts .r2c true 2 [⟨.inr [1, 2, 3, 4, 5, 6, 7, 9], .inl (List.replicate 6 0), someWork⟩] = .error .ub ∧
    runFft3dR2C lineIn lineOut 0 plainOpts .r2c true 1 [⟨.inr [1, 2, 3, 4], .inl (List.replicate 3 0), someWork⟩] =
      .ok [.inl [(10, 0), (-2, 2), (-2, 0)]] ∧
    runFft3dR2C lineIn lineOut 0 plainOpts .r2c true 1 [⟨.inr [5, 6, 7, 9], .inl (List.replicate 3 0), someWork⟩] =
      .ok [.inl [(27, 0), (-2, 3), (-3, 0)]] := by refine ⟨?_, ?_, ?_⟩ <;> decide +kernel

/-- With more than one direction the result is wrong as well: 4 x 2 x 1 real indexes, an output with room for both versions. -/
theorem C43_r2c_wrong :
    let bin : List Box := [⟨⟨0, 0, 0⟩, ⟨3, 1, 0⟩, ⟨0, 1, 2⟩⟩]
    let bout : List Box := [⟨⟨0, 0, 0⟩, ⟨2, 1, 0⟩, ⟨0, 1, 2⟩⟩]
    runFft3dR2C bin bout 0 plainOpts .r2c true 2
      [⟨.inr [1, 2, 3, 4, 5, 6, 7, 9, 1, 1, 1, 1, 0, 0, 0, 0], .inl (List.replicate 14 0), someWork⟩] =
      .ok [.inl [(37, 0), (-4, 5), (-5, 0), (-17, 0), (0, -1), (1, 0), (4, 0), (0, 0), (0, 0), (0, 0), (0, 0), (0, 0), (0, 0), (0, 0)]] ∧
    runFft3dR2C bin bout 0 plainOpts .r2c true 1
      [⟨.inr [1, 1, 1, 1, 0, 0, 0, 0], .inl (List.replicate 6 0), someWork⟩] =
      .ok [.inl [(4, 0), (0, 0), (0, 0), (4, 0), (0, 0), (0, 0)]] := by decide +kernel

end Verif
