import Verif.TransformIntMain
import Verif.Props.ReshapeInt
import Verif.Props.Calls
import Verif.Props.Transform
import Verif.PlanTotal

/-!
# The transform objects in machine integers (C79)

The constructors and the calls of the transform objects with the integers of the code: coordinates of type `int` or `long long`, the sizes
of the executors and the offsets in a batch of type `int`.  `C79_object`, `C79_object_r2c` and `C79_calls` say that nothing overflows if the
grid fits the planner (`MachineGrid`, see C81) and all the boxes of the plan have the sizes of `PlanSizes`; `C79_complex`, `C79_forward_r2c` and `C79_backward_r2c` give the results with a condition
on the number of indexes only.  The other theorems show calls with sizes that fit in the type of the coordinates but overflow or give a wrong
result.
-/

namespace Verif
open Stock

/-- The sizes of all the boxes of a plan: together with the block size of the packing loops and the lanes of the executors, and multiplied
with the batch size, they fit in an `int`; the sum of the two sizes of a reshape fits in the type of the coordinates; the padded messages of
`alltoall` fit. -/
structure PlanSizes (t : IndexType) (alg : Alg) (lanes stride nb : Nat) (p : Plan) : Prop where
  ranks : p.in0.length < 2 ^ 31
  boxes : ∀ i, ∀ b ∈ p.inAt i ++ p.outAt i, b.points.card + (stride + lanes + 3) ≤ 2 ^ 31 ∧ nb * b.points.card < 2 ^ 31
  both : ∀ i (r : Nat) a b, (p.inAt i)[r]? = some a → (p.outAt i)[r]? = some b → (a.points.card + b.points.card : Int) < t.bound
  padded : alg = .alltoall → ∀ i, PaddedFits (p.inAt i) (p.outAt i) nb

/-- The number `N` of indexes of the whole grid is so small that everything fits; `n` is the number of ranks. -/
structure SmallGrid (t : IndexType) (alg : Alg) (lanes stride nb n N : Nat) : Prop where
  ranks : n < 2 ^ 31
  grid : N + (stride + lanes + 3) ≤ 2 ^ 31
  batch : nb * N < 2 ^ 31
  both : (2 * N : Int) < t.bound
  padded : alg = .alltoall → 2 * N < 2 ^ 31 ∧ nb * N * n < 2 ^ 31

section
variable {bin bout : List Box} {wi wo : Box} {r2c : Option (Fin 3)} {opts : Opts} {ob : Object} {t : IndexType} {alg : Alg} {lanes stride nb n : Nat} {p : Plan}

theorem IntSizes.symm (h : Redistribution bin bout wi) (s : IntSizes t bin bout stride nb) : IntSizes t bout bin stride nb := by
  refine ⟨by rw [h.length]; exact s.ranks, fun b hb => s.boxes b ?_, fun r a b ha hb => ?_⟩
  · simp only [List.mem_append] at hb ⊢; tauto
  · have := s.both r b a hb ha; omega

theorem PaddedFits.symm (h : Redistribution bin bout wi) (s : PaddedFits bin bout nb) : PaddedFits bout bin nb := by
  obtain ⟨M, h1, h2, h3⟩ := s
  refine ⟨M, fun a ha b hb => ?_, h2, by rw [h.length]; exact h3⟩
  rw [Finset.inter_comm]
  exact h1 b hb a ha

theorem PlanSizes.room (hp : PlanFacts p r2c wi wo n) (hstr : 0 < stride) (sz : PlanSizes t alg lanes stride nb p) :
    PlanRoom t alg lanes stride nb n p := by
  have isz : ∀ i, IntSizes t (p.inAt i) (p.outAt i) stride nb := fun i =>
    ⟨by rw [hp.lenIn i, ← hp.lenIn 0]; exact sz.ranks, fun b hb => ⟨by have := (sz.boxes i b hb).1; omega, (sz.boxes i b hb).2⟩, sz.both i⟩
  have key : ∀ fwd i, IntSizes t (p.before fwd i) (p.after fwd i) stride nb ∧ CallRoom alg (p.before fwd i) (p.after fwd i) stride nb := by
    intro fwd i
    cases fwd
    · have a := (isz i.rev).symm (hp.redis i.rev)
      exact ⟨a, a.room (hp.redis i.rev).symm hstr fun e => (sz.padded e i.rev).symm (hp.redis i.rev)⟩
    · exact ⟨isz i, (isz i).room (hp.redis i) hstr fun e => sz.padded e i⟩
  refine ⟨by rw [← hp.lenIn 0]; exact sz.ranks, fun fwd i => (key fwd i).2, fun fwd i r hr => ?_, fun r hr x => ?_⟩
  · have := (key fwd i).1.both r _ _ (boxAt_get (by rw [hp.lenBefore]; exact hr)) (boxAt_get (by rw [hp.lenAfter]; exact hr))
    rw [Box.count_eq_card, Box.count_eq_card]
    exact this
  · have := (sz.boxes x.castSucc (p.box r x) (List.mem_append_right _ (boxAt_mem (by rw [hp.lenOut]; exact hr)))).1
    rw [Box.count_eq_card]
    have h : ((p.box r x).points.card : Int) + (stride + lanes + 3) ≤ 2 ^ 31 := by exact_mod_cast this
    omega

theorem SmallGrid.sizes (geo : Geometry bin bout r2c wi wo) (hp : PlanFacts p r2c wi wo n) (h : SmallGrid t alg lanes stride nb n wi.points.card) :
    PlanSizes t alg lanes stride nb p := by
  have world : ∀ i : Fin 4, (worldAt wi wo i).count ≤ wi.count := by
    intro i
    unfold worldAt
    split
    · exact le_rfl
    · exact geo.count_le
  have small : ∀ i, ∀ b ∈ p.inAt i ++ p.outAt i, b.points.card ≤ wi.points.card := by
    intro i b hb
    have h1 : b.count ≤ wi.count := by
      rw [List.mem_append] at hb
      rcases hb with hb | hb
      · exact ((hp.redis i).tilesIn.count_le hb).trans (world i)
      · exact ((hp.redis i).tilesOut.count_le hb).trans (world i)
    rw [Box.count_eq_card, Box.count_eq_card] at h1
    exact_mod_cast h1
  refine ⟨by rw [show p.in0.length = n from hp.lenIn 0]; exact h.ranks, fun i b hb => ?_, fun i r a b ha hb => ?_, fun e i => ?_⟩
  · have h1 := small i b hb
    have h2 := h.grid
    refine ⟨by omega, lt_of_le_of_lt (Nat.mul_le_mul_left _ h1) h.batch⟩
  · have h1 := small i a (List.mem_append_left _ (List.mem_of_getElem? ha))
    have h2 := small i b (List.mem_append_right _ (List.mem_of_getElem? hb))
    have h3 := h.both
    omega
  · refine ⟨wi.points.card, fun a ha b hb => ?_, (h.padded e).1, by rw [hp.lenIn i]; exact (h.padded e).2⟩
    exact (Finset.card_le_card Finset.inter_subset_left).trans (small i a (List.mem_append_left _ ha))

/-! ## The objects and the calls -/

/-- The object `mo` in machine integers is the same as the object `ob` in unbounded integers: it has the same `size_workspace`, and all its calls
that meet the conditions on the sizes have the same outcome, for all the executors, data, directions, scalings and orders of the messages. -/
structure SameInMachine (t : IndexType) (alg : Alg) (n : Nat) (ob : Object) (mo : MachineObject) : Prop where
  object : mo.toObject = ob
  workspace : ∀ r, r < n → mo.sizeWorkspace r = ob.sizeWorkspace noWork r
  calls : ∀ {α β : Type} (K : Kernel α β) (library : Bool) (f : ℝ → α → α) (g : ℝ → β → β) (W : World α β) (mode : Mode) (fwd : Bool) (nb : Nat)
    (inplace : Nat → Bool) (s : Scaling) (mems : List (Mem α β)), 0 < W.stride → PlanSizes t alg K.lanes W.stride nb ob.plan →
    mo.call ⟨t, library⟩ K f g W mode fwd nb inplace s mems = ob.call K f g W mode fwd nb inplace s mems

theorem machineObject_workspace {ob : Object} {n r : Nat} (hr : r < n) : (machineObject ob n).sizeWorkspace r = ob.sizeWorkspace noWork r := by
  unfold MachineObject.sizeWorkspace machineObject
  rw [List.getD_eq_getElem?_getD, List.getElem?_map, List.getElem?_range hr]
  rfl

/-- C79: an `fft3d` for the Fourier transforms, with the stock backend or FFTW. -/
theorem C79_object {bk : Backend} (hbk : ∀ z, bk.family ≠ .stock z) (geo : Geometry bin bout none wi wo) (h : makeFft3d bk bin bout opts = .ok ob)
    (grid : MachineGrid t bin bout wi) (sz : PlanSizes t opts.algorithm 0 1 1 ob.plan) :
    ∃ mo, makeFft3dM t bk bin bout opts = .ok mo ∧ SameInMachine t opts.algorithm bin.length ob mo := by
  obtain ⟨-, -, hp, -, -, -, -, hs⟩ := makeFft3d_ok geo h
  refine ⟨_, makeFft3dM_eq hbk geo grid h (sz.room hp Nat.one_pos), rfl, fun r hr => machineObject_workspace hr, ?_⟩
  intro α β K lib f g W mode fwd nb inplace s mems hstr sz
  have R := sz.room hp hstr
  exact machine_call f g mode fwd inplace s hp hs R (fun r hr k e he => execsC2C_fit hbk R hp hr _ _ k e he) mems

/-- C79: an `fft3d_r2c`. -/
theorem C79_object_r2c {d : Fin 3} (geo : Geometry bin bout (some d) wi wo) (hz : RankZeroHolds bin) (hc : ∀ b ∈ bin, b.count < 2 ^ 31)
    (h : makeFft3dR2C bin bout d opts = .ok ob) (grid : MachineGrid t bin bout wi) (sz : PlanSizes t opts.algorithm 0 1 1 ob.plan) :
    ∃ mo, makeFft3dR2CM t bin bout d opts = .ok mo ∧ SameInMachine t opts.algorithm bin.length ob mo := by
  obtain ⟨hp, -, -, -, -, -, hs⟩ := makeFft3dR2C_ok geo hz hc h
  refine ⟨_, makeFft3dR2CM_eq geo hz hc grid h (sz.room hp Nat.one_pos), rfl, fun r hr => machineObject_workspace hr, ?_⟩
  intro α β K lib f g W mode fwd nb inplace s mems hstr sz
  have R := sz.room hp hstr
  exact machine_call f g mode fwd inplace s hp hs R (fun r hr k e he => execsR2C_fit R hp hr k e he) mems

/-! ## The results on small grids -/

/-- `forward` and `backward` in machine integers with real and complex numbers, see `perform`. -/
noncomputable def performM (M : Machine) (mo : MachineObject) (K : Kernel ℂ ℝ) (W : World ℂ ℝ) (mode : Mode) (fwd : Bool) (nb : Nat)
    (inplace : Nat → Bool) (s : Scaling) (mems : List (Mem ℂ ℝ)) : Res (List (Mem ℂ ℝ)) :=
  mo.call M K (fun x z => (x : ℂ) * z) (fun x y => x * y) W mode fwd nb inplace s mems

theorem SmallGrid.made {N : Nat} (h : SmallGrid t alg lanes stride nb n N) (hstr : 0 < stride) (hnb : 0 < nb) : SmallGrid t alg 0 1 1 n N := by
  have h1 := h.grid
  have h2 : N ≤ nb * N := Nat.le_mul_of_pos_left _ hnb
  have h3 := h.batch
  refine ⟨h.ranks, by omega, by omega, h.both, fun e => ⟨(h.padded e).1, ?_⟩⟩
  have := (h.padded e).2
  refine lt_of_le_of_lt ?_ this
  rw [one_mul]
  exact Nat.mul_le_mul_right _ h2

theorem SameInMachine.arrays {mo : MachineObject} (E : SameInMachine t alg n ob mo) {src dst : List Box} (hl : src.length = n) {realIn realOut : Bool}
    {inplace : Nat → Bool} {m0s : List (Mem ℂ ℝ)} {G : Field ℂ ℝ} (ha : CallArrays src dst realIn realOut mo.sizeWorkspace nb inplace m0s G) :
    CallArrays src dst realIn realOut (ob.sizeWorkspace noWork) nb inplace m0s G := by
  refine ⟨ha.ranks, ha.input, ha.output, ha.inputSize, ha.outputSize, ha.start, fun r m0 hm => ?_⟩
  have hr : r < n := by rw [← hl, ← ha.ranks]; exact (List.getElem?_eq_some_iff.1 hm).1
  rw [← E.workspace r hr]
  exact ha.work r m0 hm

variable {d : Fin 3} {w : Nat} {junk : Tag → Int × Int → Scratch} {inp : Tag → Int × Int → Arr ℂ} {W : World ℂ ℝ} {fwd : Bool} {inplace : Nat → Bool}
  {s : Scaling} {m0s : List (Mem ℂ ℝ)} {lib : Bool}

/-- C79: the calls of an `fft3d` with complex data in machine integers. -/
theorem C79_complex (S : StockC2C bin bout wi wo opts ob) (hw : 0 < w) (small : SmallGrid t opts.algorithm w W.stride nb bin.length wi.points.card)
    (grid : MachineGrid t bin bout wi) (hnb : 0 < nb) (hstr : 0 < W.stride) :
    ∃ mo, makeFft3dM t .stock bin bout opts = .ok mo ∧ ∀ (g : Nat → A3 Int → ℂ), WorldOk W mo.plan fwd →
      CallArrays (srcBoxes fwd bin bout) (dstBoxes fwd bin bout) false false mo.sizeWorkspace nb inplace m0s (.inl g) →
      SourceHolds (srcBoxes fwd bin bout) inplace →
      ∃ ms, performM ⟨t, lib⟩ mo (stockKernel w junk inp) W .same fwd nb inplace s m0s = .ok ms ∧
        Outcome (dstBoxes fwd bin bout) nb m0s ms (.inl fun j p => (s.factor wi.count : ℂ) * dft3 fwd wi (g j) p) := by
  obtain ⟨-, -, hp, -⟩ := makeFft3d_ok S.geo S.made
  obtain ⟨mo, hmo, E⟩ := C79_object (t := t) (fun z h => Family.noConfusion h) S.geo S.made grid ((small.made hstr hnb).sizes S.geo hp)
  refine ⟨mo, hmo, fun g hW ha hs => ?_⟩
  obtain ⟨ms, h1, h2⟩ := C40_complex (junk := junk) (inp := inp) (s := s) S hw (by rw [← E.object]; exact hW) hnb (E.arrays (src_length S.geo fwd) ha) hs
  refine ⟨ms, ?_, h2⟩
  unfold performM
  rw [E.calls _ _ _ _ _ _ _ _ _ _ _ hstr (small.sizes S.geo hp)]
  exact h1

/-- C79: the forward call of an `fft3d_r2c` in machine integers. -/
theorem C79_forward_r2c (S : StockR2C bin bout d wi wo opts ob) (hw : 0 < w) (small : SmallGrid t opts.algorithm w W.stride nb bin.length wi.points.card)
    (grid : MachineGrid t bin bout wi) (hnb : 0 < nb) (hstr : 0 < W.stride) :
    ∃ mo, makeFft3dR2CM t bin bout d opts = .ok mo ∧ ∀ (g : Nat → A3 Int → ℝ), WorldOk W mo.plan true →
      CallArrays bin bout true false mo.sizeWorkspace nb (fun _ => false) m0s (.inr g) → nb = 1 ∨ ReshapesAfter mo.toObject bin.length →
      ∃ ms, performM ⟨t, lib⟩ mo (stockKernel w junk inp) W .r2c true nb (fun _ => false) s m0s = .ok ms ∧
        Outcome bout nb m0s ms (.inl fun j p => (s.factor wi.count : ℂ) * dft3 true wi (fun q => (g j q : ℂ)) p) := by
  obtain ⟨hp, -⟩ := makeFft3dR2C_ok S.geo S.first S.small S.made
  obtain ⟨mo, hmo, E⟩ := C79_object_r2c (t := t) S.geo S.first S.small S.made grid ((small.made hstr hnb).sizes S.geo hp)
  refine ⟨mo, hmo, fun g hW ha hs => ?_⟩
  obtain ⟨ms, h1, h2⟩ := C53_forward (junk := junk) (inp := inp) (s := s) S hw (by rw [← E.object]; exact hW) hnb (E.arrays rfl ha) (by rw [← E.object]; exact hs)
  refine ⟨ms, ?_, h2⟩
  unfold performM
  rw [E.calls _ _ _ _ _ _ _ _ _ _ _ hstr (small.sizes S.geo hp)]
  exact h1

/-- C79: the backward call of an `fft3d_r2c` in machine integers. -/
theorem C79_backward_r2c (S : StockR2C bin bout d wi wo opts ob) (hw : 0 < w) (small : SmallGrid t opts.algorithm w W.stride nb bin.length wi.points.card)
    (grid : MachineGrid t bin bout wi) (hnb : 0 < nb) (hstr : 0 < W.stride) :
    ∃ mo, makeFft3dR2CM t bin bout d opts = .ok mo ∧ ∀ (g : Nat → A3 Int → ℂ), WorldOk W mo.plan false →
      CallArrays bout bin false true mo.sizeWorkspace nb (fun _ => false) m0s (.inl g) → SourceHolds bout (fun _ => false) →
      ∃ ms, performM ⟨t, lib⟩ mo (stockKernel w junk inp) W .c2r false nb (fun _ => false) s m0s = .ok ms ∧
        Outcome bin nb m0s ms (.inr fun j p => s.factor wi.count * c2r3 wi d (g j) p) := by
  obtain ⟨hp, -⟩ := makeFft3dR2C_ok S.geo S.first S.small S.made
  obtain ⟨mo, hmo, E⟩ := C79_object_r2c (t := t) S.geo S.first S.small S.made grid ((small.made hstr hnb).sizes S.geo hp)
  refine ⟨mo, hmo, fun g hW ha hs => ?_⟩
  obtain ⟨ms, h1, h2⟩ := C53_backward (junk := junk) (inp := inp) (s := s) S hw (by rw [← E.object]; exact hW) hnb (E.arrays (src_length S.geo false) ha) hs
  refine ⟨ms, ?_, h2⟩
  unfold performM
  rw [E.calls _ _ _ _ _ _ _ _ _ _ _ hstr (small.sizes S.geo hp)]
  exact h1

end
/-! ## Sizes that are too large -/

/-- One rank with 1024 x 1024 x 1024 indexes, `2 ^ 30` complex numbers. -/
def bigBox : Box := ⟨⟨0, 0, 0⟩, ⟨1023, 1023, 1023⟩, ⟨0, 1, 2⟩⟩
/-- One rank with 2048 x 2048 x 1024 indexes, `2 ^ 32` complex numbers. -/
def hugeBox : Box := ⟨⟨0, 0, 0⟩, ⟨2047, 2047, 1023⟩, ⟨0, 1, 2⟩⟩

/-- The plan, the reshapes and the executors of one rank without reshapes. -/
def onePlan (b : Box) (n : Int) : Plan := ⟨[b], [b], [b], [b], [b], [b], [b], [b], b.size, ⟨0, 1, 2⟩, n⟩
def oneFft (e : A3 (Option Executor)) : Fft :=
  ⟨fun i => [[none], [none], [none], [none]].getD i [], fun i => [[none], [none], [none], [none]].getD i [], [e]⟩
def oneObject (b : Box) (e : A3 (Option Executor)) (n : Int) : Object := ⟨onePlan b n, oneFft e, false, .fourier⟩

theorem bigPlanM : planOperationsM .longLong [bigBox] [bigBox] none (Opts.default false) = .ok (onePlan bigBox (2 ^ 30)) := by decide +kernel
theorem hugePlanM : planOperationsM .longLong [hugeBox] [hugeBox] none (Opts.default false) = .ok (onePlan hugeBox (2 ^ 32)) := by decide +kernel
theorem bigPlan : planOperations [bigBox] [bigBox] none (Opts.default false) = .ok (onePlan bigBox (2 ^ 30)) := by decide +kernel
theorem hugePlan : planOperations [hugeBox] [hugeBox] none (Opts.default false) = .ok (onePlan hugeBox (2 ^ 32)) := by decide +kernel

def bigExecs : A3 (Option Executor) := ⟨some (.one bigBox 0), some (.one bigBox 1), some (.one bigBox 2)⟩
def hugeExecs : A3 (Option Executor) := ⟨some (.three hugeBox), none, none⟩

theorem bigMade : makeFft3dM .longLong .stock [bigBox] [bigBox] (Opts.default false) = .ok ⟨oneObject bigBox bigExecs (2 ^ 30), [0], [2 ^ 30]⟩ := by
  unfold makeFft3dM
  rw [show Backend.setOptions .stock (Opts.default false) = Opts.default false from rfl, bigPlanM]
  rfl

theorem hugeMade : makeFft3dM .longLong .fftw [hugeBox] [hugeBox] (Opts.default false) = .ok ⟨oneObject hugeBox hugeExecs (2 ^ 32), [0], [0]⟩ := by
  unfold makeFft3dM
  rw [show Backend.setOptions .fftw (Opts.default false) = Opts.default false from rfl, hugePlanM]
  rfl

section
variable {α β : Type}

theorem mapRes_single {γ δ : Type} (f : Nat → γ → Res δ) (i : Nat) (x : γ) : mapRes f i [x] = (f i x).bind fun y => .ok [y] := by
  unfold mapRes mapRes
  cases f i x <;> rfl

theorem runInstrM_batch (M : Machine) (K : Kernel α β) (E : Env) (calls : List Call) (m : Mem α β) :
    runInstrM M K E (.batch calls) m = (List.range E.nb).foldlM (fun m (j : Nat) => calls.foldlM (runCallM M K E j) m) m := rfl

/-- A call on one rank without reshapes. -/
theorem one_rank_call (M : Machine) (K : Kernel α β) (f : ℝ → α → α) (g : ℝ → β → β) (W : World α β) (b : Box) (e : A3 (Option Executor)) (n : Int) (comm sizes : List Int)
    (fwd : Bool) (nb : Nat) (inplace : Nat → Bool) (s : Scaling) (m : Mem α β) {prog : List Instr}
    (hprog : program .same (patternOf (fun _ => none) ((oneFft e).executors fwd 0) (inplace 0)) = .ok prog) :
    MachineObject.call M K f g W .same ⟨oneObject b e n, comm, sizes⟩ fwd nb inplace s [m] =
      (finishM M K (MachineObject.env ⟨oneObject b e n, comm, sizes⟩ fwd nb inplace 0) prog m).bind fun m =>
        (applyScaleM f g (oneObject b e n) fwd nb s 0 m).bind fun m => .ok [m] := by
  have hsh : ∀ i : Fin 4, (oneObject b e n).fft.shapers fwd i = [none] := by
    intro i; cases fwd <;> fin_cases i <;> rfl
  have hst : ∀ {γ : Type} (env : Nat → Env) (port : Nat → Port α β γ) (i : Fin 4) (done : Nat → List Nat) (sts : State α β),
      runStageM M K env port i W.stride nb done [none] sts = .ok sts := fun _ _ _ _ _ => rfl
  have hpat : program .same (patternOf (shaperAt ((oneObject b e n).fft.shapers fwd) 0) ((oneFft e).executors fwd 0) (inplace 0)) = .ok prog := by
    rw [← hprog]
    cases fwd <;> rfl
  unfold MachineObject.call transformM
  simp only [hsh, hst, reduceCtorEq, if_false, mapRes]
  have : program .same (patternOf (shaperAt ((oneObject b e n).fft.shapers fwd) 0)
    ((MachineObject.env ⟨oneObject b e n, comm, sizes⟩ fwd nb inplace 0).execs) (inplace 0)) = .ok prog := hpat
  rw [this]
  simp only [res_bind]
  rw [mapRes_single]
  cases finishM M K (MachineObject.env ⟨oneObject b e n, comm, sizes⟩ fwd nb inplace 0) prog m with
  | error x => rfl
  | ok m' => exact mapRes_single _ _ _
end

theorem hugeCount : hugeBox.count = 4294967296 := by decide +kernel

theorem factor_ne (s : Scaling) {n : Int} (hn : 0 < n) : s.factor n ≠ 0 := by
  have hn' : (0 : ℝ) < n := by exact_mod_cast hn
  cases s
  · exact one_ne_zero
  · exact (one_div_pos.2 hn').ne'
  · exact (one_div_pos.2 (Real.sqrt_pos.2 hn')).ne'

theorem dft3_zero {b : Box} {G : A3 Int → ℂ} (h : ∀ p : A3 Int, p ∈ b → G p = 0) (fwd : Bool) (p : A3 Int) : dft3 fwd b G p = 0 := by
  unfold dft3
  exact Finset.sum_eq_zero fun q hq => by rw [h q (Box.mem_points.1 hq), zero_mul]

theorem bigCard : bigBox.points.card = 2 ^ 30 := by
  have h : (bigBox.points.card : Int) = 2 ^ 30 := by rw [← Box.count_eq_card]; decide
  exact_mod_cast h

theorem bigGeometry : Geometry [bigBox] [bigBox] none bigBox bigBox := by
  obtain ⟨wi, wo, h, -⟩ := checked_geometry (bin := [bigBox]) (bout := [bigBox]) (r2c := none) (by decide) rfl (by decide) (by decide)
    ⟨bigBox, by decide, ⟨0, 0, 0⟩, by decide⟩
  have h1 : findWorld [bigBox] = .ok bigBox := by decide
  obtain rfl := Except.ok.inj (h1.symm.trans h.worldIn)
  obtain rfl := Except.ok.inj (h1.symm.trans h.worldOut)
  exact h

theorem bigStock : StockC2C [bigBox] [bigBox] bigBox bigBox (Opts.default false) (oneObject bigBox bigExecs (2 ^ 30)) := by
  refine ⟨bigGeometry, ?_, fun d => goodLength_small ?_ ?_⟩
  · unfold makeFft3d
    rw [show Backend.setOptions .stock (Opts.default false) = Opts.default false from rfl, bigPlan]
    rfl
  · revert d; decide
  · revert d; decide

/-- C79, negation: `2 ^ 30` indexes on one rank, `long long` coordinates.  One transform at a time fits (`SmallGrid` with batch size one), the
object can be made, but in a call with a batch of two the number of the entries, a product of two `int`, overflows; so does the offset of the
third entry of a call in place.  The arrays and the workspace do not matter. -/
theorem C79_false_batch : ∃ ob mo, StockC2C [bigBox] [bigBox] bigBox bigBox (Opts.default false) ob ∧
    SmallGrid .longLong (Opts.default false).algorithm 16 256 1 1 bigBox.points.card ∧ MachineGrid .longLong [bigBox] [bigBox] bigBox ∧
    makeFft3dM .longLong .stock [bigBox] [bigBox] (Opts.default false) = .ok mo ∧ mo.toObject = ob ∧
    ∀ (K : Kernel ℂ ℝ) (W : World ℂ ℝ) (fwd lib : Bool) (s : Scaling) (m : Mem ℂ ℝ),
      performM ⟨.longLong, lib⟩ mo K W .same fwd 2 (fun _ => false) s [m] = .error .ub ∧
      ∀ ms, performM ⟨.longLong, lib⟩ mo K W .same fwd 3 (fun _ => true) s [m] ≠ .ok ms := by
  refine ⟨_, _, bigStock, ?_, ⟨by decide, by decide, by decide, by decide, by decide⟩, bigMade, rfl, fun K W fwd lib s m => ⟨?_, fun ms => ?_⟩⟩
  · rw [bigCard]
    exact ⟨by decide, by decide, by decide, by decide, fun h => by cases h⟩
  · unfold performM
    rw [one_rank_call _ _ _ _ _ _ _ _ _ _ _ _ _ _ _ (prog := [.copy 0 .input .output, .batch [⟨0, .output, .box 0, .output, .box 0⟩],
      .batch [⟨1, .output, .box 1, .output, .box 1⟩], .batch [⟨2, .output, .box 2, .output, .box 2⟩]]) (by cases fwd <;> decide)]
    cases fwd <;> rfl
  · unfold performM
    rw [one_rank_call _ _ _ _ _ _ _ _ _ _ _ _ _ _ _ (prog := [.batch [⟨0, .output, .box 0, .output, .box 0⟩],
      .batch [⟨1, .output, .box 1, .output, .box 1⟩], .batch [⟨2, .output, .box 2, .output, .box 2⟩]]) (by cases fwd <;> decide)]
    generalize hE : MachineObject.env _ fwd 3 (fun _ => true) 0 = E
    have key : ∀ m : Mem ℂ ℝ, [(⟨0, .output, .box 0, .output, .box 0⟩ : Call)].foldlM (runCallM ⟨.longLong, lib⟩ K E 2) m = .error .ub := by
      intro m
      subst hE
      cases fwd <;> rfl
    have hnb : E.nb = 3 := by subst hE; rfl
    have hi : ∃ x, runInstrM ⟨.longLong, lib⟩ K E (.batch [⟨0, .output, .box 0, .output, .box 0⟩]) m = .error x := by
      rw [runInstrM_batch, hnb, show List.range 3 = [0, 1, 2] from rfl, List.foldlM_cons]
      cases List.foldlM (runCallM ⟨.longLong, lib⟩ K E 0) m [(⟨0, .output, .box 0, .output, .box 0⟩ : Call)] with
      | error x => exact ⟨x, rfl⟩
      | ok m1 =>
        rw [res_bind, List.foldlM_cons]
        cases List.foldlM (runCallM ⟨.longLong, lib⟩ K E 1) m1 [(⟨0, .output, .box 0, .output, .box 0⟩ : Call)] with
        | error x => exact ⟨x, rfl⟩
        | ok m2 =>
          rw [res_bind, List.foldlM_cons, key]
          exact ⟨.ub, rfl⟩
    obtain ⟨x, hx⟩ := hi
    unfold finishM
    rw [hx]
    exact fun h => by cases h

theorem hugeGeometry : Geometry [hugeBox] [hugeBox] none hugeBox hugeBox := by
  obtain ⟨wi, wo, h, -⟩ := checked_geometry (bin := [hugeBox]) (bout := [hugeBox]) (r2c := none) (by decide) rfl (by decide) (by decide)
    ⟨hugeBox, by decide, ⟨0, 0, 0⟩, by decide⟩
  have h1 : findWorld [hugeBox] = .ok hugeBox := by decide
  obtain rfl := Except.ok.inj (h1.symm.trans h.worldIn)
  obtain rfl := Except.ok.inj (h1.symm.trans h.worldOut)
  exact h

/-- The call on `hugeBox` does not read the input. -/
theorem huge_call (K : Kernel ℂ ℝ) (W : World ℂ ℝ) (fwd lib : Bool) (s : Scaling) (l : List ℂ) :
    ∃ X : Res (Data ℂ ℝ), ∀ i work, performM ⟨.longLong, lib⟩ ⟨oneObject hugeBox hugeExecs (2 ^ 32), [0], [0]⟩ K W .same fwd 1 (fun _ => false) s
      [⟨.inl i, .inl l, work⟩] = X.bind fun o => .ok [⟨.inl i, o, work⟩] := by
  let k : Fin 3 := if fwd then 0 else 2
  let E : Env := MachineObject.env ⟨oneObject hugeBox hugeExecs (2 ^ 32), [0], [0]⟩ fwd 1 (fun _ => false) 0
  refine ⟨(runC2CM ⟨.longLong, lib⟩ K ⟨0, k, 0⟩ fwd (.three hugeBox) 0 l).bind fun l =>
    (applyScaleM (fun x z => (x : ℂ) * z) (fun x y => x * y) (oneObject hugeBox hugeExecs (2 ^ 32)) fwd 1 s 0 ⟨.inl l, .inl l, l⟩).bind fun m => .ok m.output,
    fun i work => ?_⟩
  unfold performM
  rw [one_rank_call _ _ _ _ _ _ _ _ _ _ _ _ _ _ _ (prog := [.copy k .input .output, .batch [⟨k, .output, .box k, .output, .box k⟩]]) (by cases fwd <;> decide)]
  have h1 : E.sizeM (.box k) = .ok 0 := by
    have h : E.sizeM (.box k) = .ok (toInt32 hugeBox.count) := by cases fwd <;> rfl
    rw [h, hugeCount]
    rfl
  have hcopy : runInstrM ⟨.longLong, lib⟩ K E (.copy k .input .output) ⟨.inl i, .inl l, work⟩ = .ok ⟨.inl i, .inl l, work⟩ := by
    have h2 : intArith ((E.nb : Int) * 0) = .ok 0 := by rw [mul_zero]; rfl
    unfold runInstrM
    simp only [h1, res_bind, h2]
    rfl
  have hbatch : runInstrM ⟨.longLong, lib⟩ K E (.batch [⟨k, .output, .box k, .output, .box k⟩]) ⟨.inl i, .inl l, work⟩ =
      (runC2CM ⟨.longLong, lib⟩ K ⟨0, k, 0⟩ fwd (.three hugeBox) 0 l).bind fun l => .ok ⟨.inl i, .inl l, work⟩ := by
    have h0 : E.execs k = some (.three hugeBox) := by cases fwd <;> rfl
    have h2 : intArith (((0 : Nat) : Int) * 0) = .ok 0 := rfl
    have h3 : E.nb = 1 := rfl
    have h4 : E.fwd = fwd := rfl
    have h5 : E.rank = 0 := rfl
    have hc : runCallM ⟨.longLong, lib⟩ K E 0 ⟨.inl i, .inl l, work⟩ ⟨k, .output, .box k, .output, .box k⟩ =
        (runC2CM ⟨.longLong, lib⟩ K ⟨0, k, 0⟩ fwd (.three hugeBox) 0 l).bind fun l => .ok ⟨.inl i, .inl l, work⟩ := by
      unfold runCallM
      simp only [h0, h1, h2, res_bind, h4, h5, Mem.get, and_self, if_true, Mem.put]
      rfl
    rw [runInstrM_batch, h3, show List.range 1 = [0] from rfl, List.foldlM_cons, List.foldlM_cons, hc]
    cases runC2CM ⟨.longLong, lib⟩ K ⟨0, k, 0⟩ fwd (.three hugeBox) 0 l <;> rfl
  have hfin : finishM ⟨.longLong, lib⟩ K E [.copy k .input .output, .batch [⟨k, .output, .box k, .output, .box k⟩]] ⟨.inl i, .inl l, work⟩ =
      (runC2CM ⟨.longLong, lib⟩ K ⟨0, k, 0⟩ fwd (.three hugeBox) 0 l).bind fun l => .ok ⟨.inl i, .inl l, work⟩ := by
    unfold finishM
    rw [hcopy, res_bind]
    unfold finishM
    rw [hbatch]
    cases runC2CM ⟨.longLong, lib⟩ K ⟨0, k, 0⟩ fwd (.three hugeBox) 0 l <;> rfl
  rw [show finishM _ _ _ _ _ = _ from hfin]
  cases runC2CM ⟨.longLong, lib⟩ K ⟨0, k, 0⟩ fwd (.three hugeBox) 0 l with
  | error x => rfl
  | ok l' =>
    simp only [Except.bind]
    unfold applyScaleM
    by_cases hs : s ≠ .none
    · simp only [if_pos hs]
      simp only [bind, Except.bind]
      cases IndexType.longLong.arith _ with
      | error x => rfl
      | ok n =>
        simp only
        cases scaleDataM _ _ n _ <;> rfl
    · simp only [if_neg hs]

theorem huge_need {inplace : Nat → Bool} {m0s : List (Mem ℂ ℝ)} {G : Field ℂ ℝ} {src dst : List Box} {realIn realOut : Bool} {nb : Nat} {o : Object} {c : List Int}
    (h : CallArrays src dst realIn realOut (fun _ => 0) nb inplace m0s G) :
    CallArrays src dst realIn realOut (MachineObject.sizeWorkspace ⟨o, c, [0]⟩) nb inplace m0s G := by
  refine ⟨h.ranks, h.input, h.output, h.inputSize, h.outputSize, h.start, fun r m hm => ?_⟩
  have := h.work r m hm
  rcases r with _ | r <;> exact this

/-- C79, negation: `2 ^ 32` indexes on one rank, FFTW, `long long` coordinates.  `box_size()` is an `int` with the value zero, hence the input is not copied to
the output: a call out of place transforms the old content of the output, and there are arrays for which the result is not the transform of the
input. -/
theorem C79_false_large_box : ∃ mo, Geometry [hugeBox] [hugeBox] none hugeBox hugeBox ∧ (∀ d, hugeBox.high.get d < 2048) ∧
    makeFft3dM .longLong .fftw [hugeBox] [hugeBox] (Opts.default false) = .ok mo ∧
    ∀ (K : Kernel ℂ ℝ) (W : World ℂ ℝ) (fwd lib : Bool) (s : Scaling),
      ¬ ∀ (g : Nat → A3 Int → ℂ) m0s, CallArrays [hugeBox] [hugeBox] false false mo.sizeWorkspace 1 (fun _ => false) m0s (.inl g) →
        ∃ ms, performM ⟨.longLong, lib⟩ mo K W .same fwd 1 (fun _ => false) s m0s = .ok ms ∧
          Outcome [hugeBox] 1 m0s ms (.inl fun j p => (s.factor hugeBox.count : ℂ) * dft3 fwd hugeBox (g j) p) := by
  refine ⟨_, hugeGeometry, by decide, hugeMade, fun K W fwd lib s h => ?_⟩
  have ho : ∀ b ∈ [hugeBox], IsOrder b.order := src_order hugeGeometry true
  have hmem : hugeBox.low ∈ hugeBox := by decide
  obtain ⟨m0s, ha0⟩ := arrays_exist [hugeBox] [hugeBox] false (fun _ => 0) 1 (.inl fun _ _ => 0 : Field ℂ ℝ) ho
  obtain ⟨m1s, ha1⟩ := arrays_exist [hugeBox] [hugeBox] false (fun _ => 0) 1 (.inl fun _ _ => 1 : Field ℂ ℝ) ho
  obtain ⟨m0, rfl⟩ := List.length_eq_one_iff.1 ha0.ranks
  obtain ⟨m1, rfl⟩ := List.length_eq_one_iff.1 ha1.ranks
  obtain ⟨i0, o0, w0⟩ := m0
  obtain ⟨i1, o1, w1⟩ := m1
  have k1 := ha0.input 0 _ rfl
  have k2 := ha0.output 0 _ rfl
  have k3 := ha1.input 0 _ rfl
  rcases i0 with i0 | i0
  swap
  · cases k1
  rcases o0 with o0 | o0
  swap
  · cases k2
  rcases i1 with i1 | i1
  swap
  · cases k3
  have hcopy : CallArrays [hugeBox] [hugeBox] false false (fun _ => 0) 1 (fun _ => false) [(⟨.inl i1, .inl o0, w0⟩ : Mem ℂ ℝ)] (.inl fun _ _ => 1) := by
    have hr : ∀ {m m' : Mem ℂ ℝ} {r : Nat}, [m][r]? = some m' → r = 0 ∧ m' = m := by
      intro m m' r h
      cases r with
      | zero => exact ⟨rfl, (Option.some.inj h).symm⟩
      | succ r => cases h
    refine ⟨rfl, ?_, ?_, ?_, ?_, ?_, ?_⟩ <;> intro r m hm <;> obtain ⟨rfl, rfl⟩ := hr hm
    · rfl
    · rfl
    · have := ha1.inputSize 0 _ rfl
      exact this
    · have := ha0.outputSize 0 _ rfl
      exact this
    · have := ha1.start 0 _ rfl
      exact this
    · have := ha0.work 0 _ rfl
      exact this
  have hz : ∀ (p : A3 Int), p ∈ hugeBox → dft3 fwd hugeBox (fun _ => 1) p = 0 := by
    intro p hp
    obtain ⟨X, hX⟩ := huge_call K W fwd lib s o0
    obtain ⟨ms0, e0, out0⟩ := h _ _ (huge_need ha0)
    obtain ⟨ms1, e1, out1⟩ := h _ _ (huge_need hcopy)
    rw [hX] at e0 e1
    rcases X with x | o
    · cases e0
    obtain rfl := Except.ok.inj e0
    obtain rfl := Except.ok.inj e1
    have v0 := out0.values 0 _ rfl 0 Nat.one_pos p hp
    have v1 := out1.values 0 _ rfl 0 Nat.one_pos p hp
    have v := Option.some.inj (v0.symm.trans v1)
    have v : (s.factor hugeBox.count : ℂ) * dft3 fwd hugeBox (fun _ => 0) p = s.factor hugeBox.count * dft3 fwd hugeBox (fun _ => 1) p := Sum.inl.inj v
    have hf : (s.factor hugeBox.count : ℂ) ≠ 0 := by
      exact_mod_cast factor_ne s (by rw [hugeCount]; decide)
    have : dft3 fwd hugeBox (fun _ => 0) p = 0 := by unfold dft3; simp
    rw [this, mul_zero] at v
    exact (mul_eq_zero.1 v.symm).resolve_left hf
  have hinv := dft3_inv fwd hugeBox (fun _ => 1) hmem
  rw [dft3_zero hz, hugeCount] at hinv
  norm_num at hinv

/-! ## Examples -/

/-- The hypotheses of `C79_complex`: four ranks, any options, both types of the coordinates. -/
example (t : IndexType) (opts : Opts) : ∃ wi wo ob, StockC2C exIn exOut wi wo opts ob ∧ SmallGrid t opts.algorithm 4 256 3 exIn.length wi.points.card ∧
    MachineGrid t exIn exOut wi := by
  obtain ⟨wi, wo, ob, S⟩ := exObject opts
  have h1 : findWorld exIn = .ok ⟨⟨0, 0, 0⟩, ⟨3, 5, 7⟩, ⟨0, 1, 2⟩⟩ := by decide
  obtain rfl := Except.ok.inj (h1.symm.trans S.geo.worldIn)
  refine ⟨_, wo, ob, S, ?_, by decide, by cases t <;> decide, by decide, by cases t <;> decide, by decide⟩
  have h : (Box.points ⟨⟨0, 0, 0⟩, ⟨3, 5, 7⟩, ⟨0, 1, 2⟩⟩).card = 192 := by decide +kernel
  rw [h, show exIn.length = 4 from rfl]
  exact ⟨by decide, by decide, by decide, by cases t <;> decide, fun _ => by decide⟩

/-- The ones of `C79_forward_r2c` and `C79_backward_r2c`. -/
example (t : IndexType) (opts : Opts) : ∃ wi wo ob, StockR2C exIn exOutC 1 wi wo opts ob ∧ SmallGrid t opts.algorithm 4 256 3 exIn.length wi.points.card ∧
    MachineGrid t exIn exOutC wi := by
  obtain ⟨wi, wo, ob, S⟩ := exObjectC opts
  have h1 : findWorld exIn = .ok ⟨⟨0, 0, 0⟩, ⟨3, 5, 7⟩, ⟨0, 1, 2⟩⟩ := by decide
  obtain rfl := Except.ok.inj (h1.symm.trans S.geo.worldIn)
  refine ⟨_, wo, ob, S, ?_, by decide, by cases t <;> decide, by decide, by cases t <;> decide, by decide⟩
  have h : (Box.points ⟨⟨0, 0, 0⟩, ⟨3, 5, 7⟩, ⟨0, 1, 2⟩⟩).card = 192 := by decide +kernel
  rw [h, show exIn.length = 4 from rfl]
  exact ⟨by decide, by decide, by decide, by cases t <;> decide, fun _ => by decide⟩

/-- Four ranks with a quarter of `hugeBox` each. -/
def hugeQuarters : List Box := [⟨⟨0, 0, 0⟩, ⟨2047, 2047, 255⟩, ⟨0, 1, 2⟩⟩, ⟨⟨0, 0, 256⟩, ⟨2047, 2047, 511⟩, ⟨0, 1, 2⟩⟩,
  ⟨⟨0, 0, 512⟩, ⟨2047, 2047, 767⟩, ⟨0, 1, 2⟩⟩, ⟨⟨0, 0, 768⟩, ⟨2047, 2047, 1023⟩, ⟨0, 1, 2⟩⟩]

/-- The hypotheses of `C79_object` on a grid of `2 ^ 32` indexes: four ranks with `2 ^ 30` indexes each, default options. -/
example : ∃ wi wo ob, Geometry hugeQuarters hugeQuarters none wi wo ∧ wi.count = 2 ^ 32 ∧
    makeFft3d .stock hugeQuarters hugeQuarters (Opts.default true) = .ok ob ∧
    MachineGrid .longLong hugeQuarters hugeQuarters wi ∧ PlanSizes .longLong (Opts.default true).algorithm 16 256 1 ob.plan := by
  obtain ⟨wi, wo, h, -⟩ := checked_geometry (bin := hugeQuarters) (bout := hugeQuarters) (r2c := none) (by decide) rfl (by decide) (by decide)
    ⟨⟨⟨0, 0, 0⟩, ⟨2047, 2047, 255⟩, ⟨0, 1, 2⟩⟩, by decide, ⟨0, 0, 0⟩, by decide⟩
  have h1 : findWorld hugeQuarters = .ok hugeBox := by decide
  obtain rfl := Except.ok.inj (h1.symm.trans h.worldIn)
  have hcheck : (planOperations hugeQuarters hugeQuarters none (Opts.default true)).toOption.map (fun p =>
      decide (p.in0.length = 4) && (List.finRange 4).all fun i => (p.inAt i ++ p.outAt i).all fun b => decide (b.count ≤ 2 ^ 30)) = some true := by decide +kernel
  cases hp : planOperations hugeQuarters hugeQuarters none (Opts.default true) with
  | error e => rw [hp] at hcheck; cases hcheck
  | ok p =>
    rw [hp] at hcheck
    have hc := Option.some.inj hcheck
    simp only [Bool.and_eq_true, decide_eq_true_eq, List.all_eq_true] at hc
    obtain ⟨ob, hob, -⟩ := C54_object h .stock (fun z h => Family.noConfusion h) hp
    obtain ⟨e, -⟩ := makeFft3d_ok h hob
    obtain rfl : ob.plan = p := Except.ok.inj (e.symm.trans hp)
    have small : ∀ i, ∀ b ∈ ob.plan.inAt i ++ ob.plan.outAt i, b.points.card ≤ 2 ^ 30 := by
      intro i b hb
      have := hc.2 i (List.mem_finRange i) b hb
      rw [Box.count_eq_card] at this
      exact_mod_cast this
    refine ⟨_, wo, ob, h, hugeCount, hob, ⟨by decide, by decide, by rw [hugeCount]; decide, by decide, by decide⟩, by rw [hc.1]; decide, fun i b hb => ?_, fun i r a b ha hb => ?_, fun h => by cases h⟩
    · have := small i b hb
      omega
    · have h1 := small i a (List.mem_append_left _ (List.mem_of_getElem? ha))
      have h2 := small i b (List.mem_append_right _ (List.mem_of_getElem? hb))
      show _ < (2 ^ 63 : Int)
      omega

end Verif
