import Verif.PlanIntLemmas
import Verif.Props.CApi

/-!
# The planner in machine integers (C81)

The functions on boxes and the planner with the integers of the code.  `C81_plan`, `C81_asserts`, `C81_split` and `C81_surface` say for which
sizes nothing overflows, so that the results are the ones of the model in unbounded integers that the other properties are about.  The theorems
`C81_false_*` show that the limits are needed: beyond them a signed integer overflows, or `proc_setup_min_surface` returns a grid for one rank.
-/

namespace Verif

section
variable {t : IndexType} {bin bout : List Box} {r2c : Option (Fin 3)} {wi wo : Box}

/-- C81: for a valid geometry with sizes in the range of the types the planner gives the plan computed without overflow, whatever the options. -/
theorem C81_plan (geo : Geometry bin bout r2c wi wo) (m : MachineGrid t bin bout wi) (opts : Opts) :
    planOperationsM t bin bout r2c opts = planOperations bin bout r2c opts := planOperationsM_eq geo m opts

/-- C81: the checks of a debug build accept every valid geometry with sizes in the range of the types, without overflow. -/
theorem C81_asserts (geo : Geometry bin bout r2c wi wo) (m : MachineGrid t bin bout wi) : planAssertsM t bin bout r2c = .ok () := by
  rw [planAssertsM_eq geo m]
  refine asserts_geometry geo (A3.ext' fun d => ?_)
  rw [m.origin d]
  match d with
  | 0 => rfl
  | 1 => rfl
  | 2 => rfl

/-- C81: `split_world` for every world at the origin whose sizes fit in the type, every grid and every set of ranks. -/
theorem C81_split {w : Box} (low : ∀ d, w.low.get d = 0) (size : ∀ d, 0 < w.size.get d ∧ w.size.get d < t.bound) (g : A3 Nat) (r : Remap) :
    splitWorldM t w g r = splitWorld w g r := by
  have hs : ∀ d, w.size.get d = w.high.get d + 1 := by
    intro d
    have := low d
    simp only [Box.size, A3.get_of]
    omega
  have hw : ExtentsFit t w := by
    refine ⟨low, fun d => ?_, fun d => ?_⟩ <;> have := size d <;> have := hs d <;> omega
  exact (splitWorldM_ok hw hw.inside g r).1

/-- C81: `proc_setup_min_surface` if a rank has at most `2 ^ 30 - 2` indexes on average (with `int` coordinates). -/
theorem C81_surface {w : Box} {n : Nat} (hn : 0 < n) (hs : 2 * (w.count / n) + 1 < t.bound - 1) :
    procSetupMinSurfaceM t w n = .ok (procSetupMinSurface w n) := procSetupMinSurfaceM_ok hn hs

end

/-! ## Sizes that are too large -/

theorem arith_overflow {t : IndexType} {x : Int} (h : t.bound ≤ x) : t.arith x = .error .ub := by
  unfold IndexType.arith IndexType.fits
  rw [if_neg (by simp only [Bool.and_eq_true, decide_eq_true_eq]; omega)]

theorem intArith_overflow {x : Int} (h : 2147483648 ≤ x) : intArith x = .error .ub := by
  apply arith_overflow
  norm_num [IndexType.bound]
  exact h

theorem getFactors_cons {n : Nat} (h : 2 ≤ n) : ∃ l, getFactors n = (1, n) :: l := by
  unfold getFactors
  obtain ⟨k, rfl⟩ : ∃ k, n = k + 1 := ⟨n - 1, by omega⟩
  rw [List.range'_succ, List.filter_cons, if_neg (by omega : ¬ k + 1 = 1), if_pos (by rw [Nat.mod_one]; rfl), List.map_cons, Nat.div_one]
  exact ⟨_, rfl⟩

theorem makeProcgridM_overflow {n : Nat} (h : 1073741824 ≤ n) : makeProcgridM n = .error .ub := by
  unfold makeProcgridM getFactorsM
  by_cases h1 : n + 1 < 2147483648
  · rw [intArith_ok (by omega) (by omega), bind_of_ok, bind_of_ok]
    obtain ⟨l, hl⟩ := getFactors_cons (n := n) (by omega)
    rw [hl]
    dsimp only
    have : getAreaM (1, n) = .error .ub := by
      unfold getAreaM
      dsimp only
      rw [intArith_ok (x := ((1 : Nat) : Int) * (n : Int)) (by omega) (by omega), bind_of_ok, intArith_ok (by omega) (by omega), bind_of_ok]
      exact intArith_overflow (by omega)
    rw [this, bind_of_error]
  · rw [intArith_overflow (by omega), bind_of_error, bind_of_error]

theorem not_ok_bind {α β : Type} {x : Res α} {f : α → Res β} {b : β} (h : ∀ a, x = .ok a → f a ≠ .ok b) : (x >>= f) ≠ .ok b := by
  cases x with
  | error e => exact fun h => by cases h
  | ok a => exact h a rfl

/-- C81: the limit on the number of ranks is sharp.  With `2 ^ 30` ranks or more the planner overflows on an `int`, whatever the boxes, the type of the
coordinates and the options (without a smaller communicator). -/
theorem C81_false_ranks {t : IndexType} {bin : List Box} (hn : 2 ^ 30 ≤ bin.length) (bout : List Box) (r2c : Option (Fin 3)) {opts : Opts}
    (ho : opts.numSub ≤ 0) (p : Plan) : planOperationsM t bin bout r2c opts ≠ .ok p := by
  have hn : 1073741824 ≤ bin.length := by norm_num at hn; exact hn
  have hr : planRemap bin.length opts = .ok Remap.all := by
    unfold planRemap
    rw [if_neg (by omega)]
  have hwr : workRanks bin Remap.all = bin.length := by simp [workRanks, Remap.all, Remap.isAll]
  have pencil : ∀ v vo, planPencilM t v vo bin bout r2c opts Remap.all ≠ .ok p := by
    intro v vo
    unfold planPencilM
    rw [hwr, makeProcgridM_overflow hn, bind_of_error]
    exact fun h => by cases h
  unfold planOperationsM
  rw [hr, bind_of_ok]
  refine not_ok_bind fun v _ => not_ok_bind fun vo _ => ?_
  split
  · exact pencil v vo
  · unfold planSlabM
    split
    · exact pencil v vo
    · dsimp only
      rw [hwr, makeProcgridM_overflow hn, bind_of_error]
      exact fun h => by cases h

/-- Two ranks with `2 ^ 30 x 2` indexes each on a grid of `2 ^ 31 x 2` indexes. -/
def longLine : List Box := [⟨⟨0, 0, 0⟩, ⟨1073741823, 1, 0⟩, ⟨0, 1, 2⟩⟩, ⟨⟨1073741824, 0, 0⟩, ⟨2147483647, 1, 0⟩, ⟨0, 1, 2⟩⟩]

/-- C81, negation: with `int` coordinates there are boxes that can be constructed, with valid geometry, for which the planner overflows: the world has
one index too many.  With `long long` coordinates there is a plan. -/
theorem C81_false_world : (∃ wi wo, Geometry longLine longLine none wi wo ∧ ∀ d, wi.low.get d = 0) ∧
    (∀ b ∈ longLine, boxM .int b.low b.high b.order = .ok b ∧ b.count = 2 ^ 31) ∧
    (∀ opts, opts.numSub ≤ 0 → planOperationsM .int longLine longLine none opts = .error .ub) ∧
    ∃ p, planOperationsM .longLong longLine longLine none (Opts.default true) = .ok p := by
  obtain ⟨wi, wo, h, h0⟩ := checked_geometry (bin := longLine) (bout := longLine) (r2c := none) (by decide +kernel) rfl (by decide) (by decide)
    ⟨⟨⟨0, 0, 0⟩, ⟨1073741823, 1, 0⟩, ⟨0, 1, 2⟩⟩, by decide, ⟨0, 0, 0⟩, by decide⟩
  refine ⟨⟨wi, wo, h, fun d => by rw [h0.1]; fin_cases d <;> rfl⟩, by decide +kernel, fun opts ho => ?_, ?_⟩
  · unfold planOperationsM planRemap
    rw [if_neg (by omega), bind_of_ok, show findWorldM .int longLine = .error .ub from by decide +kernel, bind_of_error]
  · have : (planOperationsM .longLong longLine longLine none (Opts.default true)).toOption.isSome = true := by decide +kernel
    cases hp : planOperationsM .longLong longLine longLine none (Opts.default true) with
    | error e => rw [hp] at this; cases this
    | ok p => exact ⟨p, rfl⟩

/-- C81, negation: the limit on the indexes per rank in `proc_setup_min_surface` is sharp.  On a world of `2 ^ 30 x 2 x 1` indexes, two ranks and `int`
coordinates a surface overflows, with `2 ^ 30` indexes per rank.  On a line of `2 ^ 31 - 2` indexes, `2 ^ 30 - 1` per rank, the surface is the largest `int`, no
grid is smaller than that, and the function returns the grid of one rank. -/
theorem C81_false_surface :
    (∀ w : Box, w = ⟨⟨0, 0, 0⟩, ⟨1073741823, 1, 0⟩, ⟨0, 1, 2⟩⟩ → w.count = 2 * 2 ^ 30 ∧ procSetupMinSurfaceM .int w 2 = .error .ub) ∧
    ∀ w : Box, w = ⟨⟨0, 0, 0⟩, ⟨0, 2147483645, 0⟩, ⟨0, 1, 2⟩⟩ → w.count = 2 * (2 ^ 30 - 1) ∧ procSetupMinSurfaceM .int w 2 = .ok ⟨1, 1, 1⟩ ∧
      procSetupMinSurfaceM .longLong w 2 = .ok ⟨1, 2, 1⟩ := by
  refine ⟨fun w hw => ?_, fun w hw => ?_⟩ <;> subst hw <;> decide +kernel

/-! ## Examples -/

/-- The hypotheses of `C81_plan` and `C81_asserts`, with an empty box whose lower bound is above the upper bound. -/
def exWithEmpty : List Box := [⟨⟨0, 0, 0⟩, ⟨40000, 40000, 19999⟩, ⟨0, 1, 2⟩⟩, ⟨⟨5, 7, 9⟩, ⟨4, 3, 2⟩, ⟨0, 1, 2⟩⟩, ⟨⟨0, 0, 20000⟩, ⟨40000, 40000, 40000⟩, ⟨0, 1, 2⟩⟩]

example (t : IndexType) : ∃ wi wo, Geometry exWithEmpty exWithEmpty none wi wo ∧ MachineGrid t exWithEmpty exWithEmpty wi := by
  obtain ⟨wi, wo, h, -⟩ := checked_geometry (bin := exWithEmpty) (bout := exWithEmpty) (r2c := none) (by decide +kernel) rfl (by decide) (by decide)
    ⟨_, List.mem_cons_self .., ⟨0, 0, 0⟩, by decide⟩
  have h1 : findWorld exWithEmpty = .ok ⟨⟨0, 0, 0⟩, ⟨40000, 40000, 40000⟩, ⟨0, 1, 2⟩⟩ := by decide
  obtain rfl := Except.ok.inj (h1.symm.trans h.worldIn)
  exact ⟨_, wo, h, by decide, by cases t <;> decide, by decide, by cases t <;> decide, by decide⟩

/-- The hypotheses of `C81_split` and `C81_surface`, 8 ranks with `8 * 10 ^ 8` indexes. -/
example : ∃ w : Box, (∀ d, w.low.get d = 0) ∧ (∀ d, 0 < w.size.get d ∧ w.size.get d < IndexType.int.bound) ∧
    2 * (w.count / (8 : Nat)) + 1 < IndexType.int.bound - 1 ∧ procSetupMinSurfaceM .int w 8 = .ok ⟨2, 2, 2⟩ :=
  ⟨⟨⟨0, 0, 0⟩, ⟨999, 999, 799⟩, ⟨0, 1, 2⟩⟩, by decide, by decide, by decide, by decide +kernel⟩

end Verif
