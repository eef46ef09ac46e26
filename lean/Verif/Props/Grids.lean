import Verif.Grids
import Verif.Props.Plan
import Verif.Props.Mpi
import Mathlib.Data.List.ProdSigma

/-!
# The grids of processes that the benchmark reports
-/

namespace Verif

/-- The number of ranks that hold indexes. -/
def busyRanks (shape : List Box) : Nat := shape.countP fun b => decide (∀ d : Fin 3, b.low.get d ≤ b.high.get d)

/-! ## C94 -/

/-- C94: boxes that form a grid are reported with the dimensions of this grid. -/
theorem C94_counts {shape : List Box} {g : A3 Nat} (h : FormsGrid shape g) : gridOf shape = g := h.gridOf

/-- C94: the product of the three numbers is the number of the ranks that hold indexes. -/
theorem C94_product {shape : List Box} {g : A3 Nat} {w : Box} (h : FormsGrid shape g) (ht : Tiles shape w) :
    (gridOf shape).get 0 * (gridOf shape).get 1 * (gridOf shape).get 2 = busyRanks shape := by
  rw [h.gridOf]
  obtain ⟨-, cuts, a1, a2, a3⟩ := h
  let tr : Box → (Int × Int) × (Int × Int) × (Int × Int) := fun b => (interval b 0, interval b 1, interval b 2)
  have nd : ∀ d, (cuts d).Nodup := fun d => cuts_nodup (a1 d).2.1 (a1 d).2.2
  have hbusy : ∀ b : Box, (decide (∀ d : Fin 3, b.low.get d ≤ b.high.get d) = true) ↔ ∀ d, b.low.get d ≤ b.high.get d := fun b => decide_eq_true_iff
  have hp : ((shape.filter fun b => decide (∀ d : Fin 3, b.low.get d ≤ b.high.get d)).map tr).Perm (cuts 0 ×ˢ cuts 1 ×ˢ cuts 2) := by
    refine (List.perm_ext_iff_of_nodup ?_ ((nd 0).product ((nd 1).product (nd 2)))).2 fun x => ?_
    · have hdis : shape.Pairwise fun b c => (∀ d, b.low.get d ≤ b.high.get d) → tr b ≠ tr c := by
        rw [List.pairwise_iff_getElem]
        intro i j hi hj hij hb e
        simp only [tr, interval, Prod.mk.injEq] at e
        have hm : ∀ c : Box, (∀ d, c.low.get d = shape[i].low.get d ∧ c.high.get d = shape[i].high.get d) → shape[i].low ∈ c := fun c hc d => by
          have := hc d; have := hb d; omega
        have := ht.unique (i := i) (j := j) (p := shape[i].low) hi hj (hm _ fun d => ⟨rfl, rfl⟩)
          (hm _ fun d => match d with
            | 0 => ⟨e.1.1.symm, e.1.2.symm⟩
            | 1 => ⟨e.2.1.1.symm, e.2.1.2.symm⟩
            | 2 => ⟨e.2.2.1.symm, e.2.2.2.symm⟩)
        omega
      rw [List.Nodup, List.pairwise_map]
      exact List.Pairwise.imp_of_mem (fun {b c} hb _ h => h ((hbusy b).1 (List.mem_filter.1 hb).2)) (hdis.filter _)
    · rw [List.mem_map]
      obtain ⟨x0, x1, x2⟩ := x
      rw [List.mem_product, List.mem_product]
      constructor
      · rintro ⟨b, hb, e⟩
        obtain ⟨hb, hn⟩ := List.mem_filter.1 hb
        have hin : ∀ d, interval b d ∈ cuts d := fun d => (a2 b hb d).resolve_left fun e => by
          have := (hbusy b).1 hn d
          unfold interval at e
          rw [Prod.mk.injEq] at e
          omega
        simp only [tr, Prod.mk.injEq] at e
        obtain ⟨rfl, rfl, rfl⟩ := e
        exact ⟨hin 0, hin 1, hin 2⟩
      · rintro ⟨k0, k1, k2⟩
        obtain ⟨b, hb, rfl, rfl, rfl⟩ := a3 x0 k0 x1 k1 x2 k2
        refine ⟨b, List.mem_filter.2 ⟨hb, (hbusy b).2 fun d => ?_⟩, rfl⟩
        match d with
        | 0 => exact (a1 0).2.2 _ k0
        | 1 => exact (a1 1).2.2 _ k1
        | 2 => exact (a1 2).2.2 _ k2
  have := hp.length_eq
  rw [List.length_map, List.length_product, List.length_product, (a1 0).1, (a1 1).1, (a1 2).1] at this
  rw [busyRanks, List.countP_eq_length_filter, this, mul_assoc]

/-- C94: the boxes that `split_world` makes from a grid of at most as many processes as indexes in every direction are reported with this grid. -/
theorem C94_split {w : Box} {g : A3 Nat} {l : List Box} (hg : ∀ d, 0 < g.get d) (hs : ∀ d, (g.get d : Int) ≤ w.high.get d - w.low.get d + 1)
    (hl : splitWorld w g Remap.all = .ok l) : gridOf l = g :=
  (splitWorld_grid (ranks := g.get 0 * g.get 1 * g.get 2) hg (fun d => by simpa [Box.size] using hs d) (.inl ⟨rfl, rfl⟩) hl).gridOf

/-- C94, as far as it is true: between user distributions that form grids all the five shapes of a plan are reported with the grids they form, and the product of the
numbers is the number of busy ranks. For slabs the world must have as many indexes as there are ranks in every direction. Missing: shorter worlds with slabs, where the
claim is false (`C94_false_slabs`). -/
theorem C94_plan_partial {bin bout : List Box} {r2c : Option (Fin 3)} {wi wo : Box} {opts : Opts} {p : Plan} (geo : Geometry bin bout r2c wi wo)
    (hlong : opts.usePencils = true ∨ ∀ d, (bin.length : Int) ≤ wi.size.get d ∧ (bin.length : Int) ≤ wo.size.get d)
    (hi : ∃ g, FormsGrid bin g) (ho : ∃ g, FormsGrid bout g) (h : planOperations bin bout r2c opts = .ok p) :
    (computeGrids p).length = 5 ∧ ∀ (i : Nat) (g : A3 Nat), (computeGrids p)[i]? = some g → ∃ shape, [p.in0, p.in1, p.in2, p.in3, p.out3][i]? = some shape ∧
      FormsGrid shape g ∧ g.get 0 * g.get 1 * g.get 2 = busyRanks shape := by
  have hp := planOperations_grid geo hlong hi ho h
  have ht : ∀ l ∈ gridShapes p, ∃ w, Tiles l w := by
    obtain ⟨t0, t1⟩ := C14_stages_tile geo h
    intro l hl
    simp only [gridShapes, List.mem_cons, List.not_mem_nil, or_false] at hl
    rcases hl with rfl | rfl | rfl | rfl | rfl
    · exact ⟨_, (t0 _ (by simp)).2⟩
    all_goals exact ⟨_, (t1 _ (by simp)).2⟩
  refine ⟨rfl, fun i g hg => ?_⟩
  unfold computeGrids at hg
  rw [List.getElem?_map, Option.map_eq_some_iff] at hg
  obtain ⟨shape, hsh, rfl⟩ := hg
  have hm := List.mem_of_getElem? hsh
  obtain ⟨g, hg⟩ := hp shape hm
  obtain ⟨w, hw⟩ := ht shape hm
  refine ⟨shape, hsh, ?_, C94_product hg hw⟩
  rw [hg.gridOf]; exact hg

theorem gridOf_same {l m : List Box} (h : SameBounds l m) : gridOf l = gridOf m := by
  refine A3.ext' fun d => ?_
  rw [gridOf, gridOf, A3.get_of, A3.get_of, distinctIntervals, distinctIntervals]
  have key : ∀ l : List Box, ∀ acc, l.foldl (fun (acc : List (Int × Int)) b =>
      let r := (b.low d, b.high d)
      if r = (0, -1) then acc else if r ∈ acc then acc else acc ++ [r]) acc = (l.map fun b => (b.low, b.high)).foldl (fun (acc : List (Int × Int)) b =>
      let r := (b.1 d, b.2 d)
      if r = (0, -1) then acc else if r ∈ acc then acc else acc ++ [r]) acc := fun l acc => by rw [List.foldl_map]
  rw [key, key, h]

/-- C94: a dash stands at every reshape that keeps the bounds of all the boxes, also at the one ahead of a real-to-complex transform. -/
theorem C94_dash {bin bout : List Box} {r2c : Option (Fin 3)} {wi wo : Box} {opts : Opts} {p : Plan} (geo : Geometry bin bout r2c wi wo)
    (hi : ∃ g, FormsGrid bin g) (h : planOperations bin bout r2c opts = .ok p) :
    (SameBounds p.in0 p.out0 → printGrid p 1 = none) ∧ (SameBounds p.in1 p.out1 → printGrid p 2 = none) ∧
      (SameBounds p.in2 p.out2 → printGrid p 3 = none) ∧ (SameBounds p.in3 p.out3 → printGrid p 4 = none) := by
  obtain ⟨r, -, ok⟩ := planOperations_ok geo h
  refine ⟨fun hs => ?_, fun hs => ?_, fun hs => ?_, fun hs => ?_⟩
  · obtain ⟨g, hg⟩ := hi
    rw [← ok.in0] at hg
    have h0 : FormsGrid p.out0 g := hg.congr
      (fun b hb => by
        have : (b.low, b.high) ∈ p.in0.map fun b => (b.low, b.high) := hs ▸ List.mem_map.2 ⟨b, hb, rfl⟩
        obtain ⟨c, hc, e⟩ := List.mem_map.1 this
        rw [Prod.mk.injEq] at e
        exact ⟨c, hc, fun d => by unfold interval; rw [e.1, e.2]⟩)
      (fun b hb => by
        have : (b.low, b.high) ∈ p.out0.map fun b => (b.low, b.high) := hs ▸ List.mem_map.2 ⟨b, hb, rfl⟩
        obtain ⟨c, hc, e⟩ := List.mem_map.1 this
        rw [Prod.mk.injEq] at e
        exact ⟨c, hc, fun d => by unfold interval; rw [e.1, e.2]⟩)
    exact if_pos ⟨by norm_num, by simp only [computeGrids, gridShapes, List.map_cons]; show some _ = some _; rw [ok.in1, (h0.applyR2c r2c).gridOf, hg.gridOf]⟩
  · exact if_pos ⟨by norm_num, by show some _ = some _; rw [gridOf_same hs, ok.in2]⟩
  · exact if_pos ⟨by norm_num, by show some _ = some _; rw [gridOf_same hs, ok.in3]⟩
  · exact if_pos ⟨by norm_num, by show some _ = some _; rw [gridOf_same hs]⟩

/-- C94: the line of the benchmark begins with the grid of the input; then it shows every grid that differs from the one before, and a dash for the others. -/
theorem C94_printed {p : Plan} {g : Nat → A3 Nat} (h0 : FormsGrid p.in0 (g 0)) (h1 : FormsGrid p.in1 (g 1)) (h2 : FormsGrid p.in2 (g 2))
    (h3 : FormsGrid p.in3 (g 3)) (h4 : FormsGrid p.out3 (g 4)) :
    printGrid p 0 = some (g 0) ∧ ∀ i, i < 4 → (g (i + 1) = g i → printGrid p (i + 1) = none) ∧ (g (i + 1) ≠ g i → printGrid p (i + 1) = some (g (i + 1))) := by
  have hc : computeGrids p = [g 0, g 1, g 2, g 3, g 4] := by
    simp only [computeGrids, gridShapes, List.map_cons, List.map_nil, h0.gridOf, h1.gridOf, h2.gridOf, h3.gridOf, h4.gridOf]
  unfold printGrid
  rw [hc]
  refine ⟨by simp, fun i hi => ?_⟩
  have : i = 0 ∨ i = 1 ∨ i = 2 ∨ i = 3 := by omega
  rcases this with rfl | rfl | rfl | rfl <;> exact ⟨fun e => by simp [e], fun e => by simp [e]⟩

/-! Examples: the bricks of C13 form grids, and the plan between them is reported as expected. -/

theorem exIn_grid : FormsGrid exIn ⟨2, 2, 1⟩ :=
  ⟨by decide, fun d => if d = 0 then [(0, 1), (2, 3)] else if d = 1 then [(0, 2), (3, 5)] else [(0, 7)], by decide, by decide, by decide⟩

theorem exOutC_grid : FormsGrid exOutC ⟨1, 2, 2⟩ :=
  ⟨by decide, fun d => if d = 0 then [(0, 3)] else if d = 1 then [(0, 1), (2, 3)] else [(0, 3), (4, 7)], by decide, by decide, by decide⟩

example : ∃ wi wo p, Geometry exIn exOutC (some 1) wi wo ∧ (∃ g, FormsGrid exIn g) ∧ (∃ g, FormsGrid exOutC g) ∧
    planOperations exIn exOutC (some 1) (Opts.default true) = .ok p ∧ (computeGrids p)[1]? = some ⟨2, 1, 2⟩ ∧ printGrid p 4 = none := by
  obtain ⟨wi, wo, h, -⟩ := exGeometryC
  have hp : (planOperations exIn exOutC (some 1) (Opts.default true)).map (fun p => decide ((computeGrids p)[1]? = some ⟨2, 1, 2⟩ ∧ printGrid p 4 = none)) = .ok true := by
    decide +kernel
  cases e : planOperations exIn exOutC (some 1) (Opts.default true) with
  | error x => rw [e] at hp; cases hp
  | ok p =>
    rw [e] at hp
    injection hp with hp
    exact ⟨wi, wo, p, h, ⟨_, exIn_grid⟩, ⟨_, exOutC_grid⟩, rfl, of_decide_eq_true hp⟩

example : (splitWorld ⟨⟨0, 0, 0⟩, ⟨4, 6, 3⟩, ⟨0, 1, 2⟩⟩ ⟨2, 3, 1⟩ Remap.all).map gridOf = .ok ⟨2, 3, 1⟩ := by decide +kernel

/-- The plan between the bricks: (2, 2, 1), then all the directions in turn. -/
example : (planOperations exIn exOut none (Opts.default true)).map (fun p => (List.range 5).map (printGrid p)) =
    .ok [some ⟨2, 2, 1⟩, none, some ⟨2, 1, 2⟩, some ⟨1, 2, 2⟩, none] := by decide +kernel

/-! ## Where the claim fails -/

/-- Four bricks of a world of 4 x 4 x 2 indexes. -/
def flatBricks : List Box := [⟨⟨0, 0, 0⟩, ⟨1, 1, 1⟩, ⟨0, 1, 2⟩⟩, ⟨⟨2, 0, 0⟩, ⟨3, 1, 1⟩, ⟨0, 1, 2⟩⟩,
  ⟨⟨0, 2, 0⟩, ⟨1, 3, 1⟩, ⟨0, 1, 2⟩⟩, ⟨⟨2, 2, 0⟩, ⟨3, 3, 1⟩, ⟨0, 1, 2⟩⟩]

/-- C94 is false for slabs in a short direction: four ranks and two planes give the report 1 x 1 x 3, while two ranks hold indexes and no grid is formed. -/
theorem C94_false_slabs : ∃ p wi wo, Geometry flatBricks flatBricks none wi wo ∧ FormsGrid flatBricks ⟨2, 2, 1⟩ ∧
    planOperations flatBricks flatBricks none { Opts.default false with usePencils := false } = .ok p ∧
    (computeGrids p)[2]? = some ⟨1, 1, 3⟩ ∧ busyRanks p.in2 = 2 ∧ ¬ ∃ g, FormsGrid p.in2 g := by
  obtain ⟨wi, wo, geo, -⟩ : ∃ wi wo, Geometry flatBricks flatBricks none wi wo ∧ wi.low = ⟨0, 0, 0⟩ ∧ wo.low = ⟨0, 0, 0⟩ :=
    checked_geometry (by decide) rfl (by decide) (by decide) ⟨_, List.mem_cons_self .., ⟨0, 0, 0⟩, by decide⟩
  have hp : (planOperations flatBricks flatBricks none { Opts.default false with usePencils := false }).map (fun p =>
      decide ((computeGrids p)[2]? = some ⟨1, 1, 3⟩ ∧ busyRanks p.in2 = 2 ∧ ∃ b ∈ p.in2, interval b 2 = (2, 1))) = .ok true := by decide +kernel
  cases e : planOperations flatBricks flatBricks none { Opts.default false with usePencils := false } with
  | error x => rw [e] at hp; cases hp
  | ok p =>
    rw [e] at hp
    injection hp with hp
    obtain ⟨h1, h2, b, hb, h3⟩ := of_decide_eq_true hp
    refine ⟨p, wi, wo, geo, ⟨by decide, fun d => if d = 2 then [(0, 1)] else [(0, 1), (2, 3)], by decide, by decide, by decide⟩, rfl, h1, h2, ?_⟩
    rintro ⟨g, -, cuts, a1, a2, -⟩
    rcases a2 b hb 2 with h | h
    · rw [h3] at h; cases h
    · have := (a1 2).2.2 _ h
      rw [h3] at this
      norm_num at this

/-- Two slabs of a world of 4 x 4 x 4 indexes. -/
def twoSlabs : List Box := [⟨⟨0, 0, 0⟩, ⟨3, 3, 1⟩, ⟨0, 1, 2⟩⟩, ⟨⟨0, 0, 2⟩, ⟨3, 3, 3⟩, ⟨0, 1, 2⟩⟩]

/-- C94: a dash does not mean that there is no reshape. With `use_reorder`, the default for the stock backend, the object for two slabs transposes the data of both
ranks ahead of the second transform. -/
theorem C94_false_dash : ∃ o, makeFft3d .stock twoSlabs twoSlabs (Opts.default true) = .ok o ∧ printGrid o.plan 2 = none ∧
    (shaperAt o.fft.fwd 0 1).isSome = true ∧ (shaperAt o.fft.fwd 1 1).isSome = true := by
  have hp : (makeFft3d .stock twoSlabs twoSlabs (Opts.default true)).map (fun (o : Object) =>
      decide (printGrid o.plan 2 = none ∧ (shaperAt o.fft.fwd 0 1).isSome = true ∧ (shaperAt o.fft.fwd 1 1).isSome = true)) = .ok true := by decide +kernel
  cases e : makeFft3d .stock twoSlabs twoSlabs (Opts.default true) with
  | error x => rw [e] at hp; cases hp
  | ok o =>
    rw [e] at hp
    injection hp with hp
    exact ⟨o, rfl, of_decide_eq_true hp⟩

/-- All the indexes on one of two ranks. -/
def wholeOn (r : Nat) : List Box := [0, 1].map fun i => if i = r then ⟨⟨0, 0, 0⟩, ⟨3, 3, 3⟩, ⟨0, 1, 2⟩⟩ else ⟨⟨0, 0, 0⟩, ⟨-1, -1, -1⟩, ⟨0, 1, 2⟩⟩

/-- C94: a dash also stands where all the data moves from one rank to another. -/
theorem C94_false_dash_moved : ∃ p, planOperations (wholeOn 0) (wholeOn 1) none ((Opts.default false).useNumSubranks 1) = .ok p ∧ printGrid p 4 = none ∧
    p.in3 = wholeOn 0 ∧ p.out3 = wholeOn 1 := by
  have hp : (planOperations (wholeOn 0) (wholeOn 1) none ((Opts.default false).useNumSubranks 1)).map (fun p =>
      decide (printGrid p 4 = none ∧ p.in3 = wholeOn 0 ∧ p.out3 = wholeOn 1)) = .ok true := by decide +kernel
  cases e : planOperations (wholeOn 0) (wholeOn 1) none ((Opts.default false).useNumSubranks 1) with
  | error x => rw [e] at hp; cases hp
  | ok p =>
    rw [e] at hp
    injection hp with hp
    exact ⟨p, rfl, of_decide_eq_true hp⟩

end Verif
