import Verif.PlanTotal

/-!
# Properties of the planner (C13 - C19)

The planner is the release build of `plan_operations`; `Geometry` is the specification of a valid input,
`checked_geometry` says that the checks of debug builds accept nothing else.
Helper lemmas are in `Verif/PlanLemmas.lean`, `PlanMain.lean` and `PlanTotal.lean`.
-/

namespace Verif

theorem orderIsIdentical_spec {l : List Box} (h : orderIsIdentical l = true) :
    ∀ b ∈ l, ∀ c, l.head? = some c → b.order = c.order := by
  cases l with
  | nil => simp
  | cons a l =>
    intro b hb c hc
    simp only [List.head?_cons, Option.some.injEq] at hc
    subst hc
    simp only [orderIsIdentical, List.all_eq_true, beq_iff_eq] at h
    ext d
    have := h b hb d (mem_dims d)
    simpa using congrArg Fin.val this

/-- Whatever the checks of a debug build accept is a valid geometry, given as many output as input boxes, storage
orders that are permutations on rank 0 and at least one index. -/
theorem checked_geometry {bin bout : List Box} {r2c : Option (Fin 3)} (h : planAsserts bin bout r2c = .ok ())
    (hl : bout.length = bin.length) (hio : ∀ b, bin.head? = some b → IsOrder b.order)
    (hoo : ∀ b, bout.head? = some b → IsOrder b.order) (hne : ∃ b ∈ bin, ∃ p : A3 Int, p ∈ b) :
    ∃ wi wo, Geometry bin bout r2c wi wo ∧ wi.low = ⟨0, 0, 0⟩ ∧ wo.low = ⟨0, 0, 0⟩ := by
  unfold planAsserts at h
  simp only [bind_ok] at h
  obtain ⟨wi, hwi, wo, hwo, u1, hc1, u2, hc2, h⟩ := h
  obtain ⟨hz1, ht1⟩ := (worldComplete_iff_tiles hwi).1 hc1
  obtain ⟨hz2, ht2⟩ := (worldComplete_iff_tiles hwo).1 hc2
  obtain ⟨hsame, hoi, hoo'⟩ : (match (generalizing := false) r2c with
      | none => wi.sameBounds wo
      | some d => (wi.r2c d).sameBounds wo) = true ∧ orderIsIdentical bin = true ∧ orderIsIdentical bout = true := by
    by_contra hc
    rw [if_neg] at h
    · cases h
    · simp only [Bool.and_eq_true, not_and] at hc ⊢
      exact fun h => hc h.1 h.2
  obtain ⟨b0, hb0, p0, hp0⟩ := hne
  have hpw : p0 ∈ wi := ht1.mem_world hb0 hp0
  have zero : ∀ w : Box, (∀ d, w.low.get d = 0) → w.low = ⟨0, 0, 0⟩ := by
    intro w hw
    ext d
    rw [hw d]
    match d with
    | 0 => rfl
    | 1 => rfl
    | 2 => rfl
  have ord : ∀ l : List Box, l ≠ [] → orderIsIdentical l = true → (∀ b, l.head? = some b → IsOrder b.order) →
      ∃ o, IsOrder o ∧ ∀ b ∈ l, b.order = o := by
    intro l hl h1 h2
    cases l with
    | nil => exact absurd rfl hl
    | cons a l => exact ⟨a.order, h2 a rfl, fun b hb => orderIsIdentical_spec h1 b hb a rfl⟩
  have hbin : bin ≠ [] := List.ne_nil_of_mem hb0
  have hbout : bout ≠ [] := by rintro rfl; simp only [List.length_nil] at hl; exact hbin (List.eq_nil_of_length_eq_zero hl.symm)
  refine ⟨wi, wo, ⟨hl, hwi, hwo, ht1, ht2, ⟨p0, hpw⟩, ?_, ord bin hbin hoi hio, ord bout hbout hoo' hoo⟩,
    zero wi hz1, zero wo hz2⟩
  intro d
  cases r2c with
  | none =>
    simp only [Box.sameBounds, List.all_eq_true, Bool.and_eq_true, beq_iff_eq] at hsame
    have := hsame d (mem_dims d)
    simpa using ⟨this.1.symm, this.2.symm⟩
  | some k =>
    simp only [Box.sameBounds, List.all_eq_true, Bool.and_eq_true, beq_iff_eq] at hsame
    have := hsame d (mem_dims d)
    obtain ⟨b1, b2⟩ := r2c_bounds (Box.empty_false_of_mem hpw) k d
    refine ⟨this.1.symm.trans b1, this.2.symm.trans (b2.trans ?_)⟩
    simp only [Option.some.injEq]

/-! Concrete geometries used by the examples below: bricks on 4 ranks, complex-to-complex and real-to-complex. -/

/-- A world of 4 x 6 x 8 indexes, 4 bricks. -/
def exIn : List Box := [⟨⟨0, 0, 0⟩, ⟨1, 2, 7⟩, ⟨0, 1, 2⟩⟩, ⟨⟨2, 0, 0⟩, ⟨3, 2, 7⟩, ⟨0, 1, 2⟩⟩,
  ⟨⟨0, 3, 0⟩, ⟨1, 5, 7⟩, ⟨0, 1, 2⟩⟩, ⟨⟨2, 3, 0⟩, ⟨3, 5, 7⟩, ⟨0, 1, 2⟩⟩]

/-- The same world, another distribution and another order. -/
def exOut : List Box := [⟨⟨0, 0, 0⟩, ⟨3, 2, 3⟩, ⟨2, 1, 0⟩⟩, ⟨⟨0, 3, 0⟩, ⟨3, 5, 3⟩, ⟨2, 1, 0⟩⟩,
  ⟨⟨0, 0, 4⟩, ⟨3, 2, 7⟩, ⟨2, 1, 0⟩⟩, ⟨⟨0, 3, 4⟩, ⟨3, 5, 7⟩, ⟨2, 1, 0⟩⟩]

/-- The complex world 4 x 4 x 8 of the real world above, shrunk in direction 1. -/
def exOutC : List Box := [⟨⟨0, 0, 0⟩, ⟨3, 1, 3⟩, ⟨2, 1, 0⟩⟩, ⟨⟨0, 2, 0⟩, ⟨3, 3, 3⟩, ⟨2, 1, 0⟩⟩,
  ⟨⟨0, 0, 4⟩, ⟨3, 1, 7⟩, ⟨2, 1, 0⟩⟩, ⟨⟨0, 2, 4⟩, ⟨3, 3, 7⟩, ⟨2, 1, 0⟩⟩]

theorem exGeometry : ∃ wi wo, Geometry exIn exOut none wi wo ∧ wi.low = ⟨0, 0, 0⟩ ∧ wo.low = ⟨0, 0, 0⟩ :=
  checked_geometry (by decide) rfl (by decide) (by decide) ⟨_, List.mem_cons_self .., ⟨0, 0, 0⟩, by decide⟩

theorem exGeometryC : ∃ wi wo, Geometry exIn exOutC (some 1) wi wo ∧ wi.low = ⟨0, 0, 0⟩ ∧ wo.low = ⟨0, 0, 0⟩ :=
  checked_geometry (by decide) rfl (by decide) (by decide) ⟨_, List.mem_cons_self .., ⟨0, 0, 0⟩, by decide⟩

section
variable {bin bout : List Box} {r2c : Option (Fin 3)} {wi wo : Box} {opts : Opts} {p : Plan}

/-! ## C13 -/

/-- C13: the three transforms go over three different directions, the real-to-complex one first, with the lengths of
the real world. -/
theorem C13_directions (geo : Geometry bin bout r2c wi wo) (h : planOperations bin bout r2c opts = .ok p) :
    (∀ d : Fin 3, [p.dirs.x, p.dirs.y, p.dirs.z].count d = 1) ∧ (∀ k, r2c = some k → p.dirs.x = k) ∧
      (∀ d, p.fftSizes.get d = wi.high.get d - wi.low.get d + 1) := by
  obtain ⟨r, -, ok⟩ := planOperations_ok geo h
  refine ⟨?_, ok.dir0, fun d => by rw [ok.sizes]; simp [Box.size]⟩
  have key : ∀ x y z : Fin 3, (x ≠ y ∧ x ≠ z ∧ y ≠ z) → ∀ d, [x, y, z].count d = 1 := by decide
  exact key _ _ _ ok.dirs

example : (planOperations exIn exOut none (Opts.default true)).map (·.dirs) = .ok ⟨2, 1, 0⟩ := by decide +kernel
example : (planOperations exIn exOutC (some 1) (Opts.default true)).map (·.dirs) = .ok ⟨1, 2, 0⟩ := by decide +kernel

/-! ## C14 -/

/-- C14: every stage has one box per rank and tiles its world: the real world up to the first transform, the complex
world after it. -/
theorem C14_stages_tile (geo : Geometry bin bout r2c wi wo) (h : planOperations bin bout r2c opts = .ok p) :
    (∀ l ∈ [p.in0, p.out0], l.length = bin.length ∧ Tiles l wi) ∧
    (∀ l ∈ [p.in1, p.out1, p.in2, p.out2, p.in3, p.out3], l.length = bin.length ∧ Tiles l wo) := by
  obtain ⟨r, -, ok⟩ := planOperations_ok geo h
  constructor
  · intro l hl
    simp only [List.mem_cons, List.not_mem_nil, or_false] at hl
    rcases hl with rfl | rfl
    · rw [ok.in0]; exact ⟨rfl, geo.tilesIn⟩
    · exact ⟨ok.s0.stage.length, ok.s0.stage.tiles⟩
  · intro l hl
    simp only [List.mem_cons, List.not_mem_nil, or_false] at hl
    rcases hl with rfl | rfl | rfl | rfl | rfl | rfl
    · exact ⟨ok.m0.length, ok.m0.tiles⟩
    · exact ⟨ok.s1.stage.length, ok.s1.stage.tiles⟩
    · rw [ok.in2]; exact ⟨ok.s1.stage.length, ok.s1.stage.tiles⟩
    · exact ⟨ok.s2.stage.length, ok.s2.stage.tiles⟩
    · rw [ok.in3]; exact ⟨ok.s2.stage.length, ok.s2.stage.tiles⟩
    · rw [ok.out3]; exact ⟨geo.length, geo.tilesOut⟩

/-- C14: on a valid geometry of fewer than 2^31 indexes the planner has no undefined behaviour: it returns a plan or
throws `runtime_error`; when no direction of the two worlds is shorter than the number of ranks, it returns. -/
theorem C14_planner_defined (geo : Geometry bin bout r2c wi wo) (hsmall : wi.count < 2 ^ 31) :
    ((∃ p, planOperations bin bout r2c opts = .ok p) ∨ planOperations bin bout r2c opts = .error .runtime) ∧
    ((∀ d, (bin.length : Int) ≤ wi.size.get d ∧ (bin.length : Int) ≤ wo.size.get d) →
      ∃ p, planOperations bin bout r2c opts = .ok p) := by
  constructor
  · rcases planOperations_fine (must := false) (opts := opts) geo hsmall (fun h => by cases h) (fun h => by cases h) with
      h | ⟨-, h⟩
    · exact .inl h
    · exact .inr h
  · intro hf
    rcases planOperations_fine (must := true) (opts := opts) geo hsmall (fun _ d => (hf d).1) (fun _ d => (hf d).2) with
      h | ⟨h, -⟩
    · exact h
    · cases h

example : ∃ wi wo, Geometry exIn exOut none wi wo ∧ wi.count < 2 ^ 31 ∧
    ∀ d, (exIn.length : Int) ≤ wi.size.get d ∧ (exIn.length : Int) ≤ wo.size.get d := by
  obtain ⟨wi, wo, h, -⟩ := exGeometry
  have h1 : findWorld exIn = .ok ⟨⟨0, 0, 0⟩, ⟨3, 5, 7⟩, ⟨0, 1, 2⟩⟩ := by decide
  have h2 : findWorld exOut = .ok ⟨⟨0, 0, 0⟩, ⟨3, 5, 7⟩, ⟨0, 1, 2⟩⟩ := by decide
  have e1 := h.worldIn; have e2 := h.worldOut
  rw [h1] at e1; rw [h2] at e2
  injection e1 with e1; injection e2 with e2
  subst e1 e2
  exact ⟨_, _, h, by decide, by decide⟩

/-! ## C15 -/

/-- C15: ahead of each of the three transforms every box that holds an index spans the world in the direction of the
transform, in the real world for the first one and also in the complex world after it. -/
theorem C15_transforms_local (geo : Geometry bin bout r2c wi wo) (h : planOperations bin bout r2c opts = .ok p) :
    (∀ b ∈ p.out0, (∃ q : A3 Int, q ∈ b) → Spans b wi p.dirs.x) ∧
    (∀ b ∈ p.in1, (∃ q : A3 Int, q ∈ b) → Spans b wo p.dirs.x) ∧
    (∀ b ∈ p.out1, (∃ q : A3 Int, q ∈ b) → Spans b wo p.dirs.y) ∧
    (∀ b ∈ p.out2, (∃ q : A3 Int, q ∈ b) → Spans b wo p.dirs.z) := by
  obtain ⟨r, -, ok⟩ := planOperations_ok geo h
  refine ⟨fun b hb hq => ok.s0.stage.spans b hb (Box.empty_false_iff_mem.2 hq), ?_,
    fun b hb hq => ok.s1.stage.spans b hb (Box.empty_false_iff_mem.2 hq),
    fun b hb hq => ok.s2.stage.spans b hb (Box.empty_false_iff_mem.2 hq)⟩
  rw [ok.in1]
  exact fun b hb hq => applyR2c_spans geo.complex ok.s0.stage.spans b hb (Box.empty_false_iff_mem.2 hq)

example : (planOperations exIn exOutC (some 1) (Opts.default false)).map (fun p => (p.dirs.x, p.out0.head?)) =
    .ok (1, some ⟨⟨0, 0, 0⟩, ⟨1, 5, 3⟩, ⟨0, 1, 2⟩⟩) := by decide +kernel

/-! ## C16 -/

/-- The box after a real-to-complex transform in direction `k` on the box before it. -/
def Shrunk (k : Fin 3) (b c : Box) : Prop :=
  (b.NoIndex ∧ c.NoIndex) ∨ (c.order = b.order ∧ ∀ d, c.low.get d = b.low.get d ∧
    c.high.get d = if d = k then b.low.get d + (b.high.get d - b.low.get d + 1) / 2 else b.high.get d)

/-- C16: the first reshape starts at the boxes of the user, the last one ends there, and every reshape starts from the
distribution that the transform before it leaves behind: the same boxes, or the shrunk ones after the real-to-complex
transform. -/
theorem C16_chain (geo : Geometry bin bout r2c wi wo) (h : planOperations bin bout r2c opts = .ok p) :
    p.in0 = bin ∧ p.out3 = bout ∧ p.in2 = p.out1 ∧ p.in3 = p.out2 ∧
    (r2c = none → p.in1 = p.out0) ∧ (∀ k, r2c = some k → List.Forall₂ (Shrunk k) p.out0 p.in1) := by
  obtain ⟨r, -, ok⟩ := planOperations_ok geo h
  refine ⟨ok.in0, ok.out3, ok.in2, ok.in3, ?_, ?_⟩
  · rintro rfl; exact ok.in1
  · rintro k rfl
    rw [ok.in1]
    simp only [applyR2c, List.forall₂_map_right_iff, List.forall₂_same]
    intro b _
    by_cases he : b.empty = true
    · left
      exact ⟨Box.empty_iff.1 he, Box.empty_iff.1 ((r2c_empty k).trans he)⟩
    · right
      have he : b.empty = false := by simpa using he
      refine ⟨r2c_order k he, fun d => ?_⟩
      obtain ⟨h1, h2⟩ := r2c_bounds he k d
      refine ⟨h1, h2.trans ?_⟩
      by_cases hd : k = d
      · rw [if_pos hd, if_pos hd.symm]
      · rw [if_neg hd, if_neg (fun h => hd h.symm)]

example : (planOperations exIn exOutC (some 1) (Opts.default true)).map (fun p => (p.out0.head?, p.in1.head?)) =
    .ok (some ⟨⟨0, 0, 0⟩, ⟨1, 5, 3⟩, ⟨1, 0, 2⟩⟩, some ⟨⟨0, 0, 0⟩, ⟨1, 3, 3⟩, ⟨1, 0, 2⟩⟩) := by decide +kernel

/-! ## C17 and C18 -/

/-- Rank 0 has an index among the boxes of the user. -/
def RankZeroHolds (bin : List Box) : Prop := ∀ b, bin.head? = some b → ∃ q : A3 Int, q ∈ b

theorem orderGuard_of (h : r2c ≠ none → RankZeroHolds bin ∧ ∀ b ∈ bin, b.count < 2 ^ 31) : OrderGuard bin r2c := by
  intro hr
  exact ⟨fun b hb => Box.empty_false_iff_mem.2 ((h hr).1 b hb), (h hr).2⟩

/-- C17 without the condition on rank 0: with `use_reorder` every box that holds an index has the direction of its transform as the
fastest one. -/
def C17_unguarded : Prop :=
  ∀ (bin bout : List Box) (r2c : Option (Fin 3)) (wi wo : Box) (opts : Opts) (p : Plan),
    Geometry bin bout r2c wi wo → opts.useReorder = true → planOperations bin bout r2c opts = .ok p →
    (∀ b ∈ p.out0, (∃ q : A3 Int, q ∈ b) → b.order.x = p.dirs.x) ∧
    (∀ b ∈ p.out1, (∃ q : A3 Int, q ∈ b) → b.order.x = p.dirs.y) ∧
    (∀ b ∈ p.out2, (∃ q : A3 Int, q ∈ b) → b.order.x = p.dirs.z)

/-- C17: with `use_reorder` every box that holds an index has the direction of its transform as the fastest one, for all
complex-to-complex plans and for real-to-complex plans in which rank 0 has an index (and boxes of fewer than 2^31
indexes). The condition is needed, see `C17_unguarded_false`. -/
theorem C17_reorder_contiguous (geo : Geometry bin bout r2c wi wo) (hu : opts.useReorder = true)
    (hg : r2c ≠ none → RankZeroHolds bin ∧ ∀ b ∈ bin, b.count < 2 ^ 31)
    (h : planOperations bin bout r2c opts = .ok p) :
    (∀ b ∈ p.out0, (∃ q : A3 Int, q ∈ b) → b.order.x = p.dirs.x) ∧
    (∀ b ∈ p.out1, (∃ q : A3 Int, q ∈ b) → b.order.x = p.dirs.y) ∧
    (∀ b ∈ p.out2, (∃ q : A3 Int, q ∈ b) → b.order.x = p.dirs.z) := by
  obtain ⟨r, -, ok⟩ := planOperations_ok geo h
  have g := orderGuard_of hg
  obtain ⟨o0, h0, e0⟩ := ok.s0.order g
  obtain ⟨o1, h1, e1⟩ := ok.s1.order g
  obtain ⟨o2, h2, e2⟩ := ok.s2.order g
  refine ⟨fun b hb hq => ?_, fun b hb hq => ?_, fun b hb hq => ?_⟩
  · rw [h0.2.1 b hb (.inr hq)]; exact e0 hu
  · rw [h1.2.1 b hb (.inr hq)]; exact e1 hu
  · rw [h2.2.1 b hb (.inr hq)]; exact e2 hu

/-- C18 without the condition on rank 0: within each stage all the ranks that hold an index use one storage order, the one that rank
0 uses. -/
def C18_unguarded : Prop :=
  ∀ (bin bout : List Box) (r2c : Option (Fin 3)) (wi wo : Box) (opts : Opts) (p : Plan),
    Geometry bin bout r2c wi wo → planOperations bin bout r2c opts = .ok p →
    ∀ l ∈ [p.in0, p.out0, p.in1, p.out1, p.in2, p.out2, p.in3, p.out3], ∃ o, UsesOrder false l o

/-- C18: one storage order per stage, for all complex-to-complex plans (there even on the ranks without an index) and
for real-to-complex plans in which rank 0 has an index. The condition is needed, see `C18_unguarded_false`. -/
theorem C18_same_order (geo : Geometry bin bout r2c wi wo)
    (hg : r2c ≠ none → RankZeroHolds bin ∧ ∀ b ∈ bin, b.count < 2 ^ 31)
    (h : planOperations bin bout r2c opts = .ok p) :
    ∀ l ∈ [p.in0, p.out0, p.in1, p.out1, p.in2, p.out2, p.in3, p.out3], ∃ o, UsesOrder r2c.isNone l o := by
  obtain ⟨r, -, ok⟩ := planOperations_ok geo h
  have g := orderGuard_of hg
  have A : ∃ o, UsesOrder r2c.isNone bin o := let ⟨o, h1, h2⟩ := geo.orderIn; ⟨o, UsesOrder.of_all h1 h2⟩
  have B : ∃ o, UsesOrder r2c.isNone bout o := let ⟨o, h1, h2⟩ := geo.orderOut; ⟨o, UsesOrder.of_all h1 h2⟩
  have C : ∃ o, UsesOrder r2c.isNone p.out0 o := let ⟨o, h, _⟩ := ok.s0.order g; ⟨o, h⟩
  have D : ∃ o, UsesOrder r2c.isNone p.out1 o := let ⟨o, h, _⟩ := ok.s1.order g; ⟨o, h⟩
  have E : ∃ o, UsesOrder r2c.isNone p.out2 o := let ⟨o, h, _⟩ := ok.s2.order g; ⟨o, h⟩
  intro l hl
  simp only [List.mem_cons, List.not_mem_nil, or_false] at hl
  rcases hl with rfl | rfl | rfl | rfl | rfl | rfl | rfl | rfl
  · rw [ok.in0]; exact A
  · exact C
  · exact ok.m0.order g
  · exact D
  · rw [ok.in2]; exact D
  · exact E
  · rw [ok.in3]; exact E
  · rw [ok.out3]; exact B

example : (planOperations exIn exOutC (some 1) (Opts.default true)).map
      (fun p => (p.out0.map (·.order.x), p.out1.map (·.order.x), p.out2.map (·.order.x))) =
    .ok ([1, 1, 1, 1], [2, 2, 2, 2], [0, 0, 0, 0]) := by decide +kernel
example : RankZeroHolds exIn ∧ ∀ b ∈ exIn, b.count < 2 ^ 31 :=
  ⟨fun b hb => by simp only [exIn, List.head?_cons, Option.some.injEq] at hb; subst hb; exact ⟨⟨0, 0, 0⟩, by decide⟩, by decide⟩

/-- The witness against the full claims: the first rank holds no real index. -/
def emptyZeroIn : List Box := [⟨⟨0, 0, 0⟩, ⟨3, 3, -1⟩, ⟨0, 1, 2⟩⟩, ⟨⟨0, 0, 0⟩, ⟨3, 3, 3⟩, ⟨0, 1, 2⟩⟩]
def emptyZeroOut : List Box := [⟨⟨0, 0, 0⟩, ⟨1, 2, 3⟩, ⟨0, 1, 2⟩⟩, ⟨⟨2, 0, 0⟩, ⟨3, 2, 3⟩, ⟨0, 1, 2⟩⟩]
/-- Slabs with reordering. -/
def emptyZeroOpts : Opts := ⟨true, .alltoallv, false, -1, none⟩

theorem emptyZero_geometry : ∃ wi wo, Geometry emptyZeroIn emptyZeroOut (some 1) wi wo := by
  obtain ⟨wi, wo, h, -⟩ := checked_geometry (bin := emptyZeroIn) (bout := emptyZeroOut) (r2c := some 1)
    (by decide) rfl (by decide) (by decide)
    ⟨⟨⟨0, 0, 0⟩, ⟨3, 3, 3⟩, ⟨0, 1, 2⟩⟩, by decide, ⟨0, 0, 0⟩, by decide⟩
  exact ⟨wi, wo, h⟩

theorem emptyZero_plan : (planOperations emptyZeroIn emptyZeroOut (some 1) emptyZeroOpts).map
      (fun p => (p.dirs, p.out1)) =
    .ok (⟨1, 0, 2⟩, [⟨⟨0, 0, 0⟩, ⟨-1, -1, -1⟩, ⟨0, 1, 2⟩⟩, ⟨⟨0, 0, 0⟩, ⟨3, 2, 3⟩, ⟨1, 0, 2⟩⟩]) := by decide +kernel

/-- Finding: with an empty real box on rank 0 a real-to-complex slab plan transforms along a direction that is not
contiguous although reordering was requested. -/
theorem C17_unguarded_false : ¬ C17_unguarded := by
  intro hc
  obtain ⟨wi, wo, geo⟩ := emptyZero_geometry
  have hp := emptyZero_plan
  cases h : planOperations emptyZeroIn emptyZeroOut (some 1) emptyZeroOpts with
  | error e => rw [h] at hp; cases hp
  | ok p =>
    rw [h] at hp
    simp only [Except.map, Except.ok.injEq, Prod.mk.injEq] at hp
    obtain ⟨hd, ho⟩ := hp
    have := (hc _ _ _ _ _ _ _ geo rfl h).2.1 ⟨⟨0, 0, 0⟩, ⟨3, 2, 3⟩, ⟨1, 0, 2⟩⟩ (by rw [ho]; simp)
      ⟨⟨0, 0, 0⟩, by decide⟩
    rw [hd] at this
    simp at this

/-- Finding: in the same plan the rank with the data and rank 0, whose order decides how the messages are packed,
disagree about the storage order. -/
theorem C18_unguarded_false : ¬ C18_unguarded := by
  intro hc
  obtain ⟨wi, wo, geo⟩ := emptyZero_geometry
  have hp := emptyZero_plan
  cases h : planOperations emptyZeroIn emptyZeroOut (some 1) emptyZeroOpts with
  | error e => rw [h] at hp; cases hp
  | ok p =>
    rw [h] at hp
    simp only [Except.map, Except.ok.injEq, Prod.mk.injEq] at hp
    obtain ⟨hd, ho⟩ := hp
    obtain ⟨o, -, h1, h2⟩ := hc _ _ _ _ _ _ _ geo h p.out1 (by simp)
    have e1 := h1 ⟨⟨0, 0, 0⟩, ⟨3, 2, 3⟩, ⟨1, 0, 2⟩⟩ (by rw [ho]; simp) (.inr ⟨⟨0, 0, 0⟩, by decide⟩)
    have e2 := h2.1 ⟨⟨0, 0, 0⟩, ⟨-1, -1, -1⟩, ⟨0, 1, 2⟩⟩ (by rw [ho]; simp)
    rw [← e2] at e1
    simp at e1

/-! ## C19 -/

/-- C19: with `use_num_subranks(k)` every distribution between the two ends leaves the ranks `k, k+1, ...` without an
index, unless the planner reuses one of the user's distributions (the input, the input after the real-to-complex
shrinking, or the output), the bounds of which are then unchanged. -/
theorem C19_subranks (geo : Geometry bin bout r2c wi wo) (h : planOperations bin bout r2c opts = .ok p)
    {k : Nat} (hk : opts.numSub = k) (hk0 : 0 < k) :
    ∀ l ∈ [p.out0, p.out1, p.out2],
      (∀ (i : Nat) (b : Box), k ≤ i → l[i]? = some b → b.NoIndex) ∨
      SameBounds l bin ∨ (∃ s, r2c = some s ∧ SameBounds l (bin.map fun b => b.r2c s)) ∨ SameBounds l bout := by
  obtain ⟨r, hr, ok⟩ := planOperations_ok geo h
  obtain ⟨n, -, -, -, -, hnone⟩ := planRemap_spec geo.ranks_pos hr
  have out : ∀ l : List Box, l.length = bin.length → OutsideEmpty r l →
      ∀ (i : Nat) (b : Box), k ≤ i → l[i]? = some b → b.NoIndex := by
    intro l hl ho i b hi hb
    have hlt : i < l.length := (List.getElem?_eq_some_iff.1 hb).1
    exact Box.empty_iff.1 (ho i b (hnone i (by omega) (by omega) (by omega)) hb)
  have same : ∀ l : List Box, SameBounds l (applyR2c bin r2c) →
      SameBounds l bin ∨ ∃ s, r2c = some s ∧ SameBounds l (bin.map fun b => b.r2c s) := by
    intro l hl
    cases r2c with
    | none => exact .inl hl
    | some s => exact .inr ⟨s, rfl, hl⟩
  have later : ∀ d l, Later bin bout r2c wo r opts.useReorder d l →
      (∀ (i : Nat) (b : Box), k ≤ i → l[i]? = some b → b.NoIndex) ∨
      SameBounds l bin ∨ (∃ s, r2c = some s ∧ SameBounds l (bin.map fun b => b.r2c s)) ∨ SameBounds l bout := by
    intro d l hl
    rcases hl.conf with h | h | h
    · exact .inl (out l hl.stage.length h)
    · rcases same l h with h | h
      · exact .inr (.inl h)
      · exact .inr (.inr (.inl h))
    · exact .inr (.inr (.inr h))
  intro l hl
  simp only [List.mem_cons, List.not_mem_nil, or_false] at hl
  rcases hl with rfl | rfl | rfl
  · rcases ok.s0.conf with h | h | ⟨-, h⟩
    · exact .inl (out _ ok.s0.stage.length h)
    · exact .inr (.inl h)
    · exact .inr (.inr (.inr h))
  · exact later _ _ ok.s1
  · exact later _ _ ok.s2

end

example : (planOperations exIn exOutC (some 1) ((Opts.default false).useNumSubranks 2)).map
      (fun p => (p.out0.map Box.count, p.out1.map Box.count, p.out2.map Box.count)) =
    .ok ([96, 96, 0, 0], [64, 64, 0, 0], [32, 32, 32, 32]) := by decide +kernel

end Verif
