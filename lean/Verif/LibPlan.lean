import Verif.Calls

/-!
# Plans of the backends with executors for two and three directions

When two stages have no reshape in between, the executors of these backends do both directions at once.  Here: when that happens.
-/

namespace Verif

section
variable {bin bout : List Box} {w : Box} {alg : Alg} {shs shs' : List (Option Shaper)} {r : Nat}

theorem boxesMatch_symm : ∀ {l m : List Box}, boxesMatch l m = true → boxesMatch m l = true
  | [], [], _ => rfl
  | [], _ :: _, h => by simp [boxesMatch] at h
  | _ :: _, [], h => by simp [boxesMatch] at h
  | a :: s, b :: t, h => by
    simp only [boxesMatch, Bool.and_eq_true] at h ⊢
    refine ⟨?_, boxesMatch_symm h.2⟩
    have := h.1
    simp only [Box.sameBounds, List.all_eq_true, beq_iff_eq, Bool.and_eq_true] at this ⊢
    exact fun d hd => ⟨(this d hd).1.symm, (this d hd).2.symm⟩

theorem directOf_symm (h : directOf bin bout = true) : directOf bout bin = true := by
  unfold directOf Box.orderedSameAs at h ⊢
  simp only [beq_iff_eq, Bool.and_eq_true] at h ⊢
  exact ⟨⟨h.1.1.symm, h.1.2.symm⟩, h.2.symm⟩

/-- A rank with indexes and without a reshape object. -/
theorem null_match (h : Redistribution bin bout w) (hs : shapersOf alg bin bout = .ok shs) (hn : shs[r]? = some none)
    (hb : (boxAt bin r).empty = false ∨ (boxAt bout r).empty = false) : boxesMatch bin bout = true ∧ directOf bin bout = true := by
  have hno : ¬ ((∀ p : A3 Int, p ∉ boxAt bin r) ∧ ∀ p : A3 Int, p ∉ boxAt bout r) := by
    rintro ⟨h1, h2⟩
    rcases hb with hb | hb
    · obtain ⟨q, hq⟩ := Box.empty_false_iff_mem.1 hb; exact h1 q hq
    · obtain ⟨q, hq⟩ := Box.empty_false_iff_mem.1 hb; exact h2 q hq
  rcases shapersOf_cases h alg with ⟨hm, e⟩ | ⟨hm, g, hg, e⟩
  · refine ⟨hm, ?_⟩
    rw [hs] at e
    rw [Except.ok.inj e] at hn
    obtain ⟨hr, hn⟩ := range_map_get.1 hn
    have bounds := boxesMatch_get hm hr
    have hmem := mem_congr_bounds bounds.1 bounds.2
    unfold matchShaper at hn
    by_contra hd
    rw [if_neg hd] at hn
    split at hn
    · rename_i he
      have hb' : ∀ p : A3 Int, p ∉ boxAt bout r := by
        intro p hp
        have : p ∈ (boxAt bout r).collide (boxAt bin r) := by
          rw [Box.mem_collide]
          exact ⟨hp, (hmem p).2 hp⟩
        rw [Box.empty_false_of_mem this] at he
        simp at he
      exact hno ⟨fun p hp => hb' p ((hmem p).1 hp), hb'⟩
    · simp at hn
  · exfalso
    rw [hs] at e
    rw [Except.ok.inj e] at hn
    obtain ⟨hr, hn⟩ := range_map_get.1 hn
    have hgr : g r = [] := by
      unfold commShaper objV objA at hn
      by_contra hgr
      cases alg <;> simp [hgr] at hn
    exact hno (no_group h hg hr hgr)

/-- Equal boxes with the same order need no reshape object. -/
theorem null_of_match (h : Redistribution bin bout w) (hs : shapersOf alg bin bout = .ok shs) (hr : r < bin.length)
    (hm : boxesMatch bin bout = true) (hd : directOf bin bout = true) : shs[r]? = some none := by
  rcases shapersOf_cases h alg with ⟨-, e⟩ | ⟨hm', -⟩
  · rw [hs] at e
    rw [Except.ok.inj e]
    refine range_map_get.2 ⟨hr, ?_⟩
    unfold matchShaper
    rw [if_pos hd]
  · rw [hm] at hm'; cases hm'

/-- The reshapes of the two directions are absent together. -/
theorem null_symm (h : Redistribution bin bout w) (hs : shapersOf alg bin bout = .ok shs) (hs' : shapersOf alg bout bin = .ok shs')
    (hr : r < bin.length) (hn : shs[r]? = some none) (hb : (boxAt bin r).empty = false ∨ (boxAt bout r).empty = false) :
    shs'[r]? = some none := by
  obtain ⟨h1, h2⟩ := null_match h hs hn hb
  exact null_of_match h.symm hs' (by rw [h.length]; exact hr) (boxesMatch_symm h1) (directOf_symm h2)

end

/-! ## The storage orders of a plan without reordering -/

theorem overlapLoop_order {new old : List Box} {order : A3 (Fin 3)} {remap : Remap} : ∀ (fuel i : Nat) (taken : List Bool) (res : List Box),
    overlapLoop new old order remap fuel i taken = .ok res → ∀ b ∈ res, b.order = order
  | 0, i, taken, res, h => by
    simp only [overlapLoop, Except.ok.injEq] at h
    subst h
    simp
  | fuel + 1, i, taken, res, h => by
    unfold overlapLoop at h
    split at h
    · simp only [bind_ok] at h
      obtain ⟨rest, hr, h⟩ := h
      injection h with h
      subst h
      intro b hb
      rcases List.mem_cons.1 hb with rfl | hb
      · rfl
      · exact overlapLoop_order fuel _ _ rest hr b hb
    · split at h
      · cases h
      · split at h
        · cases h
        · split at h
          · cases h
          · simp only [bind_ok] at h
            obtain ⟨rest, hr, h⟩ := h
            injection h with h
            subst h
            intro b hb
            rcases List.mem_cons.1 hb with rfl | hb
            · rfl
            · exact overlapLoop_order fuel _ _ rest hr b hb
    · cases h

theorem maximizeOverlap_order {new old res : List Box} {order : A3 (Fin 3)} {remap : Remap}
    (h : maximizeOverlap new old order remap = .ok res) : ∀ b ∈ res, b.order = order := by
  unfold maximizeOverlap at h
  rw [bind_ok] at h
  obtain ⟨taken, -, h⟩ := h
  exact overlapLoop_order _ _ _ _ h

theorem makePencils_order {w : Box} {grid : Nat × Nat} {dim : Fin 3} {source res : List Box} {order : A3 (Fin 3)} {r : Remap}
    (h : makePencils w grid dim source order r = .ok res) : ∀ b ∈ res, b.order = order := by
  unfold makePencils at h
  split at h
  · injection h with h
    subst h
    rw [reorder_eq]
    intro b hb
    rw [List.mem_map] at hb
    obtain ⟨c, -, rfl⟩ := hb
    rfl
  · simp only [bind_ok] at h
    obtain ⟨ga, -, sa, -, pa, hpa, gb, -, sb, -, pb, hpb, h⟩ := h
    injection h with h
    split at h
    · subst h; exact maximizeOverlap_order hpb
    · subst h; exact maximizeOverlap_order hpa

theorem makeSlabs_order {w : Box} {n : Nat} {d1 d2 : Fin 3} {source res : List Box} {order : A3 (Fin 3)} {r : Remap}
    (h : makeSlabs w n d1 d2 source order r = .ok res) : ∀ b ∈ res, b.order = order := by
  unfold makeSlabs at h
  rw [bind_ok] at h
  obtain ⟨sl, -, h⟩ := h
  exact maximizeOverlap_order h

/-- All the boxes have the order 0, 1, 2. -/
def Standard (l : List Box) : Prop := ∀ b ∈ l, b.order = ⟨0, 1, 2⟩

theorem reorderSlabs_std {l res : List Box} {d : Fin 3} (hl : Standard l) (h : reorderSlabs l d false = .ok res) : Standard res := by
  unfold reorderSlabs at h
  simp only [Bool.not_false, if_true] at h
  injection h with h
  subst h
  exact hl

theorem nextPencilsShape_std {w wo : Box} {grid : Nat × Nat} {d : Fin 3} {source bout res : List Box} {test : List (Fin 3)} {r : Remap}
    (hw : w.order = ⟨0, 1, 2⟩) (hb : Standard bout) (h : nextPencilsShape w grid d source false wo test bout r = .ok res) : Standard res := by
  unfold nextPencilsShape at h
  simp only [Bool.false_eq_true, if_false] at h
  split at h
  · injection h with h; subst h; exact hb
  · intro b hb
    rw [makePencils_order h b hb]
    exact hw

section
variable {bin bout : List Box} {wi wo : Box} {opts : Opts} {r : Remap} {p : Plan}

theorem planPencil_std (hi : Standard bin) (ho : Standard bout) (hwi : wi.order = ⟨0, 1, 2⟩) (hwo : wo.order = ⟨0, 1, 2⟩)
    (hu : opts.useReorder = false) (h : planPencil wi wo bin bout none opts r = .ok p) :
    Standard p.out0 ∧ Standard p.out1 ∧ Standard p.out2 := by
  unfold planPencil at h
  rw [hu] at h
  simp only [bind_ok, req_ok] at h
  obtain ⟨grid, -, d0, -, shape0, hs0, d1, -, d2, -, shape1, hs1, shape2, hs2, h⟩ := h
  injection h with h
  subst h
  exact ⟨nextPencilsShape_std hwi ho hs0, nextPencilsShape_std hwo ho hs1, nextPencilsShape_std hwo ho hs2⟩

theorem planSlab_std (hi : Standard bin) (ho : Standard bout) (hwi : wi.order = ⟨0, 1, 2⟩) (hwo : wo.order = ⟨0, 1, 2⟩)
    (hu : opts.useReorder = false) (h : planSlab wi wo bin bout none opts r = .ok p) :
    Standard p.out0 ∧ Standard p.out1 ∧ Standard p.out2 := by
  unfold planSlab at h
  split at h
  · exact planPencil_std hi ho hwi hwo hu h
  rw [hu, bind_ok] at h
  obtain ⟨grid, -, h⟩ := h
  split at h
  · simp only [bind_ok, req_ok] at h
    obtain ⟨d2, -, shape0, hs0, shape1, hs1, shape2, hs2, h⟩ := h
    injection h with h
    subst h
    have s0 := reorderSlabs_std hi hs0
    exact ⟨s0, reorderSlabs_std (l := applyR2c shape0 none) s0 hs1, nextPencilsShape_std hwo ho hs2⟩
  · split at h
    · simp only [bind_ok, req_ok] at h
      obtain ⟨d0, -, shape0, hs0, shape1, hs1, shape2, hs2, h⟩ := h
      injection h with h
      subst h
      have s1 := reorderSlabs_std ho hs1
      exact ⟨nextPencilsShape_std hwi ho hs0, s1, reorderSlabs_std s1 hs2⟩
    · split at h
      · simp only [bind_ok, req_ok] at h
        obtain ⟨d1, -, d2, -, shape0, hs0, slabs, hsl, shape1, hs1, shape2, hs2, h⟩ := h
        injection h with h
        subst h
        have sl : Standard slabs := fun b hb => (makeSlabs_order hsl b hb).trans hwo
        exact ⟨nextPencilsShape_std hwi ho hs0, reorderSlabs_std sl hs1, reorderSlabs_std sl hs2⟩
      · simp only [bind_ok, req_ok] at h
        obtain ⟨d0, -, d1, -, d2, -, slabs, hsl, shape0, hs0, shape1, hs1, shape2, hs2, h⟩ := h
        injection h with h
        subst h
        have sl : Standard slabs := fun b hb => (makeSlabs_order hsl b hb).trans hwi
        have s0 := reorderSlabs_std sl hs0
        exact ⟨s0, reorderSlabs_std (l := applyR2c shape0 none) s0 hs1, nextPencilsShape_std hwo ho hs2⟩

/-- Without `use_reorder` the boxes of a plan keep the order 0, 1, 2. -/
theorem planOperations_std (geo : Geometry bin bout none wi wo) (hi : Standard bin) (ho : Standard bout) (hu : opts.useReorder = false)
    (h : planOperations bin bout none opts = .ok p) : Standard p.out0 ∧ Standard p.out1 ∧ Standard p.out2 := by
  unfold planOperations at h
  simp only [bind_ok] at h
  obtain ⟨r, -, wi', hwi, wo', hwo, h⟩ := h
  have e1 := findWorld_order hwi
  have e2 := findWorld_order hwo
  split at h
  · exact planPencil_std hi ho e1 e2 hu h
  · exact planSlab_std hi ho e1 e2 hu h

end

/-! ## Merged stages -/

/-- What is known about the reshape `i` between two stages.  `m` tells that there is no reshape on any rank and that the boxes on both
sides have the order 0, 1, 2; otherwise a rank without a reshape object has no indexes. -/
structure Joint (p : Plan) (o : Fft) (n : Nat) (i : Fin 4) (m : Bool) : Prop where
  joined : m = true → ∀ r, r < n → shaperAt o.fwd r i = none
  std : m = true → Standard (p.inAt i) ∧ Standard (p.outAt i)
  apart : m = false → ∀ r, r < n → shaperAt o.fwd r i = none → (boxAt (p.inAt i) r).empty = true ∧ (boxAt (p.outAt i) r).empty = true

section
variable {p : Plan} {r2c : Option (Fin 3)} {wi wo : Box} {n : Nat} {alg : Alg} {o : Fft} {ex : Nat → A3 (Option Executor)}

theorem joint_std (hp : PlanFacts p r2c wi wo n) (hs : SetupOk alg p o n ex) (i : Fin 4) (h1 : Standard (p.inAt i)) (h2 : Standard (p.outAt i)) :
    ∃ m, Joint p o n i m := by
  by_cases h : ∀ r, r < n → shaperAt o.fwd r i = none
  · exact ⟨true, fun _ => h, fun _ => ⟨h1, h2⟩, (fun h => nomatch h)⟩
  · push Not at h
    obtain ⟨q, hq, hne⟩ := h
    obtain ⟨sh, hsh⟩ := Option.ne_none_iff_exists'.1 hne
    refine ⟨false, (fun h => nomatch h), (fun h => nomatch h), fun _ r hr hn => ?_⟩
    have g1 := hs.get hp true hr i
    have g2 := hs.get hp true hq i
    rw [show shaperAt (o.shapers true) r i = none from hn] at g1
    rw [show shaperAt (o.shapers true) q i = some sh from hsh] at g2
    obtain ⟨a, b⟩ := null_mixed (hp.redis i) alg (hs.fwd i) g1 g2
    constructor
    · by_contra h
      obtain ⟨x, hx⟩ := Box.empty_false_iff_mem.1 (Bool.not_eq_true _ ▸ h)
      exact a x hx
    · by_contra h
      obtain ⟨x, hx⟩ := Box.empty_false_iff_mem.1 (Bool.not_eq_true _ ▸ h)
      exact b x hx

theorem joint_indirect (hp : PlanFacts p r2c wi wo n) (hs : SetupOk alg p o n ex) (i : Fin 4) (hd : directOf (p.inAt i) (p.outAt i) = false) :
    Joint p o n i false := by
  refine ⟨(fun h => nomatch h), (fun h => nomatch h), fun _ r hr hn => ?_⟩
  have g1 := hs.get hp true hr i
  rw [show shaperAt (o.shapers true) r i = none from hn] at g1
  by_contra h
  have hb : (boxAt (p.inAt i) r).empty = false ∨ (boxAt (p.outAt i) r).empty = false := by
    cases h1 : (boxAt (p.inAt i) r).empty with
    | false => exact .inl rfl
    | true =>
      cases h2 : (boxAt (p.outAt i) r).empty with
      | false => exact .inr rfl
      | true => exact absurd ⟨h1, h2⟩ h
  have := (null_match (hp.redis i) (hs.fwd i) g1 hb).2
  rw [hd] at this
  cases this

end

/-- The guard: `use_reorder`, or the order 0, 1, 2 for all the boxes. -/
def OrderlyBoxes (bin bout : List Box) (opts : Opts) : Prop := opts.useReorder = true ∨ Standard bin ∧ Standard bout

section
variable {bin bout : List Box} {wi wo : Box} {opts : Opts} {p : Plan} {alg : Alg} {o : Fft} {ex : Nat → A3 (Option Executor)} {n : Nat}

theorem head_order {l : List Box} {ord : A3 (Fin 3)} (h : UsesOrder true l ord) (hl : 0 < l.length) : (boxAt l 0).order = ord :=
  h.2.1 _ (boxAt_mem hl) (.inl rfl)

theorem indirect_of {l m : List Box} {o1 o2 : A3 (Fin 3)} (h1 : UsesOrder true l o1) (h2 : UsesOrder true m o2) (l1 : 0 < l.length)
    (l2 : 0 < m.length) (hne : o1.x ≠ o2.x) : directOf l m = false := by
  unfold directOf Box.orderedSameAs
  rw [head_order h1 l1, head_order h2 l2]
  have : (o1 0 == o2 0) = false := by simpa using hne
  rw [this]
  rfl

/-- The two reshapes between the stages of a plan for complex data. -/
theorem plan_joints (geo : Geometry bin bout none wi wo) (hp : planOperations bin bout none opts = .ok p)
    (hf : PlanFacts p none wi wo n) (hs : SetupOk alg p o n ex) (hg : OrderlyBoxes bin bout opts) :
    ∃ m1 m2, Joint p o n 1 m1 ∧ Joint p o n 2 m2 ∧ (m1 = true ∨ m2 = true → Standard bin ∧ Standard bout) := by
  by_cases hu : opts.useReorder = true
  · obtain ⟨r, -, ok⟩ := planOperations_ok geo hp
    have g : OrderGuard bin none := fun h => absurd rfl h
    obtain ⟨o0, u0, x0⟩ := ok.s0.order g
    obtain ⟨o1, u1, x1⟩ := ok.s1.order g
    obtain ⟨o2, u2, x2⟩ := ok.s2.order g
    have x0 := x0 hu
    have x1 := x1 hu
    have x2 := x2 hu
    obtain ⟨d1, d2, d3⟩ := hf.dirs
    have l0 : 0 < p.out0.length := by rw [show p.out0.length = n from hf.lenOut 0]; exact hf.pos
    have l1 : 0 < p.out1.length := by rw [show p.out1.length = n from hf.lenOut 1]; exact hf.pos
    have l2 : 0 < p.out2.length := by rw [show p.out2.length = n from hf.lenOut 2]; exact hf.pos
    refine ⟨false, false, joint_indirect hf hs 1 ?_, joint_indirect hf hs 2 ?_, by simp⟩
    · show directOf p.in1 p.out1 = false
      rw [hf.in1]
      exact indirect_of u0 u1 l0 l1 (by rw [x0, x1]; exact d1)
    · show directOf p.in2 p.out2 = false
      rw [hf.in2]
      exact indirect_of u1 u2 l1 l2 (by rw [x1, x2]; first | exact d2 | exact d3)
  · rcases hg with h | ⟨h1, h2⟩
    · exact absurd h hu
    · obtain ⟨s0, s1, s2⟩ := planOperations_std geo h1 h2 (by simpa using hu) hp
      obtain ⟨m1, j1⟩ := joint_std hf hs 1 (show Standard p.in1 by rw [hf.in1]; exact s0) s1
      obtain ⟨m2, j2⟩ := joint_std hf hs 2 (show Standard p.in2 by rw [hf.in2]; exact s1) s2
      exact ⟨m1, m2, j1, j2, fun _ => ⟨h1, h2⟩⟩

end
end Verif
