import Verif.PlanLemmas

/-! # The planner invariants, stage by stage -/

namespace Verif

theorem makePencils_head {w : Box} {grid : Nat × Nat} {dim : Fin 3} {source res : List Box}
    {order : A3 (Fin 3)} {r : Remap} {ranks : Nat}
    (hsrc : Tiles source w) (h1 : 0 < grid.1) (h2 : 0 < grid.2)
    (hr : r.Good ranks (grid.1 * grid.2)) (h0 : r.map.head? ≠ some none)
    (hh : HeadHolds source) (hsmall : ∀ b ∈ source, b.count < 2 ^ 31)
    (h : makePencils w grid dim source order r = .ok res) : HeadHolds res := by
  have key : ∀ g sa pa, makeProcgrid2d w dim g = .ok sa → g.1 * g.2 = grid.1 * grid.2 → 0 < g.1 → 0 < g.2 →
      ∀ sp, splitWorld w sa r = .ok sp → maximizeOverlap sp source order r = .ok pa → HeadHolds pa := by
    intro g sa pa hg he hg1 hg2 sp hs hp
    obtain ⟨-, a2, -, a3⟩ := makeProcgrid2d_ok hg1 hg2 hg
    rw [← he, ← a2] at hr
    have hl := splitWorld_length hr hs
    refine maximizeOverlap_head (by rw [hl]; exact hr.length) h0 (splitWorld_tiles a3 hr hs) hsrc hh hsmall ?_ hp
    intro i b hi hb
    rw [splitWorld_outside hs hi] at hb
    injection hb with hb
    rw [← hb]; exact outsideBox_empty _
  unfold makePencils at h
  split at h
  · injection h with h
    subst h
    rw [reorder_eq]
    exact hh.same (SameBounds.withOrder _ _)
  · simp only [bind_ok] at h
    obtain ⟨ga, hga, sa, hsa, pa, hpa, gb, hgb, sb, hsb, pb, hpb, h⟩ := h
    injection h with h
    split at h
    · subst h
      exact key _ _ _ hgb (by simp [mul_comm]) h2 h1 _ hsb hpb
    · subst h
      exact key _ _ _ hga rfl h1 h2 _ hsa hpa

theorem makeSlabs_head {w : Box} {n : Nat} {d1 d2 : Fin 3} {source res : List Box}
    {order : A3 (Fin 3)} {r : Remap} {ranks : Nat} (hd : d1 ≠ d2) (hn : 0 < n) (hr : r.Good ranks n)
    (hsrc : Tiles source w) (h0 : r.map.head? ≠ some none)
    (hh : HeadHolds source) (hsmall : ∀ b ∈ source, b.count < 2 ^ 31)
    (h : makeSlabs w n d1 d2 source order r = .ok res) : HeadHolds res := by
  unfold makeSlabs at h
  obtain ⟨g1, g2, g3, g4⟩ := slabGrid_spec (n := n) hd
  rw [bind_ok] at h
  obtain ⟨sa, hsa, h⟩ := h
  rw [← g3] at hr
  have hl := splitWorld_length hr hsa
  refine maximizeOverlap_head (by rw [hl]; exact hr.length) h0 (splitWorld_tiles (g4 hn) hr hsa) hsrc hh hsmall ?_ h
  intro i b hi hb
  rw [splitWorld_outside hsa hi] at hb
  injection hb with hb
  rw [← hb]; exact outsideBox_empty _

/-- The assumptions of the invariants: a valid geometry, a process grid and a group of ranks. -/
structure Ctx (bin bout : List Box) (r2c : Option (Fin 3)) (wi wo : Box) (grid : Nat × Nat) (r : Remap) : Prop where
  geo : Geometry bin bout r2c wi wo
  g1 : 0 < grid.1
  g2 : 0 < grid.2
  good : r.Good bin.length (grid.1 * grid.2)
  head : r.map.head? ≠ some none

/-- For real-to-complex plans the claims about the storage order need indexes on rank 0. -/
def OrderGuard (bin : List Box) (r2c : Option (Fin 3)) : Prop :=
  r2c ≠ none → HeadHolds bin ∧ ∀ b ∈ bin, b.count < 2 ^ 31

/-- The distribution ahead of the first transform. -/
structure First (bin bout : List Box) (r2c : Option (Fin 3)) (wi : Box) (r : Remap) (ur : Bool) (d : Fin 3)
    (l : List Box) : Prop where
  stage : StageOK l wi bin.length d
  conf : OutsideEmpty r l ∨ SameBounds l bin ∨ (r2c = none ∧ SameBounds l bout)
  order : OrderGuard bin r2c → ∃ o, UsesOrder r2c.isNone l o ∧ (ur = true → o.x = d)
  holds : r2c ≠ none → OrderGuard bin r2c → HeadHolds l

/-- A distribution of the complex world. -/
structure Mid (bin bout : List Box) (r2c : Option (Fin 3)) (wo : Box) (r : Remap) (l : List Box) : Prop where
  length : l.length = bin.length
  tiles : Tiles l wo
  conf : OutsideEmpty r l ∨ SameBounds l (applyR2c bin r2c) ∨ SameBounds l bout
  order : OrderGuard bin r2c → ∃ o, UsesOrder r2c.isNone l o

/-- The distribution ahead of the second or third transform. -/
structure Later (bin bout : List Box) (r2c : Option (Fin 3)) (wo : Box) (r : Remap) (ur : Bool) (d : Fin 3)
    (l : List Box) : Prop where
  stage : StageOK l wo bin.length d
  conf : OutsideEmpty r l ∨ SameBounds l (applyR2c bin r2c) ∨ SameBounds l bout
  order : OrderGuard bin r2c → ∃ o, UsesOrder r2c.isNone l o ∧ (ur = true → o.x = d)

theorem Later.mid {bin bout : List Box} {r2c : Option (Fin 3)} {wo : Box} {r : Remap} {ur : Bool} {d : Fin 3}
    {l : List Box} (h : Later bin bout r2c wo r ur d l) : Mid bin bout r2c wo r l :=
  ⟨h.stage.length, h.stage.tiles, h.conf, fun g => let ⟨o, ho, _⟩ := h.order g; ⟨o, ho⟩⟩

section
variable {bin bout : List Box} {r2c : Option (Fin 3)} {wi wo : Box} {grid : Nat × Nat} {r : Remap}
  {ur : Bool} {d : Fin 3} {l res : List Box}

theorem isOrder_default : IsOrder defaultOrder := by decide

theorem Ctx.orderWi (c : Ctx bin bout r2c wi wo grid r) : IsOrder wi.order := by
  rw [findWorld_order c.geo.worldIn]; exact isOrder_default

theorem Ctx.orderWo (c : Ctx bin bout r2c wi wo grid r) : IsOrder wo.order := by
  rw [findWorld_order c.geo.worldOut]; exact isOrder_default

theorem Ctx.usesIn (c : Ctx bin bout r2c wi wo grid r) (strict : Bool) : ∃ o, UsesOrder strict bin o := by
  obtain ⟨o, h1, h2⟩ := c.geo.orderIn
  exact ⟨o, UsesOrder.of_all h1 h2⟩

theorem Ctx.usesOut (c : Ctx bin bout r2c wi wo grid r) (strict : Bool) : ∃ o, UsesOrder strict bout o := by
  obtain ⟨o, h1, h2⟩ := c.geo.orderOut
  exact ⟨o, UsesOrder.of_all h1 h2⟩

theorem Geometry.nonemptyOut (g : Geometry bin bout r2c wi wo) : ∃ p : A3 Int, p ∈ wo := by
  obtain ⟨p, hp⟩ := g.nonempty
  refine ⟨wo.low, fun d => ⟨le_refl _, ?_⟩⟩
  obtain ⟨h1, h2⟩ := g.complex d
  have := hp d
  rw [h1, h2]
  split <;> omega

theorem Ctx.midOut (c : Ctx bin bout r2c wi wo grid r) : Mid bin bout r2c wo r bout :=
  ⟨c.geo.length, c.geo.tilesOut, .inr (.inr rfl), fun _ => c.usesOut _⟩

theorem First.mid (c : Ctx bin bout r2c wi wo grid r) (h : First bin bout r2c wi r ur d l)
    (hd : ∀ k, r2c = some k → d = k) : Mid bin bout r2c wo r (applyR2c l r2c) := by
  refine ⟨(applyR2c_length _ _).trans h.stage.length, ?_, ?_, ?_⟩
  · refine applyR2c_tiles c.geo.complex c.geo.nonempty h.stage.tiles ?_
    intro k hk b hb he
    rw [← hd k hk]
    exact h.stage.spans b hb he
  · rcases h.conf with h | h | ⟨rfl, h'⟩
    · exact .inl (applyR2c_outside h _)
    · exact .inr (.inl (applyR2c_sameBounds h _))
    · exact .inr (.inr h')
  · intro g
    obtain ⟨o, ho, -⟩ := h.order g
    refine ⟨o, applyR2c_order ho ?_⟩
    intro hr
    refine ⟨by cases r2c with
      | none => exact absurd rfl hr
      | some k => rfl, h.holds hr g⟩

theorem Mid.next (c : Ctx bin bout r2c wi wo grid r) (h : Mid bin bout r2c wo r l) {test : List (Fin 3)}
    (hd : d ∈ test) (hn : nextPencilsShape wo grid d l ur wo test bout r = .ok res) :
    Later bin bout r2c wo r ur d res := by
  obtain ⟨a, b, e⟩ := nextPencilsShape_spec h.tiles h.length c.g1 c.g2 c.good
    (fun ht => stage_of_pencils c.geo.length c.geo.tilesOut (isPencilsAll_iff.1 ht d hd)) hn
  refine ⟨a, ?_, ?_⟩
  · rcases b with b | b | ⟨-, b⟩
    · exact .inl b
    · rcases h.conf with h | h | h
      · exact .inl (b.outside h)
      · exact .inr (.inl (b.trans h))
      · exact .inr (.inr (b.trans h))
    · exact .inr (.inr b)
  · intro g
    obtain ⟨os, hos⟩ := h.order g
    obtain ⟨oo, hoo⟩ := c.usesOut r2c.isNone
    exact e _ _ _ hos hoo c.orderWo

theorem Mid.slabs (h : Mid bin bout r2c wo r l) (hs : ∀ b ∈ l, b.empty = false → Spans b wo d)
    (hn : reorderSlabs l d ur = .ok res) : Later bin bout r2c wo r ur d res := by
  obtain ⟨a, b⟩ := reorderSlabs_spec hn
  refine ⟨a.stage ⟨h.length, h.tiles, hs⟩, ?_, ?_⟩
  · rcases h.conf with h | h | h
    · exact .inl (a.outside h)
    · exact .inr (.inl (a.trans h))
    · exact .inr (.inr (a.trans h))
  · intro g
    obtain ⟨os, hos⟩ := h.order g
    exact b _ _ hos

theorem spans_same {l m : List Box} {w : Box} {e : Fin 3} (h : SameBounds l m)
    (hm : ∀ b ∈ m, b.empty = false → Spans b w e) : ∀ b ∈ l, b.empty = false → Spans b w e := by
  intro b hb he
  obtain ⟨c, hc, h1, h2⟩ := h.mem hb
  have hec : c.empty = false := by
    rw [Box.empty_false_iff] at he ⊢
    intro d; rw [← h1, ← h2]; exact he d
  obtain ⟨s1, s2⟩ := hm c hc hec
  exact ⟨by rw [h1]; exact s1, by rw [h2]; exact s2⟩

/-- First stage: the boxes of the user are slabs. -/
theorem first_slabs (c : Ctx bin bout r2c wi wo grid r) (hs : ∀ b ∈ bin, b.empty = false → Spans b wi d)
    (hn : reorderSlabs bin d ur = .ok res) : First bin bout r2c wi r ur d res := by
  obtain ⟨a, b⟩ := reorderSlabs_spec hn
  refine ⟨a.stage ⟨rfl, c.geo.tilesIn, hs⟩, .inr (.inl a), ?_, ?_⟩
  · intro _
    obtain ⟨o, ho⟩ := c.usesIn r2c.isNone
    exact b _ _ ho
  · intro hr g
    exact (g hr).1.same a

/-- First stage: slabs made by the planner. -/
theorem first_made (c : Ctx bin bout r2c wi wo grid r) {n : Nat} {e f : Fin 3} {sl : List Box}
    (hef : e ≠ f) (hn : n = grid.1 * grid.2)
    (hd : d = e ∨ d = f) (hs : makeSlabs wi n e f bin wi.order r = .ok sl)
    (hr : reorderSlabs sl d ur = .ok res) : First bin bout r2c wi r ur d res := by
  subst hn
  have hpos : 0 < grid.1 * grid.2 := Nat.mul_pos c.g1 c.g2
  obtain ⟨⟨a1, a2, a3⟩, b, o⟩ := makeSlabs_spec hef hpos c.good hs
  obtain ⟨k, m⟩ := reorderSlabs_spec hr
  refine ⟨k.stage ⟨a1, a2, ?_⟩, .inl (k.outside o), ?_, ?_⟩
  · intro x hx he
    rcases hd with rfl | rfl
    · exact (b x hx he).1
    · exact (b x hx he).2
  · intro _
    exact m _ _ (UsesOrder.of_all c.orderWi a3)
  · intro hn g
    obtain ⟨g1, g2⟩ := g hn
    exact (makeSlabs_head hef hpos c.good c.geo.tilesIn c.head g1 g2 hs).same k

theorem first_next_aux (c : Ctx bin bout r2c wi wo grid r) {test : List (Fin 3)} {w' : Box} {bt : List Box}
    (hout : isPencilsAll w' bt test = true → StageOK bt wi bin.length d ∧ (∃ oo, UsesOrder r2c.isNone bt oo) ∧
      (r2c = none ∧ SameBounds bt bout ∨ bin.length = 1 ∧ HeadHolds bt))
    (hnot : isPencilsAll w' bt test = false → ∃ oo, UsesOrder r2c.isNone bt oo)
    (hn : nextPencilsShape wi grid d bin ur w' test bt r = .ok res) : First bin bout r2c wi r ur d res := by
  obtain ⟨a, b, e⟩ := nextPencilsShape_spec c.geo.tilesIn rfl c.g1 c.g2 c.good (fun ht => (hout ht).1) hn
  have hoo : ∃ oo, UsesOrder r2c.isNone bt oo := by
    cases ht : isPencilsAll w' bt test with
    | true => exact (hout ht).2.1
    | false => exact hnot ht
  refine ⟨a, ?_, ?_, ?_⟩
  · rcases b with b | b | ⟨ht, b⟩
    · exact .inl b
    · exact .inr (.inl b)
    · rcases (hout ht).2.2 with ⟨h1, h2⟩ | ⟨h1, -⟩
      · exact .inr (.inr ⟨h1, b.trans h2⟩)
      · left
        intro i x hi hx
        exfalso
        apply c.head
        rcases c.good.length with hg | hg
        · simp only [Remap.isAll, List.isEmpty_iff] at hg
          rw [hg] at hi; simp at hi
        · have : i < r.map.length := (List.getElem?_eq_some_iff.1 hi).1
          obtain rfl : i = 0 := by omega
          rw [List.head?_eq_getElem?]; exact hi
  · intro _
    obtain ⟨os, hos⟩ := c.usesIn r2c.isNone
    obtain ⟨oo, hoo⟩ := hoo
    exact e _ _ _ hos hoo c.orderWi
  · intro hr g
    obtain ⟨g1, g2⟩ := g hr
    have mk : ∀ order, makePencils wi grid d bin order r = .ok res → HeadHolds res :=
      fun order h => makePencils_head c.geo.tilesIn c.g1 c.g2 c.good c.head g1 g2 h
    have hb : isPencilsAll w' bt test = true → HeadHolds bt := by
      intro ht
      rcases (hout ht).2.2 with ⟨h1, h2⟩ | ⟨-, h2⟩
      · exact absurd h1 hr
      · exact h2
    unfold nextPencilsShape at hn
    split at hn
    · split at hn
      · rename_i ht
        split at hn
        · cases hn
        · split at hn
          · injection hn with hn; subst hn; exact hb ht
          · injection hn with hn; subst hn
            rw [reorder_eq]
            exact (hb ht).same (SameBounds.withOrder _ _)
      · split at hn
        · cases hn
        · exact mk _ hn
    · split at hn
      · rename_i ht
        injection hn with hn; subst hn; exact hb ht
      · exact mk _ hn

/-- First stage made by `next_pencils_shape0`. -/
theorem first_next0 (c : Ctx bin bout r2c wi wo grid r)
    (hn : nextPencilsShape0 wi grid d r2c bin ur wo [0, 1, 2] bout r = .ok res) :
    First bin bout r2c wi r ur d res := by
  unfold nextPencilsShape0 at hn
  cases r2c with
  | none =>
    refine first_next_aux c ?_ (fun _ => c.usesOut _) hn
    intro ht
    obtain ⟨b, rfl, hb⟩ := single_of_all c.geo.tilesOut c.geo.nonemptyOut ht
    have hw := c.geo.complex
    have hs : ∀ d, Spans b wi d := fun d =>
      ⟨(hb d).1.trans (hw.congr d).1, (hb d).2.trans (hw.congr d).2⟩
    refine ⟨⟨c.geo.length, tiles_single hs, ?_⟩, c.usesOut _, .inl ⟨rfl, rfl⟩⟩
    intro x hx _
    simp only [List.mem_singleton] at hx
    subst hx; exact hs d
  | some k =>
    simp only at hn
    split at hn
    · rename_i ht
      obtain ⟨b, hbo, hb⟩ := single_of_all c.geo.tilesOut c.geo.nonemptyOut ht
      have hs : ∀ d, Spans (nonR2cBox wi k b) wi d := by
        intro e
        by_cases hke : e = k
        · subst hke; simp [Spans, nonR2cBox]
        · obtain ⟨h1, h2⟩ := c.geo.complex e
          rw [if_neg (by simpa using fun h => hke h.symm)] at h2
          simp only [Spans, nonR2cBox, A3.get_set_ne _ _ hke]
          exact ⟨(hb e).1.trans h1, (hb e).2.trans h2⟩
      have hone : bin.length = 1 := by rw [← c.geo.length, hbo]; rfl
      have hu : ∃ oo, UsesOrder (some k).isNone (bout.map (nonR2cBox wi k)) oo := by
        obtain ⟨o, h1, h2⟩ := c.geo.orderOut
        refine ⟨o, UsesOrder.of_all h1 ?_⟩
        intro x hx
        rw [List.mem_map] at hx
        obtain ⟨y, hy, rfl⟩ := hx
        exact h2 y hy
      refine first_next_aux c ?_ (fun _ => hu) hn
      intro _
      subst hbo
      refine ⟨⟨by simp [hone], tiles_single hs, ?_⟩, hu, .inr ⟨hone, ?_⟩⟩
      · intro x hx _
        simp only [List.map_cons, List.map_nil, List.mem_singleton] at hx
        subst hx; exact hs d
      · intro x hx
        simp only [List.map_cons, List.map_nil, List.head?_cons, Option.some.injEq] at hx
        subst hx
        obtain ⟨p, hp⟩ := c.geo.nonempty
        rw [Box.empty_false_iff]
        intro e
        rw [(hs e).1, (hs e).2]
        have := hp e
        omega
    · rename_i ht
      refine first_next_aux c ?_ (fun _ => c.usesOut _) hn
      intro h; exact absurd h ht

/-- First stage made by `next_pencils_shape` in the slab planner; the output boxes are never used there in the
real-to-complex case, a single rank has slab input. -/
theorem first_next (c : Ctx bin bout r2c wi wo grid r)
    (hns : ∃ i j, i ≠ j ∧ isSlab wi bin i j = false)
    (hn : nextPencilsShape wi grid d bin ur wo [0, 1, 2] bout r = .ok res) :
    First bin bout r2c wi r ur d res := by
  cases r2c with
  | none => exact first_next0 c (by unfold nextPencilsShape0; exact hn)
  | some k =>
    refine first_next_aux c ?_ (fun _ => c.usesOut _) hn
    intro ht
    exfalso
    obtain ⟨b, hbo, -⟩ := single_of_all c.geo.tilesOut c.geo.nonemptyOut ht
    have hone : bin.length = 1 := by rw [← c.geo.length, hbo]; rfl
    obtain ⟨x, rfl⟩ := List.length_eq_one_iff.1 hone
    obtain ⟨i, j, -, hf⟩ := hns
    have : isSlab wi [x] i j = true := by
      rw [isSlab_iff]
      intro y hy
      simp only [List.mem_singleton] at hy
      subst hy
      have h1 := findWorld_encloses c.geo.worldIn y (by simp)
      have h2 := findWorld_tightest c.geo.worldIn (v := y) (by
        intro z hz
        simp only [List.mem_singleton] at hz
        subst hz; exact fun d => ⟨le_refl _, le_refl _⟩)
      have : ∀ d, y.size.get d = wi.size.get d := by
        intro d
        have := h1 d; have := h2 d
        simp only [Box.size, A3.get_of]
        omega
      exact ⟨this i, this j⟩
    rw [this] at hf; cases hf

end

/-- Everything the properties need to know about a plan. -/
structure PlanOK (bin bout : List Box) (r2c : Option (Fin 3)) (wi wo : Box) (r : Remap) (ur : Bool) (p : Plan) :
    Prop where
  in0 : p.in0 = bin
  out3 : p.out3 = bout
  in1 : p.in1 = applyR2c p.out0 r2c
  in2 : p.in2 = p.out1
  in3 : p.in3 = p.out2
  sizes : p.fftSizes = wi.size
  count : p.indexCount = wi.count
  dirs : AllDirs p.dirs.x p.dirs.y p.dirs.z
  dir0 : ∀ k, r2c = some k → p.dirs.x = k
  s0 : First bin bout r2c wi r ur p.dirs.x p.out0
  m0 : Mid bin bout r2c wo r p.in1
  s1 : Later bin bout r2c wo r ur p.dirs.y p.out1
  s2 : Later bin bout r2c wo r ur p.dirs.z p.out2

theorem workRanks_good {bin : List Box} {r : Remap} {n : Nat} (h : r.Good bin.length n)
    (hs : r.isAll = true ∨ r.sub = n) : workRanks bin r = n := by
  unfold workRanks
  rcases h with ⟨h1, h2⟩ | ⟨h1, -⟩
  · rw [if_pos h1, h2]
  · rw [if_neg (by simp [h1])]
    rcases hs with hs | hs
    · rw [h1] at hs; cases hs
    · exact hs

theorem planPencil_ok {bin bout : List Box} {r2c : Option (Fin 3)} {wi wo : Box} {opts : Opts} {r : Remap} {p : Plan}
    {n : Nat} (geo : Geometry bin bout r2c wi wo) (hn : 0 < n) (hr : r.Good bin.length n)
    (hs : r.isAll = true ∨ r.sub = n) (hh : r.map.head? ≠ some none)
    (h : planPencil wi wo bin bout r2c opts r = .ok p) : PlanOK bin bout r2c wi wo r opts.useReorder p := by
  unfold planPencil at h
  rw [workRanks_good hr hs] at h
  simp only [bind_ok, req_ok] at h
  obtain ⟨grid, hgrid, d0, hd0, shape0, hs0, d1, hd1, d2, hd2, shape1, hs1, shape2, hs2, h⟩ := h
  injection h with h
  subst h
  obtain ⟨g, hg, hmul, -⟩ := makeProcgrid_spec hn
  rw [hgrid] at hg
  injection hg with hg
  subst hg
  rw [← hmul] at hr hn
  have c : Ctx bin bout r2c wi wo grid r :=
    ⟨geo, Nat.pos_of_mul_pos_right hn, Nat.pos_of_mul_pos_left hn, hr, hh⟩
  obtain ⟨e0, e1, e2, hall, hr2c, he0, he1, he2⟩ :=
    pencil_dirs wi wo bin bout r2c (fun _ => isPencils wo (applyR2c shape0 r2c))
  rw [he0] at hd0 hd1 hd2 he1 he2
  rw [he1] at hd1 hd2 he2
  rw [he2] at hd2
  injection hd0 with hd0
  injection hd1 with hd1
  injection hd2 with hd2
  subst hd0 hd1 hd2
  have f := first_next0 c hs0
  have m := f.mid c hr2c
  have l1 := m.next c (by simp) hs1
  have l2 := l1.mid.next c (by simp) hs2
  exact ⟨rfl, rfl, rfl, rfl, rfl, rfl, rfl, hall, hr2c, f, m, l1, l2⟩

theorem anyValid2 : ∀ (a b d : Fin 3), a ≠ b → getAnyValid ⟨some a, some b, none⟩ = some d → AllDirs a b d := by
  unfold AllDirs; decide

theorem anyValid0 : ∀ (a b d : Fin 3), a ≠ b → getAnyValid ⟨none, some a, some b⟩ = some d → AllDirs d a b := by
  unfold AllDirs; decide

theorem anyValid0_r2c : ∀ (a b d k : Fin 3), a ≠ b → k ≠ a → k ≠ b → getAnyValid ⟨none, some a, some b⟩ = some d →
    d = k := by
  decide

theorem anyValid1 : ∀ (a b c : Fin 3), getAnyValid ⟨some a, none, none⟩ = some b →
    getAnyValid ⟨some a, some b, none⟩ = some c → AllDirs a b c := by
  unfold AllDirs; decide

theorem planSlab_ok {bin bout : List Box} {r2c : Option (Fin 3)} {wi wo : Box} {opts : Opts} {r : Remap} {p : Plan}
    {n : Nat} (geo : Geometry bin bout r2c wi wo) (hn : 0 < n) (hr : r.Good bin.length n)
    (hs : r.isAll = true ∨ r.sub = n) (hh : r.map.head? ≠ some none)
    (h : planSlab wi wo bin bout r2c opts r = .ok p) : PlanOK bin bout r2c wi wo r opts.useReorder p := by
  unfold planSlab at h
  split at h
  · exact planPencil_ok geo hn hr hs hh h
  rw [workRanks_good hr hs] at h
  rw [bind_ok] at h
  obtain ⟨grid, hgrid, h⟩ := h
  obtain ⟨g, hg, hmul, -⟩ := makeProcgrid_spec hn
  rw [hgrid] at hg
  injection hg with hg
  subst hg
  subst hmul
  have c : Ctx bin bout r2c wi wo grid r :=
    ⟨geo, Nat.pos_of_mul_pos_right hn, Nat.pos_of_mul_pos_left hn, hr, hh⟩
  split at h
  · -- slab input
    rename_i d0 d1 hsi
    obtain ⟨hne, hsl, hk⟩ := slabInput_spec hsi
    simp only [bind_ok, req_ok] at h
    obtain ⟨d2, hd2, shape0, hs0, shape1, hs1, shape2, hs2, h⟩ := h
    injection h with h
    subst h
    rw [isSlab_iff] at hsl
    have sp : ∀ e, (∀ b ∈ bin, b.size.get e = wi.size.get e) → ∀ b ∈ bin, b.empty = false → Spans b wi e :=
      fun e he b hb hbe => spans_of_size geo.tilesIn hb hbe (he b hb)
    have f := first_slabs c (sp d0 fun b hb => (hsl b hb).1) hs0
    have m := f.mid c hk
    have l1 := m.slabs (applyR2c_spans geo.complex
      (spans_same (reorderSlabs_spec hs0).1 (sp d1 fun b hb => (hsl b hb).2))) hs1
    have l2 := l1.mid.next c (by simp) hs2
    exact ⟨rfl, rfl, rfl, rfl, rfl, rfl, rfl, anyValid2 _ _ _ hne hd2, hk, f, m, l1, l2⟩
  · rename_i hsi
    have hns := slabInput_none hsi
    split at h
    · -- slab output
      rename_i d1 d2 hso
      obtain ⟨hne, hsl, hk1, hk2⟩ := slabOutput_spec hso
      simp only [bind_ok, req_ok] at h
      obtain ⟨d0, hd0, shape0, hs0, shape1, hs1, shape2, hs2, h⟩ := h
      injection h with h
      subst h
      have hk : ∀ k, r2c = some k → d0 = k := fun k hk =>
        anyValid0_r2c _ _ _ _ hne (fun h => hk1 (h ▸ hk)) (fun h => hk2 (h ▸ hk)) hd0
      rw [isSlab_iff] at hsl
      have sp : ∀ e, (∀ b ∈ bout, b.size.get e = wo.size.get e) → ∀ b ∈ bout, b.empty = false → Spans b wo e :=
        fun e he b hb hbe => spans_of_size geo.tilesOut hb hbe (he b hb)
      have f := first_next c hns hs0
      have m := f.mid c hk
      have l1 := c.midOut.slabs (sp d1 fun b hb => (hsl b hb).1) hs1
      have l2 := l1.mid.slabs (spans_same (reorderSlabs_spec hs1).1 (sp d2 fun b hb => (hsl b hb).2)) hs2
      exact ⟨rfl, rfl, rfl, rfl, rfl, rfl, rfl, anyValid0 _ _ _ hne hd0, hk, f, m, l1, l2⟩
    · split at h
      · -- pencil input
        rename_i d0 hpi
        obtain ⟨-, hk⟩ := slabPencilInput_spec hpi
        simp only [bind_ok, req_ok] at h
        obtain ⟨d1, hd1, d2, hd2, shape0, hs0, slabs, hsl, shape1, hs1, shape2, hs2, h⟩ := h
        injection h with h
        subst h
        have hall := anyValid1 _ _ _ hd1 hd2
        have f := first_next c hns hs0
        have m := f.mid c hk
        have hpos : 0 < grid.1 * grid.2 := hn
        obtain ⟨⟨a1, a2, a3⟩, b, o⟩ := makeSlabs_spec hall.2.2 hpos c.good hsl
        have ms : Mid bin bout r2c wo r slabs :=
          ⟨a1, a2, .inl o, fun _ => ⟨_, UsesOrder.of_all c.orderWo a3⟩⟩
        have l1 := ms.slabs (fun x hx he => (b x hx he).1) hs1
        have l2 := ms.slabs (fun x hx he => (b x hx he).2) hs2
        exact ⟨rfl, rfl, rfl, rfl, rfl, rfl, rfl, hall, hk, f, m, l1, l2⟩
      · -- general
        obtain ⟨e0, e1, e2, hf, hall, hk⟩ := slabGeneralDirs_spec wo bout r2c
        rw [hf] at h
        simp only [bind_ok, req_ok] at h
        obtain ⟨d0, hd0, d1, hd1, d2, hd2, slabs, hsl, shape0, hs0, shape1, hs1, shape2, hs2, h⟩ := h
        injection h with h
        subst h
        injection hd0 with hd0
        injection hd1 with hd1
        injection hd2 with hd2
        subst hd0 hd1 hd2
        have f := first_made c hall.1 rfl (.inl rfl) hsl hs0
        have m := f.mid c hk
        obtain ⟨-, b, -⟩ := makeSlabs_spec hall.1 hn c.good hsl
        have l1 := m.slabs (applyR2c_spans geo.complex
          (spans_same (reorderSlabs_spec hs0).1 fun x hx he => (b x hx he).2)) hs1
        have l2 := l1.mid.next c (by simp) hs2
        exact ⟨rfl, rfl, rfl, rfl, rfl, rfl, rfl, hall, hk, f, m, l1, l2⟩

theorem planRemap_spec {ranks : Nat} {opts : Opts} {r : Remap} (hn : 0 < ranks) (h : planRemap ranks opts = .ok r) :
    ∃ n, 0 < n ∧ r.Good ranks n ∧ (r.isAll = true ∨ r.sub = n) ∧ r.map.head? ≠ some none ∧
      ∀ i : Nat, 0 < opts.numSub → opts.numSub ≤ i → i < ranks → r.map[i]? = some none := by
  unfold planRemap at h
  split at h
  · rename_i hc
    have hs := h
    obtain ⟨h1, h2⟩ := setSubranks_good h hn
    refine ⟨_, by omega, h1, .inr h2, ?_, ?_⟩
    · unfold Remap.setSubranks at hs
      split at hs
      · injection hs with hs
        subst hs
        rw [List.head?_eq_getElem?, List.getElem?_map, List.getElem?_range hn]
        simp only [Option.map_some]
        rw [if_pos (by omega)]
        simp
      · cases hs
    · intro i h0 hi hir
      unfold Remap.setSubranks at hs
      split at hs
      · injection hs with hs
        subst hs
        rw [List.getElem?_map, List.getElem?_range hir]
        simp only [Option.map_some]
        rw [if_neg (by omega)]
      · cases hs
  · rename_i hc
    injection h with h
    subst h
    refine ⟨ranks, hn, .inl ⟨rfl, rfl⟩, .inl rfl, by simp [Remap.all], ?_⟩
    intro i h0 hi hir
    exfalso; apply hc; omega

theorem Geometry.ranks_pos {bin bout : List Box} {r2c : Option (Fin 3)} {wi wo : Box}
    (g : Geometry bin bout r2c wi wo) : 0 < bin.length := by
  obtain ⟨p, hp⟩ := g.nonempty
  obtain ⟨b, hb, -⟩ := g.tilesIn.exists_box hp
  exact List.length_pos_of_mem hb

/-- The main invariant. -/
theorem planOperations_ok {bin bout : List Box} {r2c : Option (Fin 3)} {wi wo : Box} {opts : Opts} {p : Plan}
    (geo : Geometry bin bout r2c wi wo) (h : planOperations bin bout r2c opts = .ok p) :
    ∃ r, planRemap bin.length opts = .ok r ∧ PlanOK bin bout r2c wi wo r opts.useReorder p := by
  unfold planOperations at h
  simp only [bind_ok] at h
  obtain ⟨r, hr, wi', hwi, wo', hwo, h⟩ := h
  rw [geo.worldIn] at hwi
  rw [geo.worldOut] at hwo
  injection hwi with hwi
  injection hwo with hwo
  subst hwi hwo
  obtain ⟨n, h1, h2, h3, h4, -⟩ := planRemap_spec geo.ranks_pos hr
  refine ⟨r, hr, ?_⟩
  split at h
  · exact planPencil_ok geo h1 h2 h3 h4 h
  · exact planSlab_ok geo h1 h2 h3 h4 h

end Verif
