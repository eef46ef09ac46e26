import Verif.Plan
import Verif.PlanMain
import Verif.LibPlan
import Verif.SpecGrids

/-!
# `compute_grids` and what the benchmark prints

`/repo/src/heffte_plan_logic.cpp` is cited as `plan_logic.cpp`. `distinctIntervals` in `Plan.lean` is the inner part of the function.
-/

namespace Verif

/-- The three numbers for one shape (plan_logic.cpp:479-480). -/
def gridOf (shape : List Box) : A3 Nat := .of fun d => distinctIntervals shape d

/-- The shapes in the order of the loop (plan_logic.cpp:464-466): `in_shape[0..3]` and `out_shape[3]`. -/
def gridShapes (p : Plan) : List (List Box) := [p.in0, p.in1, p.in2, p.in3, p.out3]

/-- `compute_grids` (plan_logic.cpp:461-484). The conversion to `int` is exact for fewer than `2^31` ranks. -/
def computeGrids (p : Plan) : List (A3 Nat) := (gridShapes p).map gridOf

/-- `print_proc_grid` (benchmarks/speed3d.h:115-118): `none` is the dash that stands for no reshape. -/
def printGrid (p : Plan) (i : Nat) : Option (A3 Nat) :=
  if 0 < i ∧ (computeGrids p)[i]? = (computeGrids p)[i - 1]? then none else (computeGrids p)[i]?

/-! ## Counting intervals -/

theorem intervals_fold (j : Fin 3) (shape : List Box) (acc : List (Int × Int)) (hn : acc.Nodup) (h0 : (0, -1) ∉ acc) :
    let r := shape.foldl (fun (acc : List (Int × Int)) b =>
      let r := (b.low j, b.high j)
      if r = (0, -1) then acc else if r ∈ acc then acc else acc ++ [r]) acc
    r.Nodup ∧ ∀ x, x ∈ r ↔ x ∈ acc ∨ x ≠ (0, -1) ∧ ∃ b ∈ shape, interval b j = x := by
  induction shape generalizing acc with
  | nil => exact ⟨hn, fun x => by simp⟩
  | cons b t ih =>
    rw [List.foldl_cons]
    have hb : (b.low j, b.high j) = interval b j := rfl
    by_cases h1 : interval b j = (0, -1)
    · rw [hb, if_pos h1]
      obtain ⟨a1, a2⟩ := ih acc hn h0
      refine ⟨a1, fun x => (a2 x).trans ?_⟩
      constructor
      · rintro (h | ⟨h, c, hc, e⟩)
        · exact .inl h
        · exact .inr ⟨h, c, .tail _ hc, e⟩
      · rintro (h | ⟨h, c, hc, e⟩)
        · exact .inl h
        · rcases List.mem_cons.1 hc with rfl | hc
          · exact absurd (e.symm.trans h1) h
          · exact .inr ⟨h, c, hc, e⟩
    · rw [hb, if_neg h1]
      by_cases h2 : interval b j ∈ acc
      · rw [if_pos h2]
        obtain ⟨a1, a2⟩ := ih acc hn h0
        refine ⟨a1, fun x => (a2 x).trans ?_⟩
        constructor
        · rintro (h | ⟨h, c, hc, e⟩)
          · exact .inl h
          · exact .inr ⟨h, c, .tail _ hc, e⟩
        · rintro (h | ⟨h, c, hc, e⟩)
          · exact .inl h
          · rcases List.mem_cons.1 hc with rfl | hc
            · exact .inl (e ▸ h2)
            · exact .inr ⟨h, c, hc, e⟩
      · rw [if_neg h2]
        obtain ⟨a1, a2⟩ := ih (acc ++ [interval b j]) (List.nodup_append.2 ⟨hn, by simp, by
          intro x hx y hy e
          rw [List.mem_singleton] at hy
          exact h2 (hy ▸ e ▸ hx)⟩) (by
          rw [List.mem_append, List.mem_singleton]
          rintro (h | h)
          · exact h0 h
          · exact h1 h.symm)
        refine ⟨a1, fun x => (a2 x).trans ?_⟩
        rw [List.mem_append, List.mem_singleton]
        constructor
        · rintro ((h | rfl) | ⟨h, c, hc, e⟩)
          · exact .inl h
          · exact .inr ⟨h1, b, .head _, rfl⟩
          · exact .inr ⟨h, c, .tail _ hc, e⟩
        · rintro (h | ⟨h, c, hc, e⟩)
          · exact .inl (.inl h)
          · rcases List.mem_cons.1 hc with rfl | hc
            · exact .inl (.inr e.symm)
            · exact .inr ⟨h, c, hc, e⟩

theorem cuts_nodup {c : List (Int × Int)} (h : c.Pairwise fun r s => r.2 < s.1 ∨ s.2 < r.1) (hle : ∀ r ∈ c, r.1 ≤ r.2) : c.Nodup := by
  refine List.Pairwise.imp_of_mem (fun {r s} hr _ hrs e => ?_) h
  subst e
  have := hle r hr
  omega

theorem FormsGrid.gridOf {shape : List Box} {g : A3 Nat} (h : FormsGrid shape g) : gridOf shape = g := by
  obtain ⟨hpos, cuts, h1, h2, h3⟩ := h
  refine A3.ext' fun d => ?_
  rw [Verif.gridOf, A3.get_of, ← (h1 d).1, distinctIntervals]
  obtain ⟨f1, f2⟩ := intervals_fold d shape [] List.nodup_nil (by simp)
  have hne : ∀ d, ∃ r, r ∈ cuts d := fun d => by
    have := hpos d
    rw [← (h1 d).1] at this
    exact List.exists_mem_of_length_pos this
  refine ((List.perm_ext_iff_of_nodup f1 (cuts_nodup (h1 d).2.1 (h1 d).2.2)).2 fun x => ?_).length_eq
  rw [f2]
  constructor
  · rintro (h | ⟨hx, b, hb, rfl⟩)
    · cases h
    · exact (h2 b hb d).resolve_left hx
  · intro hx
    refine .inr ⟨fun e => ?_, ?_⟩
    · have := (h1 d).2.2 x hx
      rw [e] at this
      norm_num at this
    · obtain ⟨r0, k0⟩ := hne 0
      obtain ⟨r1, k1⟩ := hne 1
      obtain ⟨r2, k2⟩ := hne 2
      match d with
      | 0 => obtain ⟨b, hb, e, -, -⟩ := h3 x hx r1 k1 r2 k2; exact ⟨b, hb, e⟩
      | 1 => obtain ⟨b, hb, -, e, -⟩ := h3 r0 k0 x hx r2 k2; exact ⟨b, hb, e⟩
      | 2 => obtain ⟨b, hb, -, -, e⟩ := h3 r0 k0 r1 k1 x hx; exact ⟨b, hb, e⟩

/-! ## What keeps a grid -/

theorem FormsGrid.congr {l l' : List Box} {g : A3 Nat} (h : FormsGrid l g) (h1 : ∀ b ∈ l', ∃ c ∈ l, ∀ d, interval b d = interval c d)
    (h2 : ∀ c ∈ l, ∃ b ∈ l', ∀ d, interval b d = interval c d) : FormsGrid l' g := by
  obtain ⟨hpos, cuts, a1, a2, a3⟩ := h
  refine ⟨hpos, cuts, a1, fun b hb d => ?_, fun r0 k0 r1 k1 r2 k2 => ?_⟩
  · obtain ⟨c, hc, e⟩ := h1 b hb
    rw [e d]
    exact a2 c hc d
  · obtain ⟨c, hc, e0, e1, e2⟩ := a3 r0 k0 r1 k1 r2 k2
    obtain ⟨b, hb, e⟩ := h2 c hc
    exact ⟨b, hb, (e 0).trans e0, (e 1).trans e1, (e 2).trans e2⟩

theorem FormsGrid.withOrder {l : List Box} {g : A3 Nat} (h : FormsGrid l g) (o : A3 (Fin 3)) : FormsGrid (l.map (Box.withOrder o)) g :=
  h.congr (fun b hb => by obtain ⟨c, hc, rfl⟩ := List.mem_map.1 hb; exact ⟨c, hc, fun _ => rfl⟩)
    fun c hc => ⟨_, List.mem_map.2 ⟨c, hc, rfl⟩, fun _ => rfl⟩

theorem FormsGrid.perm {l l' : List Box} {g : A3 Nat} (h : FormsGrid l g) (hp : l'.Perm l) : FormsGrid l' g :=
  h.congr (fun b hb => ⟨b, hp.mem_iff.1 hb, fun _ => rfl⟩) fun b hb => ⟨b, hp.mem_iff.2 hb, fun _ => rfl⟩

theorem r2c_interval {b : Box} (he : b.empty = false) (d e : Fin 3) :
    interval (b.r2c d) e = if e = d then ((interval b e).1, (interval b e).1 + ((interval b e).2 - (interval b e).1 + 1) / 2) else interval b e := by
  unfold Box.r2c interval
  rw [he]
  simp only [Bool.false_eq_true, if_false]
  by_cases h : e = d
  · subst h
    rw [if_pos rfl, A3.get_set_self]
    simp only [Box.size, A3.get_of]
  · rw [if_neg h, A3.get_set_ne _ _ h]

/-- `apply_r2c` of a grid is a grid of the same dimensions. -/
theorem FormsGrid.applyR2c {l : List Box} {g : A3 Nat} (h : FormsGrid l g) (r2c : Option (Fin 3)) : FormsGrid (applyR2c l r2c) g := by
  cases r2c with
  | none => exact h
  | some d =>
  obtain ⟨hpos, cuts, a1, a2, a3⟩ := h
  let half : Int × Int → Int × Int := fun r => (r.1, r.1 + (r.2 - r.1 + 1) / 2)
  have key : ∀ b ∈ l, (∀ e, interval b e ∈ cuts e) → ∀ e, interval (b.r2c d) e = if e = d then half (interval b e) else interval b e := fun b hb hin e =>
    r2c_interval (Box.empty_false_iff.2 fun e => (a1 e).2.2 _ (hin e)) d e
  refine ⟨hpos, fun e => if e = d then (cuts e).map half else cuts e, fun e => ?_, fun b hb e => ?_, ?_⟩
  · beta_reduce
    by_cases he : e = d
    · rw [if_pos he]
      refine ⟨by rw [List.length_map]; exact (a1 e).1, ?_, ?_⟩
      · rw [List.pairwise_map]
        refine List.Pairwise.imp_of_mem (fun {r s} hr hs hrs => ?_) (a1 e).2.1
        have h1 := (a1 e).2.2 r hr
        have h2 := (a1 e).2.2 s hs
        simp only [half]
        omega
      · intro r hr
        obtain ⟨s, hs, rfl⟩ := List.mem_map.1 hr
        have := (a1 e).2.2 s hs
        simp only [half]
        omega
    · rw [if_neg he]; exact a1 e
  · obtain ⟨c, hc, rfl⟩ := List.mem_map.1 hb
    by_cases hin : ∀ e, interval c e ∈ cuts e
    · right
      beta_reduce
      rw [key c hc hin e]
      by_cases he : e = d
      · rw [if_pos he, if_pos he]; exact List.mem_map.2 ⟨_, hin e, rfl⟩
      · rw [if_neg he, if_neg he]; exact hin e
    · left
      have hem : c.empty = true := by
        rw [not_forall] at hin
        obtain ⟨e, he⟩ := hin
        have := (a2 c hc e).resolve_right he
        by_contra hne
        have hne : c.empty = false := by simpa using hne
        have h1 := Box.empty_false_iff.1 hne e
        unfold interval at this
        rw [Prod.mk.injEq] at this
        omega
      unfold Box.r2c
      rw [if_pos hem]
      revert e; decide
  · intro r0 k0 r1 k1 r2 k2
    have back : ∀ e r, r ∈ (if e = d then (cuts e).map half else cuts e) → ∃ s ∈ cuts e, r = if e = d then half s else s := by
      intro e r hr
      by_cases he : e = d
      · rw [if_pos he] at hr
        obtain ⟨s, hs, rfl⟩ := List.mem_map.1 hr
        exact ⟨s, hs, by rw [if_pos he]⟩
      · rw [if_neg he] at hr
        exact ⟨r, hr, by rw [if_neg he]⟩
    obtain ⟨s0, m0, rfl⟩ := back 0 r0 k0
    obtain ⟨s1, m1, rfl⟩ := back 1 r1 k1
    obtain ⟨s2, m2, rfl⟩ := back 2 r2 k2
    obtain ⟨b, hb, e0, e1, e2⟩ := a3 s0 m0 s1 m1 s2 m2
    have hin : ∀ e, interval b e ∈ cuts e := fun e => match e with
      | 0 => e0 ▸ m0
      | 1 => e1 ▸ m1
      | 2 => e2 ▸ m2
    refine ⟨b.r2c d, List.mem_map.2 ⟨b, hb, rfl⟩, ?_, ?_, ?_⟩
    · rw [key b hb hin, e0]
    · rw [key b hb hin, e1]
    · rw [key b hb hin, e2]

/-- Boxes that get the whole world in one direction (plan_logic.cpp:139-149). -/
theorem FormsGrid.nonR2c {l : List Box} {g : A3 Nat} (h : FormsGrid l g) {w : Box} {d : Fin 3} (hw : w.low.get d ≤ w.high.get d) :
    FormsGrid (l.map (nonR2cBox w d)) (g.set d 1) := by
  obtain ⟨hpos, cuts, a1, a2, a3⟩ := h
  have key : ∀ b e, interval (nonR2cBox w d b) e = if e = d then (w.low.get d, w.high.get d) else interval b e := by
    intro b e
    unfold nonR2cBox interval
    by_cases he : e = d
    · subst he; rw [if_pos rfl, A3.get_set_self, A3.get_set_self]
    · rw [if_neg he, A3.get_set_ne _ _ he, A3.get_set_ne _ _ he]
  have hne : ∀ d, ∃ r, r ∈ cuts d := fun d => by
    have := hpos d
    rw [← (a1 d).1] at this
    exact List.exists_mem_of_length_pos this
  refine ⟨fun e => ?_, fun e => if e = d then [(w.low.get d, w.high.get d)] else cuts e, fun e => ?_, fun b hb e => ?_, ?_⟩
  · by_cases he : e = d
    · subst he; rw [A3.get_set_self]; exact one_pos
    · rw [A3.get_set_ne _ _ he]; exact hpos e
  · beta_reduce
    by_cases he : e = d
    · subst he
      rw [if_pos rfl, A3.get_set_self]
      exact ⟨rfl, by simp, fun r hr => by rw [List.mem_singleton] at hr; subst hr; exact hw⟩
    · rw [if_neg he, A3.get_set_ne _ _ he]; exact a1 e
  · obtain ⟨c, hc, rfl⟩ := List.mem_map.1 hb
    beta_reduce
    rw [key]
    by_cases he : e = d
    · rw [if_pos he, if_pos he]; simp
    · rw [if_neg he, if_neg he]; exact a2 c hc e
  · intro r0 k0 r1 k1 r2 k2
    have back : ∀ e r, r ∈ (if e = d then [(w.low.get d, w.high.get d)] else cuts e) → ∃ s ∈ cuts e, r = if e = d then (w.low.get d, w.high.get d) else s := by
      intro e r hr
      by_cases he : e = d
      · rw [if_pos he, List.mem_singleton] at hr
        obtain ⟨s, hs⟩ := hne e
        exact ⟨s, hs, by rw [if_pos he, hr]⟩
      · rw [if_neg he] at hr
        exact ⟨r, hr, by rw [if_neg he]⟩
    obtain ⟨s0, m0, rfl⟩ := back 0 r0 k0
    obtain ⟨s1, m1, rfl⟩ := back 1 r1 k1
    obtain ⟨s2, m2, rfl⟩ := back 2 r2 k2
    obtain ⟨b, hb, e0, e1, e2⟩ := a3 s0 m0 s1 m1 s2 m2
    refine ⟨nonR2cBox w d b, List.mem_map.2 ⟨b, hb, rfl⟩, ?_, ?_, ?_⟩
    · rw [key, e0]
    · rw [key, e1]
    · rw [key, e2]

theorem cut_ordered {low n : Int} {p : Nat} (hn : 0 ≤ n) {i j : Nat} (h : i ≤ j) : cut low n p i ≤ cut low n p j := by
  induction h with
  | refl => exact le_rfl
  | step _ ih => exact ih.trans (cut_mono hn)

/-- `split_world` into at most as many parts as there are indexes gives a grid. -/
theorem splitWorld_grid {w : Box} {g : A3 Nat} {r : Remap} {ranks : Nat} {l : List Box} (hg : ∀ d, 0 < g.get d) (hs : ∀ d, (g.get d : Int) ≤ w.size.get d)
    (hr : r.Good ranks (g.get 0 * g.get 1 * g.get 2)) (hl : splitWorld w g r = .ok l) : FormsGrid l g := by
  let part : Fin 3 → Nat → Int × Int := fun d i => (cut (w.low.get d) (w.size.get d) (g.get d) i, cut (w.low.get d) (w.size.get d) (g.get d) (i + 1) - 1)
  have hn : ∀ d, 0 ≤ w.size.get d := fun d => by have := hs d; omega
  have hin : ∀ b ∈ gridBoxes w g, b ∈ l := by
    rcases hr with ⟨h, -⟩ | ⟨h, h1, h2⟩
    · rw [splitWorld_all _ _ _ h, Except.ok.injEq] at hl
      subst hl; exact fun b hb => hb
    · rw [← gridBoxes_length w g] at h2
      exact fun b hb => (splitWorld_sub_perm h hl h2).mem_iff.2 (List.mem_append_left _ hb)
  refine ⟨hg, fun d => (List.range (g.get d)).map (part d), fun d => ⟨by simp, ?_, ?_⟩, fun b hb d => ?_, ?_⟩
  · rw [List.pairwise_map]
    refine List.Pairwise.imp (fun {i j} hij => .inl ?_) List.pairwise_lt_range
    have := cut_ordered (low := w.low.get d) (p := g.get d) (hn d) (show i + 1 ≤ j from hij)
    simp only [part]
    omega
  · intro x hx
    obtain ⟨i, -, rfl⟩ := List.mem_map.1 hx
    simp only [part]
    rw [cut_succ]
    have h1 : 1 ≤ (w.size.get d).tdiv (g.get d) := by
      rw [Int.tdiv_eq_ediv_of_nonneg (hn d)]
      exact (Int.le_ediv_iff_mul_le (by exact_mod_cast hg d)).2 (by rw [one_mul]; exact hs d)
    split <;> omega
  · rcases splitWorld_mem hl hb with hb | rfl
    · obtain ⟨i, hi, h1, h2⟩ := gridBoxes_coord hb d
      exact .inr (List.mem_map.2 ⟨i, List.mem_range.2 hi, by simp only [part, interval]; rw [h1, h2]⟩)
    · left
      fin_cases d <;> rfl
  · intro r0 k0 r1 k1 r2 k2
    obtain ⟨i, hi, rfl⟩ := List.mem_map.1 k0
    obtain ⟨j, hj, rfl⟩ := List.mem_map.1 k1
    obtain ⟨k, hk, rfl⟩ := List.mem_map.1 k2
    exact ⟨_, hin _ (mem_gridBoxes.2 ⟨i, j, k, List.mem_range.1 hi, List.mem_range.1 hj, List.mem_range.1 hk, rfl⟩), rfl, rfl, rfl⟩

theorem makePencils_grid {w : Box} {grid : Nat × Nat} {dim : Fin 3} {source res : List Box} {order : A3 (Fin 3)} {r : Remap} {ranks : Nat}
    (hsrc : ∃ g, FormsGrid source g) (h1 : 0 < grid.1) (h2 : 0 < grid.2) (hr : r.Good ranks (grid.1 * grid.2))
    (h : makePencils w grid dim source order r = .ok res) : ∃ g, FormsGrid res g := by
  unfold makePencils at h
  split at h
  · injection h with h
    subst h
    obtain ⟨g, hg⟩ := hsrc
    rw [reorder_eq]
    exact ⟨g, hg.withOrder order⟩
  · simp only [bind_ok] at h
    obtain ⟨ga, hga, sa, hsa, pa, hpa, gb, hgb, sb, hsb, pb, hpb, h⟩ := h
    obtain ⟨-, ha2, ha1, ha3⟩ := makeProcgrid2d_ok h1 h2 hga
    obtain ⟨-, hb2, hb1, hb3⟩ := makeProcgrid2d_ok h2 h1 hgb
    have key : ∀ {g : A3 Nat} {s p : List Box}, g.get 0 * g.get 1 * g.get 2 = grid.1 * grid.2 → (∀ d, (g.get d : Int) ≤ w.size.get d) → (∀ d, 0 < g.get d) →
        splitWorld w g r = .ok s → maximizeOverlap s source order r = .ok p → ∃ g, FormsGrid p g := by
      intro g s p e1 e2 e3 hs hp
      rw [← e1] at hr
      have hlen := splitWorld_length hr hs
      exact ⟨g, ((splitWorld_grid e3 e2 hr hs).withOrder order).perm (maximizeOverlap_perm (by rw [hlen]; exact hr.length) hp)⟩
    injection h with h
    split at h
    · subst h; exact key (by rw [hb2, mul_comm]) hb1 hb3 hsb hpb
    · subst h; exact key ha2 ha1 ha3 hsa hpa

theorem slabGrid_values (n : Nat) (d1 d2 d : Fin 3) : (slabGrid n d1 d2).get d = 1 ∨ (slabGrid n d1 d2).get d = n := by
  unfold slabGrid
  split_ifs <;> fin_cases d <;> simp [A3.get]

theorem makeSlabs_grid {w : Box} {n : Nat} {d1 d2 : Fin 3} {source res : List Box} {order : A3 (Fin 3)} {r : Remap} {ranks : Nat} (hd : d1 ≠ d2) (hn : 0 < n)
    (hs : ∀ d, (n : Int) ≤ w.size.get d) (hr : r.Good ranks n) (h : makeSlabs w n d1 d2 source order r = .ok res) : ∃ g, FormsGrid res g := by
  unfold makeSlabs at h
  rw [bind_ok] at h
  obtain ⟨sl, hsl, h⟩ := h
  obtain ⟨-, -, g3, g4⟩ := slabGrid_spec (n := n) hd
  rw [← g3] at hr
  have hlen := splitWorld_length hr hsl
  refine ⟨_, ((splitWorld_grid (g4 hn) (fun d => ?_) hr hsl).withOrder order).perm (maximizeOverlap_perm (by rw [hlen]; exact hr.length) h)⟩
  have := hs d
  rcases slabGrid_values n d1 d2 d with e | e <;> rw [e] <;> omega

theorem reorderSlabs_grid {l res : List Box} {d : Fin 3} {u : Bool} (hl : ∃ g, FormsGrid l g) (h : reorderSlabs l d u = .ok res) : ∃ g, FormsGrid res g := by
  obtain ⟨g, hg⟩ := hl
  unfold reorderSlabs at h
  split at h
  · injection h with h; subst h; exact ⟨g, hg⟩
  · split at h
    · cases h
    · split at h
      · injection h with h; subst h; exact ⟨g, hg⟩
      · injection h with h; subst h; rw [reorder_eq]; exact ⟨g, hg.withOrder _⟩

theorem nextPencilsShape_grid {w wo : Box} {grid : Nat × Nat} {d : Fin 3} {source bout res : List Box} {u : Bool} {test : List (Fin 3)} {r : Remap} {ranks : Nat}
    (hsrc : ∃ g, FormsGrid source g) (hb : ∃ g, FormsGrid bout g) (h1 : 0 < grid.1) (h2 : 0 < grid.2) (hr : r.Good ranks (grid.1 * grid.2))
    (h : nextPencilsShape w grid d source u wo test bout r = .ok res) : ∃ g, FormsGrid res g := by
  unfold nextPencilsShape at h
  split at h
  · split at h
    · split at h
      · cases h
      · obtain ⟨g, hg⟩ := hb
        split at h
        · injection h with h; subst h; exact ⟨g, hg⟩
        · injection h with h; subst h; rw [reorder_eq]; exact ⟨g, hg.withOrder _⟩
    · split at h
      · cases h
      · exact makePencils_grid hsrc h1 h2 hr h
  · split at h
    · injection h with h; subst h; exact hb
    · exact makePencils_grid hsrc h1 h2 hr h

theorem Remap.Good.le {r : Remap} {ranks n : Nat} (h : r.Good ranks n) : n ≤ ranks := by
  rcases h with ⟨-, h⟩ | ⟨-, h, hp⟩
  · exact h.le
  · have := hp.length_eq
    rw [List.length_range] at this
    rw [← this, ← h]
    exact List.length_filterMap_le _ _

/-! ## The shapes of a plan -/

/-- All the shapes whose grids are reported form grids. -/
def GridPlan (p : Plan) : Prop := ∀ l ∈ gridShapes p, ∃ g, FormsGrid l g

section
variable {bin bout : List Box} {r2c : Option (Fin 3)} {wi wo : Box} {opts : Opts} {r : Remap} {p : Plan} {n : Nat}

theorem gridPlan_of {d : A3 Int} {q : A3 (Fin 3)} {c : Int} {s0 f0 s1 s2 : List Box} (hi : ∃ g, FormsGrid bin g) (ho : ∃ g, FormsGrid bout g)
    (h0 : ∃ g, FormsGrid f0 g) (h1 : ∃ g, FormsGrid s1 g) (h2 : ∃ g, FormsGrid s2 g) : GridPlan ⟨bin, f0, s1, s2, s0, s1, s2, bout, d, q, c⟩ := by
  intro l hl
  simp only [gridShapes, List.mem_cons, List.not_mem_nil, or_false] at hl
  rcases hl with rfl | rfl | rfl | rfl | rfl <;> assumption

theorem applyR2c_grid {l : List Box} (h : ∃ g, FormsGrid l g) (r2c : Option (Fin 3)) : ∃ g, FormsGrid (applyR2c l r2c) g :=
  let ⟨g, hg⟩ := h; ⟨g, hg.applyR2c r2c⟩

theorem nextPencilsShape0_grid {grid : Nat × Nat} {d : Fin 3} {source res : List Box} {u : Bool} {test : List (Fin 3)} {ranks : Nat}
    (hw : ∃ x : A3 Int, x ∈ wi) (hsrc : ∃ g, FormsGrid source g) (hb : ∃ g, FormsGrid bout g) (h1 : 0 < grid.1) (h2 : 0 < grid.2)
    (hr : r.Good ranks (grid.1 * grid.2)) (h : nextPencilsShape0 wi grid d r2c source u wo test bout r = .ok res) : ∃ g, FormsGrid res g := by
  unfold nextPencilsShape0 at h
  split at h
  · rename_i k
    split at h
    · obtain ⟨g, hg⟩ := hb
      obtain ⟨x, hx⟩ := hw
      have := hx k
      exact nextPencilsShape_grid hsrc ⟨_, hg.nonR2c (w := wi) (d := k) (by omega)⟩ h1 h2 hr h
    · exact nextPencilsShape_grid hsrc hb h1 h2 hr h
  · exact nextPencilsShape_grid hsrc hb h1 h2 hr h

theorem planPencil_grid (geo : Geometry bin bout r2c wi wo) (hn : 0 < n) (hr : r.Good bin.length n) (hs : r.isAll = true ∨ r.sub = n)
    (hi : ∃ g, FormsGrid bin g) (ho : ∃ g, FormsGrid bout g) (h : planPencil wi wo bin bout r2c opts r = .ok p) : GridPlan p := by
  unfold planPencil at h
  rw [workRanks_good hr hs] at h
  simp only [bind_ok, req_ok] at h
  obtain ⟨grid, hgrid, d0, -, shape0, hs0, d1, -, d2, -, shape1, hs1, shape2, hs2, h⟩ := h
  injection h with h
  subst h
  obtain ⟨g, hg, hmul, -⟩ := makeProcgrid_spec hn
  rw [hgrid] at hg
  injection hg with hg
  subst hg
  rw [← hmul] at hr hn
  have g1 := Nat.pos_of_mul_pos_right hn
  have g2 := Nat.pos_of_mul_pos_left hn
  have k0 := applyR2c_grid (nextPencilsShape0_grid geo.nonempty hi ho g1 g2 hr hs0) r2c
  have k1 := nextPencilsShape_grid k0 ho g1 g2 hr hs1
  have k2 := nextPencilsShape_grid k1 ho g1 g2 hr hs2
  exact gridPlan_of hi ho k0 k1 k2

theorem planSlab_grid (geo : Geometry bin bout r2c wi wo) (hn : 0 < n) (hr : r.Good bin.length n) (hs : r.isAll = true ∨ r.sub = n)
    (hlong : ∀ d, (bin.length : Int) ≤ wi.size.get d ∧ (bin.length : Int) ≤ wo.size.get d)
    (hi : ∃ g, FormsGrid bin g) (ho : ∃ g, FormsGrid bout g) (h : planSlab wi wo bin bout r2c opts r = .ok p) : GridPlan p := by
  unfold planSlab at h
  split at h
  · exact planPencil_grid geo hn hr hs hi ho h
  rw [workRanks_good hr hs, bind_ok] at h
  obtain ⟨grid, hgrid, h⟩ := h
  obtain ⟨g, hg, hmul, -⟩ := makeProcgrid_spec hn
  rw [hgrid] at hg
  injection hg with hg
  subst hg
  subst hmul
  have g1 := Nat.pos_of_mul_pos_right hn
  have g2 := Nat.pos_of_mul_pos_left hn
  have hle := hr.le
  split at h
  · simp only [bind_ok, req_ok] at h
    obtain ⟨d2, -, shape0, hs0, shape1, hs1, shape2, hs2, h⟩ := h
    injection h with h
    subst h
    have k0 := applyR2c_grid (reorderSlabs_grid hi hs0) r2c
    have k1 := reorderSlabs_grid k0 hs1
    exact gridPlan_of hi ho k0 k1 (nextPencilsShape_grid k1 ho g1 g2 hr hs2)
  · split at h
    · simp only [bind_ok, req_ok] at h
      obtain ⟨d0, -, shape0, hs0, shape1, hs1, shape2, hs2, h⟩ := h
      injection h with h
      subst h
      have k0 := applyR2c_grid (nextPencilsShape_grid hi ho g1 g2 hr hs0) r2c
      have k1 := reorderSlabs_grid ho hs1
      exact gridPlan_of hi ho k0 k1 (reorderSlabs_grid k1 hs2)
    · split at h
      · simp only [bind_ok, req_ok] at h
        obtain ⟨d1, hd1, d2, hd2, shape0, hs0, slabs, hsl, shape1, hs1, shape2, hs2, h⟩ := h
        injection h with h
        subst h
        have k0 := applyR2c_grid (nextPencilsShape_grid hi ho g1 g2 hr hs0) r2c
        have ks := makeSlabs_grid (anyValid1 _ _ _ hd1 hd2).2.2 hn (fun d => by have := (hlong d).2; omega) hr hsl
        exact gridPlan_of hi ho k0 (reorderSlabs_grid ks hs1) (reorderSlabs_grid ks hs2)
      · obtain ⟨e0, e1, e2, hf, hall, -⟩ := slabGeneralDirs_spec wo bout r2c
        rw [hf] at h
        simp only [bind_ok, req_ok] at h
        obtain ⟨d0, hd0, d1, hd1, d2, hd2, slabs, hsl, shape0, hs0, shape1, hs1, shape2, hs2, h⟩ := h
        injection h with h
        subst h
        injection hd0 with hd0
        injection hd1 with hd1
        injection hd2 with hd2
        subst hd0 hd1 hd2
        have ks := makeSlabs_grid hall.1 hn (fun d => by have := (hlong d).1; omega) hr hsl
        have k0 := applyR2c_grid (reorderSlabs_grid ks hs0) r2c
        have k1 := reorderSlabs_grid k0 hs1
        exact gridPlan_of hi ho k0 k1 (nextPencilsShape_grid k1 ho g1 g2 hr hs2)

theorem planOperations_grid (geo : Geometry bin bout r2c wi wo)
    (hlong : opts.usePencils = true ∨ ∀ d, (bin.length : Int) ≤ wi.size.get d ∧ (bin.length : Int) ≤ wo.size.get d)
    (hi : ∃ g, FormsGrid bin g) (ho : ∃ g, FormsGrid bout g) (h : planOperations bin bout r2c opts = .ok p) : GridPlan p := by
  unfold planOperations at h
  simp only [bind_ok] at h
  obtain ⟨r, hr, wi', hwi, wo', hwo, h⟩ := h
  rw [geo.worldIn] at hwi
  rw [geo.worldOut] at hwo
  injection hwi with hwi
  injection hwo with hwo
  subst hwi hwo
  obtain ⟨n, h1, h2, h3, -⟩ := planRemap_spec geo.ranks_pos hr
  split at h
  · exact planPencil_grid geo h1 h2 h3 hi ho h
  · rename_i hp
    exact planSlab_grid geo h1 h2 h3 (hlong.resolve_left hp) hi ho h

end

end Verif
