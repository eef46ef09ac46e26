import Verif.ShapeLemmas

/-!
# Properties of the geometry (C01 - C12)

Helper lemmas are in `Verif/BoxLemmas.lean`, `WorldLemmas.lean`, `SplitLemmas.lean`, `OverlapLemmas.lean`,
`GridLemmas.lean` and `ShapeLemmas.lean`.  Each theorem is followed by an example on concrete data.
-/

namespace Verif

/-! ## C01 -/

/-- C01: `collide` is the intersection, empty operands give an empty box, the order comes from the left. -/
theorem C01_collide_exact (a b : Box) :
    (∀ p : A3 Int, p ∈ a.collide b ↔ p ∈ a ∧ p ∈ b) ∧
    (a.NoIndex ∨ b.NoIndex → (a.collide b).empty = true) ∧
    ((∃ p : A3 Int, p ∈ a) → (∃ p : A3 Int, p ∈ b) → (a.collide b).order = a.order) := by
  refine ⟨fun p => Box.mem_collide, ?_, ?_⟩
  · rw [Box.collide_empty_iff]
    rintro (h | h) p ha hb
    · exact h p ha
    · exact h p hb
  · intro ha hb
    rw [← Box.empty_false_iff_mem] at ha hb
    simp [Box.collide, ha, hb]

example : (⟨⟨0, -2, 1⟩, ⟨4, 5, 6⟩, ⟨2, 0, 1⟩⟩ : Box).collide ⟨⟨3, 0, 2⟩, ⟨9, 9, 9⟩, ⟨0, 1, 2⟩⟩ =
    ⟨⟨3, 0, 2⟩, ⟨4, 5, 6⟩, ⟨2, 0, 1⟩⟩ := by decide

/-! ## C02 -/

/-- C02: `count` is the number of index triples, `empty` says that there is none. -/
theorem C02_count_is_cardinality (b : Box) :
    b.count = (b.points.card : Int) ∧ (∀ p : A3 Int, p ∈ b.points ↔ p ∈ b) ∧
    (b.empty = true ↔ b.NoIndex) :=
  ⟨Box.count_eq_card b, fun _ => Box.mem_points, Box.empty_iff⟩

example : (⟨⟨0, -1, 2⟩, ⟨3, 1, 3⟩, ⟨0, 1, 2⟩⟩ : Box).count = 24 ∧
    (⟨⟨0, 5, 2⟩, ⟨3, -3, -7⟩, ⟨0, 1, 2⟩⟩ : Box).count = 0 := by decide

/-! ## C03 -/

/-- C03: for any non-empty list of boxes the check either accepts, and then the enclosing world starts at
the origin and is tiled, or raises `invalid_argument`, and then that is not so. -/
theorem C03_accepted_iff_tiled (boxes : List Box) (hne : boxes ≠ []) :
    ∃ w, findWorld boxes = .ok w ∧
      ((worldComplete boxes w = .ok () ∧ w.low = ⟨0, 0, 0⟩ ∧ Tiles boxes w) ∨
       (worldComplete boxes w = .error .invalid ∧ ¬ (w.low = ⟨0, 0, 0⟩ ∧ Tiles boxes w))) := by
  cases hw : findWorld boxes with
  | error e => exact absurd (findWorld_error.1 hw).1 hne
  | ok w =>
    refine ⟨w, rfl, ?_⟩
    have hlow : (∀ d, w.low.get d = 0) ↔ w.low = ⟨0, 0, 0⟩ := by
      constructor
      · intro h
        ext d
        rw [h d]
        match d with
        | 0 => rfl
        | 1 => rfl
        | 2 => rfl
      · intro h d
        rw [h]
        match d with
        | 0 => rfl
        | 1 => rfl
        | 2 => rfl
    have hiff := worldComplete_iff_tiles hw
    rw [hlow] at hiff
    rcases worldComplete_cases boxes w with h | h
    · exact .inl ⟨h, hiff.1 h⟩
    · refine .inr ⟨h, fun hc => ?_⟩
      rw [hiff.2 hc] at h; cases h

example : worldComplete [⟨⟨0, 0, 0⟩, ⟨3, 1, 1⟩, ⟨0, 1, 2⟩⟩, ⟨⟨0, 0, 0⟩, ⟨-1, -1, -1⟩, ⟨0, 1, 2⟩⟩,
      ⟨⟨0, 2, 0⟩, ⟨3, 2, 1⟩, ⟨2, 1, 0⟩⟩] ⟨⟨0, 0, 0⟩, ⟨3, 2, 1⟩, ⟨0, 1, 2⟩⟩ = .ok () := by decide

/-- Finding: the bounds of empty boxes count for the world, so boxes that tile a zero-based region are rejected
when a rank describes "no indexes" with bounds that stick out. -/
theorem C03_empty_box_bounds_matter :
    ∃ (boxes : List Box) (v w : Box), v.low = ⟨0, 0, 0⟩ ∧ Tiles boxes v ∧ findWorld boxes = .ok w ∧
      worldComplete boxes w = .error .invalid := by
  refine ⟨[⟨⟨0, 0, 0⟩, ⟨1, 1, 1⟩, ⟨0, 1, 2⟩⟩, ⟨⟨5, 5, 5⟩, ⟨4, 4, 4⟩, ⟨0, 1, 2⟩⟩],
    ⟨⟨0, 0, 0⟩, ⟨1, 1, 1⟩, ⟨0, 1, 2⟩⟩, ⟨⟨0, 0, 0⟩, ⟨4, 4, 4⟩, ⟨0, 1, 2⟩⟩, rfl, ?_, by decide, by decide⟩
  intro p
  rw [owners_cons, owners_cons, owners_nil, if_neg (Box.not_mem_of_empty (by decide) p)]
  simp

/-! ## C04 -/

/-- C04: `find_world` gives the tightest bounds around the bounds of all the boxes. -/
theorem C04_find_world_tightest (boxes : List Box) (w : Box) (h : findWorld boxes = .ok w) :
    (∀ b ∈ boxes, ∀ d, w.low.get d ≤ b.low.get d ∧ b.high.get d ≤ w.high.get d) ∧
    (∀ v : Box, (∀ b ∈ boxes, ∀ d, v.low.get d ≤ b.low.get d ∧ b.high.get d ≤ v.high.get d) →
      ∀ d, v.low.get d ≤ w.low.get d ∧ w.high.get d ≤ v.high.get d) :=
  ⟨findWorld_encloses h, fun _ hv => findWorld_tightest h hv⟩

/-- C04, error branch: only the empty list has no world. -/
theorem C04_find_world_total (boxes : List Box) (h : boxes ≠ []) : ∃ w, findWorld boxes = .ok w := by
  cases hw : findWorld boxes with
  | error e => exact absurd (findWorld_error.1 hw).1 h
  | ok w => exact ⟨w, rfl⟩

example : findWorld [⟨⟨0, 3, 0⟩, ⟨3, 5, 1⟩, ⟨2, 1, 0⟩⟩, ⟨⟨2, 2, 0⟩, ⟨3, 2, 7⟩, ⟨2, 1, 0⟩⟩] =
    .ok ⟨⟨0, 2, 0⟩, ⟨3, 5, 7⟩, ⟨0, 1, 2⟩⟩ := by decide

/-! ## C05 -/

/-- C05: `split_world` on all the ranks returns one box per cell of the grid and tiles the world. -/
theorem C05_split_world_tiles (w : Box) (g : A3 Nat) (hg : ∀ d, 0 < g.get d) :
    ∃ l, splitWorld w g Remap.all = .ok l ∧ l.length = g.x * g.y * g.z ∧
      (∀ b ∈ l, b.order = w.order) ∧ Tiles l w :=
  ⟨gridBoxes w g, splitWorld_all _ _ _ rfl, gridBoxes_length w g, fun _ => gridBoxes_order,
    gridBoxes_tiles w g hg⟩

/-- C05 with a subset of the ranks: all ranks get a box, the ranks outside get an empty one, the rest tile. -/
theorem C05_split_world_subranks (w : Box) (g : A3 Nat) (ranks : Nat) (hg : ∀ d, 0 < g.get d)
    (hk : g.x * g.y * g.z ≤ ranks) :
    ∃ r l, Remap.setSubranks ranks (g.x * g.y * g.z) = .ok r ∧ splitWorld w g r = .ok l ∧ l.length = ranks ∧
      (∀ b ∈ l, b.order = w.order) ∧ Tiles l w ∧
      ∀ i b, g.x * g.y * g.z ≤ i → l[i]? = some b → b.NoIndex := by
  have hpos : 0 < g.x * g.y * g.z := Nat.mul_pos (Nat.mul_pos (hg 0) (hg 1)) (hg 2)
  obtain ⟨r, hr⟩ : ∃ r, Remap.setSubranks ranks (g.x * g.y * g.z) = .ok r := by
    unfold Remap.setSubranks; rw [if_pos hk]; exact ⟨_, rfl⟩
  have hgood := (setSubranks_good hr (by omega)).1
  obtain ⟨l, hl⟩ := splitWorld_ok (w := w) (g := g) hgood
  have hlen := splitWorld_length (g := g) hgood hl
  refine ⟨r, l, hr, hl, hlen, ?_, splitWorld_tiles hg hgood hl, ?_⟩
  · intro b hb
    rcases splitWorld_mem hl hb with h | h
    · exact gridBoxes_order h
    · rw [h]; rfl
  · intro i b hi hb
    have hib : i < ranks := hlen ▸ (List.getElem?_eq_some_iff.1 hb).1
    have hm : r.map[i]? = some none := by
      unfold Remap.setSubranks at hr
      rw [if_pos hk] at hr
      injection hr with hr
      subst hr
      rw [List.getElem?_map, List.getElem?_range hib]
      simp only [Option.map_some]
      rw [if_neg (by omega)]
    rw [splitWorld_outside hl hm] at hb
    injection hb with hb
    rw [← hb]
    exact Box.empty_iff.1 (outsideBox_empty _)

example : ∃ l, splitWorld ⟨⟨1, 0, 0⟩, ⟨5, 1, 0⟩, ⟨1, 0, 2⟩⟩ ⟨2, 1, 1⟩ ⟨[some 0, some 1, none], 2⟩ = .ok l ∧
    l = [⟨⟨1, 0, 0⟩, ⟨3, 1, 0⟩, ⟨1, 0, 2⟩⟩, ⟨⟨4, 0, 0⟩, ⟨5, 1, 0⟩, ⟨1, 0, 2⟩⟩,
      ⟨⟨0, 0, 0⟩, ⟨-1, -1, -1⟩, ⟨1, 0, 2⟩⟩] := ⟨_, rfl, by decide⟩

/-! ## C06 -/

/-- C06: the parts are balanced in each direction and not empty when the grid fits the world. -/
theorem C06_split_world_balanced (w : Box) (g : A3 Nat) (l : List Box)
    (h : splitWorld w g Remap.all = .ok l) :
    (∀ a ∈ l, ∀ b ∈ l, ∀ d, a.size.get d ≤ b.size.get d + 1) ∧
    ((∀ d, 0 < g.get d ∧ (g.get d : Int) ≤ w.size.get d) → ∀ b ∈ l, ∃ p : A3 Int, p ∈ b) := by
  rw [splitWorld_all _ _ _ rfl] at h
  injection h with h
  subst h
  constructor
  · intro a ha b hb d
    have h1 := gridBoxes_size ha d
    have h2 := gridBoxes_size hb d
    omega
  · intro hfit b hb
    rw [← Box.empty_false_iff_mem, Box.empty_false_iff]
    intro d
    obtain ⟨hp, hs⟩ := hfit d
    have h1 := gridBoxes_size hb d
    have h2 : 1 ≤ (w.size.get d).tdiv (g.get d) := by
      rw [Int.tdiv_eq_ediv_of_nonneg (by omega)]
      exact (Int.le_ediv_iff_mul_le (by omega)).2 (by omega)
    have h3 : b.size.get d = b.high.get d - b.low.get d + 1 := by simp only [Box.size, A3.get_of]
    omega

example : ∃ l, splitWorld ⟨⟨0, 0, 0⟩, ⟨6, 4, 1⟩, ⟨0, 1, 2⟩⟩ ⟨3, 2, 1⟩ Remap.all = .ok l ∧
    l.map (fun b => (b.size.x, b.size.y)) = [(3, 3), (2, 3), (2, 3), (3, 2), (2, 2), (2, 2)] :=
  ⟨_, rfl, by decide⟩

/-! ## C07 -/

/-- C07: `make_procgrid` returns the factorization with the least area. -/
theorem C07_make_procgrid_optimal (n : Nat) (hn : 1 ≤ n) :
    ∃ p q, makeProcgrid n = .ok (p, q) ∧ 0 < p ∧ 0 < q ∧ p * q = n ∧
      ∀ a b, a * b = n → p * q + p + q ≤ a * b + a + b := by
  obtain ⟨g, h1, h2, h3⟩ := makeProcgrid_spec (n := n) hn
  have hpos : 0 < g.1 * g.2 := by omega
  exact ⟨g.1, g.2, h1, Nat.pos_of_mul_pos_right hpos, Nat.pos_of_mul_pos_left hpos, h2, h3⟩

/-- C07, error branch: without ranks there is no first factorization to start from. -/
theorem C07_make_procgrid_zero : makeProcgrid 0 = .error .ub := by decide

example : makeProcgrid 12 = .ok (3, 4) := by decide

/-! ## C08 -/

/-- C08: what `make_procgrid2d` returns, when it keeps the candidate and when it throws. A grid is described by its
three numbers; `dir` is the direction that is not cut. -/
theorem C08_make_procgrid2d (w : Box) (dir : Fin 3) (c : Nat × Nat) (h1 : 0 < c.1) (h2 : 0 < c.2) :
    (∀ g, makeProcgrid2d w dir c = .ok g →
      g.get dir = 1 ∧ g.x * g.y * g.z = c.1 * c.2 ∧ ∀ d, (g.get d : Int) ≤ w.size.get d) ∧
    ((∀ d, ((gridWithout dir c).get d : Int) ≤ w.size.get d) →
      makeProcgrid2d w dir c = .ok (gridWithout dir c)) ∧
    (makeProcgrid2d w dir c = .error .runtime ↔
      ¬ ∃ g : A3 Nat, g.get dir = 1 ∧ g.x * g.y * g.z = c.1 * c.2 ∧ ∀ d, (g.get d : Int) ≤ w.size.get d) ∧
    ((∃ g, makeProcgrid2d w dir c = .ok g) ∨ makeProcgrid2d w dir c = .error .runtime) := by
  refine ⟨fun g hg => ?_, fun hfit => ?_, ⟨fun he => ?_, fun he => ?_⟩, ?_⟩
  · obtain ⟨a, b, c, -⟩ := makeProcgrid2d_ok h1 h2 hg
    exact ⟨a, b, c⟩
  · unfold makeProcgrid2d
    simp only [gridFits_iff.2 hfit, if_true]
  · rintro ⟨g, hg1, hg2, hg3⟩
    obtain ⟨f, rfl⟩ := gridWithout_surj dir g hg1
    rcases makeProcgrid2d_cases w dir c h1 h2 with ⟨-, h⟩ | ⟨-, f, -, -, h, -⟩ | ⟨h, -⟩
    · rw [h] at he; cases he
    · rw [h] at he; cases he
    · have hp := gridWithout_prod dir f
      simp only [A3.get_zero, A3.get_one, A3.get_two] at hp
      have := h f.1 f.2 (by omega)
      rw [gridFits_iff.2 hg3] at this; cases this
  · rcases makeProcgrid2d_cases w dir c h1 h2 with ⟨h3, h4⟩ | ⟨-, f, h3, h4, h5, -⟩ | ⟨-, h⟩
    · exact absurd ⟨gridWithout dir c, gridWithout_get .., gridWithout_prod .., gridFits_iff.1 h3⟩ he
    · exact absurd ⟨gridWithout dir f, gridWithout_get .., (gridWithout_prod ..).trans h3, gridFits_iff.1 h4⟩ he
    · exact h
  · rcases makeProcgrid2d_cases w dir c h1 h2 with ⟨h3, h4⟩ | ⟨-, f, h3, h4, h5, -⟩ | ⟨-, h⟩
    · exact .inl ⟨_, h4⟩
    · exact .inl ⟨_, h5⟩
    · exact .inr h

/-- C08: the helper grid puts the two numbers in the two other directions, in order. -/
theorem C08_grid_layout (a b : Nat) :
    gridWithout 0 (a, b) = ⟨1, a, b⟩ ∧ gridWithout 1 (a, b) = ⟨a, 1, b⟩ ∧ gridWithout 2 (a, b) = ⟨a, b, 1⟩ :=
  ⟨rfl, rfl, rfl⟩

example : makeProcgrid2d ⟨⟨0, 0, 0⟩, ⟨1, 9, 5⟩, ⟨0, 1, 2⟩⟩ 1 (3, 4) = .ok ⟨2, 1, 6⟩ ∧
    makeProcgrid2d ⟨⟨0, 0, 0⟩, ⟨1, 9, 2⟩, ⟨0, 1, 2⟩⟩ 1 (3, 4) = .error .runtime := by decide

/-! ## C09 -/

/-- The full statement of C09: whenever some grid uses all the ranks, the result does and has the least surface. -/
def C09_full : Prop := ∀ (w : Box) (n : Nat), 0 < n → (∀ d, 0 < w.size.get d) → (∃ g, UsesAll w n g) →
  UsesAll w n (procSetupMinSurface w n) ∧
    ∀ g, UsesAll w n g → boxSurface w (procSetupMinSurface w n) ≤ boxSurface w g

/-- C09 is false: with a 1 x 4 x 2 world and six ranks the grid (1,3,2) would do, but (1,1,1) is returned. -/
theorem C09_false : ¬ C09_full := by
  intro h
  have := (h ⟨⟨0, 0, 0⟩, ⟨0, 3, 1⟩, ⟨0, 1, 2⟩⟩ 6 (by decide) (by decide)
    ⟨⟨1, 3, 2⟩, by decide, by decide⟩).1.1
  exact absurd this (by decide)

/-- C09, proved part: when the ranks are not more than the indexes in the middle direction the statement holds.
Missing: larger rank counts, where the divisibility test of the middle loop skips valid grids (`C09_false`). -/
theorem C09_min_surface_partial (w : Box) (n : Nat) (hn : 0 < n) (hw : ∀ d, 0 < w.size.get d)
    (hmid : (n : Int) ≤ w.size.y) (hex : ∃ g, UsesAll w n g) :
    UsesAll w n (procSetupMinSurface w n) ∧
    ∀ g, UsesAll w n g → boxSurface w (procSetupMinSurface w n) ≤ boxSurface w g := by
  by_cases h1 : n = 1
  · subst h1
    have hr : procSetupMinSurface w 1 = ⟨1, 1, 1⟩ := rfl
    rw [hr]
    refine ⟨⟨rfl, ?_⟩, ?_⟩
    · rw [forall_fin3]
      exact ⟨hw 0, hw 1, hw 2⟩
    · rintro g ⟨hg, -⟩
      obtain ⟨h1, h2⟩ : _ ∧ _ := ⟨Nat.eq_one_of_mul_eq_one_right hg, Nat.eq_one_of_mul_eq_one_left hg⟩
      obtain ⟨h3, h4⟩ : _ ∧ _ := ⟨Nat.eq_one_of_mul_eq_one_right h1, Nat.eq_one_of_mul_eq_one_left h1⟩
      have : g = ⟨1, 1, 1⟩ := by cases g; simp_all
      rw [this]
  · have hcand : ∀ g, UsesAll w n g → g ∈ surfaceCandidates w n := by
      rintro g ⟨hg, hfit⟩
      have hpos : 0 < g.x * g.y * g.z := by omega
      have hz : 0 < g.z := Nat.pos_of_mul_pos_left hpos
      have hxy : 0 < g.x * g.y := Nat.pos_of_mul_pos_right hpos
      have hx : 0 < g.x := Nat.pos_of_mul_pos_right hxy
      have hy : 0 < g.y := Nat.pos_of_mul_pos_left hxy
      have hdiv : n / g.x = g.y * g.z := by
        rw [← hg, mul_assoc, Nat.mul_div_cancel_left _ hx]
      rw [mem_surfaceCandidates]
      refine ⟨hx, hy, hfit 0, hfit 1, hfit 2, hg, ?_, ?_, ?_, ?_, ?_⟩
      · rw [← hg, mul_assoc]; exact Nat.le_mul_of_pos_right _ (Nat.mul_pos hy hz)
      · rw [hdiv]; exact Nat.le_mul_of_pos_right _ hz
      · rw [← hg, Nat.mul_div_cancel_left _ hxy]
      · rw [← hg, mul_assoc]; exact Nat.mul_mod_right _ _
      · have hle : ((n / g.x : Nat) : Int) ≤ w.size.get 1 := by
          have : n / g.x ≤ n := Nat.div_le_self _ _
          simp only [A3.get_one]; omega
        rw [min_eq_left hle, Int.toNat_natCast, hdiv]
        exact Nat.mul_mod_right _ _
    obtain ⟨g0, hg0⟩ := hex
    rcases procSetupMinSurface_spec w n h1 with ⟨h, -⟩ | ⟨h2, h3⟩
    · have := hcand g0 hg0
      rw [h] at this; simp at this
    · obtain ⟨-, -, c1, c2, c3, c4, -⟩ := mem_surfaceCandidates.1 h2
      refine ⟨⟨c4, by rw [forall_fin3]; exact ⟨c1, c2, c3⟩⟩, fun g hg => ?_⟩
      rw [← gridSurface_eq _ hw, ← gridSurface_eq _ hw]
      exact h3 g (hcand g hg)

example : procSetupMinSurface ⟨⟨0, 0, 0⟩, ⟨9, 19, 29⟩, ⟨0, 1, 2⟩⟩ 12 = ⟨1, 3, 4⟩ := by decide +kernel

/-- C09, general fact: the result uses all the ranks or is the trivial grid (which loses ranks silently in release
builds). -/
theorem C09_all_or_one (w : Box) (n : Nat) :
    procSetupMinSurface w n = ⟨1, 1, 1⟩ ∨ UsesAll w n (procSetupMinSurface w n) := by
  by_cases h1 : n = 1
  · subst h1; exact .inl rfl
  · rcases procSetupMinSurface_spec w n h1 with ⟨-, h⟩ | ⟨h2, -⟩
    · exact .inl h
    · obtain ⟨-, -, c1, c2, c3, c4, -⟩ := mem_surfaceCandidates.1 h2
      exact .inr ⟨c4, by rw [forall_fin3]; exact ⟨c1, c2, c3⟩⟩

/-! ## C10 -/

/-- C10, safety: what is returned is a permutation of the boxes, in the requested order; ranks outside of the
group keep theirs. -/
theorem C10_overlap_permutation (new old : List Box) (order : A3 (Fin 3)) (r : Remap) (res : List Box)
    (hr : r.map = [] ∨ r.map.length = new.length)
    (h : maximizeOverlap new old order r = .ok res) :
    res.Perm (new.map fun b => ⟨b.low, b.high, order⟩) ∧
    ∀ (i : Nat) (b : Box), r.map[i]? = some none → new[i]? = some b →
      res[i]? = some ⟨b.low, b.high, order⟩ := by
  refine ⟨maximizeOverlap_perm ?_ h, fun i b hi hb => maximizeOverlap_outside h hi hb⟩
  rcases hr with hr | hr
  · left; simp [Remap.isAll, hr]
  · exact .inr hr

/-- C10, the call succeeds when every overlap fits in an `int`. Missing from the full statement: larger overlaps,
see `C10_false`. -/
theorem C10_overlap_succeeds_partial (new old : List Box) (order : A3 (Fin 3)) (r : Remap)
    (hr : r.map = [] ∨ r.map.length = new.length) (hlen : old.length = new.length)
    (hsmall : ∀ o ∈ old, ∀ b ∈ new, (o.collide b).count < 2 ^ 31) :
    ∃ res, maximizeOverlap new old order r = .ok res := by
  refine maximizeOverlap_ok hlen ?_ hsmall
  rcases hr with hr | hr
  · left; simp [Remap.isAll, hr]
  · exact .inr hr

/-- The full statement of C10 (for all ranks): a permutation is always returned. -/
def C10_full : Prop := ∀ (new old : List Box) (order : A3 (Fin 3)), old.length = new.length →
  ∃ res, maximizeOverlap new old order Remap.all = .ok res ∧
    res.Perm (new.map fun b => ⟨b.low, b.high, order⟩)

/-- C10 is false: an overlap of exactly `2^31` indexes wraps to a negative `int`, no box is found and `taken` is
written out of bounds. Here a 2048^3 world on two ranks goes from slabs to pencils. -/
theorem C10_false : ¬ C10_full := by
  intro h
  obtain ⟨res, h, -⟩ := h
    [⟨⟨0, 0, 0⟩, ⟨2047, 1023, 2047⟩, ⟨0, 1, 2⟩⟩, ⟨⟨0, 1024, 0⟩, ⟨2047, 2047, 2047⟩, ⟨0, 1, 2⟩⟩]
    [⟨⟨0, 0, 0⟩, ⟨2047, 2047, 1023⟩, ⟨0, 1, 2⟩⟩, ⟨⟨0, 0, 1024⟩, ⟨2047, 2047, 2047⟩, ⟨0, 1, 2⟩⟩]
    defaultOrder rfl
  have hub : maximizeOverlap
    [⟨⟨0, 0, 0⟩, ⟨2047, 1023, 2047⟩, ⟨0, 1, 2⟩⟩, ⟨⟨0, 1024, 0⟩, ⟨2047, 2047, 2047⟩, ⟨0, 1, 2⟩⟩]
    [⟨⟨0, 0, 0⟩, ⟨2047, 2047, 1023⟩, ⟨0, 1, 2⟩⟩, ⟨⟨0, 0, 1024⟩, ⟨2047, 2047, 2047⟩, ⟨0, 1, 2⟩⟩]
    defaultOrder Remap.all = .error .ub := by decide +kernel
  rw [hub] at h; cases h

example : maximizeOverlap
    [⟨⟨0, 0, 0⟩, ⟨3, 1, 3⟩, ⟨0, 1, 2⟩⟩, ⟨⟨0, 2, 0⟩, ⟨3, 3, 3⟩, ⟨0, 1, 2⟩⟩]
    [⟨⟨0, 2, 0⟩, ⟨3, 3, 1⟩, ⟨0, 1, 2⟩⟩, ⟨⟨0, 0, 0⟩, ⟨3, 1, 1⟩, ⟨0, 1, 2⟩⟩] ⟨2, 1, 0⟩ Remap.all =
    .ok [⟨⟨0, 2, 0⟩, ⟨3, 3, 3⟩, ⟨2, 1, 0⟩⟩, ⟨⟨0, 0, 0⟩, ⟨3, 1, 3⟩, ⟨2, 1, 0⟩⟩] := by decide +kernel

/-! ## C11 -/

/-- C11: whenever `make_pencils` returns, the boxes are pencils that tile the world. `n` is the number of ranks of
the group (`Remap.Good`: an empty map stands for all the ranks). -/
theorem C11_make_pencils (w : Box) (grid : Nat × Nat) (dim : Fin 3) (source res : List Box)
    (order : A3 (Fin 3)) (r : Remap) (hsrc : Tiles source w) (h1 : 0 < grid.1) (h2 : 0 < grid.2)
    (hr : r.Good source.length (grid.1 * grid.2))
    (h : makePencils w grid dim source order r = .ok res) :
    res.length = source.length ∧ (∀ b ∈ res, b.order = order) ∧ Tiles res w ∧
    ∀ b ∈ res, (∃ p : A3 Int, p ∈ b) → Spans b w dim := by
  obtain ⟨⟨a, b, c⟩, d, -⟩ := makePencils_spec hsrc rfl h1 h2 hr h
  exact ⟨a, c, b, fun b hb hp => d b hb (Box.empty_false_iff_mem.2 hp)⟩

/-- C11: it does return when a grid fits and the overlaps fit in an `int`. -/
theorem C11_make_pencils_returns (w : Box) (grid : Nat × Nat) (dim : Fin 3) (source : List Box)
    (order : A3 (Fin 3)) (r : Remap) (h1 : 0 < grid.1) (h2 : 0 < grid.2)
    (hr : r.Good source.length (grid.1 * grid.2)) (hsmall : ∀ b ∈ source, b.count < 2 ^ 31)
    (hfit : ∃ a b, a * b = grid.1 * grid.2 ∧ ∀ d, ((gridWithout dim (a, b)).get d : Int) ≤ w.size.get d) :
    ∃ res, makePencils w grid dim source order r = .ok res :=
  makePencils_ok h1 h2 hr rfl hsmall hfit

example : Remap.all.Good 2 (1 * 2) ∧ ∃ res, makePencils ⟨⟨0, 0, 0⟩, ⟨3, 3, 3⟩, ⟨0, 1, 2⟩⟩ (1, 2) 0
    [⟨⟨0, 0, 0⟩, ⟨1, 3, 3⟩, ⟨0, 1, 2⟩⟩, ⟨⟨2, 0, 0⟩, ⟨3, 3, 3⟩, ⟨0, 1, 2⟩⟩] ⟨0, 2, 1⟩ Remap.all = .ok res ∧
    res = [⟨⟨0, 0, 0⟩, ⟨3, 3, 1⟩, ⟨0, 2, 1⟩⟩, ⟨⟨0, 0, 2⟩, ⟨3, 3, 3⟩, ⟨0, 2, 1⟩⟩] :=
  ⟨.inl ⟨rfl, rfl⟩, _, rfl, by decide +kernel⟩

/-! ## C12 -/

/-- C12: `make_slabs` gives slabs that tile the world. -/
theorem C12_make_slabs (w : Box) (n : Nat) (d1 d2 : Fin 3) (source res : List Box)
    (order : A3 (Fin 3)) (r : Remap) (hd : d1 ≠ d2) (hn : 0 < n) (hr : r.Good source.length n)
    (h : makeSlabs w n d1 d2 source order r = .ok res) :
    res.length = source.length ∧ (∀ b ∈ res, b.order = order) ∧ Tiles res w ∧
    ∀ b ∈ res, (∃ p : A3 Int, p ∈ b) → Spans b w d1 ∧ Spans b w d2 := by
  obtain ⟨⟨a, b, c⟩, d, -⟩ := makeSlabs_spec hd hn hr h
  exact ⟨a, c, b, fun b hb hp => d b hb (Box.empty_false_iff_mem.2 hp)⟩

/-- C12: it returns when the overlaps fit in an `int`. -/
theorem C12_make_slabs_returns (w : Box) (n : Nat) (d1 d2 : Fin 3) (source : List Box)
    (order : A3 (Fin 3)) (r : Remap) (hd : d1 ≠ d2) (hr : r.Good source.length n)
    (hsmall : ∀ b ∈ source, b.count < 2 ^ 31) :
    ∃ res, makeSlabs w n d1 d2 source order r = .ok res :=
  makeSlabs_ok hd hr rfl hsmall

example : ∃ res, makeSlabs ⟨⟨0, 0, 0⟩, ⟨3, 3, 3⟩, ⟨0, 1, 2⟩⟩ 2 2 0
    [⟨⟨0, 2, 0⟩, ⟨3, 3, 3⟩, ⟨0, 1, 2⟩⟩, ⟨⟨0, 0, 0⟩, ⟨3, 1, 3⟩, ⟨0, 1, 2⟩⟩] ⟨0, 2, 1⟩ Remap.all = .ok res ∧
    res = [⟨⟨0, 2, 0⟩, ⟨3, 3, 3⟩, ⟨0, 2, 1⟩⟩, ⟨⟨0, 0, 0⟩, ⟨3, 1, 3⟩, ⟨0, 2, 1⟩⟩] :=
  ⟨_, rfl, by decide +kernel⟩

/-- `set_subranks` builds the maps the theorems ask for. -/
theorem set_subranks_good (n k : Nat) (hk : k ≤ n) (hn : 0 < n) :
    ∃ r, Remap.setSubranks n k = .ok r ∧ r.Good n k := by
  obtain ⟨r, hr⟩ : ∃ r, Remap.setSubranks n k = .ok r := by
    unfold Remap.setSubranks; rw [if_pos hk]; exact ⟨_, rfl⟩
  exact ⟨r, hr, (setSubranks_good hr hn).1⟩

end Verif
