import Verif.GridLemmas

/-! # Lemmas about `make_pencils` and `make_slabs` -/

namespace Verif

/-- A non-empty part of the world with the world's extent spans the world. -/
theorem spans_of_size {l : List Box} {w : Box} (h : Tiles l w) {b : Box} (hb : b ∈ l) (he : b.empty = false)
    {d : Fin 3} (hs : b.size.get d = w.size.get d) : Spans b w d := by
  rw [Box.empty_false_iff] at he
  have hlow : b.low ∈ w := h.mem_world hb (fun d => ⟨le_refl _, he d⟩)
  have hhigh : b.high ∈ w := h.mem_world hb (fun d => ⟨he d, le_refl _⟩)
  have h1 := (hlow d).1
  have h2 := (hhigh d).2
  simp only [Box.size, A3.get_of] at hs
  constructor <;> omega

theorem isPencils_iff {w : Box} {l : List Box} {d : Fin 3} :
    isPencils w l d = true ↔ ∀ b ∈ l, b.size.get d = w.size.get d := by
  simp [isPencils]

theorem isSlab_iff {w : Box} {l : List Box} {d e : Fin 3} :
    isSlab w l d e = true ↔ ∀ b ∈ l, b.size.get d = w.size.get d ∧ b.size.get e = w.size.get e := by
  simp [isSlab]

theorem Remap.Good.length {r : Remap} {ranks n : Nat} (h : r.Good ranks n) :
    r.isAll = true ∨ r.map.length = ranks := by
  rcases h with ⟨h, -⟩ | ⟨-, h, -⟩
  · exact .inl h
  · exact .inr h

/-- What the planner needs to know about a distribution made from a process grid. -/
structure GoodShape (l : List Box) (w : Box) (ranks : Nat) (order : A3 (Fin 3)) : Prop where
  length : l.length = ranks
  tiles : Tiles l w
  order : ∀ b ∈ l, b.order = order

theorem shape_of_split {w : Box} {g : A3 Nat} {r : Remap} {ranks n : Nat} {source sa pa : List Box}
    {order : A3 (Fin 3)} (hr : r.Good ranks n) (hg : ∀ d, 0 < g.get d)
    (hn : g.get 0 * g.get 1 * g.get 2 = n)
    (hs : splitWorld w g r = .ok sa) (hp : maximizeOverlap sa source order r = .ok pa) :
    GoodShape pa w ranks order ∧ (∀ b ∈ pa, b.empty = false → ∀ d, g.get d = 1 → Spans b w d) ∧
    ∀ i : Nat, r.map[i]? = some none → pa[i]? = some (outsideBox order) := by
  subst hn
  have hlen := splitWorld_length hr hs
  have hperm := maximizeOverlap_perm (by rw [hlen]; exact hr.length) hp
  refine ⟨⟨?_, ?_, ?_⟩, ?_, ?_⟩
  · rw [hperm.length_eq, List.length_map, hlen]
  · exact ((splitWorld_tiles hg hr hs).withOrder order).perm hperm.symm
  · intro b hb
    rw [hperm.mem_iff, List.mem_map] at hb
    obtain ⟨c, -, rfl⟩ := hb; rfl
  · intro b hb he d hd
    rw [hperm.mem_iff, List.mem_map] at hb
    obtain ⟨c, hc, rfl⟩ := hb
    rw [Box.withOrder_empty] at he
    rcases splitWorld_mem hs hc with hc' | rfl
    · have hmem : c.low ∈ w := (splitWorld_tiles hg hr hs).mem_world hc (Box.low_mem he)
      have := gridBoxes_spans hc' d hd (by
        have := (hmem d).1.trans (hmem d).2
        simp only [Box.size, A3.get_of]; omega)
      exact this
    · rw [outsideBox_empty] at he; cases he
  · intro i hi
    exact maximizeOverlap_outside hp hi (splitWorld_outside hs hi)

/-- Ranks outside of the group hold no index. -/
def OutsideEmpty (r : Remap) (l : List Box) : Prop :=
  ∀ (i : Nat) (b : Box), r.map[i]? = some none → l[i]? = some b → b.empty = true

theorem makePencils_spec {w : Box} {grid : Nat × Nat} {dim : Fin 3} {source res : List Box}
    {order : A3 (Fin 3)} {r : Remap} {ranks : Nat}
    (hsrc : Tiles source w) (hlen : source.length = ranks) (h1 : 0 < grid.1) (h2 : 0 < grid.2)
    (hr : r.Good ranks (grid.1 * grid.2))
    (h : makePencils w grid dim source order r = .ok res) :
    GoodShape res w ranks order ∧ (∀ b ∈ res, b.empty = false → Spans b w dim) ∧
      (OutsideEmpty r res ∨ isPencils w source dim = true ∧ res = source.map (Box.withOrder order)) := by
  unfold makePencils at h
  split at h
  · rename_i hp
    injection h with h
    subst h
    rw [reorder_eq]
    refine ⟨⟨by simpa using hlen, hsrc.withOrder _, ?_⟩, ?_, .inr ⟨hp, rfl⟩⟩
    · intro b hb
      rw [List.mem_map] at hb
      obtain ⟨c, -, rfl⟩ := hb; rfl
    · intro b hb he
      rw [List.mem_map] at hb
      obtain ⟨c, hc, rfl⟩ := hb
      exact spans_of_size hsrc hc he (isPencils_iff.1 hp c hc)
  · cases hga : makeProcgrid2d w dim grid with
    | error e => rw [hga] at h; cases h
    | ok ga =>
    rw [hga] at h
    cases hsa : splitWorld w ga r with
    | error e => simp only [hsa, bind, Except.bind] at h; cases h
    | ok sa =>
    cases hpa : maximizeOverlap sa source order r with
    | error e => simp only [hsa, hpa, bind, Except.bind] at h; cases h
    | ok pa =>
    cases hgb : makeProcgrid2d w dim (grid.2, grid.1) with
    | error e => simp only [hsa, hpa, hgb, bind, Except.bind] at h; cases h
    | ok gb =>
    cases hsb : splitWorld w gb r with
    | error e => simp only [hsa, hpa, hgb, hsb, bind, Except.bind] at h; cases h
    | ok sb =>
    cases hpb : maximizeOverlap sb source order r with
    | error e => simp only [hsa, hpa, hgb, hsb, hpb, bind, Except.bind] at h; cases h
    | ok pb =>
    simp only [hsa, hpa, hgb, hsb, hpb, bind, Except.bind] at h
    injection h with h
    obtain ⟨ha1, ha2, -, ha3⟩ := makeProcgrid2d_ok h1 h2 hga
    obtain ⟨hb1, hb2, -, hb3⟩ := makeProcgrid2d_ok h2 h1 hgb
    have A := shape_of_split hr ha3 ha2 hsa hpa
    have B := shape_of_split hr hb3 (by rw [hb2, mul_comm]) hsb hpb
    have hout : ∀ l : List Box, (∀ i : Nat, r.map[i]? = some none → l[i]? = some (outsideBox order)) →
        OutsideEmpty r l := by
      intro l hl i b hi hb
      rw [hl i hi] at hb
      injection hb with hb
      rw [← hb]; exact outsideBox_empty _
    split at h
    · subst h
      exact ⟨B.1, fun b hb he => B.2.1 b hb he dim hb1, .inl (hout _ B.2.2)⟩
    · subst h
      exact ⟨A.1, fun b hb he => A.2.1 b hb he dim ha1, .inl (hout _ A.2.2)⟩

theorem slabGrid_spec {n : Nat} {d1 d2 : Fin 3} (h : d1 ≠ d2) :
    (slabGrid n d1 d2).get d1 = 1 ∧ (slabGrid n d1 d2).get d2 = 1 ∧
      (slabGrid n d1 d2).get 0 * (slabGrid n d1 d2).get 1 * (slabGrid n d1 d2).get 2 = n ∧
      (0 < n → ∀ d, 0 < (slabGrid n d1 d2).get d) := by
  match d1, d2 with
  | 0, 0 => exact absurd rfl h
  | 0, 1 => simp [slabGrid, forall_fin3]
  | 0, 2 => simp [slabGrid, forall_fin3]
  | 1, 0 => simp [slabGrid, forall_fin3]
  | 1, 1 => exact absurd rfl h
  | 1, 2 => simp [slabGrid, forall_fin3]
  | 2, 0 => simp [slabGrid, forall_fin3]
  | 2, 1 => simp [slabGrid, forall_fin3]
  | 2, 2 => exact absurd rfl h

theorem makeSlabs_spec {w : Box} {n : Nat} {d1 d2 : Fin 3} {source res : List Box}
    {order : A3 (Fin 3)} {r : Remap} {ranks : Nat} (hd : d1 ≠ d2) (hn : 0 < n) (hr : r.Good ranks n)
    (h : makeSlabs w n d1 d2 source order r = .ok res) :
    GoodShape res w ranks order ∧ (∀ b ∈ res, b.empty = false → Spans b w d1 ∧ Spans b w d2) ∧
      OutsideEmpty r res := by
  unfold makeSlabs at h
  obtain ⟨g1, g2, g3, g4⟩ := slabGrid_spec (n := n) hd
  cases hsa : splitWorld w (slabGrid n d1 d2) r with
  | error e => rw [hsa] at h; cases h
  | ok sa =>
    rw [hsa] at h
    have h : maximizeOverlap sa source order r = .ok res := h
    obtain ⟨A, B, C⟩ := shape_of_split hr (g4 hn) g3 hsa h
    refine ⟨A, fun b hb he => ⟨B b hb he d1 g1, B b hb he d2 g2⟩, ?_⟩
    intro i b hi hb
    rw [C i hi] at hb
    injection hb with hb
    rw [← hb]; exact outsideBox_empty _

/-- When the overlaps fit in an `int`, `make_slabs` returns. -/
theorem makeSlabs_ok {w : Box} {n : Nat} {d1 d2 : Fin 3} {source : List Box}
    {order : A3 (Fin 3)} {r : Remap} {ranks : Nat} (hd : d1 ≠ d2) (hr : r.Good ranks n)
    (hlen : source.length = ranks) (hsmall : ∀ b ∈ source, b.count < 2 ^ 31) :
    ∃ res, makeSlabs w n d1 d2 source order r = .ok res := by
  unfold makeSlabs
  obtain ⟨-, -, g3, -⟩ := slabGrid_spec (n := n) hd
  rw [← g3] at hr
  obtain ⟨sa, hsa⟩ := splitWorld_ok (w := w) hr
  have hl := splitWorld_length hr hsa
  rw [hsa]
  exact maximizeOverlap_ok (by omega) (by rw [hl]; exact hr.length)
    fun o ho b _ => (Box.collide_count_le_left o b).trans_lt (hsmall o ho)

/-- `make_pencils` throws only when the grid does not fit. -/
theorem makePencils_ok {w : Box} {grid : Nat × Nat} {dim : Fin 3} {source : List Box}
    {order : A3 (Fin 3)} {r : Remap} {ranks : Nat} (h1 : 0 < grid.1) (h2 : 0 < grid.2)
    (hr : r.Good ranks (grid.1 * grid.2)) (hlen : source.length = ranks)
    (hsmall : ∀ b ∈ source, b.count < 2 ^ 31)
    (hfit : ∃ a b, a * b = grid.1 * grid.2 ∧ ∀ d, ((gridWithout dim (a, b)).get d : Int) ≤ w.size.get d) :
    ∃ res, makePencils w grid dim source order r = .ok res := by
  obtain ⟨a, b, hab, hfit⟩ := hfit
  have hok : ∀ c : Nat × Nat, 0 < c.1 → 0 < c.2 → c.1 * c.2 = grid.1 * grid.2 →
      ∃ g, makeProcgrid2d w dim c = .ok g := by
    intro c hc1 hc2 hc
    rcases makeProcgrid2d_cases w dim c hc1 hc2 with ⟨-, h⟩ | ⟨-, f, -, -, h, -⟩ | ⟨h, -⟩
    · exact ⟨_, h⟩
    · exact ⟨_, h⟩
    · have := h a b (hab.trans hc.symm)
      rw [gridFits_iff.2 hfit] at this; cases this
  unfold makePencils
  split
  · exact ⟨_, rfl⟩
  · obtain ⟨ga, hga⟩ := hok grid h1 h2 rfl
    obtain ⟨gb, hgb⟩ := hok (grid.2, grid.1) h2 h1 (by simp [mul_comm])
    obtain ⟨-, ha2, -, -⟩ := makeProcgrid2d_ok h1 h2 hga
    obtain ⟨-, hb2, -, -⟩ := makeProcgrid2d_ok h2 h1 hgb
    have hra := hr
    rw [← ha2] at hra
    have hrb := hr
    rw [mul_comm, ← hb2] at hrb
    obtain ⟨sa, hsa⟩ := splitWorld_ok (w := w) hra
    obtain ⟨sb, hsb⟩ := splitWorld_ok (w := w) hrb
    have hla := splitWorld_length hra hsa
    have hlb := splitWorld_length hrb hsb
    obtain ⟨pa, hpa⟩ := maximizeOverlap_ok (new := sa) (old := source) (order := order) (remap := r) (by omega)
      (by rw [hla]; exact hr.length) fun o ho b _ => (Box.collide_count_le_left o b).trans_lt (hsmall o ho)
    obtain ⟨pb, hpb⟩ := maximizeOverlap_ok (new := sb) (old := source) (order := order) (remap := r) (by omega)
      (by rw [hlb]; exact hr.length) fun o ho b _ => (Box.collide_count_le_left o b).trans_lt (hsmall o ho)
    simp only [hga, hgb, hsa, hsb, hpa, hpb, bind, Except.bind]
    exact ⟨_, rfl⟩

end Verif
