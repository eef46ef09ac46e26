import Verif.WorldLemmas

/-! # Lemmas about `split_world` -/

namespace Verif

theorem cut_zero {low n : Int} {p : Nat} (hn : 0 ≤ n) : cut low n p 0 = low := by
  have : 0 ≤ n.tmod p := Int.tmod_nonneg _ hn
  simp [cut, this]

theorem cut_last {low n : Int} {p : Nat} (hp : 0 < p) : cut low n p p = low + n := by
  have h1 : n.tmod p < p := Int.tmod_lt_of_pos _ (by exact_mod_cast hp)
  have h2 := Int.mul_tdiv_add_tmod n p
  simp only [cut]
  rw [min_eq_right h1.le]
  linarith

theorem cut_succ {low n : Int} {p i : Nat} :
    cut low n p (i+1) = cut low n p i + n.tdiv p + if (i : Int) < n.tmod p then 1 else 0 := by
  simp only [cut]
  push_cast
  split
  · rename_i h
    rw [min_eq_left (by omega), min_eq_left h.le]; ring
  · rename_i h
    rw [min_eq_right (by omega), min_eq_right (by omega)]; ring

theorem cut_mono {low n : Int} {p i : Nat} (hn : 0 ≤ n) : cut low n p i ≤ cut low n p (i+1) := by
  rw [cut_succ]
  have : 0 ≤ n.tdiv p := Int.tdiv_nonneg hn (by positivity)
  split <;> omega

theorem cut_neg {low n : Int} {p i : Nat} (hn : n ≤ 0) : cut low n p (i+1) ≤ cut low n p i := by
  simp only [cut]
  have h1 : n.tdiv p ≤ 0 := by
    have := Int.tdiv_nonneg (a := -n) (b := (p : Int)) (by omega) (by positivity)
    rw [Int.neg_tdiv] at this; omega
  have h2 : n.tmod p ≤ 0 := by
    have := Int.tmod_nonneg (a := -n) (p : Int) (by omega)
    rw [Int.neg_tmod] at this; omega
  rw [min_eq_right (by omega), min_eq_right (by omega)]
  push_cast
  linarith

/-- The cells that contain coordinate `x`, counted. -/
theorem countP_cells (c : Nat → Int) (hc : ∀ i, c i ≤ c (i+1)) (m : Nat) (x : Int) :
    (List.range m).countP (fun i => decide (c i ≤ x ∧ x ≤ c (i+1) - 1)) =
      if c 0 ≤ x ∧ x < c m then 1 else 0 := by
  have h0 : ∀ m, c 0 ≤ c m := by
    intro m
    induction m with
    | zero => exact le_refl _
    | succ m ih => exact ih.trans (hc m)
  induction m with
  | zero =>
    rw [if_neg (by omega)]; rfl
  | succ m ih =>
    rw [List.range_succ, List.countP_append, ih, List.countP_singleton]
    have := h0 m
    have := hc m
    simp only [decide_eq_true_eq]
    split_ifs <;> omega

theorem countP_cut {low n : Int} {p : Nat} (hp : 0 < p) (x : Int) :
    (List.range p).countP (fun i => decide (cut low n p i ≤ x ∧ x ≤ cut low n p (i+1) - 1)) =
      if low ≤ x ∧ x ≤ low + n - 1 then 1 else 0 := by
  rcases le_or_gt 0 n with hn | hn
  · rw [countP_cells (cut low n p) (fun i => cut_mono hn), cut_zero hn, cut_last hp]
    congr 1
    simp only [eq_iff_iff]; omega
  · rw [if_neg (by omega), List.countP_eq_zero]
    intro i _
    have := cut_neg (low := low) (p := p) (i := i) hn.le
    simp only [decide_eq_true_eq]; omega

theorem countP_flatMap_and {α β : Type} (l : List α) (f : α → List β) (q : α → Bool) (r : β → Bool) (c : Nat)
    (h : ∀ a ∈ l, (f a).countP r = if q a then c else 0) :
    (l.flatMap f).countP r = l.countP q * c := by
  induction l with
  | nil => simp
  | cons a l ih =>
    rw [List.flatMap_cons, List.countP_append, h a (List.mem_cons_self ..),
      ih fun b hb => h b (List.mem_cons_of_mem _ hb), List.countP_cons]
    split <;> simp_all [Nat.add_mul]; ring

theorem owners_gridBoxes (w : Box) (g : A3 Nat) (p : A3 Int) :
    owners (gridBoxes w g) p =
      (List.range (g.get 2)).countP (fun k => decide (cut (w.low.get 2) (w.size.get 2) (g.get 2) k ≤ p.z ∧
          p.z ≤ cut (w.low.get 2) (w.size.get 2) (g.get 2) (k+1) - 1)) *
      ((List.range (g.get 1)).countP (fun j => decide (cut (w.low.get 1) (w.size.get 1) (g.get 1) j ≤ p.y ∧
          p.y ≤ cut (w.low.get 1) (w.size.get 1) (g.get 1) (j+1) - 1)) *
      (List.range (g.get 0)).countP (fun i => decide (cut (w.low.get 0) (w.size.get 0) (g.get 0) i ≤ p.x ∧
          p.x ≤ cut (w.low.get 0) (w.size.get 0) (g.get 0) (i+1) - 1))) := by
  unfold owners gridBoxes
  apply countP_flatMap_and
  intro k _
  split
  · rename_i hk
    apply countP_flatMap_and
    intro j _
    split
    · rename_i hj
      rw [List.countP_map]
      apply List.countP_congr
      intro i _
      simp only [Function.comp, decide_eq_true_eq] at hk hj ⊢
      rw [Box.mem_iff]
      simp only [cellBox]
      exact ⟨fun h => h.1, fun h => ⟨h, hj, hk⟩⟩
    · rename_i hj
      rw [List.countP_map, List.countP_eq_zero]
      intro i _
      simp only [Function.comp, decide_eq_true_eq] at hj ⊢
      rw [Box.mem_iff]
      simp only [cellBox]
      exact fun h => hj h.2.1
  · rename_i hk
    rw [List.countP_eq_zero]
    intro b hb
    simp only [List.mem_flatMap, List.mem_map] at hb
    obtain ⟨j, _, i, _, rfl⟩ := hb
    simp only [decide_eq_true_eq] at hk ⊢
    rw [Box.mem_iff]
    exact fun h => hk h.2.2

theorem gridBoxes_tiles (w : Box) (g : A3 Nat) (hg : ∀ d, 0 < g.get d) : Tiles (gridBoxes w g) w := by
  intro p
  rw [owners_gridBoxes, countP_cut (hg 2), countP_cut (hg 1), countP_cut (hg 0)]
  have hs : ∀ d, w.low.get d + w.size.get d - 1 = w.high.get d := by
    intro d; simp only [Box.size, A3.get_of]; ring
  simp only [hs]
  have hm := Box.mem_iff (b := w) (p := p)
  simp only [A3.get_zero, A3.get_one, A3.get_two]
  by_cases hx : w.low.x ≤ p.x ∧ p.x ≤ w.high.x <;> by_cases hy : w.low.y ≤ p.y ∧ p.y ≤ w.high.y <;>
    by_cases hz : w.low.z ≤ p.z ∧ p.z ≤ w.high.z <;> simp [hm, hx, hy, hz]

theorem gridBoxes_length (w : Box) (g : A3 Nat) :
    (gridBoxes w g).length = g.get 0 * g.get 1 * g.get 2 := by
  simp [gridBoxes, List.length_flatMap, List.map_const']
  ring

theorem mem_gridBoxes {w : Box} {g : A3 Nat} {b : Box} :
    b ∈ gridBoxes w g ↔ ∃ i j k, i < g.get 0 ∧ j < g.get 1 ∧ k < g.get 2 ∧ b = cellBox w g i j k := by
  simp only [gridBoxes, List.mem_flatMap, List.mem_map, List.mem_range]
  constructor
  · rintro ⟨k, hk, j, hj, i, hi, rfl⟩; exact ⟨i, j, k, hi, hj, hk, rfl⟩
  · rintro ⟨i, j, k, hi, hj, hk, rfl⟩; exact ⟨k, hk, j, hj, i, hi, rfl⟩

theorem gridBoxes_order {w : Box} {g : A3 Nat} {b : Box} (h : b ∈ gridBoxes w g) : b.order = w.order := by
  obtain ⟨i, j, k, -, -, -, rfl⟩ := mem_gridBoxes.1 h; rfl

/-- The position of a cell in one direction. -/
theorem gridBoxes_coord {w : Box} {g : A3 Nat} {b : Box} (h : b ∈ gridBoxes w g) (d : Fin 3) :
    ∃ i, i < g.get d ∧ b.low.get d = cut (w.low.get d) (w.size.get d) (g.get d) i ∧
      b.high.get d = cut (w.low.get d) (w.size.get d) (g.get d) (i+1) - 1 := by
  obtain ⟨i, j, k, hi, hj, hk, rfl⟩ := mem_gridBoxes.1 h
  match d with
  | 0 => exact ⟨i, hi, rfl, rfl⟩
  | 1 => exact ⟨j, hj, rfl, rfl⟩
  | 2 => exact ⟨k, hk, rfl, rfl⟩

theorem gridBoxes_size {w : Box} {g : A3 Nat} {b : Box} (h : b ∈ gridBoxes w g) (d : Fin 3) :
    b.size.get d = (w.size.get d).tdiv (g.get d) ∨
      b.size.get d = (w.size.get d).tdiv (g.get d) + 1 := by
  obtain ⟨i, hi, h1, h2⟩ := gridBoxes_coord h d
  simp only [Box.size, A3.get_of]
  rw [h1, h2]
  simp only [Box.size, A3.get_of]
  rw [cut_succ]
  split_ifs <;> omega

/-- With one cell in a direction every cell spans that direction (also for an empty world). -/
theorem gridBoxes_spans {w : Box} {g : A3 Nat} {b : Box} (h : b ∈ gridBoxes w g) (d : Fin 3)
    (hg : g.get d = 1) (hs : 0 ≤ w.size.get d) : Spans b w d := by
  obtain ⟨i, hi, h1, h2⟩ := gridBoxes_coord h d
  rw [hg] at hi h1 h2
  obtain rfl : i = 0 := by omega
  rw [cut_zero hs] at h1
  have h3 := cut_last (low := w.low.get d) (n := w.size.get d) (show 0 < 1 by omega)
  rw [zero_add, h3] at h2
  refine ⟨h1, ?_⟩
  rw [h2]; simp only [Box.size, A3.get_of]; ring

/-! ## Remapped splits -/

theorem mapM_except_eq_ok {α β : Type} (f : α → Res β) (l : List α) (r : List β) :
    l.mapM f = .ok r ↔ List.Forall₂ (fun a b => f a = .ok b) l r := by
  induction l generalizing r with
  | nil =>
    simp only [List.mapM_nil]
    constructor
    · intro h; cases h; exact .nil
    · intro h; cases h; rfl
  | cons a l ih =>
    rw [List.mapM_cons]
    constructor
    · intro h
      cases hfa : f a with
      | error e => rw [hfa] at h; cases h
      | ok b =>
        rw [hfa] at h
        cases hl : l.mapM f with
        | error e => rw [hl] at h; cases h
        | ok t =>
          rw [hl] at h; cases h
          exact .cons hfa ((ih t).1 hl)
    · intro h
      cases h with
      | cons h1 h2 =>
        rw [h1, (ih _).2 h2]; rfl

theorem filterMap_eq_map_of_forall {α β : Type} {f : α → Option β} {g : α → β} {l : List α}
    (h : ∀ a ∈ l, f a = some (g a)) : l.filterMap f = l.map g := by
  induction l with
  | nil => rfl
  | cons a l ih =>
    rw [List.filterMap_cons, h a (List.mem_cons_self ..), List.map_cons,
      ih fun b hb => h b (List.mem_cons_of_mem _ hb)]

/-- The box that ranks outside of the sub-communicator get from `split_world`. -/
def outsideBox (o : A3 (Fin 3)) : Box := ⟨⟨0, 0, 0⟩, ⟨-1, -1, -1⟩, o⟩

theorem outsideBox_empty (o : A3 (Fin 3)) : (outsideBox o).empty = true := by
  simp [outsideBox, Box.empty, Box.size, A3.of, A3.get]

theorem splitWorld_all (w : Box) (g : A3 Nat) (r : Remap) (h : r.isAll = true) :
    splitWorld w g r = .ok (gridBoxes w g) := by simp [splitWorld, h]

theorem splitWorld_sub_iff {w : Box} {g : A3 Nat} {r : Remap} {l : List Box} (h : r.isAll = false) :
    splitWorld w g r = .ok l ↔
      List.Forall₂ (fun m b => match m with
        | none => b = outsideBox w.order
        | some i => (gridBoxes w g)[i]? = some b) r.map l := by
  simp only [splitWorld, h, Bool.false_eq_true, if_false]
  rw [mapM_except_eq_ok]
  have : (fun (m : Option Nat) (b : Box) => (match m with
      | none => Except.ok (ε := Err) (⟨⟨0, 0, 0⟩, ⟨-1, -1, -1⟩, w.order⟩ : Box)
      | some r => match (gridBoxes w g)[r]? with
        | some b => .ok b
        | none => .error .ub) = .ok b) = (fun m b => match m with
        | none => b = outsideBox w.order
        | some i => (gridBoxes w g)[i]? = some b) := by
    funext m b
    cases m with
    | none => simp [outsideBox, eq_comm]
    | some i =>
      cases hi : (gridBoxes w g)[i]? with
      | none => simp [hi]
      | some c => simp [hi]
  rw [← this]
  rfl

/-- `r` maps a group of ranks one to one to the positions `0, ..., n-1`, the other ranks of the `ranks` many are
outside. This is what `set_subranks` builds; an empty map stands for all the ranks. -/
def Remap.Good (r : Remap) (ranks n : Nat) : Prop :=
  (r.isAll = true ∧ n = ranks) ∨
  (r.isAll = false ∧ r.map.length = ranks ∧ (r.map.filterMap id).Perm (List.range n))

theorem splitWorld_sub_perm {w : Box} {g : A3 Nat} {r : Remap} {l : List Box} (h : r.isAll = false)
    (hl : splitWorld w g r = .ok l) (hr : (r.map.filterMap id).Perm (List.range (gridBoxes w g).length)) :
    l.Perm (gridBoxes w g ++ List.replicate (r.map.countP Option.isNone) (outsideBox w.order)) := by
  rw [splitWorld_sub_iff h] at hl
  have key : ∀ (m : List (Option Nat)) (l : List Box), List.Forall₂ (fun m b => match m with
        | none => b = outsideBox w.order
        | some i => (gridBoxes w g)[i]? = some b) m l →
      l.Perm ((m.filterMap id).filterMap (fun i => (gridBoxes w g)[i]?) ++
        List.replicate (m.countP Option.isNone) (outsideBox w.order)) := by
    intro m l hml
    induction hml with
    | nil => simp
    | cons h1 _ ih =>
      rename_i a b m l _
      cases a with
      | none =>
        simp only at h1
        subst h1
        simp only [List.filterMap_cons, id, List.countP_cons, Option.isNone_none, if_true, List.replicate_succ]
        exact (ih.cons _).trans (List.perm_middle.symm)
      | some i =>
        simp only at h1
        simp only [List.filterMap_cons, id, List.countP_cons, Option.isNone_some, Bool.false_eq_true,
          if_false, Nat.add_zero, h1, List.cons_append]
        exact ih.cons _
  refine (key _ _ hl).trans (List.Perm.append_right _ ?_)
  refine (hr.filterMap _).trans (List.Perm.of_eq ?_)
  generalize gridBoxes w g = L
  apply List.ext_getElem?
  intro i
  rw [filterMap_eq_map_of_forall (g := fun i => L.getD i (outsideBox w.order))]
  · by_cases hi : i < L.length
    · simp [hi]
    · simp [hi]
  · intro i hi
    have := List.mem_range.1 hi
    simp [this]

theorem owners_replicate_empty (n : Nat) (b : Box) (hb : b.empty = true) (p : A3 Int) :
    owners (List.replicate n b) p = 0 := by
  rw [owners, List.countP_eq_zero]
  intro c hc
  rw [List.eq_of_mem_replicate hc]
  simpa using Box.not_mem_of_empty hb p

/-- `split_world` on any good remap. -/
theorem splitWorld_tiles {w : Box} {g : A3 Nat} {r : Remap} {ranks : Nat} {l : List Box}
    (hg : ∀ d, 0 < g.get d) (hr : r.Good ranks (g.get 0 * g.get 1 * g.get 2))
    (hl : splitWorld w g r = .ok l) : Tiles l w := by
  rcases hr with ⟨h, -⟩ | ⟨h, h1, h2⟩
  · rw [splitWorld_all _ _ _ h, Except.ok.injEq] at hl
    subst hl; exact gridBoxes_tiles w g hg
  · rw [← gridBoxes_length w g] at h2
    intro p
    rw [owners_perm (splitWorld_sub_perm h hl h2), owners_append,
      owners_replicate_empty _ _ (outsideBox_empty _), gridBoxes_tiles w g hg p, Nat.add_zero]

theorem splitWorld_length {w : Box} {g : A3 Nat} {r : Remap} {ranks : Nat} {l : List Box}
    (hr : r.Good ranks (g.get 0 * g.get 1 * g.get 2)) (hl : splitWorld w g r = .ok l) : l.length = ranks := by
  rcases hr with ⟨h, h1⟩ | ⟨h, h1, h2⟩
  · rw [splitWorld_all _ _ _ h, Except.ok.injEq] at hl
    subst hl; rw [gridBoxes_length, h1]
  · rw [splitWorld_sub_iff h] at hl
    rw [← hl.length_eq, h1]

theorem splitWorld_ok {w : Box} {g : A3 Nat} {r : Remap} {ranks : Nat}
    (hr : r.Good ranks (g.get 0 * g.get 1 * g.get 2)) : ∃ l, splitWorld w g r = .ok l := by
  rcases hr with ⟨h, h1⟩ | ⟨h, h1, h2⟩
  · exact ⟨_, splitWorld_all _ _ _ h⟩
  · refine ⟨r.map.map fun m => match m with
      | none => outsideBox w.order
      | some i => (gridBoxes w g).getD i (outsideBox w.order), ?_⟩
    rw [splitWorld_sub_iff h, List.forall₂_map_right_iff, List.forall₂_same]
    intro m hm
    cases m with
    | none => rfl
    | some i =>
      have : i ∈ List.range (g.get 0 * g.get 1 * g.get 2) :=
        h2.mem_iff.1 (List.mem_filterMap.2 ⟨some i, hm, rfl⟩)
      rw [List.mem_range, ← gridBoxes_length w g] at this
      simp [this]

theorem splitWorld_mem {w : Box} {g : A3 Nat} {r : Remap} {l : List Box}
    (hl : splitWorld w g r = .ok l) {b : Box} (hb : b ∈ l) :
    b ∈ gridBoxes w g ∨ (b = outsideBox w.order) := by
  by_cases h : r.isAll = true
  · rw [splitWorld_all _ _ _ h, Except.ok.injEq] at hl
    subst hl; exact .inl hb
  · rw [splitWorld_sub_iff (by simpa using h)] at hl
    obtain ⟨i, hi, rfl⟩ := List.getElem_of_mem hb
    have hi' : i < r.map.length := by rw [hl.length_eq]; exact hi
    have := hl.get hi' hi
    simp only [List.get_eq_getElem] at this
    split at this
    · exact .inr this
    · exact .inl (List.mem_of_getElem? this)

theorem splitWorld_outside {w : Box} {g : A3 Nat} {r : Remap} {l : List Box}
    (hl : splitWorld w g r = .ok l) {i : Nat} (hi : r.map[i]? = some none) :
    l[i]? = some (outsideBox w.order) := by
  have h : r.isAll = false := by
    cases hm : r.map with
    | nil => rw [hm] at hi; simp at hi
    | cons a t => simp [Remap.isAll, hm]
  rw [splitWorld_sub_iff h] at hl
  obtain ⟨h1, h2⟩ := List.getElem?_eq_some_iff.1 hi
  have h3 : i < l.length := by rw [← hl.length_eq]; exact h1
  have := hl.get h1 h3
  simp only [List.get_eq_getElem, h2] at this
  rw [List.getElem?_eq_getElem h3, this]

theorem setSubranks_good {n k : Nat} {r : Remap} (h : Remap.setSubranks n k = .ok r) (hn : 0 < n) :
    r.Good n k ∧ r.sub = k := by
  unfold Remap.setSubranks at h
  split at h
  · rename_i hk
    simp only [Except.ok.injEq] at h
    subst h
    refine ⟨.inr ⟨by simp [Remap.isAll]; omega, by simp, List.Perm.of_eq ?_⟩, rfl⟩
    simp only [List.filterMap_map]
    have : List.range n = List.range k ++ List.range' k (n-k) := by
      have h := List.range'_append_1 (s := 0) (m := k) (n := n - k)
      rw [Nat.zero_add] at h
      rw [List.range_eq_range', List.range_eq_range', h]; congr 1; omega
    rw [this, List.filterMap_append]
    rw [filterMap_eq_map_of_forall (g := id), List.filterMap_eq_nil_iff.2]
    · simp
    · intro i hi
      simp only [List.mem_range'_1] at hi
      simp; omega
    · intro i hi
      simpa using hi
  · cases h

end Verif
