import Verif.OverlapLemmas

/-! # Lemmas about the process grids -/

namespace Verif

theorem mem_getFactors {n : Nat} (hn : 0 < n) {f : Nat × Nat} : f ∈ getFactors n ↔ f.1 * f.2 = n := by
  have key : f ∈ ((List.range' 1 n).filter fun i => n % i == 0).map (fun i => (i, n / i)) ↔ f.1 * f.2 = n := by
    simp only [List.mem_map, List.mem_filter, List.mem_range'_1, beq_iff_eq]
    constructor
    · rintro ⟨i, ⟨⟨h1, h2⟩, h3⟩, rfl⟩
      exact Nat.mul_div_cancel' (Nat.dvd_of_mod_eq_zero h3)
    · rintro rfl
      have h1 : 0 < f.1 := Nat.pos_of_mul_pos_right hn
      have h2 : 0 < f.2 := Nat.pos_of_mul_pos_left hn
      refine ⟨f.1, ⟨⟨h1, ?_⟩, Nat.mul_mod_right _ _⟩, ?_⟩
      · have := Nat.le_mul_of_pos_right f.1 h2; omega
      · rw [Nat.mul_div_cancel_left _ h1]
  unfold getFactors
  dsimp only
  split
  · rename_i h1
    rw [List.mem_append, key]
    subst h1
    constructor
    · rintro (h | h)
      · exact h
      · simp [List.mem_singleton.1 h]
    · exact .inl
  · exact key

theorem getFactors_ne_nil {n : Nat} (hn : 0 < n) : getFactors n ≠ [] := by
  intro h
  have : ((1, n) : Nat × Nat) ∈ getFactors n := (mem_getFactors hn).2 (by simp)
  rw [h] at this; simp at this

theorem getFactors_zero : getFactors 0 = [] := rfl

theorem minArea_fold (l : List (Nat × Nat)) (acc : (Nat × Nat) × Nat) (hacc : acc.2 = getArea acc.1) :
    let r := l.foldl (fun (acc : (Nat × Nat) × Nat) f =>
      if getArea f < acc.2 then (f, getArea f) else acc) acc
    (r.1 = acc.1 ∨ r.1 ∈ l) ∧ r.2 = getArea r.1 ∧ r.2 ≤ acc.2 ∧ ∀ f ∈ l, getArea r.1 ≤ getArea f := by
  induction l generalizing acc with
  | nil => simp [hacc]
  | cons g l ih =>
    simp only [List.foldl_cons]
    split
    · rename_i hg
      obtain ⟨h1, h2, h3, h4⟩ := ih (g, getArea g) rfl
      refine ⟨?_, h2, by simp only at h3; omega, ?_⟩
      · right
        rcases h1 with h1 | h1
        · rw [h1]; exact List.mem_cons_self ..
        · exact List.mem_cons_of_mem _ h1
      · simp only [List.mem_cons, forall_eq_or_imp]
        exact ⟨by rw [← h2]; exact h3, h4⟩
    · rename_i hg
      obtain ⟨h1, h2, h3, h4⟩ := ih acc hacc
      refine ⟨?_, h2, h3, ?_⟩
      · rcases h1 with h1 | h1
        · exact .inl h1
        · exact .inr (List.mem_cons_of_mem _ h1)
      · simp only [List.mem_cons, forall_eq_or_imp]
        exact ⟨by omega, h4⟩

theorem makeProcgrid_spec {n : Nat} (hn : 0 < n) : ∃ g, makeProcgrid n = .ok g ∧ g.1 * g.2 = n ∧
    ∀ a b, a * b = n → getArea g ≤ getArea (a, b) := by
  unfold makeProcgrid
  split
  · rename_i h; exact absurd h (getFactors_ne_nil hn)
  · rename_i f0 fs h
    obtain ⟨h1, -, -, h4⟩ := minArea_fold (f0 :: fs) (f0, getArea f0) rfl
    refine ⟨_, rfl, ?_, fun a b hab => h4 _ ?_⟩
    · rw [← mem_getFactors hn, h]
      rcases h1 with h1 | h1
      · rw [h1]; exact List.mem_cons_self ..
      · exact h1
    · rw [← h, mem_getFactors hn]; exact hab

theorem gridFits_iff {w : Box} {g : A3 Nat} : gridFits w g = true ↔ ∀ d, (g.get d : Int) ≤ w.size.get d := by
  simp only [gridFits, List.all_eq_true, Bool.not_eq_true', decide_eq_false_iff_not, not_lt, mem_dims, true_imp_iff]

theorem gridWithout_get (d : Fin 3) (f : Nat × Nat) : (gridWithout d f).get d = 1 := by
  match d with
  | 0 => rfl
  | 1 => rfl
  | 2 => rfl

theorem gridWithout_prod (d : Fin 3) (f : Nat × Nat) :
    (gridWithout d f).get 0 * (gridWithout d f).get 1 * (gridWithout d f).get 2 = f.1 * f.2 := by
  match d with
  | 0 => simp [gridWithout]
  | 1 => simp [gridWithout]
  | 2 => simp [gridWithout]

/-- A grid that is 1 in direction `d` is one built by the helper. -/
theorem gridWithout_surj (d : Fin 3) (g : A3 Nat) (h : g.get d = 1) : ∃ f, g = gridWithout d f := by
  match d with
  | 0 => exact ⟨(g.y, g.z), by cases g; simp_all [gridWithout]⟩
  | 1 => exact ⟨(g.x, g.z), by cases g; simp_all [gridWithout]⟩
  | 2 => exact ⟨(g.x, g.y), by cases g; simp_all [gridWithout]⟩

theorem gridWithout_pos (d : Fin 3) (f : Nat × Nat) (h1 : 0 < f.1) (h2 : 0 < f.2) (e : Fin 3) :
    0 < (gridWithout d f).get e := by
  match d, e with
  | 0, 0 => exact Nat.one_pos
  | 0, 1 => exact h1
  | 0, 2 => exact h2
  | 1, 0 => exact h1
  | 1, 1 => exact Nat.one_pos
  | 1, 2 => exact h2
  | 2, 0 => exact h1
  | 2, 1 => exact h2
  | 2, 2 => exact Nat.one_pos

theorem maxArea_fold (l : List (Nat × Nat)) (m : Nat) :
    m ≤ l.foldl (fun m g => max m (getArea g)) m ∧ ∀ f ∈ l, getArea f ≤ l.foldl (fun m g => max m (getArea g)) m := by
  induction l generalizing m with
  | nil => simp
  | cons g l ih =>
    obtain ⟨h1, h2⟩ := ih (max m (getArea g))
    simp only [List.foldl_cons, List.mem_cons, forall_eq_or_imp]
    exact ⟨(le_max_left ..).trans h1, (le_max_right ..).trans h1, h2⟩

theorem fitFold_spec (w : Box) (dir : Fin 3) (l : List (Nat × Nat)) (acc : A3 Nat × Nat) :
    let r := l.foldl (fun (acc : A3 Nat × Nat) g =>
        if gridFits w (gridWithout dir g) && decide (getArea g ≤ acc.2) then
          (gridWithout dir g, getArea g) else acc) acc
    (r = acc ∧ ∀ g ∈ l, gridFits w (gridWithout dir g) = true → acc.2 < getArea g) ∨
    (∃ f ∈ l, r = (gridWithout dir f, getArea f) ∧ gridFits w (gridWithout dir f) = true ∧
      getArea f ≤ acc.2 ∧ ∀ g ∈ l, gridFits w (gridWithout dir g) = true → getArea f ≤ getArea g) := by
  induction l generalizing acc with
  | nil => left; simp
  | cons g l ih =>
    simp only [List.foldl_cons]
    split
    · rename_i hg
      simp only [Bool.and_eq_true, decide_eq_true_eq] at hg
      right
      rcases ih (gridWithout dir g, getArea g) with ⟨h1, h2⟩ | ⟨f, hf, h1, h2, h3, h4⟩
      · refine ⟨g, List.mem_cons_self .., h1, hg.1, hg.2, ?_⟩
        simp only [List.mem_cons, forall_eq_or_imp, le_refl, implies_true, true_and]
        intro f hf hfit
        have := h2 f hf hfit; simp only at this; omega
      · simp only at h3
        refine ⟨f, List.mem_cons_of_mem _ hf, h1, h2, by omega, ?_⟩
        simp only [List.mem_cons, forall_eq_or_imp]
        exact ⟨fun _ => h3, h4⟩
    · rename_i hg
      simp only [Bool.and_eq_true, decide_eq_true_eq, not_and, not_le] at hg
      rcases ih acc with ⟨h1, h2⟩ | ⟨f, hf, h1, h2, h3, h4⟩
      · left
        refine ⟨h1, ?_⟩
        simp only [List.mem_cons, forall_eq_or_imp]
        exact ⟨hg, h2⟩
      · right
        refine ⟨f, List.mem_cons_of_mem _ hf, h1, h2, h3, ?_⟩
        simp only [List.mem_cons, forall_eq_or_imp]
        exact ⟨fun h => by have := hg h; omega, h4⟩

/-- The outcomes of `make_procgrid2d`. -/
theorem makeProcgrid2d_cases (w : Box) (dir : Fin 3) (c : Nat × Nat) (h1 : 0 < c.1) (h2 : 0 < c.2) :
    (gridFits w (gridWithout dir c) = true ∧ makeProcgrid2d w dir c = .ok (gridWithout dir c)) ∨
    (gridFits w (gridWithout dir c) = false ∧ ∃ f : Nat × Nat, f.1 * f.2 = c.1 * c.2 ∧
      gridFits w (gridWithout dir f) = true ∧ makeProcgrid2d w dir c = .ok (gridWithout dir f) ∧
      ∀ a b, a * b = c.1 * c.2 → gridFits w (gridWithout dir (a, b)) = true → getArea f ≤ getArea (a, b)) ∨
    ((∀ a b, a * b = c.1 * c.2 → gridFits w (gridWithout dir (a, b)) = false) ∧
      makeProcgrid2d w dir c = .error .runtime) := by
  have hn : 0 < c.1 * c.2 := Nat.mul_pos h1 h2
  unfold makeProcgrid2d
  dsimp only
  split
  · rename_i h; exact .inl ⟨h, rfl⟩
  · rename_i hc
    right
    split
    · rename_i h; exact absurd h (getFactors_ne_nil hn)
    · rename_i f0 fs h
      rcases fitFold_spec w dir (f0 :: fs) (gridWithout dir c,
        (f0 :: fs).foldl (fun m g => max m (getArea g)) (getArea f0)) with ⟨h3, h4⟩ | ⟨f, hf, h3, h4, h5, h6⟩
      · right
        rw [h3]
        simp only
        rw [if_neg hc]
        refine ⟨fun a b hab => ?_, rfl⟩
        by_contra hfit
        have hmem : (a, b) ∈ f0 :: fs := by rw [← h, mem_getFactors hn]; exact hab
        have h5 := h4 _ hmem (by simpa using hfit)
        have h6 := (maxArea_fold (f0 :: fs) (getArea f0)).2 _ hmem
        simp only at h5; omega
      · left
        rw [h3]
        simp only
        rw [if_pos h4]
        refine ⟨by simpa using hc, f, ?_, h4, rfl, fun a b hab hfit => h6 _ ?_ hfit⟩
        · rw [← mem_getFactors hn, h]; exact hf
        · rw [← h, mem_getFactors hn]; exact hab

theorem makeProcgrid2d_ok {w : Box} {dir : Fin 3} {c : Nat × Nat} {g : A3 Nat} (h1 : 0 < c.1) (h2 : 0 < c.2)
    (h : makeProcgrid2d w dir c = .ok g) : g.get dir = 1 ∧ g.get 0 * g.get 1 * g.get 2 = c.1 * c.2 ∧
      (∀ d, (g.get d : Int) ≤ w.size.get d) ∧ ∀ d, 0 < g.get d := by
  rcases makeProcgrid2d_cases w dir c h1 h2 with ⟨h3, h4⟩ | ⟨-, f, h3, h4, h5, -⟩ | ⟨-, h3⟩
  · rw [h4] at h; injection h with h; subst h
    exact ⟨gridWithout_get .., gridWithout_prod .., gridFits_iff.1 h3, gridWithout_pos _ _ h1 h2⟩
  · rw [h5] at h; injection h with h; subst h
    have hn : 0 < f.1 * f.2 := h3 ▸ Nat.mul_pos h1 h2
    exact ⟨gridWithout_get .., (gridWithout_prod ..).trans h3, gridFits_iff.1 h4,
      gridWithout_pos _ _ (Nat.pos_of_mul_pos_right hn) (Nat.pos_of_mul_pos_left hn)⟩
  · rw [h3] at h; cases h

/-! ## Minimum surface -/

theorem mem_surfaceCandidates {w : Box} {n : Nat} {g : A3 Nat} : g ∈ surfaceCandidates w n ↔
    0 < g.x ∧ 0 < g.y ∧ (g.x : Int) ≤ w.size.get 0 ∧ (g.y : Int) ≤ w.size.get 1 ∧ (g.z : Int) ≤ w.size.get 2 ∧
      g.x * g.y * g.z = n ∧ g.x ≤ n ∧ g.y ≤ n / g.x ∧ g.z = n / (g.x * g.y) ∧ n % g.x = 0 ∧
      (min ((n / g.x : Nat) : Int) (w.size.get 1)).toNat % g.y = 0 := by
  simp only [surfaceCandidates, List.mem_flatMap, List.mem_range'_1]
  constructor
  · rintro ⟨i, ⟨hi1, hi2⟩, h⟩
    split at h
    · rename_i hni
      simp only [List.mem_flatMap, List.mem_range'_1] at h
      obtain ⟨j, ⟨hj1, hj2⟩, h⟩ := h
      split at h
      · rename_i hj
        split at h
        · rename_i hk
          rw [List.mem_singleton] at h
          subst h
          simp only [Bool.and_eq_true, decide_eq_true_eq, beq_iff_eq] at hk hni hj
          dsimp only
          refine ⟨by omega, by omega, by omega, by omega, hk.1, hk.2, by omega, by omega, rfl, hni, hj⟩
        · simp at h
      · simp at h
    · simp at h
  · rintro ⟨h1, h2, h3, h4, h5, h6, h7, h8, h9, h10, h11⟩
    refine ⟨g.x, ⟨by omega, by omega⟩, ?_⟩
    rw [if_pos (by simpa using h10)]
    simp only [List.mem_flatMap, List.mem_range'_1]
    refine ⟨g.y, ⟨by omega, by omega⟩, ?_⟩
    rw [if_pos (by simpa using h11), ← h9, if_pos (by simp only [h5, h6, decide_true, beq_self_eq_true, Bool.and_self])]
    simp

theorem surfaceFold_spec (w : Box) (l : List (A3 Nat)) (acc : A3 Nat × Option Int)
    (hacc : ∀ s, acc.2 = some s → s = gridSurface w acc.1) :
    let r := l.foldl (fun (acc : A3 Nat × Option Int) g =>
      let s := gridSurface w g
      match acc.2 with
      | none => (g, some s)
      | some b => if s < b then (g, some s) else acc) acc
    (r.1 = acc.1 ∧ (l = [] ∨ acc.2 ≠ none) ∨ r.1 ∈ l) ∧ (∀ s, r.2 = some s → s = gridSurface w r.1) ∧
      (∀ s, acc.2 = some s → gridSurface w r.1 ≤ s) ∧ ∀ g ∈ l, gridSurface w r.1 ≤ gridSurface w g := by
  induction l generalizing acc with
  | nil =>
    simp only [List.foldl_nil]
    refine ⟨.inl ⟨trivial, .inl trivial⟩, hacc, fun s hs => (hacc s hs).ge, by simp⟩
  | cons g l ih =>
    simp only [List.foldl_cons]
    have step : ∀ acc' : A3 Nat × Option Int, acc' = (g, some (gridSurface w g)) →
        (∀ s, acc.2 = some s → gridSurface w g ≤ s) →
        let r := l.foldl (fun (acc : A3 Nat × Option Int) g =>
          let s := gridSurface w g
          match acc.2 with
          | none => (g, some s)
          | some b => if s < b then (g, some s) else acc) acc'
        (r.1 = acc.1 ∧ (g :: l = [] ∨ acc.2 ≠ none) ∨ r.1 ∈ g :: l) ∧ (∀ s, r.2 = some s → s = gridSurface w r.1) ∧
          (∀ s, acc.2 = some s → gridSurface w r.1 ≤ s) ∧ ∀ g' ∈ g :: l, gridSurface w r.1 ≤ gridSurface w g' := by
      rintro acc' rfl hs
      obtain ⟨h1, h2, h3, h4⟩ := ih (g, some (gridSurface w g)) (by simp)
      have h3' := h3 _ rfl
      refine ⟨.inr ?_, h2, fun s hs' => h3'.trans (hs s hs'), ?_⟩
      · rcases h1 with ⟨h1, -⟩ | h1
        · rw [h1]; exact List.mem_cons_self ..
        · exact List.mem_cons_of_mem _ h1
      · simp only [List.mem_cons, forall_eq_or_imp]; exact ⟨h3', h4⟩
    cases hb : acc.2 with
    | none =>
      have := step (g, some (gridSurface w g)) rfl (by rw [hb]; simp)
      rw [hb] at this
      exact this
    | some b =>
      simp only
      split
      · rename_i hlt
        have := step (g, some (gridSurface w g)) rfl (by rw [hb]; rintro s ⟨⟩; exact hlt.le)
        rw [hb] at this
        exact this
      · rename_i hlt
        obtain ⟨h1, h2, h3, h4⟩ := ih acc hacc
        refine ⟨?_, h2, by rw [← hb]; exact h3, ?_⟩
        · rcases h1 with ⟨h1, -⟩ | h1
          · exact .inl ⟨h1, .inr (by simp)⟩
          · exact .inr (List.mem_cons_of_mem _ h1)
        · simp only [List.mem_cons, forall_eq_or_imp]
          exact ⟨(h3 _ hb).trans (not_lt.1 hlt), h4⟩

theorem procSetupMinSurface_spec (w : Box) (n : Nat) (hn : n ≠ 1) :
    (surfaceCandidates w n = [] ∧ procSetupMinSurface w n = ⟨1, 1, 1⟩) ∨
    (procSetupMinSurface w n ∈ surfaceCandidates w n ∧
      ∀ g ∈ surfaceCandidates w n, gridSurface w (procSetupMinSurface w n) ≤ gridSurface w g) := by
  unfold procSetupMinSurface
  rw [if_neg hn]
  obtain ⟨h1, -, -, h4⟩ := surfaceFold_spec w (surfaceCandidates w n) (⟨1, 1, 1⟩, none) (by simp)
  rcases h1 with ⟨h1, h⟩ | h1
  · left
    rcases h with h | h
    · exact ⟨h, h1⟩
    · simp at h
  · exact .inr ⟨h1, h4⟩

theorem gridSurface_eq {w : Box} (g : A3 Nat) (h : ∀ d, 0 < w.size.get d) : gridSurface w g = boxSurface w g := by
  have h0 := h 0; have h1 := h 1; have h2 := h 2
  simp only [A3.get_zero, A3.get_one, A3.get_two] at h0 h1 h2
  simp only [gridSurface, boxSurface, A3.of, A3.get_zero, A3.get_one, A3.get_two]
  rw [Int.tdiv_eq_ediv_of_nonneg h0.le, Int.tdiv_eq_ediv_of_nonneg h1.le, Int.tdiv_eq_ediv_of_nonneg h2.le]

end Verif
