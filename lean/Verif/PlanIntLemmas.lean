import Verif.PlanInt
import Verif.PlanTotal

/-! # The planner in machine integers computes the plan of the planner in unbounded integers -/

namespace Verif

/-! ## Two runs that agree -/

/-- `x` is `y`, and if there is a result then it has the property `P`. -/
def Tracks {α : Type} (P : α → Prop) (x y : Res α) : Prop := x = y ∧ ∀ a, y = .ok a → P a

theorem Tracks.bind {α β : Type} {P : α → Prop} {Q : β → Prop} {x y : Res α} {f g : α → Res β} (h : Tracks P x y)
    (hf : ∀ a, P a → Tracks Q (f a) (g a)) : Tracks Q (x >>= f) (y >>= g) := by
  obtain ⟨rfl, h⟩ := h
  cases x with
  | error e => exact ⟨rfl, fun a h => by cases h⟩
  | ok a => exact hf a (h a rfl)

theorem Tracks.left {α β : Type} {Q : β → Prop} {x : Res α} {a : α} {f : α → Res β} {y : Res β} (h : x = .ok a)
    (hf : Tracks Q (f a) y) : Tracks Q (x >>= f) y := by subst h; exact hf

theorem Tracks.pure {α : Type} {P : α → Prop} {a : α} (h : P a) : Tracks P (.ok a) (.ok a) :=
  ⟨rfl, fun b hb => by injection hb with hb; exact hb ▸ h⟩

theorem Tracks.error {α : Type} {P : α → Prop} (e : Err) : Tracks P (.error e) (.error e) := ⟨rfl, fun _ h => by cases h⟩

theorem Tracks.same {α : Type} {P : α → Prop} {x : Res α} (h : ∀ a, x = .ok a → P a) : Tracks P x x := ⟨rfl, h⟩

theorem Tracks.mono {α : Type} {P Q : α → Prop} {x y : Res α} (h : Tracks P x y) (hq : ∀ a, P a → Q a) : Tracks Q x y :=
  ⟨h.1, fun a ha => hq a (h.2 a ha)⟩

theorem listRes_ok {α β : Type} {f : α → Res β} {g : α → β} : ∀ {l : List α}, (∀ a ∈ l, f a = .ok (g a)) →
    listRes f l = .ok (l.map g)
  | [], _ => rfl
  | a :: l, h => by
    rw [listRes, h a (List.mem_cons_self ..), listRes_ok fun b hb => h b (List.mem_cons_of_mem _ hb)]
    rfl

theorem listRes_mapM {α β : Type} (f : α → Res β) (l : List α) : listRes f l = l.mapM f := by
  induction l with
  | nil => rfl
  | cons a l ih => rw [listRes, ih, List.mapM_cons]; rfl

theorem foldRes_ok {α β γ : Type} {f : γ → α → Res γ} {g : β → α → β} (e : β → γ) :
    ∀ {l : List α} {b : β}, (∀ b, ∀ a ∈ l, f (e b) a = .ok (e (g b a))) → foldRes f (e b) l = .ok (e (l.foldl g b))
  | [], _, _ => rfl
  | a :: l, b, h => by
    rw [foldRes, h b a (List.mem_cons_self ..)]
    exact foldRes_ok e fun b c hc => h b c (List.mem_cons_of_mem _ hc)

theorem anyRes_ok {α : Type} {f : α → Res Bool} {g : α → Bool} : ∀ {l : List α}, (∀ a ∈ l, f a = .ok (g a)) →
    anyRes f l = .ok (l.any g)
  | [], _ => rfl
  | a :: l, h => by
    rw [anyRes, h a (List.mem_cons_self ..), List.any_cons]
    simp only [bind, Except.bind]
    cases g a with
    | true => rfl
    | false => simp only [Bool.false_eq_true, if_false, Bool.false_or]; exact anyRes_ok fun b hb => h b (List.mem_cons_of_mem _ hb)

theorem bind_of_ok {α β : Type} (a : α) (f : α → Res β) : ((.ok a : Res α) >>= f) = f a := rfl

theorem bind_of_error {α β : Type} (e : Err) (f : α → Res β) : ((.error e : Res α) >>= f) = .error e := rfl

/-! ## Sizes -/

theorem arith_ok {t : IndexType} {x : Int} (h1 : -t.bound ≤ x) (h2 : x < t.bound) : t.arith x = .ok x := by
  unfold IndexType.arith IndexType.fits
  rw [if_pos (by simp [h1, h2])]

theorem llArith_ok {x : Int} (h1 : 0 ≤ x) (h2 : x < 2 ^ 63) : llArith x = .ok x := by
  apply arith_ok <;> simp only [IndexType.bound] <;> omega

theorem intArith_ok {x : Int} (h1 : 0 ≤ x) (h2 : x < 2147483648) : intArith x = .ok x := by
  apply arith_ok <;> norm_num [IndexType.bound] <;> omega

theorem IndexType.bound_pos (t : IndexType) : 2 ^ 31 ≤ t.bound := by cases t <;> simp [IndexType.bound]

/-- A world at the origin whose sizes are representable. -/
structure ExtentsFit (t : IndexType) (w : Box) : Prop where
  low : ∀ d, w.low.get d = 0
  high : ∀ d, 0 ≤ w.high.get d
  top : ∀ d, w.high.get d + 1 < t.bound

/-- A world whose number of indexes is representable, too. -/
structure WorldFits (t : IndexType) (w : Box) : Prop extends ExtentsFit t w where
  count : w.count < 2 ^ 63

/-- A box that can be constructed and does not reach beyond the world. -/
def Room (t : IndexType) (w b : Box) : Prop :=
  ∀ d, 0 ≤ b.low.get d ∧ b.high.get d ≤ w.high.get d ∧ -t.bound ≤ b.high.get d - b.low.get d

/-- A smaller world at the origin. -/
def AtOrigin (w v : Box) : Prop := ∀ d, v.low.get d = 0 ∧ 0 ≤ v.high.get d ∧ v.high.get d ≤ w.high.get d

section
variable {t : IndexType} {w : Box} (hw : ExtentsFit t w)
include hw

theorem ExtentsFit.inside : AtOrigin w w := fun d => ⟨hw.low d, hw.high d, le_refl _⟩

theorem room_none (o : A3 (Fin 3)) : Room t w ⟨⟨0, 0, 0⟩, ⟨-1, -1, -1⟩, o⟩ := by
  intro d
  have := hw.high d
  have := t.bound_pos
  match d with
  | 0 => exact ⟨le_refl _, by simp only [A3.get_zero] at *; omega, by simp only [A3.get_zero]; omega⟩
  | 1 => exact ⟨le_refl _, by simp only [A3.get_one] at *; omega, by simp only [A3.get_one]; omega⟩
  | 2 => exact ⟨le_refl _, by simp only [A3.get_two] at *; omega, by simp only [A3.get_two]; omega⟩

theorem extentM_ok {b : Box} (hb : Room t w b) (d : Fin 3) :
    extentM t (b.low.get d) (b.high.get d) = .ok (b.high.get d - b.low.get d + 1) := by
  obtain ⟨h1, h2, h3⟩ := hb d
  have := hw.top d
  unfold extentM
  rw [arith_ok (by omega) (by omega)]
  exact arith_ok (by omega) (by omega)

theorem boxM_ok {b : Box} (hb : Room t w b) : boxM t b.low b.high b.order = .ok b := by
  have h0 := extentM_ok hw hb 0
  have h1 := extentM_ok hw hb 1
  have h2 := extentM_ok hw hb 2
  simp only [A3.get_zero, A3.get_one, A3.get_two] at h0 h1 h2
  unfold boxM
  rw [h0, h1, h2]
  rfl

theorem boxM_order {b : Box} (hb : Room t w b) (o : A3 (Fin 3)) : boxM t b.low b.high o = .ok ⟨b.low, b.high, o⟩ :=
  boxM_ok hw (b := ⟨b.low, b.high, o⟩) hb

theorem room_collide {a b : Box} (ha : Room t w a) (hb : Room t w b) : Room t w (a.collide b) := by
  unfold Box.collide
  split
  · exact room_none hw _
  · rename_i h
    simp only [Bool.or_eq_true, not_or, Bool.not_eq_true, Box.empty_false_iff] at h
    intro d
    simp only [A3.get_of]
    have := ha d; have := hb d; have := h.1 d; have := h.2 d; have := hw.top d
    refine ⟨by omega, by omega, by omega⟩

theorem collideM_ok {a b : Box} (ha : Room t w a) (hb : Room t w b) : collideM t a b = .ok (a.collide b) := by
  have h := boxM_ok hw (room_collide hw ha hb)
  unfold collideM
  unfold Box.collide at h ⊢
  split
  · rename_i hc; rw [if_pos hc] at h; exact h
  · rename_i hc; rw [if_neg hc] at h; exact h

theorem room_r2c {b : Box} (hb : Room t w b) (d : Fin 3) : Room t w (b.r2c d) := by
  unfold Box.r2c
  split
  · exact room_none hw _
  · rename_i h
    simp only [Bool.not_eq_true, Box.empty_false_iff] at h
    intro e
    have he := hb e; have := h e
    by_cases hed : e = d
    · subst hed
      simp only [A3.get_set_self, Box.size, A3.get_of]
      refine ⟨he.1, by omega, by have := t.bound_pos; omega⟩
    · simp only [A3.get_set_ne _ _ hed]
      exact he

theorem r2cM_ok {b : Box} (hb : Room t w b) (d : Fin 3) : r2cM t b d = .ok (b.r2c d) := by
  have h := boxM_ok hw (room_r2c hw hb d)
  have hr := room_r2c hw hb d d
  unfold r2cM
  unfold Box.r2c at h hr ⊢
  split
  · rename_i hc; rw [if_pos hc] at h; exact h
  · rename_i hc
    rw [if_neg hc] at h hr
    simp only [A3.get_set_self] at hr
    simp only [Bool.not_eq_true, Box.empty_false_iff] at hc
    have := hc d; have := hb d; have := hw.top d
    have hs : 0 ≤ b.size.get d / 2 := by simp only [Box.size, A3.get_of]; omega
    rw [arith_ok (by have := t.bound_pos; omega) (by omega)]
    exact h

theorem room_reorder {l : List Box} (hl : ∀ b ∈ l, Room t w b) (o : A3 (Fin 3)) : ∀ b ∈ reorder l o, Room t w b := by
  intro b hb
  obtain ⟨c, hc, rfl⟩ := List.mem_map.1 hb
  exact hl c hc

theorem reorderM_ok {l : List Box} (hl : ∀ b ∈ l, Room t w b) (o : A3 (Fin 3)) : reorderM t l o = .ok (reorder l o) :=
  listRes_ok fun b hb => boxM_order hw (hl b hb) o

theorem room_applyR2c {l : List Box} (hl : ∀ b ∈ l, Room t w b) (r2c : Option (Fin 3)) : ∀ b ∈ applyR2c l r2c, Room t w b := by
  cases r2c with
  | none => exact hl
  | some d =>
    intro b hb
    obtain ⟨c, hc, rfl⟩ := List.mem_map.1 hb
    exact room_r2c hw (hl c hc) d

theorem applyR2cM_ok {l : List Box} (hl : ∀ b ∈ l, Room t w b) (r2c : Option (Fin 3)) : applyR2cM t l r2c = .ok (applyR2c l r2c) := by
  cases r2c with
  | none => rfl
  | some d => exact listRes_ok fun b hb => r2cM_ok hw (hl b hb) d

/-! ## Grids -/

omit hw in
theorem factors_le {a b : Nat} (h1 : 0 < a) (h2 : 0 < b) : a + b ≤ a * b + 1 := by nlinarith

omit hw in
theorem getAreaM_ok {n : Nat} (hn : 0 < n) (h : 2 * n + 1 < 2147483648) {f : Nat × Nat} (hf : f.1 * f.2 = n) :
    getAreaM f = .ok (getArea f : Int) := by
  have h1 : 0 < f.1 := Nat.pos_of_mul_pos_right (hf ▸ hn)
  have h2 : 0 < f.2 := Nat.pos_of_mul_pos_left (hf ▸ hn)
  have h3 : f.1 + f.2 ≤ n + 1 := by rw [← hf]; exact factors_le h1 h2
  have e : (f.1 : Int) * (f.2 : Int) = (n : Int) := by exact_mod_cast hf
  unfold getAreaM getArea
  rw [e, intArith_ok (by omega) (by omega), bind_of_ok, intArith_ok (by omega) (by omega), bind_of_ok,
    intArith_ok (by omega) (by omega), hf]
  push_cast; rfl

omit hw in
theorem getFactorsM_ok {n : Nat} (h : 2 * n + 1 < 2147483648) : getFactorsM n = .ok (getFactors n) := by
  unfold getFactorsM
  rw [intArith_ok (by omega) (by omega)]
  rfl

omit hw in
theorem makeProcgridM_ok {n : Nat} (hn : 0 < n) (h : 2 * n + 1 < 2147483648) :
    Tracks (fun g => g.1 * g.2 = n) (makeProcgridM n) (makeProcgrid n) := by
  have hp : ∀ a, makeProcgrid n = .ok a → a.1 * a.2 = n := by
    intro a ha
    obtain ⟨g, h1, h2, -⟩ := makeProcgrid_spec hn
    rw [h1] at ha; injection ha with ha; exact ha ▸ h2
  refine ⟨?_, hp⟩
  unfold makeProcgridM makeProcgrid
  rw [getFactorsM_ok h]
  rw [bind_of_ok]
  have hm : ∀ f ∈ getFactors n, f.1 * f.2 = n := fun f hf => (mem_getFactors hn).1 hf
  cases hf : getFactors n with
  | nil => rfl
  | cons f0 fs =>
    rw [hf] at hm
    dsimp only
    rw [getAreaM_ok hn h (hm f0 (List.mem_cons_self ..)), bind_of_ok, foldRes_ok (fun (a : (Nat × Nat) × Nat) => ((a.1, (a.2 : Int)) : (Nat × Nat) × Int))
      (g := fun acc f => if getArea f < acc.2 then (f, getArea f) else acc) (b := (f0, getArea f0)), bind_of_ok]
    intro acc f hmem
    dsimp only
    rw [getAreaM_ok hn h (hm f hmem), bind_of_ok]
    by_cases hc : getArea f < acc.2
    · rw [if_pos hc, if_pos (by exact_mod_cast hc)]
    · rw [if_neg hc, if_neg (by exact_mod_cast hc)]

omit hw in
theorem makeProcgrid2dM_ok {n : Nat} (hn : 0 < n) (h : 2 * n + 1 < 2147483648) (v : Box) (dir : Fin 3) {c : Nat × Nat}
    (hc : c.1 * c.2 = n) : makeProcgrid2dM v dir c = makeProcgrid2d v dir c := by
  unfold makeProcgrid2dM makeProcgrid2d
  dsimp only
  split
  · rfl
  · have e : (c.1 : Int) * (c.2 : Int) = (n : Int) := by exact_mod_cast hc
    rw [e, intArith_ok (by omega) (by omega), hc, getFactorsM_ok h]
    rw [bind_of_ok, bind_of_ok]
    have hm : ∀ f ∈ getFactors n, f.1 * f.2 = n := fun f hf => (mem_getFactors hn).1 hf
    cases hf : getFactors n with
    | nil => rfl
    | cons f0 fs =>
      rw [hf] at hm
      dsimp only
      rw [getAreaM_ok hn h (hm f0 (List.mem_cons_self ..)), bind_of_ok, foldRes_ok (fun (a : Nat) => (a : Int)) (g := fun m g => max m (getArea g)) (b := getArea f0)
        (fun m g hg => by rw [getAreaM_ok hn h (hm g hg), bind_of_ok]; push_cast; rfl), bind_of_ok, foldRes_ok (fun (a : A3 Nat × Nat) => ((a.1, (a.2 : Int)) : A3 Nat × Int))
        (g := fun acc g => if gridFits v (gridWithout dir g) && decide (getArea g ≤ acc.2) then
          (gridWithout dir g, getArea g) else acc)
        (b := (gridWithout dir c, (f0 :: fs).foldl (fun m g => max m (getArea g)) (getArea f0))), bind_of_ok]
      intro acc f hmem
      dsimp only
      rw [getAreaM_ok hn h (hm f hmem), bind_of_ok]
      cases gridFits v (gridWithout dir f) with
      | false => simp
      | true =>
        by_cases hc : getArea f ≤ acc.2
        · have : (getArea f : Int) ≤ (acc.2 : Int) := by exact_mod_cast hc
          simp [hc, this]
        · have : ¬ (getArea f : Int) ≤ (acc.2 : Int) := by exact_mod_cast hc
          simp [hc, this]

/-! ## Splitting -/

omit hw in
theorem cut_le {low n : Int} {p i : Nat} (hn : 0 ≤ n) (hi : i ≤ p) : low ≤ cut low n p i ∧ cut low n p i ≤ cut low n p p := by
  constructor
  · have : 0 ≤ n.tdiv p := Int.tdiv_nonneg hn (by positivity)
    have := Int.tmod_nonneg (a := n) (p : Int) hn
    have : 0 ≤ (i : Int) * n.tdiv p := by positivity
    unfold cut
    omega
  · obtain ⟨k, rfl⟩ := Nat.exists_eq_add_of_le hi
    have : ∀ m j, cut low n m i ≤ cut low n m (i + j) := by
      intro m j
      induction j with
      | zero => exact le_refl _
      | succ j ih => exact ih.trans (cut_mono hn)
    exact this _ _

omit hw in
theorem cutM_ok {n : Int} {p i : Nat} (hn : 0 ≤ n) (hb : n < t.bound) (hp : 0 < p) (hi : i ≤ p) :
    cutM t 0 n p i = .ok (cut 0 n p i) := by
  have h1 : 0 ≤ n.tdiv p := Int.tdiv_nonneg hn (by positivity)
  have h2 := Int.tmod_nonneg (a := n) (p : Int) hn
  have h3 : 0 ≤ (i : Int) * n.tdiv p := by positivity
  have h4 := (cut_le (low := 0) hn hi).2
  rw [cut_last hp] at h4
  have h5 := Int.mul_tdiv_add_tmod n p
  have h6 : n.tdiv p ≤ (p : Int) * n.tdiv p := by nlinarith
  have h7 := t.bound_pos
  unfold cutM
  unfold cut at h4 ⊢
  rw [if_neg (by omega), arith_ok (by omega) (by omega)]
  simp only [bind, Except.bind]
  rw [arith_ok (by omega) (by omega)]
  simp only
  rw [arith_ok (by omega) (by omega)]
  simp only
  exact arith_ok (by omega) (by omega)

omit hw in
theorem cutEndM_ok {n : Int} {p i : Nat} (hn : 0 ≤ n) (hb : n < t.bound) (hi : i < p) :
    cutEndM t 0 n p i = .ok (cut 0 n p (i + 1) - 1) := by
  have h1 := (cut_le (low := 0) hn (Nat.succ_le_of_lt hi)).1
  have h2 := (cut_le (low := 0) hn (Nat.succ_le_of_lt hi)).2
  rw [cut_last (by omega)] at h2
  have h7 := t.bound_pos
  simp only [Nat.succ_eq_add_one] at h1 h2
  unfold cutEndM
  rw [cutM_ok hn hb (by omega) (Nat.succ_le_of_lt hi)]
  exact arith_ok (x := cut 0 n p (i + 1) - 1) (by omega) (by omega)

omit hw in
theorem mem_gridCells {g : A3 Nat} {c : Nat × Nat × Nat} (h : c ∈ gridCells g) : c.1 < g.get 0 ∧ c.2.1 < g.get 1 ∧ c.2.2 < g.get 2 := by
  simp only [gridCells, List.mem_flatMap, List.mem_map, List.mem_range] at h
  obtain ⟨k, hk, j, hj, i, hi, rfl⟩ := h
  exact ⟨hi, hj, hk⟩

omit hw in
theorem gridBoxes_cells (v : Box) (g : A3 Nat) : gridBoxes v g = (gridCells g).map fun c => cellBox v g c.1 c.2.1 c.2.2 := by
  unfold gridBoxes gridCells
  simp only [List.map_flatMap, List.map_map]
  rfl

theorem cellBoxM_ok {v : Box} (hv : AtOrigin w v) {g : A3 Nat} {c : Nat × Nat × Nat} (hc : c ∈ gridCells g) :
    cellBoxM t v g c = .ok (cellBox v g c.1 c.2.1 c.2.2) ∧ Room t w (cellBox v g c.1 c.2.1 c.2.2) := by
  obtain ⟨c0, c1, c2⟩ := mem_gridCells hc
  have hs : ∀ d, 0 ≤ v.size.get d ∧ v.size.get d < t.bound ∧ v.size.get d ≤ w.high.get d + 1 := by
    intro d
    simp only [Box.size, A3.get_of]
    have := hv d; have := hw.top d
    refine ⟨by omega, by omega, by omega⟩
  have hr : ∀ d i, i < g.get d → 0 ≤ cut 0 (v.size.get d) (g.get d) i ∧ cut 0 (v.size.get d) (g.get d) (i + 1) - 1 ≤ w.high.get d ∧
      -t.bound ≤ cut 0 (v.size.get d) (g.get d) (i + 1) - 1 - cut 0 (v.size.get d) (g.get d) i := by
    intro d i hi
    have h1 := (cut_le (low := 0) (hs d).1 hi.le).1
    have h2 := (cut_le (low := 0) (hs d).1 (Nat.succ_le_of_lt hi)).2
    have h3 := cut_mono (low := 0) (p := g.get d) (i := i) (hs d).1
    rw [cut_last (by omega)] at h2
    have := hs d
    have := t.bound_pos
    simp only [Nat.succ_eq_add_one] at h2
    refine ⟨h1, by omega, by omega⟩
  have room : Room t w (cellBox v g c.1 c.2.1 c.2.2) := by
    intro d
    unfold cellBox
    rw [(hv 0).1, (hv 1).1, (hv 2).1]
    match d with
    | 0 => exact hr 0 _ c0
    | 1 => exact hr 1 _ c1
    | 2 => exact hr 2 _ c2
  refine ⟨?_, room⟩
  have hb := boxM_ok hw room
  unfold cellBoxM
  unfold cellBox at hb ⊢
  rw [(hv 0).1, (hv 1).1, (hv 2).1] at hb ⊢
  rw [cutM_ok (hs 0).1 (hs 0).2.1 (by omega) c0.le, cutM_ok (hs 1).1 (hs 1).2.1 (by omega) c1.le,
    cutM_ok (hs 2).1 (hs 2).2.1 (by omega) c2.le, cutEndM_ok (hs 0).1 (hs 0).2.1 c0, cutEndM_ok (hs 1).1 (hs 1).2.1 c1,
    cutEndM_ok (hs 2).1 (hs 2).2.1 c2]
  exact hb

theorem splitWorldM_ok {v : Box} (hv : AtOrigin w v) (g : A3 Nat) (r : Remap) :
    Tracks (fun l => ∀ b ∈ l, Room t w b) (splitWorldM t v g r) (splitWorld v g r) := by
  have hcell : listRes (cellBoxM t v g) (gridCells g) = .ok (gridBoxes v g) := by
    rw [gridBoxes_cells]
    exact listRes_ok fun c hc => (cellBoxM_ok hw hv hc).1
  have hroom : ∀ b ∈ gridBoxes v g, Room t w b := by
    intro b hb
    rw [gridBoxes_cells] at hb
    obtain ⟨c, hc, rfl⟩ := List.mem_map.1 hb
    exact (cellBoxM_ok hw hv hc).2
  refine ⟨?_, fun l hl b hb => ?_⟩
  rotate_left
  · rcases splitWorld_mem hl hb with h | h
    · exact hroom b h
    · exact h ▸ room_none hw _
  unfold splitWorldM splitWorld
  rw [hcell]
  simp only [bind, Except.bind]
  split
  · rfl
  · rw [listRes_mapM]
    refine congrArg (fun f => List.mapM f r.map) (funext fun m => ?_)
    cases m with
    | none => exact boxM_ok hw (room_none hw v.order)
    | some r => rfl

end

section
variable {t : IndexType} {w : Box} (hw : WorldFits t w)
include hw

theorem Room.count_le {b : Box} (hb : Room t w b) : b.count ≤ w.count :=
  Box.count_mono fun _ hp d => ⟨by rw [hw.low d]; exact (hb d).1.trans (hp d).1, (hp d).2.trans (hb d).2.1⟩

theorem countM_ok {b : Box} (hb : Room t w b) : countM b = .ok b.count := by
  have h := (hb.count_le hw).trans_lt hw.count
  unfold countM
  unfold Box.count at h ⊢
  split
  · rfl
  · rename_i hc
    rw [if_neg hc] at h
    simp only [Box.empty, Bool.or_eq_true, decide_eq_true_eq, not_or, not_le] at hc
    obtain ⟨⟨h0, h1⟩, h2⟩ := hc
    have h01 : 0 < b.size.get 0 * b.size.get 1 := Int.mul_pos h0 h1
    have h012 : b.size.get 0 * b.size.get 1 ≤ b.size.get 0 * b.size.get 1 * b.size.get 2 := by nlinarith
    rw [llArith_ok h01.le (by omega)]
    exact llArith_ok (by omega) h

/-! ## Overlaps -/

theorem findBestM_ok {o : Box} (ho : Room t w o) {new : List Box} (hn : ∀ b ∈ new, Room t w b) (taken : List Bool) :
    findBestM t o new taken = .ok (findBest o new taken) := by
  have h : foldRes (overlapStepM t o) (-1, none) (new.zip taken).zipIdx =
      .ok ((new.zip taken).zipIdx.foldl (overlapStep o) (-1, none)) := by
    refine foldRes_ok (fun a : Int × Option Nat => a) fun acc e he => ?_
    have hb : Room t w e.1.1 := by
      obtain ⟨⟨b, k⟩, i⟩ := e
      have := List.mem_zipIdx he
      have h2 : (b, k) ∈ new.zip taken := by rw [this.2.2]; exact List.getElem_mem _
      exact hn _ (List.of_mem_zip h2).1
    unfold overlapStepM overlapStep
    rw [collideM_ok hw.1 ho hb]
    simp only [bind, Except.bind]
    rw [countM_ok hw (room_collide hw.1 ho hb)]
    dsimp only
    split <;> rfl
  unfold findBestM findBest
  rw [h]
  rfl

theorem overlapLoopM_ok {new old : List Box} (hn : ∀ b ∈ new, Room t w b) (ho : ∀ b ∈ old, Room t w b) (order : A3 (Fin 3))
    (remap : Remap) : ∀ fuel i taken, Tracks (fun l => ∀ b ∈ l, Room t w b) (overlapLoopM t new old order remap fuel i taken)
      (overlapLoop new old order remap fuel i taken) := by
  intro fuel
  induction fuel with
  | zero => intro i taken; exact Tracks.pure (by simp)
  | succ fuel ih =>
    intro i taken
    unfold overlapLoopM overlapLoop
    have cons : ∀ (b : Box), Room t w b → ∀ i taken, Tracks (fun l => ∀ b ∈ l, Room t w b)
        (do let x ← boxM t b.low b.high order
            let rest ← overlapLoopM t new old order remap fuel i taken
            .ok (x :: rest))
        (do let rest ← overlapLoop new old order remap fuel i taken
            .ok (⟨b.low, b.high, order⟩ :: rest)) := by
      intro b hb i taken
      refine Tracks.left (boxM_order hw.1 hb order) (Tracks.bind (ih i taken) fun l hl => Tracks.pure ?_)
      intro c hc
      rcases List.mem_cons.1 hc with rfl | hc
      · exact hb
      · exact hl c hc
    cases remap.unused i with
    | none => exact Tracks.error _
    | some u =>
      cases hi : new[i]? with
      | none => cases u <;> exact Tracks.error _
      | some b =>
        cases u with
        | true => exact cons b (hn b (List.mem_of_getElem? hi)) _ _
        | false =>
          dsimp only
          cases hoi : old[i]? with
          | none => exact Tracks.error _
          | some o =>
            dsimp only
            rw [findBestM_ok hw (ho o (List.mem_of_getElem? hoi)) hn taken]
            refine Tracks.left rfl ?_
            cases findBest o new taken with
            | none => exact Tracks.error _
            | some m =>
              dsimp only
              cases hm : new[m]? with
              | none => exact Tracks.error _
              | some c => exact cons c (hn c (List.mem_of_getElem? hm)) _ _

theorem maximizeOverlapM_ok {new old : List Box} (hn : ∀ b ∈ new, Room t w b) (ho : ∀ b ∈ old, Room t w b) (order : A3 (Fin 3))
    (remap : Remap) : Tracks (fun l => ∀ b ∈ l, Room t w b) (maximizeOverlapM t new old order remap)
      (maximizeOverlap new old order remap) :=
  Tracks.bind (P := fun _ => True) (Tracks.same fun _ _ => trivial) fun _ _ => overlapLoopM_ok hw hn ho order remap _ _ _

theorem countConnectionsM_ok {new old : List Box} (hn : ∀ b ∈ new, Room t w b) (ho : ∀ b ∈ old, Room t w b) :
    countConnectionsM t new old = .ok (countConnections new old) := by
  refine foldRes_ok (fun a : Nat => a) fun c n hmem => ?_
  refine foldRes_ok (fun a : Nat => a) fun c o homem => ?_
  rw [collideM_ok hw.1 (hn n hmem) (ho o homem)]
  simp only [bind, Except.bind]
  split <;> rfl

theorem makePencilsM_ok {n : Nat} (hn0 : 0 < n) (h : 2 * n + 1 < 2147483648) {v : Box} (hv : AtOrigin w v) {grid : Nat × Nat}
    (hg : grid.1 * grid.2 = n) (dim : Fin 3) {source : List Box} (hs : ∀ b ∈ source, Room t w b) (order : A3 (Fin 3)) (r : Remap) :
    Tracks (fun l => ∀ b ∈ l, Room t w b) (makePencilsM t v grid dim source order r) (makePencils v grid dim source order r) := by
  unfold makePencilsM makePencils
  split
  · rw [reorderM_ok hw.1 hs]
    exact Tracks.pure (room_reorder hw.1 hs order)
  · rw [makeProcgrid2dM_ok hn0 h v dim hg, makeProcgrid2dM_ok hn0 h v dim (c := (grid.2, grid.1)) (by rw [Nat.mul_comm]; exact hg)]
    refine Tracks.bind (P := fun _ => True) (Tracks.same fun _ _ => trivial) fun ga _ => ?_
    refine Tracks.bind (splitWorldM_ok hw.1 hv ga r) fun sa hsa => ?_
    refine Tracks.bind (maximizeOverlapM_ok hw hsa hs order r) fun pa hpa => ?_
    refine Tracks.bind (P := fun _ => True) (Tracks.same fun _ _ => trivial) fun gb _ => ?_
    refine Tracks.bind (splitWorldM_ok hw.1 hv gb r) fun sb hsb => ?_
    refine Tracks.bind (maximizeOverlapM_ok hw hsb hs order r) fun pb hpb => ?_
    refine Tracks.left (countConnectionsM_ok hw hpb hs) (Tracks.left (countConnectionsM_ok hw hpa hs) ?_)
    apply Tracks.pure
    split
    · exact hpb
    · exact hpa

theorem makeSlabsM_ok {v : Box} (hv : AtOrigin w v) (n : Nat) (d1 d2 : Fin 3) {source : List Box} (hs : ∀ b ∈ source, Room t w b)
    (order : A3 (Fin 3)) (r : Remap) :
    Tracks (fun l => ∀ b ∈ l, Room t w b) (makeSlabsM t v n d1 d2 source order r) (makeSlabs v n d1 d2 source order r) :=
  Tracks.bind (splitWorldM_ok hw.1 hv _ r) fun _ hl => maximizeOverlapM_ok hw hl hs order r

/-! ## The planner -/

section
variable {n : Nat} (hn0 : 0 < n) (hn : 2 * n + 1 < 2147483648) {grid : Nat × Nat} (hg : grid.1 * grid.2 = n)
include hn0 hn hg

theorem nextPencilsShapeM_ok {v vo : Box} (hv : AtOrigin w v) (dim : Fin 3) {source bout : List Box}
    (hs : ∀ b ∈ source, Room t w b) (ho : ∀ b ∈ bout, Room t w b) (ur : Bool) (test : List (Fin 3)) (r : Remap) :
    Tracks (fun l => ∀ b ∈ l, Room t w b) (nextPencilsShapeM t v grid dim source ur vo test bout r)
      (nextPencilsShape v grid dim source ur vo test bout r) := by
  unfold nextPencilsShapeM nextPencilsShape
  cases ur with
  | true =>
    simp only [if_true]
    cases isPencilsAll vo bout test with
    | true =>
      simp only [if_true]
      cases bout.head? with
      | none => exact Tracks.error _
      | some b =>
        dsimp only
        split
        · exact Tracks.pure ho
        · rw [reorderM_ok hw.1 ho]; exact Tracks.pure (room_reorder hw.1 ho _)
    | false =>
      simp only [Bool.false_eq_true, if_false]
      cases source.head? with
      | none => exact Tracks.error _
      | some b => exact makePencilsM_ok hw hn0 hn hv hg dim hs _ r
  | false =>
    simp only [Bool.false_eq_true, if_false]
    cases isPencilsAll vo bout test with
    | true => simp only [if_true]; exact Tracks.pure ho
    | false => simp only [Bool.false_eq_true, if_false]; exact makePencilsM_ok hw hn0 hn hv hg dim hs _ r

omit hn0 hn hg in
theorem room_nonR2c {b : Box} (hb : Room t w b) (d : Fin 3) : Room t w (nonR2cBox w d b) := by
  intro e
  unfold nonR2cBox
  by_cases hed : e = d
  · subst hed
    simp only [A3.get_set_self]
    have := hw.low e; have := hw.high e; have := t.bound_pos
    refine ⟨by omega, le_refl _, by omega⟩
  · simp only [A3.get_set_ne _ _ hed]
    exact hb e

theorem nextPencilsShape0M_ok {vo : Box} (dim : Fin 3) (r2c : Option (Fin 3)) {source bout : List Box}
    (hs : ∀ b ∈ source, Room t w b) (ho : ∀ b ∈ bout, Room t w b) (ur : Bool) (test : List (Fin 3)) (r : Remap) :
    Tracks (fun l => ∀ b ∈ l, Room t w b) (nextPencilsShape0M t w grid dim r2c source ur vo test bout r)
      (nextPencilsShape0 w grid dim r2c source ur vo test bout r) := by
  unfold nextPencilsShape0M nextPencilsShape0
  cases r2c with
  | none => exact nextPencilsShapeM_ok hw hn0 hn hg hw.1.inside dim hs ho ur test r
  | some d =>
    dsimp only
    cases isPencilsAll vo bout test with
    | false =>
      simp only [Bool.false_eq_true, if_false]
      exact nextPencilsShapeM_ok hw hn0 hn hg hw.1.inside dim hs ho ur test r
    | true =>
      simp only [if_true]
      refine Tracks.left (listRes_ok (g := nonR2cBox w d) fun b hb => boxM_ok hw.1 (room_nonR2c hw (ho b hb) d)) ?_
      refine nextPencilsShapeM_ok hw hn0 hn hg hw.1.inside dim hs ?_ ur test r
      intro b hb
      obtain ⟨c, hc, rfl⟩ := List.mem_map.1 hb
      exact room_nonR2c hw (ho c hc) d

end

theorem room_world : Room t w w := fun d => ⟨(hw.low d).ge, le_refl _, by
  have := hw.low d; have := hw.high d; have := t.bound_pos; omega⟩

theorem reorderSlabsM_ok {l : List Box} (hl : ∀ b ∈ l, Room t w b) (d : Fin 3) (ur : Bool) :
    Tracks (fun l => ∀ b ∈ l, Room t w b) (reorderSlabsM t l d ur) (reorderSlabs l d ur) := by
  unfold reorderSlabsM reorderSlabs
  cases ur with
  | false => exact Tracks.pure hl
  | true =>
    simp only [Bool.not_true, Bool.false_eq_true, if_false]
    cases l.head? with
    | none => exact Tracks.error _
    | some s =>
      dsimp only
      split
      · exact Tracks.pure hl
      · rw [reorderM_ok hw.1 hl]; exact Tracks.pure (room_reorder hw.1 hl _)

omit hw in
theorem Tracks.req (d : Option (Fin 3)) : Tracks (fun _ => True) (Verif.req d) (Verif.req d) := Tracks.same fun _ _ => trivial

theorem planPencilM_ok {vo : Box} (hvo : AtOrigin w vo) {bin bout : List Box} (hi : ∀ b ∈ bin, Room t w b)
    (ho : ∀ b ∈ bout, Room t w b) (r2c : Option (Fin 3)) (opts : Opts) {r : Remap} (hn0 : 0 < workRanks bin r)
    (hn : 2 * workRanks bin r + 1 < 2147483648) :
    planPencilM t w vo bin bout r2c opts r = planPencil w vo bin bout r2c opts r := by
  refine (?_ : Tracks (fun _ => True) _ _).1
  unfold planPencilM planPencil
  refine Tracks.bind (makeProcgridM_ok hn0 hn) fun grid hg => ?_
  refine Tracks.bind (Tracks.req _) fun d0 _ => ?_
  refine Tracks.bind (nextPencilsShape0M_ok hw hn0 hn hg d0 r2c hi ho _ _ r) fun s0 hs0 => ?_
  refine Tracks.left (applyR2cM_ok hw.1 hs0 r2c) ?_
  have hs := room_applyR2c hw.1 hs0 r2c
  refine Tracks.bind (Tracks.req _) fun d1 _ => ?_
  refine Tracks.bind (Tracks.req _) fun d2 _ => ?_
  refine Tracks.bind (nextPencilsShapeM_ok hw hn0 hn hg hvo d1 hs ho _ _ r) fun s1 hs1 => ?_
  refine Tracks.bind (nextPencilsShapeM_ok hw hn0 hn hg hvo d2 hs1 ho _ _ r) fun s2 hs2 => ?_
  exact Tracks.left (countM_ok hw (room_world hw)) (Tracks.pure trivial)

theorem planSlabM_ok {vo : Box} (hvo : AtOrigin w vo) {bin bout : List Box} (hi : ∀ b ∈ bin, Room t w b)
    (ho : ∀ b ∈ bout, Room t w b) (r2c : Option (Fin 3)) (opts : Opts) {r : Remap} (hn0 : 0 < workRanks bin r)
    (hn : 2 * workRanks bin r + 1 < 2147483648) :
    planSlabM t w vo bin bout r2c opts r = planSlab w vo bin bout r2c opts r := by
  unfold planSlabM planSlab
  split
  · exact planPencilM_ok hw hvo hi ho r2c opts hn0 hn
  refine (?_ : Tracks (fun _ => True) _ _).1
  refine Tracks.bind (makeProcgridM_ok hn0 hn) fun grid hg => ?_
  cases slabInput w bin r2c with
  | some d =>
    obtain ⟨d0, d1⟩ := d
    dsimp only
    refine Tracks.bind (Tracks.req _) fun d2 _ => ?_
    refine Tracks.bind (reorderSlabsM_ok hw hi d0 _) fun s0 hs0 => ?_
    refine Tracks.left (applyR2cM_ok hw.1 hs0 r2c) ?_
    refine Tracks.bind (reorderSlabsM_ok hw (room_applyR2c hw.1 hs0 r2c) d1 _) fun s1 hs1 => ?_
    refine Tracks.bind (nextPencilsShapeM_ok hw hn0 hn hg hvo d2 hs1 ho _ _ r) fun s2 hs2 => ?_
    exact Tracks.left (countM_ok hw (room_world hw)) (Tracks.pure trivial)
  | none =>
  cases slabOutput vo bout r2c with
  | some d =>
    obtain ⟨d1, d2⟩ := d
    dsimp only
    refine Tracks.bind (Tracks.req _) fun d0 _ => ?_
    refine Tracks.bind (nextPencilsShapeM_ok hw hn0 hn hg hw.1.inside d0 hi ho _ _ r) fun s0 hs0 => ?_
    refine Tracks.left (applyR2cM_ok hw.1 hs0 r2c) ?_
    refine Tracks.bind (reorderSlabsM_ok hw ho d1 _) fun s1 hs1 => ?_
    refine Tracks.bind (reorderSlabsM_ok hw hs1 d2 _) fun s2 hs2 => ?_
    exact Tracks.left (countM_ok hw (room_world hw)) (Tracks.pure trivial)
  | none =>
  cases slabPencilInput w bin r2c with
  | some d0 =>
    dsimp only
    refine Tracks.bind (Tracks.req _) fun d1 _ => ?_
    refine Tracks.bind (Tracks.req _) fun d2 _ => ?_
    refine Tracks.bind (nextPencilsShapeM_ok hw hn0 hn hg hw.1.inside d0 hi ho _ _ r) fun s0 hs0 => ?_
    refine Tracks.left (applyR2cM_ok hw.1 hs0 r2c) ?_
    refine Tracks.bind (makeSlabsM_ok hw hvo _ d1 d2 (room_applyR2c hw.1 hs0 r2c) _ r) fun sl hsl => ?_
    refine Tracks.bind (reorderSlabsM_ok hw hsl d1 _) fun s1 hs1 => ?_
    refine Tracks.bind (reorderSlabsM_ok hw hsl d2 _) fun s2 hs2 => ?_
    exact Tracks.left (countM_ok hw (room_world hw)) (Tracks.pure trivial)
  | none =>
    dsimp only
    refine Tracks.bind (Tracks.req _) fun d0 _ => ?_
    refine Tracks.bind (Tracks.req _) fun d1 _ => ?_
    refine Tracks.bind (Tracks.req _) fun d2 _ => ?_
    refine Tracks.bind (makeSlabsM_ok hw hw.1.inside _ d0 d1 hi _ r) fun sl hsl => ?_
    refine Tracks.bind (reorderSlabsM_ok hw hsl d0 _) fun s0 hs0 => ?_
    refine Tracks.left (applyR2cM_ok hw.1 hs0 r2c) ?_
    refine Tracks.bind (reorderSlabsM_ok hw (room_applyR2c hw.1 hs0 r2c) d1 _) fun s1 hs1 => ?_
    refine Tracks.bind (nextPencilsShapeM_ok hw hn0 hn hg hvo d2 hs1 ho _ _ r) fun s2 hs2 => ?_
    exact Tracks.left (countM_ok hw (room_world hw)) (Tracks.pure trivial)

/-! ## Completeness -/

theorem someOverlapM_ok {l : List Box} (hl : ∀ b ∈ l, Room t w b) : someOverlapM t l = .ok (someOverlap l) := by
  have hm : ∀ e ∈ l.zipIdx, Room t w e.1 := by
    intro e he
    have := List.mem_zipIdx (x := e.1) (i := e.2) he
    rw [this.2.2]
    exact hl _ (List.getElem_mem _)
  refine anyRes_ok fun bi hbi => anyRes_ok fun bj hbj => ?_
  split
  · rename_i h
    rw [collideM_ok hw.1 (hm bi hbi) (hm bj hbj), h]
    rfl
  · rename_i h
    rw [Bool.not_eq_true] at h
    rw [h]
    rfl

theorem sumM_ok : ∀ {l : List Box} {s : Int}, 0 ≤ s → s + (l.map Box.count).sum < 2 ^ 63 → (∀ b ∈ l, Room t w b) →
    foldRes (fun s b => do
      let c ← countM b
      llArith (s + c)) s l = .ok (l.foldl (fun s b => s + b.count) s)
  | [], _, _, _, _ => rfl
  | b :: l, s, h0, h1, hl => by
    have hb := Box.count_nonneg b
    have hrest : 0 ≤ (l.map Box.count).sum := List.sum_nonneg (by
      intro x hx
      obtain ⟨c, -, rfl⟩ := List.mem_map.1 hx
      exact Box.count_nonneg c)
    rw [List.map_cons, List.sum_cons] at h1
    rw [foldRes, countM_ok hw (hl b (List.mem_cons_self ..))]
    simp only [bind, Except.bind]
    rw [llArith_ok (by omega) (by omega)]
    exact sumM_ok (by omega) (by omega) fun c hc => hl c (List.mem_cons_of_mem _ hc)

theorem worldCompleteM_ok {v : Box} (hv : Room t w v) {l : List Box} (hl : ∀ b ∈ l, Room t w b)
    (hsum : (l.map Box.count).sum < 2 ^ 63) : worldCompleteM t l v = worldComplete l v := by
  unfold worldCompleteM worldComplete
  rw [sumM_ok hw (le_refl 0) (by rw [Int.zero_add]; exact hsum) hl]
  simp only [bind, Except.bind]
  rw [countM_ok hw hv]
  dsimp only
  split
  · rfl
  · split
    · rfl
    · rw [someOverlapM_ok hw hl]

end

/-! ## The whole planner -/

/-- The sizes for which the planner does not overflow: the world starts at the origin, its sizes fit in the type of the coordinates and its number
of indexes in a `long long`; the boxes of all ranks, also the empty ones, can be constructed; the number of ranks is below `2 ^ 30`. -/
structure MachineGrid (t : IndexType) (bin bout : List Box) (wi : Box) : Prop where
  origin : ∀ d, wi.low.get d = 0
  top : ∀ d, wi.high.get d + 1 < t.bound
  count : wi.count < 2 ^ 63
  boxes : ∀ b ∈ bin ++ bout, ∀ d, -t.bound ≤ b.high.get d - b.low.get d
  ranks : 2 * bin.length + 1 < 2147483648

section
variable {t : IndexType} {bin bout : List Box} {r2c : Option (Fin 3)} {wi wo : Box}

theorem MachineGrid.world (m : MachineGrid t bin bout wi) (geo : Geometry bin bout r2c wi wo) : WorldFits t wi := by
  obtain ⟨p, hp⟩ := geo.nonempty
  exact ⟨⟨m.origin, fun d => by have := hp d; have := m.origin d; omega, m.top⟩, m.count⟩

theorem MachineGrid.inside (m : MachineGrid t bin bout wi) (geo : Geometry bin bout r2c wi wo) : AtOrigin wi wo := by
  intro d
  have hw := m.world geo
  have := hw.low d; have := hw.high d; have := geo.complex d
  split at this <;> omega

theorem MachineGrid.roomIn (m : MachineGrid t bin bout wi) (geo : Geometry bin bout r2c wi wo) : ∀ b ∈ bin, Room t wi b := by
  intro b hb d
  have h1 := findWorld_encloses geo.worldIn b hb d
  have h2 := m.boxes b (List.mem_append_left _ hb) d
  have := m.origin d
  exact ⟨by omega, h1.2, h2⟩

theorem MachineGrid.roomOut (m : MachineGrid t bin bout wi) (geo : Geometry bin bout r2c wi wo) : ∀ b ∈ bout, Room t wi b := by
  intro b hb d
  have h1 := findWorld_encloses geo.worldOut b hb d
  have h2 := m.boxes b (List.mem_append_right _ hb) d
  have h3 := m.inside geo d
  exact ⟨by omega, by omega, h2⟩

theorem AtOrigin.room (hw : WorldFits t wi) (h : AtOrigin wi wo) : Room t wi wo := fun d => by
  have := h d; have := hw.low d; have := t.bound_pos
  exact ⟨by omega, by omega, by omega⟩

theorem findWorldM_ok {l : List Box} {v : Box} (hw : WorldFits t wi) (hv : Room t wi v) (h : findWorld l = .ok v) : findWorldM t l = .ok v := by
  unfold findWorldM
  rw [h]
  exact boxM_ok hw.1 hv

theorem workRanks_le {opts : Opts} {r : Remap} (hn : 0 < bin.length) (h : planRemap bin.length opts = .ok r) :
    0 < workRanks bin r ∧ workRanks bin r ≤ bin.length := by
  unfold planRemap at h
  split at h
  · rename_i hc
    unfold Remap.setSubranks at h
    split at h
    · injection h with h
      subst h
      unfold workRanks
      split
      · exact ⟨hn, le_refl _⟩
      · dsimp only; omega
    · cases h
  · injection h with h
    subst h
    exact ⟨hn, le_refl _⟩

/-- The planner in machine integers computes the same plan. -/
theorem planOperationsM_eq (geo : Geometry bin bout r2c wi wo) (m : MachineGrid t bin bout wi) (opts : Opts) :
    planOperationsM t bin bout r2c opts = planOperations bin bout r2c opts := by
  have hw := m.world geo
  unfold planOperationsM planOperations
  rw [findWorldM_ok hw (room_world hw) geo.worldIn, findWorldM_ok hw ((m.inside geo).room hw) geo.worldOut, geo.worldIn, geo.worldOut]
  rcases hr : planRemap bin.length opts with e | r
  · rw [bind_of_error, bind_of_error]
  · obtain ⟨h1, h2⟩ := workRanks_le geo.ranks_pos hr
    have h3 := m.ranks
    simp only [bind_of_ok]
    split
    · exact planPencilM_ok hw (m.inside geo) (m.roomIn geo) (m.roomOut geo) r2c opts h1 (by omega)
    · exact planSlabM_ok hw (m.inside geo) (m.roomIn geo) (m.roomOut geo) r2c opts h1 (by omega)

/-- The checks of the asserts in machine integers. -/
theorem planAssertsM_eq (geo : Geometry bin bout r2c wi wo) (m : MachineGrid t bin bout wi) :
    planAssertsM t bin bout r2c = planAsserts bin bout r2c := by
  have hw := m.world geo
  have hwo := (m.inside geo).room hw
  unfold planAssertsM planAsserts
  rw [findWorldM_ok hw (room_world hw) geo.worldIn, findWorldM_ok hw hwo geo.worldOut, geo.worldIn, geo.worldOut]
  simp only [bind_of_ok]
  rw [worldCompleteM_ok hw (room_world hw) (m.roomIn geo) (by rw [geo.tilesIn.sum_count]; exact m.count),
    worldCompleteM_ok hw hwo (m.roomOut geo) (by rw [geo.tilesOut.sum_count]; exact geo.count_le.trans_lt m.count)]
  cases r2c with
  | none => rfl
  | some d => simp only [r2cM_ok hw.1 (room_world hw) d, bind_of_ok]

end

/-! ## The grid of minimal surface -/

theorem surface_le {a b c : Int} (ha : 1 ≤ a) (hb : 1 ≤ b) (hc : 1 ≤ c) : a * b + b * c + c * a ≤ 2 * (a * b * c) + 1 := by
  have h1 : 0 ≤ (a - 1) * (b - 1) := mul_nonneg (by omega) (by omega)
  have h2 : 0 ≤ (a * b - 1) * (c - 1) := mul_nonneg (by nlinarith) (by omega)
  have h3 : 0 ≤ (c - 1) * ((a - 1) * b + (b - 1) * a) := mul_nonneg (by omega) (by nlinarith)
  nlinarith

section
variable {t : IndexType} {w : Box}

theorem gridSurfaceM_ok {n : Nat} (hn : 0 < n) {g : A3 Nat} (hg : g ∈ surfaceCandidates w n)
    (hs : 2 * (w.count / n) + 1 < t.bound - 1) :
    gridSurfaceM t w g = .ok (gridSurface w g) ∧ gridSurface w g < t.bound - 1 := by
  obtain ⟨g0, g1, l0, l1, l2, hprod, -⟩ := mem_surfaceCandidates.1 hg
  have g2 : 0 < g.z := Nat.pos_of_ne_zero (by rintro h; rw [h] at hprod; omega)
  have part : ∀ (s : Int) (k : Nat), 0 < k → (k : Int) ≤ s → 1 ≤ s.tdiv k ∧ s.tdiv k * k ≤ s := by
    intro s k hk hks
    have h1 := Int.mul_tdiv_add_tmod s k
    have h2 : 0 ≤ s.tmod k := Int.tmod_nonneg _ (by omega)
    have h3 : s.tmod k < k := Int.tmod_lt_of_pos _ (by omega)
    have h4 : 0 ≤ s.tdiv k := Int.tdiv_nonneg (by omega) (by omega)
    refine ⟨?_, by linarith⟩
    by_contra hc
    have : s.tdiv k = 0 := by omega
    rw [this] at h1
    omega
  obtain ⟨p0, q0⟩ := part _ _ g0 l0
  obtain ⟨p1, q1⟩ := part _ _ g1 l1
  obtain ⟨p2, q2⟩ := part _ _ g2 l2
  have hcount : w.count = w.size.get 0 * w.size.get 1 * w.size.get 2 := by
    unfold Box.count
    rw [if_neg]
    simp only [Box.empty, Bool.or_eq_true, decide_eq_true_eq, not_or, not_le]
    exact ⟨⟨by omega, by omega⟩, by omega⟩
  unfold gridSurfaceM gridSurface
  simp only [A3.get_of]
  simp only [A3.get_zero, A3.get_one, A3.get_two] at *
  generalize w.size.x.tdiv g.x = a at *
  generalize w.size.y.tdiv g.y = b at *
  generalize w.size.z.tdiv g.z = c at *
  have hmul : a * b * c * n ≤ w.count := by
    have e : (g.x : Int) * g.y * g.z = n := by exact_mod_cast hprod
    have h1 : (a * g.x) * (b * g.y) ≤ w.size.x * w.size.y := mul_le_mul q0 q1 (by positivity) (by omega)
    have h2 : (a * g.x) * (b * g.y) * (c * g.z) ≤ w.size.x * w.size.y * w.size.z :=
      mul_le_mul h1 q2 (by positivity) (mul_nonneg (by omega) (by omega))
    calc a * b * c * n = (a * g.x) * (b * g.y) * (c * g.z) := by rw [← e]; ring
      _ ≤ _ := by rw [hcount]; exact h2
  have hP : a * b * c ≤ w.count / n := (Int.le_ediv_iff_mul_le (by omega)).2 hmul
  have hS := surface_le p0 p1 p2
  have ab : 1 ≤ a * b := by nlinarith
  have bc : 1 ≤ b * c := by nlinarith
  have ca : 1 ≤ c * a := by nlinarith
  have a1 : a ≤ a * b := by nlinarith
  have b1 : b ≤ b * c := by nlinarith
  have c1 : c ≤ c * a := by nlinarith
  have hb := t.bound_pos
  refine ⟨?_, by omega⟩
  rw [arith_ok (by omega) (by omega), bind_of_ok, arith_ok (by omega) (by omega), bind_of_ok, arith_ok (by omega) (by omega), bind_of_ok,
    arith_ok (by omega) (by omega), bind_of_ok, arith_ok (by omega) (by omega), bind_of_ok, arith_ok (by omega) (by omega), bind_of_ok,
    arith_ok (by omega) (by omega), bind_of_ok, arith_ok (by omega) (by omega)]

theorem procSetupMinSurfaceM_ok {n : Nat} (hn : 0 < n) (hs : 2 * (w.count / n) + 1 < t.bound - 1) :
    procSetupMinSurfaceM t w n = .ok (procSetupMinSurface w n) := by
  unfold procSetupMinSurfaceM procSetupMinSurface
  split
  · rfl
  · have h := foldRes_ok (fun a : A3 Nat × Option Int => (a.1, a.2.getD (t.bound - 1)))
      (f := fun acc g => do
        let s ← gridSurfaceM t w g
        if s < acc.2 then .ok (g, s) else .ok acc)
      (g := fun (acc : A3 Nat × Option Int) g =>
        let s := gridSurface w g
        match acc.2 with
        | none => (g, some s)
        | some b => if s < b then (g, some s) else acc)
      (l := surfaceCandidates w n) (b := (⟨1, 1, 1⟩, none)) ?_
    · rw [show ((⟨1, 1, 1⟩ : A3 Nat), t.bound - 1) = ((⟨1, 1, 1⟩ : A3 Nat), (none : Option Int).getD (t.bound - 1)) from rfl, h]
      rfl
    · intro acc g hg
      obtain ⟨h1, h2⟩ := gridSurfaceM_ok hn hg hs
      rw [h1, bind_of_ok]
      obtain ⟨x, y⟩ := acc
      cases y with
      | none => simp only [Option.getD_none, Option.getD_some]; rw [if_pos h2]
      | some b =>
        simp only [Option.getD_some]
        split <;> rfl

end

end Verif
