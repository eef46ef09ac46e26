import Verif.BoxLemmas

/-! # Lemmas about `find_world` and `world_complete` -/

namespace Verif

theorem foldl_min_get (l : List Box) (a : A3 Int) (d : Fin 3) :
    (l.foldl (fun (l : A3 Int) b => .of fun d => min (l d) (b.low d)) a).get d
      = l.foldl (fun m b => min m (b.low.get d)) (a.get d) := by
  induction l generalizing a with
  | nil => rfl
  | cons b l ih => simp [ih]

theorem foldl_max_get (l : List Box) (a : A3 Int) (d : Fin 3) :
    (l.foldl (fun (l : A3 Int) b => .of fun d => max (l d) (b.high d)) a).get d
      = l.foldl (fun m b => max m (b.high.get d)) (a.get d) := by
  induction l generalizing a with
  | nil => rfl
  | cons b l ih => simp [ih]

theorem foldl_min_le {α : Type} (f : α → Int) (l : List α) (m : Int) :
    l.foldl (fun m b => min m (f b)) m ≤ m ∧ ∀ b ∈ l, l.foldl (fun m b => min m (f b)) m ≤ f b := by
  induction l generalizing m with
  | nil => simp
  | cons b l ih =>
    obtain ⟨h1, h2⟩ := ih (min m (f b))
    simp only [List.foldl_cons, List.mem_cons, forall_eq_or_imp]
    exact ⟨h1.trans (min_le_left ..), h1.trans (min_le_right ..), h2⟩

theorem le_foldl_min {α : Type} (f : α → Int) (l : List α) (m k : Int) (h : k ≤ m) (hb : ∀ b ∈ l, k ≤ f b) :
    k ≤ l.foldl (fun m b => min m (f b)) m := by
  induction l generalizing m with
  | nil => simpa
  | cons b l ih =>
    exact ih _ (le_min h (hb b (List.mem_cons_self ..))) fun b' hb' => hb b' (List.mem_cons_of_mem _ hb')

theorem le_foldl_max {α : Type} (f : α → Int) (l : List α) (m : Int) :
    m ≤ l.foldl (fun m b => max m (f b)) m ∧ ∀ b ∈ l, f b ≤ l.foldl (fun m b => max m (f b)) m := by
  induction l generalizing m with
  | nil => simp
  | cons b l ih =>
    obtain ⟨h1, h2⟩ := ih (max m (f b))
    simp only [List.foldl_cons, List.mem_cons, forall_eq_or_imp]
    exact ⟨(le_max_left ..).trans h1, (le_max_right ..).trans h1, h2⟩

theorem foldl_max_le {α : Type} (f : α → Int) (l : List α) (m k : Int) (h : m ≤ k) (hb : ∀ b ∈ l, f b ≤ k) :
    l.foldl (fun m b => max m (f b)) m ≤ k := by
  induction l generalizing m with
  | nil => simpa
  | cons b l ih =>
    exact ih _ (max_le h (hb b (List.mem_cons_self ..))) fun b' hb' => hb b' (List.mem_cons_of_mem _ hb')

theorem findWorld_error {boxes : List Box} {e : Err} : findWorld boxes = .error e ↔ boxes = [] ∧ e = .ub := by
  cases boxes with
  | nil => simp [findWorld, eq_comm]
  | cons b l => simp [findWorld]

theorem findWorld_encloses {boxes : List Box} {w : Box} (h : findWorld boxes = .ok w) :
    ∀ b ∈ boxes, ∀ d, w.low.get d ≤ b.low.get d ∧ b.high.get d ≤ w.high.get d := by
  cases boxes with
  | nil => simp [findWorld] at h
  | cons b0 l =>
    simp only [findWorld, Except.ok.injEq] at h
    subst h
    intro b hb d
    simp only [foldl_min_get, foldl_max_get]
    exact ⟨(foldl_min_le (fun b : Box => b.low.get d) _ _).2 b hb,
      (le_foldl_max (fun b : Box => b.high.get d) _ _).2 b hb⟩

theorem findWorld_tightest {boxes : List Box} {w v : Box} (h : findWorld boxes = .ok w)
    (hv : ∀ b ∈ boxes, ∀ d, v.low.get d ≤ b.low.get d ∧ b.high.get d ≤ v.high.get d) :
    ∀ d, v.low.get d ≤ w.low.get d ∧ w.high.get d ≤ v.high.get d := by
  cases boxes with
  | nil => simp [findWorld] at h
  | cons b0 l =>
    simp only [findWorld, Except.ok.injEq] at h
    subst h
    intro d
    simp only [foldl_min_get, foldl_max_get]
    have h0 := hv b0 (List.mem_cons_self ..) d
    exact ⟨le_foldl_min (fun b : Box => b.low.get d) _ _ _ h0.1 fun b hb => (hv b hb d).1,
      foldl_max_le (fun b : Box => b.high.get d) _ _ _ h0.2 fun b hb => (hv b hb d).2⟩

theorem findWorld_order {boxes : List Box} {w : Box} (h : findWorld boxes = .ok w) :
    w.order = defaultOrder := by
  cases boxes with
  | nil => simp [findWorld] at h
  | cons b0 l => simp only [findWorld, Except.ok.injEq] at h; subst h; rfl

theorem someOverlap_false {l : List Box} : someOverlap l = false ↔
    ∀ i j, (hi : i < l.length) → (hj : j < l.length) → i ≠ j → (l[i].collide l[j]).empty = true := by
  simp only [someOverlap, List.any_eq_false, Bool.not_eq_true, List.any_eq_false, Bool.and_eq_true,
    bne_iff_ne, Bool.not_eq_true', not_and, Bool.not_eq_false]
  constructor
  · intro h i j hi hj hij
    exact h (l[i], i) (by simp [List.mem_zipIdx_iff_getElem?]) (l[j], j)
      (by simp [List.mem_zipIdx_iff_getElem?]) hij
  · rintro h ⟨b, i⟩ hb ⟨c, j⟩ hc hij
    simp only [List.mem_zipIdx_iff_getElem?, List.getElem?_eq_some_iff] at hb hc
    obtain ⟨hi, rfl⟩ := hb
    obtain ⟨hj, rfl⟩ := hc
    exact h i j hi hj hij

theorem worldComplete_cases (boxes : List Box) (w : Box) :
    worldComplete boxes w = .ok () ∨ worldComplete boxes w = .error .invalid := by
  unfold worldComplete
  dsimp only
  split_ifs <;> simp

theorem worldComplete_ok {boxes : List Box} {w : Box} : worldComplete boxes w = .ok () ↔
    w.count ≤ (boxes.map Box.count).sum ∧ (∀ d, w.low.get d = 0) ∧
      ∀ i j, (hi : i < boxes.length) → (hj : j < boxes.length) → i ≠ j →
        (boxes[i].collide boxes[j]).empty = true := by
  unfold worldComplete
  simp only [foldl_count_eq, zero_add]
  split_ifs with h1 h2 h3
  · simp; omega
  · simp only [List.any_eq_true, bne_iff_ne] at h2
    obtain ⟨d, -, hd⟩ := h2
    simp only [false_iff]
    rintro ⟨-, h, -⟩; exact hd (h d)
  · simp only [false_iff]
    rintro ⟨-, -, h⟩
    rw [someOverlap_false.2 h] at h3; cases h3
  · simp only [true_iff]
    refine ⟨by omega, fun d => ?_, someOverlap_false.1 (by simpa using h3)⟩
    by_contra hc
    exact h2 (List.any_eq_true.2 ⟨d, mem_dims d, by simpa using hc⟩)

/-- Disjoint boxes inside of `w` with enough indexes tile `w`. -/
theorem tiles_of_count {boxes : List Box} {w : Box} (hsub : ∀ b ∈ boxes, ∀ p : A3 Int, p ∈ b → p ∈ w)
    (hcount : w.count ≤ (boxes.map Box.count).sum)
    (hdis : ∀ i j, (hi : i < boxes.length) → (hj : j < boxes.length) → i ≠ j →
        (boxes[i].collide boxes[j]).empty = true) : Tiles boxes w := by
  have hle : ∀ p, owners boxes p ≤ 1 := fun p => owners_le_one_of_disjoint fun i j hi hj hpi hpj => by
    by_contra hij
    exact Box.collide_empty_iff.1 (hdis i j hi hj hij) p hpi hpj
  have hsum := sum_owners boxes w.points fun b hb p hp => by
    rw [Box.mem_points] at hp ⊢; exact hsub b hb p hp
  have hall : ∀ p ∈ w.points, (owners boxes p : Int) = 1 := by
    apply (Finset.sum_eq_sum_iff_of_le (s := w.points) (f := fun p => (owners boxes p : Int)) (g := fun _ => 1)
      (fun p _ => by exact_mod_cast hle p)).1
    apply le_antisymm
    · exact Finset.sum_le_sum fun p _ => by exact_mod_cast hle p
    · rw [hsum]
      simpa [← Box.count_eq_card] using hcount
  intro p
  split
  · rename_i hp
    exact_mod_cast hall p (by simpa using hp)
  · rename_i hp
    by_contra hc
    obtain ⟨b, hb, hpb⟩ := owners_pos_iff.1 (Nat.pos_of_ne_zero hc)
    exact hp (hsub b hb p hpb)

theorem worldComplete_iff_tiles {boxes : List Box} {w : Box} (hw : findWorld boxes = .ok w) :
    worldComplete boxes w = .ok () ↔ (∀ d, w.low.get d = 0) ∧ Tiles boxes w := by
  have hsub : ∀ b ∈ boxes, ∀ p : A3 Int, p ∈ b → p ∈ w := fun b hb p hp d =>
    have h := findWorld_encloses hw b hb d
    ⟨h.1.trans (hp d).1, (hp d).2.trans h.2⟩
  rw [worldComplete_ok]
  constructor
  · rintro ⟨h1, h2, h3⟩
    exact ⟨h2, tiles_of_count hsub h1 h3⟩
  · rintro ⟨h2, ht⟩
    refine ⟨ht.sum_count.ge, h2, fun i j hi hj hij => ?_⟩
    rw [Box.collide_empty_iff]
    exact fun p hpi hpj => hij (ht.unique hi hj hpi hpj)

end Verif
