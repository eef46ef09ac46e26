import Verif.ShapeLemmas
import Verif.SpecPlan
import Mathlib.Data.Fintype.Option
import Mathlib.Tactic.FinCases

/-! # Lemmas about the planner -/

namespace Verif

theorem bind_ok {α β : Type} {x : Res α} {f : α → Res β} {y : β} :
    (x >>= f) = .ok y ↔ ∃ a, x = .ok a ∧ f a = .ok y := by
  cases x with
  | error e => simp [bind, Except.bind]
  | ok a => simp [bind, Except.bind]

theorem req_ok {d : Option (Fin 3)} {x : Fin 3} : req d = .ok x ↔ d = some x := by
  cases d <;> simp [req]

/-! ## Directions -/

theorem getAnyValid_spec : ∀ (a b c : Option (Fin 3)) (d : Fin 3), getAnyValid ⟨a, b, c⟩ = some d →
    a ≠ some d ∧ b ≠ some d ∧ c ≠ some d := by decide

theorem getAnyValid_exists : ∀ (a b c : Option (Fin 3)), a = none ∨ b = none ∨ c = none →
    ∃ d, getAnyValid ⟨a, b, c⟩ = some d := by decide

def ofBools (p0 p1 p2 : Bool) (i : Fin 3) : Bool :=
  match i with
  | 0 => p0
  | 1 => p1
  | 2 => p2

theorem ofBools_self (p : Fin 3 → Bool) : ofBools (p 0) (p 1) (p 2) = p := by
  funext i
  match i with
  | 0 => rfl
  | 1 => rfl
  | 2 => rfl

theorem step5_bools : ∀ (f0 f2 : Option (Fin 3)) (p0 p1 p2 : Bool), f0 ≠ none → f0 ≠ f2 →
    ∃ d, step5 f0 f2 (ofBools p0 p1 p2) dims none = some d ∧ f0 ≠ some d ∧ f2 ≠ some d := by
  intro f0 f2 p0 p1 p2
  cases p0 <;> cases p1 <;> cases p2 <;> revert f0 f2 <;> decide

theorem step5_spec (f0 f2 : Option (Fin 3)) (p : Fin 3 → Bool) (h0 : f0 ≠ none) (h2 : f0 ≠ f2) :
    ∃ d, step5 f0 f2 p dims none = some d ∧ f0 ≠ some d ∧ f2 ≠ some d := by
  rw [← ofBools_self p]
  exact step5_bools _ _ _ _ _ h0 h2

/-- Three different directions. -/
def AllDirs (d0 d1 d2 : Fin 3) : Prop := d0 ≠ d1 ∧ d0 ≠ d2 ∧ d1 ≠ d2

theorem find_dims {p : Fin 3 → Bool} {i : Fin 3} (h : dims.find? p = some i) : p i = true :=
  List.find?_some h

/-- The directions chosen by the pencil planner. -/
theorem pencil_dirs (wi wo : Box) (bin bout : List Box) (r2c : Option (Fin 3)) (pen : Option (Fin 3) → Fin 3 → Bool) :
    ∃ d0 d1 d2 : Fin 3, AllDirs d0 d1 d2 ∧ (∀ r, r2c = some r → d0 = r) ∧
      let f0 := pencilDir0 wi bin r2c
      let f1 := pencilDir1 wi wo bin f0
      let f2 := pencilDir2 wo bout f0 f1
      let f0' := if f0 = none then getAnyValid ⟨f0, f1, f2⟩ else f0
      let f1' := if f1 = none then step5 f0' f2 (pen f0') dims f1 else f1
      let f2' := if f2 = none then getAnyValid ⟨f0', f1', f2⟩ else f2
      f0' = some d0 ∧ f1' = some d1 ∧ f2' = some d2 := by
  have hr : ∀ r, r2c = some r → pencilDir0 wi bin r2c = some r := by rintro r rfl; rfl
  have h1 : ∀ i, pencilDir1 wi wo bin (pencilDir0 wi bin r2c) = some i → pencilDir0 wi bin r2c ≠ some i := by
    intro i hi hc
    rw [hc] at hi
    simp only [pencilDir1] at hi
    split at hi
    · have := find_dims hi; simp at this
    · cases hi
  have h1' : pencilDir0 wi bin r2c = none → pencilDir1 wi wo bin (pencilDir0 wi bin r2c) = none := by
    intro h; rw [h]; rfl
  have h2 : ∀ f0 f1 i, pencilDir2 wo bout f0 f1 = some i → f0 ≠ some i ∧ f1 ≠ some i := by
    intro f0 f1 i hi
    have := find_dims hi
    simp only [Bool.and_eq_true, decide_eq_true_eq] at this
    exact ⟨fun h => this.1.1 h.symm, fun h => this.1.2 h.symm⟩
  dsimp only
  generalize pencilDir0 wi bin r2c = f0 at hr h1 h1' ⊢
  generalize pencilDir1 wi wo bin f0 = f1 at h1 h1' ⊢
  have h2 := h2 f0 f1
  generalize pencilDir2 wo bout f0 f1 = f2 at h2 ⊢
  -- direction 0
  obtain ⟨d0, hd0, hd0r, hd01, hd02⟩ : ∃ d0, (if f0 = none then getAnyValid ⟨f0, f1, f2⟩ else f0) = some d0 ∧
      (∀ r, r2c = some r → d0 = r) ∧ f1 ≠ some d0 ∧ f2 ≠ some d0 := by
    cases f0 with
    | none =>
      rw [if_pos rfl]
      obtain ⟨d, hd⟩ := getAnyValid_exists none f1 f2 (.inl rfl)
      obtain ⟨-, a, b⟩ := getAnyValid_spec _ _ _ _ hd
      exact ⟨d, hd, fun r h => by simpa using hr r h, a, b⟩
    | some d =>
      rw [if_neg (by simp)]
      exact ⟨d, rfl, fun r h => Option.some.inj (hr r h), fun h => h1 d h rfl, fun h => (h2 d h).1 rfl⟩
  rw [hd0]
  -- direction 1
  obtain ⟨d1, hd1, hd10, hd12⟩ : ∃ d1, (if f1 = none then step5 (some d0) f2 (pen (some d0)) dims f1 else f1) = some d1 ∧
      d0 ≠ d1 ∧ f2 ≠ some d1 := by
    cases f1 with
    | none =>
      rw [if_pos rfl]
      obtain ⟨d, h, a, b⟩ := step5_spec (some d0) f2 (pen (some d0)) (by simp) (fun h => hd02 h.symm)
      exact ⟨d, h, fun h => a (h ▸ rfl), b⟩
    | some d =>
      rw [if_neg (by simp)]
      exact ⟨d, rfl, fun h => hd01 (h ▸ rfl), fun h => (h2 d h).2 rfl⟩
  rw [hd1]
  obtain ⟨d2, hd2, hd20, hd21⟩ : ∃ d2, (if f2 = none then getAnyValid ⟨some d0, some d1, f2⟩ else f2) = some d2 ∧
      d0 ≠ d2 ∧ d1 ≠ d2 := by
    cases f2 with
    | none =>
      rw [if_pos rfl]
      obtain ⟨d, hd⟩ := getAnyValid_exists (some d0) (some d1) none (.inr (.inr rfl))
      obtain ⟨a, b, -⟩ := getAnyValid_spec _ _ _ _ hd
      exact ⟨d, hd, fun h => a (h ▸ rfl), fun h => b (h ▸ rfl)⟩
    | some d =>
      rw [if_neg (by simp)]
      exact ⟨d, rfl, fun h => hd02 (h ▸ rfl), fun h => hd12 (h ▸ rfl)⟩
  exact ⟨d0, d1, d2, ⟨hd10, hd20, hd21⟩, hd0r, rfl, rfl, hd2⟩

theorem slabInput_spec {wi : Box} {bin : List Box} {r2c : Option (Fin 3)} {i j : Fin 3}
    (h : slabInput wi bin r2c = some (i, j)) :
    i ≠ j ∧ isSlab wi bin i j = true ∧ ∀ r, r2c = some r → i = r := by
  unfold slabInput at h
  split at h
  · obtain ⟨l1, a, l2, -, h1, -⟩ := List.findSome?_eq_some_iff.1 h
    simp only [Option.map_eq_some_iff, Prod.mk.injEq] at h1
    obtain ⟨j', h1, rfl, rfl⟩ := h1
    have := find_dims h1
    simp only [Bool.and_eq_true, decide_eq_true_eq] at this
    exact ⟨this.1, this.2, by simp⟩
  · simp only [Option.map_eq_some_iff, Prod.mk.injEq] at h
    obtain ⟨j', h1, rfl, rfl⟩ := h
    have := find_dims h1
    simp only [Bool.and_eq_true, decide_eq_true_eq] at this
    exact ⟨fun h => this.1 h.symm, this.2, fun r hr => by injection hr⟩

theorem slabInput_none {wi : Box} {bin : List Box} {r2c : Option (Fin 3)}
    (h : slabInput wi bin r2c = none) : ∃ i j, i ≠ j ∧ isSlab wi bin i j = false := by
  unfold slabInput at h
  split at h
  · rw [List.findSome?_eq_none_iff] at h
    have h0 := h 0 (mem_dims 0)
    simp only [Option.map_eq_none_iff, List.find?_eq_none] at h0
    have := h0 1 (mem_dims 1)
    exact ⟨0, 1, by decide, by simpa using this⟩
  · rename_i r
    simp only [Option.map_eq_none_iff, List.find?_eq_none] at h
    obtain ⟨j, hj⟩ : ∃ j : Fin 3, j ≠ r := by
      have : ∀ r : Fin 3, ∃ j : Fin 3, j ≠ r := by decide
      exact this r
    have := h j (mem_dims j)
    exact ⟨r, j, hj.symm, by simpa [hj] using this⟩

theorem slabOutput_spec {wo : Box} {bout : List Box} {r2c : Option (Fin 3)} {i j : Fin 3}
    (h : slabOutput wo bout r2c = some (i, j)) :
    i ≠ j ∧ isSlab wo bout i j = true ∧ r2c ≠ some i ∧ r2c ≠ some j := by
  unfold slabOutput at h
  have key : ∀ (l : List (Fin 3)) (acc : Option (Fin 3 × Fin 3)),
      (∀ i j, acc = some (i, j) → i ≠ j ∧ isSlab wo bout i j = true ∧ r2c ≠ some i ∧ r2c ≠ some j) →
      ∀ i j, l.foldl (fun acc i =>
        match dims.find? fun j => decide (i ≠ j) && decide (some i ≠ r2c) && decide (some j ≠ r2c) &&
            isSlab wo bout i j with
        | some j => some (i, j)
        | none => acc) acc = some (i, j) → i ≠ j ∧ isSlab wo bout i j = true ∧ r2c ≠ some i ∧ r2c ≠ some j := by
    intro l
    induction l with
    | nil => intro acc hacc i j h; exact hacc i j h
    | cons a l ih =>
      intro acc hacc
      rw [List.foldl_cons]
      apply ih
      intro i j hij
      split at hij
      · rename_i j' hj'
        injection hij with hij
        simp only [Prod.mk.injEq] at hij
        obtain ⟨rfl, rfl⟩ := hij
        have := find_dims hj'
        simp only [Bool.and_eq_true, decide_eq_true_eq] at this
        exact ⟨this.1.1.1, this.2, fun h => this.1.1.2 h.symm, fun h => this.1.2 h.symm⟩
      · exact hacc i j hij
  exact key dims none (by simp) i j h

theorem slabPencilInput_spec {wi : Box} {bin : List Box} {r2c : Option (Fin 3)} {i : Fin 3}
    (h : slabPencilInput wi bin r2c = some i) : isPencils wi bin i = true ∧ ∀ r, r2c = some r → i = r := by
  unfold slabPencilInput at h
  split at h
  · exact ⟨find_dims h, by simp⟩
  · split at h
    · rename_i r hr
      injection h with h
      subst h
      exact ⟨hr, fun r' h => by injection h⟩
    · cases h

theorem slabGeneralDirs_spec (wo : Box) (bout : List Box) (r2c : Option (Fin 3)) :
    ∃ d0 d1 d2, slabGeneralDirs wo bout r2c = ⟨some d0, some d1, some d2⟩ ∧ AllDirs d0 d1 d2 ∧
      ∀ r, r2c = some r → d0 = r := by
  unfold slabGeneralDirs
  split
  · rename_i i hi
    have := find_dims hi
    simp only [Bool.and_eq_true, decide_eq_true_eq] at this
    have hi := this.1
    have key : ∀ (r2c : Option (Fin 3)) (i : Fin 3), some i ≠ r2c → ∃ d0 d1 d2,
        (let f0 := if r2c = none then getAnyValid ⟨none, none, some i⟩ else r2c
        (⟨f0, getAnyValid ⟨f0, none, some i⟩, some i⟩ : Dirs)) = ⟨some d0, some d1, some d2⟩ ∧
        (d0 ≠ d1 ∧ d0 ≠ d2 ∧ d1 ≠ d2) ∧ ∀ r, r2c = some r → d0 = r := by decide +kernel
    exact key r2c i hi
  · have key : ∀ (r2c : Option (Fin 3)), ∃ d0 d1 d2,
        (let f0 := if r2c ≠ none then r2c else some 0
        let f1 := getAnyValid ⟨f0, none, none⟩
        (⟨f0, f1, getAnyValid ⟨f0, f1, none⟩⟩ : Dirs)) = ⟨some d0, some d1, some d2⟩ ∧
        (d0 ≠ d1 ∧ d0 ≠ d2 ∧ d1 ≠ d2) ∧ ∀ r, r2c = some r → d0 = r := by decide +kernel
    exact key r2c

/-! ## Orders -/

theorem newOrder_isOrder : ∀ (x y z d : Fin 3), IsOrder ⟨x, y, z⟩ →
    IsOrder (newOrder ⟨x, y, z⟩ d) ∧ (newOrder ⟨x, y, z⟩ d).x = d := by decide

theorem newOrder_spec {o : A3 (Fin 3)} (d : Fin 3) (h : IsOrder o) : IsOrder (newOrder o d) ∧ (newOrder o d).x = d :=
  newOrder_isOrder o.x o.y o.z d h


theorem UsesOrder.withOrder {strict : Bool} (l : List Box) {o : A3 (Fin 3)} (ho : IsOrder o) :
    UsesOrder strict (l.map (Box.withOrder o)) o := by
  have h : ∀ b ∈ l.map (Box.withOrder o), b.order = o := by
    intro b hb
    rw [List.mem_map] at hb
    obtain ⟨c, -, rfl⟩ := hb; rfl
  exact ⟨ho, fun b hb _ => h b hb, fun b hb => h b (List.mem_of_mem_head? hb), fun b hb => h b hb ▸ ho⟩

theorem UsesOrder.of_all {strict : Bool} {l : List Box} {o : A3 (Fin 3)} (ho : IsOrder o)
    (h : ∀ b ∈ l, b.order = o) : UsesOrder strict l o :=
  ⟨ho, fun b hb _ => h b hb, fun b hb => h b (List.mem_of_mem_head? hb), fun b hb => h b hb ▸ ho⟩

theorem SameBounds.refl (l : List Box) : SameBounds l l := rfl

theorem SameBounds.withOrder (l : List Box) (o : A3 (Fin 3)) : SameBounds (l.map (Box.withOrder o)) l := by
  simp only [SameBounds, List.map_map]
  rfl

theorem SameBounds.trans {l m n : List Box} (h : SameBounds l m) (h' : SameBounds m n) : SameBounds l n :=
  Eq.trans h h'

theorem SameBounds.symm {l m : List Box} (h : SameBounds l m) : SameBounds m l := Eq.symm h

theorem SameBounds.tiles {l m : List Box} {w : Box} (h : SameBounds l m) (ht : Tiles m w) : Tiles l w := by
  intro p
  rw [← ht p]
  have : ∀ l : List Box, owners l p =
      (l.map (fun b => (b.low, b.high))).countP fun c => decide (∀ d, c.1.get d ≤ p.get d ∧ p.get d ≤ c.2.get d) := by
    intro l
    rw [List.countP_map]
    unfold owners
    congr 1
    funext b
    exact decide_eq_decide.2 Iff.rfl
  rw [this, this, h]

theorem SameBounds.length {l m : List Box} (h : SameBounds l m) : l.length = m.length := by
  have := congrArg List.length h
  simpa using this

theorem SameBounds.mem {l m : List Box} (h : SameBounds l m) {b : Box} (hb : b ∈ l) :
    ∃ c ∈ m, b.low = c.low ∧ b.high = c.high := by
  have : (b.low, b.high) ∈ m.map (fun b => (b.low, b.high)) := by
    rw [← h]; exact List.mem_map_of_mem hb
  rw [List.mem_map] at this
  obtain ⟨c, hc, he⟩ := this
  simp only [Prod.mk.injEq] at he
  exact ⟨c, hc, he.1.symm, he.2.symm⟩

/-- What the planner maintains for a distribution ahead of a transform in direction `d`. -/
structure StageOK (l : List Box) (w : Box) (ranks : Nat) (d : Fin 3) : Prop where
  length : l.length = ranks
  tiles : Tiles l w
  spans : ∀ b ∈ l, b.empty = false → Spans b w d

theorem SameBounds.stage {l m : List Box} {w : Box} {ranks : Nat} {d : Fin 3} (h : SameBounds l m)
    (hm : StageOK m w ranks d) : StageOK l w ranks d := by
  refine ⟨h.length.trans hm.length, h.tiles hm.tiles, ?_⟩
  intro b hb he
  obtain ⟨c, hc, h1, h2⟩ := h.mem hb
  have hec : c.empty = false := by
    rw [Box.empty_false_iff] at he ⊢
    intro d; rw [← h1, ← h2]; exact he d
  obtain ⟨s1, s2⟩ := hm.spans c hc hec
  constructor
  · rw [h1]; exact s1
  · rw [h2]; exact s2

theorem stage_of_pencils {l : List Box} {w : Box} {ranks : Nat} {d : Fin 3} (hl : l.length = ranks)
    (ht : Tiles l w) (h : isPencils w l d = true) : StageOK l w ranks d :=
  ⟨hl, ht, fun b hb he => spans_of_size ht hb he (isPencils_iff.1 h b hb)⟩

theorem isPencilsAll_iff {w : Box} {l : List Box} {test : List (Fin 3)} :
    isPencilsAll w l test = true ↔ ∀ d ∈ test, isPencils w l d = true := by
  simp [isPencilsAll]

/-! ## Slabs -/

theorem reorderSlabs_spec {l res : List Box} {d : Fin 3} {ur : Bool} (h : reorderSlabs l d ur = .ok res) :
    SameBounds res l ∧ ∀ strict o, UsesOrder strict l o → ∃ o', UsesOrder strict res o' ∧
      (ur = true → o'.x = d) := by
  unfold reorderSlabs at h
  split at h
  · rename_i hu
    injection h with h; subst h
    exact ⟨rfl, fun strict o ho => ⟨o, ho, fun h => by simp [h] at hu⟩⟩
  · split at h
    · cases h
    · rename_i s hs
      split at h
      · rename_i hd
        injection h with h; subst h
        refine ⟨rfl, fun strict o ho => ⟨o, ho, fun _ => ?_⟩⟩
        rw [← ho.2.2.1 s hs]; exact hd
      · injection h with h; subst h
        rw [reorder_eq]
        refine ⟨SameBounds.withOrder _ _, fun strict o ho => ?_⟩
        rw [ho.2.2.1 s hs]
        exact ⟨_, UsesOrder.withOrder _ (newOrder_spec d ho.1).1, fun _ => (newOrder_spec d ho.1).2⟩

theorem reorderSlabs_ok {l : List Box} (hl : l ≠ []) (d : Fin 3) (ur : Bool) : ∃ res, reorderSlabs l d ur = .ok res := by
  unfold reorderSlabs
  split
  · exact ⟨_, rfl⟩
  · cases l with
    | nil => exact absurd rfl hl
    | cons a l =>
      simp only [List.head?_cons]
      split <;> exact ⟨_, rfl⟩

/-! ## Pencils -/

theorem nextPencilsShape_spec {w wo : Box} {grid : Nat × Nat} {d : Fin 3} {source bout res : List Box} {ur : Bool}
    {test : List (Fin 3)} {r : Remap} {ranks : Nat}
    (hsrc : Tiles source w) (hlen : source.length = ranks) (h1 : 0 < grid.1) (h2 : 0 < grid.2)
    (hr : r.Good ranks (grid.1 * grid.2))
    (hout : isPencilsAll wo bout test = true → StageOK bout w ranks d)
    (h : nextPencilsShape w grid d source ur wo test bout r = .ok res) :
    StageOK res w ranks d ∧
      (OutsideEmpty r res ∨ SameBounds res source ∨ isPencilsAll wo bout test = true ∧ SameBounds res bout) ∧
      ∀ strict os oo, UsesOrder strict source os → UsesOrder strict bout oo → IsOrder w.order →
        ∃ o, UsesOrder strict res o ∧ (ur = true → o.x = d) := by
  have key : ∀ order, makePencils w grid d source order r = .ok res → StageOK res w ranks d ∧
      (OutsideEmpty r res ∨ SameBounds res source ∨ isPencilsAll wo bout test = true ∧ SameBounds res bout) ∧
      ∀ b ∈ res, b.order = order := by
    intro order h
    obtain ⟨⟨a1, a2, a3⟩, b, c⟩ := makePencils_spec hsrc hlen h1 h2 hr h
    refine ⟨⟨a1, a2, b⟩, ?_, a3⟩
    rcases c with c | ⟨-, rfl⟩
    · exact .inl c
    · exact .inr (.inl (SameBounds.withOrder _ _))
  unfold nextPencilsShape at h
  split at h
  · split at h
    · rename_i ht
      split at h
      · cases h
      · rename_i b hb
        split at h
        · rename_i hbd
          injection h with h; subst h
          exact ⟨hout ht, .inr (.inr ⟨ht, rfl⟩), fun strict os oo _ ho _ => ⟨oo, ho, fun _ => by
            rw [← ho.2.2.1 b hb]; exact hbd⟩⟩
        · injection h with h; subst h
          rw [reorder_eq]
          have hs := SameBounds.withOrder bout (newOrder b.order d)
          refine ⟨hs.stage (hout ht), .inr (.inr ⟨ht, hs⟩), fun strict os oo _ ho _ => ?_⟩
          rw [ho.2.2.1 b hb]
          exact ⟨_, UsesOrder.withOrder _ (newOrder_spec d ho.1).1, fun _ => (newOrder_spec d ho.1).2⟩
    · split at h
      · cases h
      · rename_i s hs
        obtain ⟨a, b, c⟩ := key _ h
        refine ⟨a, b, fun strict os oo ho _ _ => ?_⟩
        rw [ho.2.2.1 s hs] at c
        exact ⟨_, UsesOrder.of_all (newOrder_spec d ho.1).1 c, fun _ => (newOrder_spec d ho.1).2⟩
  · rename_i hu
    split at h
    · rename_i ht
      injection h with h; subst h
      exact ⟨hout ht, .inr (.inr ⟨ht, rfl⟩), fun strict os oo _ ho _ => ⟨oo, ho, fun h => absurd h hu⟩⟩
    · obtain ⟨a, b, c⟩ := key _ h
      exact ⟨a, b, fun strict os oo ho _ hw => ⟨_, UsesOrder.of_all hw c, fun h => absurd h hu⟩⟩

/-- The error of `next_pencils_shape` is an exception, never undefined behaviour. -/
theorem nextPencilsShape_ok {w wo : Box} {grid : Nat × Nat} {d : Fin 3} {source bout : List Box} {ur : Bool}
    {test : List (Fin 3)} {r : Remap} (hs : source ≠ []) (hb : bout ≠ [])
    (hok : isPencilsAll wo bout test = false → ∀ order, ∃ res, makePencils w grid d source order r = .ok res) :
    ∃ res, nextPencilsShape w grid d source ur wo test bout r = .ok res := by
  unfold nextPencilsShape
  split
  · split
    · cases bout with
      | nil => exact absurd rfl hb
      | cons a l =>
        simp only [List.head?_cons]
        split <;> exact ⟨_, rfl⟩
    · rename_i hf
      cases source with
      | nil => exact absurd rfl hs
      | cons a l =>
        simp only [List.head?_cons]
        exact hok (by simpa using hf) _
  · split
    · exact ⟨_, rfl⟩
    · rename_i hf
      exact hok (by simpa using hf) _

/-! ## A distribution of whole worlds has one rank -/

theorem single_of_all {l : List Box} {w : Box} (ht : Tiles l w) (hne : ∃ p : A3 Int, p ∈ w)
    (h : isPencilsAll w l [0, 1, 2] = true) : ∃ b, l = [b] ∧ ∀ d, Spans b w d := by
  obtain ⟨q, hq⟩ := hne
  have hwe : w.empty = false := Box.empty_false_of_mem hq
  have hsz : ∀ b ∈ l, ∀ d, b.size.get d = w.size.get d := by
    intro b hb
    rw [isPencilsAll_iff] at h
    rw [forall_fin3]
    exact ⟨isPencils_iff.1 (h 0 (by simp)) b hb, isPencils_iff.1 (h 1 (by simp)) b hb,
      isPencils_iff.1 (h 2 (by simp)) b hb⟩
  have hspan : ∀ b ∈ l, ∀ d, Spans b w d := by
    intro b hb d
    have hbe : b.empty = false := by
      rw [Box.empty_false_iff] at hwe ⊢
      intro e
      have h1 := hsz b hb e
      have h2 := hwe e
      simp only [Box.size, A3.get_of] at h1
      omega
    exact spans_of_size ht hb hbe (hsz b hb d)
  have hall : owners l q = l.length := by
    unfold owners
    rw [List.countP_eq_length]
    intro b hb
    simp only [decide_eq_true_eq]
    intro d
    obtain ⟨s1, s2⟩ := hspan b hb d
    rw [s1, s2]; exact hq d
  have hone : l.length = 1 := by
    rw [← hall, ht q, if_pos hq]
  obtain ⟨b, rfl⟩ := List.length_eq_one_iff.1 hone
  exact ⟨b, rfl, hspan b (by simp)⟩

theorem tiles_single {b w : Box} (h : ∀ d, Spans b w d) : Tiles [b] w := by
  intro p
  unfold owners
  have : p ∈ b ↔ p ∈ w := by
    simp only [Box.mem_def]
    constructor
    · intro hp d; obtain ⟨s1, s2⟩ := h d; rw [← s1, ← s2]; exact hp d
    · intro hp d; obtain ⟨s1, s2⟩ := h d; rw [s1, s2]; exact hp d
  by_cases hp : p ∈ w
  · simp [hp, this]
  · simp [hp, this]

/-! ## Real-to-complex -/

theorem r2c_bounds {b : Box} (h : b.empty = false) (d e : Fin 3) :
    (b.r2c d).low.get e = b.low.get e ∧
    (b.r2c d).high.get e = if d = e then b.low.get e + (b.high.get e - b.low.get e + 1) / 2 else b.high.get e := by
  unfold Box.r2c
  rw [if_neg (by simp [h])]
  refine ⟨rfl, ?_⟩
  by_cases hde : d = e
  · subst hde
    simp [Box.size]
  · simp [hde, A3.get_set_ne _ _ (fun h => hde h.symm)]

theorem r2c_empty {b : Box} (d : Fin 3) : (b.r2c d).empty = b.empty := by
  by_cases h : b.empty = true
  · rw [h]
    unfold Box.r2c
    rw [if_pos h]; rfl
  · have h : b.empty = false := by simpa using h
    rw [h, Box.empty_false_iff]
    rw [Box.empty_false_iff] at h
    intro e
    obtain ⟨h1, h2⟩ := r2c_bounds (Box.empty_false_iff.2 h) d e
    have := h e
    rw [h1, h2]
    split <;> omega

theorem r2c_order {b : Box} (d : Fin 3) (h : b.empty = false) : (b.r2c d).order = b.order := by
  unfold Box.r2c
  rw [if_neg (by simp [h])]

theorem ComplexWorld.congr {wi wo : Box} (h : ComplexWorld wi wo none) (d : Fin 3) :
    wo.low.get d = wi.low.get d ∧ wo.high.get d = wi.high.get d := by
  have := h d
  simpa using this

theorem ComplexWorld.mem_none {wi wo : Box} (h : ComplexWorld wi wo none) (p : A3 Int) : p ∈ wo ↔ p ∈ wi := by
  simp only [Box.mem_def]
  constructor
  · intro hp d; obtain ⟨s1, s2⟩ := h.congr d; rw [← s1, ← s2]; exact hp d
  · intro hp d; obtain ⟨s1, s2⟩ := h.congr d; rw [s1, s2]; exact hp d

theorem applyR2c_length (l : List Box) (r2c : Option (Fin 3)) : (applyR2c l r2c).length = l.length := by
  cases r2c <;> simp [applyR2c]

theorem applyR2c_sameBounds {l m : List Box} (h : SameBounds l m) (r2c : Option (Fin 3)) :
    SameBounds (applyR2c l r2c) (applyR2c m r2c) := by
  cases r2c with
  | none => exact h
  | some d =>
    have key : ∀ l : List Box, (applyR2c l (some d)).map (fun b => (b.low, b.high)) =
        (l.map (fun b => (b.low, b.high))).map
          (fun c => ((Box.r2c ⟨c.1, c.2, defaultOrder⟩ d).low, (Box.r2c ⟨c.1, c.2, defaultOrder⟩ d).high)) := by
      intro l
      simp only [applyR2c, List.map_map]
      apply List.map_congr_left
      intro b _
      have he : (Box.mk b.low b.high defaultOrder).empty = b.empty := rfl
      simp only [Function.comp, Box.r2c, he]
      split <;> rfl
    unfold SameBounds
    rw [key, key, h]

theorem applyR2c_outside {r : Remap} {l : List Box} (h : OutsideEmpty r l) (r2c : Option (Fin 3)) :
    OutsideEmpty r (applyR2c l r2c) := by
  cases r2c with
  | none => exact h
  | some d =>
    intro i b hi hb
    simp only [applyR2c, List.getElem?_map, Option.map_eq_some_iff] at hb
    obtain ⟨c, hc, rfl⟩ := hb
    rw [r2c_empty]
    exact h i c hi hc

theorem SameBounds.outside {r : Remap} {l m : List Box} (h : SameBounds l m) (hm : OutsideEmpty r m) :
    OutsideEmpty r l := by
  intro i b hi hb
  have h1 := congrArg (fun l => l[i]?) h
  simp only [List.getElem?_map, hb, Option.map_some] at h1
  cases hc : m[i]? with
  | none => rw [hc] at h1; cases h1
  | some c =>
    rw [hc] at h1
    simp only [Option.map_some, Option.some.injEq, Prod.mk.injEq] at h1
    have := hm i c hi hc
    rw [← this]
    unfold Box.empty Box.size
    rw [h1.1, h1.2]

theorem mem_applyR2c {l : List Box} {d : Fin 3} {b : Box} :
    b ∈ applyR2c l (some d) ↔ ∃ c ∈ l, c.r2c d = b := by
  simp [applyR2c]

theorem applyR2c_spans {l : List Box} {wi wo : Box} {r2c : Option (Fin 3)} {e : Fin 3}
    (hw : ComplexWorld wi wo r2c) (h : ∀ b ∈ l, b.empty = false → Spans b wi e) :
    ∀ b ∈ applyR2c l r2c, b.empty = false → Spans b wo e := by
  cases r2c with
  | none =>
    intro b hb he
    obtain ⟨s1, s2⟩ := h b hb he
    obtain ⟨w1, w2⟩ := hw.congr e
    exact ⟨s1.trans w1.symm, s2.trans w2.symm⟩
  | some d =>
    intro b hb he
    obtain ⟨c, hc, rfl⟩ := mem_applyR2c.1 hb
    rw [r2c_empty] at he
    obtain ⟨s1, s2⟩ := h c hc he
    obtain ⟨w1, w2⟩ := hw e
    obtain ⟨b1, b2⟩ := r2c_bounds he d e
    refine ⟨b1.trans (s1.trans w1.symm), ?_⟩
    rw [b2, w2]
    by_cases hde : d = e
    · rw [if_pos hde, if_pos (by rw [hde]), s1, s2]
    · rw [if_neg hde, if_neg (by simpa using hde), s2]

/-- The shrunk boxes tile the complex world because they span the shrunk direction. -/
theorem applyR2c_tiles {l : List Box} {wi wo : Box} {r2c : Option (Fin 3)}
    (hw : ComplexWorld wi wo r2c) (hne : ∃ p : A3 Int, p ∈ wi) (ht : Tiles l wi)
    (h : ∀ r, r2c = some r → ∀ b ∈ l, b.empty = false → Spans b wi r) : Tiles (applyR2c l r2c) wo := by
  cases r2c with
  | none =>
    intro p
    rw [show applyR2c l none = l from rfl, ht p]
    by_cases hp : p ∈ wi
    · rw [if_pos hp, if_pos ((hw.mem_none p).2 hp)]
    · rw [if_neg hp, if_neg (fun h => hp ((hw.mem_none p).1 h))]
  | some d =>
    have h := h d rfl
    have hwe : ∀ e, wi.low.get e ≤ wi.high.get e := by
      obtain ⟨q, hq⟩ := hne
      exact Box.empty_false_iff.1 (Box.empty_false_of_mem hq)
    intro p
    have key : ∀ b ∈ l, p ∈ b.r2c d ↔ p ∈ b ∧ p ∈ wo := by
      intro b hb
      by_cases he : b.empty = true
      · have hn := Box.not_mem_of_empty he
        have hn2 := Box.not_mem_of_empty ((r2c_empty d).trans he)
        constructor
        · intro hp; exact absurd hp (hn2 p)
        · rintro ⟨h1, -⟩
          exact absurd h1 (hn p)
      · have he : b.empty = false := by simpa using he
        obtain ⟨s1, s2⟩ := h b hb he
        have hbw : ∀ e, wi.low.get e ≤ b.low.get e ∧ b.high.get e ≤ wi.high.get e := by
          intro e
          have h1 := ht.mem_world hb (Box.low_mem he)
          have hh : b.high ∈ b := by
            rw [Box.empty_false_iff] at he
            exact fun d => ⟨he d, le_refl _⟩
          have h2 := ht.mem_world hb hh
          exact ⟨(h1 e).1, (h2 e).2⟩
        simp only [Box.mem_def]
        rw [← forall_and]
        apply forall_congr'
        intro e
        obtain ⟨b1, b2⟩ := r2c_bounds he d e
        obtain ⟨w1, w2⟩ := hw e
        have := hbw e
        have := hwe e
        rw [b1, b2, w1, w2]
        by_cases hde : d = e
        · subst hde
          rw [if_pos rfl, if_pos rfl]
          omega
        · rw [if_neg hde, if_neg (by simpa using hde)]
          omega
    have hcount : owners (applyR2c l (some d)) p = l.countP fun b => decide (p ∈ b.r2c d) := by
      unfold owners applyR2c
      rw [List.countP_map]; rfl
    rw [hcount]
    by_cases hpo : p ∈ wo
    · rw [if_pos hpo]
      have e1 : (l.countP fun b => decide (p ∈ b.r2c d)) = owners l p := by
        unfold owners
        apply List.countP_congr
        intro b hb
        simp only [decide_eq_true_eq]
        rw [key b hb]
        exact ⟨fun h => h.1, fun h => ⟨h, hpo⟩⟩
      rw [e1, ht, if_pos]
      intro e
      have h2 := hpo e
      have := hwe e
      rw [(hw e).1, (hw e).2] at h2
      split at h2 <;> omega
    · rw [if_neg hpo, List.countP_eq_zero]
      intro b hb
      simp only [decide_eq_true_eq]
      rw [key b hb]
      rintro ⟨-, h1⟩
      exact hpo h1

/-- Rank 0 holds an index. -/
def HeadHolds (l : List Box) : Prop := ∀ b, l.head? = some b → b.empty = false

theorem applyR2c_order {strict : Bool} {l : List Box} {r2c : Option (Fin 3)} {o : A3 (Fin 3)}
    (h : UsesOrder strict l o) (hr : r2c ≠ none → strict = false ∧ HeadHolds l) :
    UsesOrder strict (applyR2c l r2c) o := by
  cases r2c with
  | none => exact h
  | some d =>
    obtain ⟨rfl, hh⟩ := hr (by simp)
    refine ⟨h.1, ?_, ?_, ?_⟩
    · intro b hb hne
      obtain ⟨c, hc, rfl⟩ := mem_applyR2c.1 hb
      have he : (c.r2c d).empty = false := by
        rcases hne with hne | ⟨p, hp⟩
        · cases hne
        · exact Box.empty_false_of_mem hp
      rw [r2c_empty] at he
      rw [r2c_order d he]
      exact h.2.1 c hc (.inr ⟨_, Box.low_mem he⟩)
    · intro b hb
      simp only [applyR2c, List.head?_map, Option.map_eq_some_iff] at hb
      obtain ⟨c, hc, rfl⟩ := hb
      rw [r2c_order d (hh c hc)]
      exact h.2.2.1 c hc
    · intro b hb
      obtain ⟨c, hc, rfl⟩ := mem_applyR2c.1 hb
      by_cases he : c.empty = true
      · unfold Box.r2c; rw [if_pos he]; decide
      · rw [r2c_order d (by simpa using he)]
        exact h.2.2.2 c hc

theorem HeadHolds.same {l m : List Box} (h : HeadHolds m) (hs : SameBounds l m) : HeadHolds l := by
  intro b hb
  have h1 := congrArg List.head? hs
  simp only [List.head?_map, hb, Option.map_some] at h1
  cases hc : m.head? with
  | none => rw [hc] at h1; cases h1
  | some c =>
    rw [hc] at h1
    simp only [Option.map_some, Option.some.injEq, Prod.mk.injEq] at h1
    have := h c hc
    rw [← this]
    unfold Box.empty Box.size
    rw [h1.1, h1.2]

/-- Rank 0 is given a box with indexes when it had indexes before. -/
theorem maximizeOverlap_head {w : Box} {new old res : List Box} {order : A3 (Fin 3)} {r : Remap}
    (hm : r.isAll = true ∨ r.map.length = new.length)
    (h0 : r.map.head? ≠ some none)
    (hnew : Tiles new w) (hold : Tiles old w) (hh : HeadHolds old) (hsmall : ∀ b ∈ old, b.count < 2 ^ 31)
    (hout : ∀ (i : Nat) (b : Box), r.map[i]? = some none → new[i]? = some b → b.empty = true)
    (h : maximizeOverlap new old order r = .ok res) : HeadHolds res := by
  unfold maximizeOverlap at h
  cases ht : initTaken new r with
  | error e => rw [ht] at h; cases h
  | ok taken =>
    rw [ht] at h
    have h : overlapLoop new old order r new.length 0 taken = .ok res := h
    obtain rfl := freeBoxes_init ht hm
    have hfl := Remap.flags_length hm
    intro b hb
    cases hn : new.length with
    | zero => rw [hn] at h; simp only [overlapLoop, Except.ok.injEq] at h; subst h; cases hb
    | succ k =>
      have hk : 0 < new.length := by omega
      have h' := h
      rw [hn] at h'
      unfold overlapLoop at h'
      rw [← hn] at h'
      rw [Remap.unused_eq r new.length 0 hk, List.getElem?_eq_getElem hk] at h'
      have hf0 : (r.flags new.length)[0]? = some false := by
        unfold Remap.flags
        split
        · simp [hk]
        · rename_i ha
          rw [List.getElem?_map]
          have hl : r.map.length = new.length := by simpa [ha] using hm
          cases hmap : r.map with
          | nil => rw [hmap] at hl; simp at hl; omega
          | cons a t =>
            rw [hmap] at h0
            simp only [List.head?_cons] at h0
            cases a with
            | none => exact absurd rfl h0
            | some v => simp
      rw [hf0] at h'
      simp only at h'
      cases ho : old[0]? with
      | none => rw [ho] at h'; cases h'
      | some o =>
        rw [ho] at h'
        simp only at h'
        cases hbst : findBest o new (r.flags new.length) with
        | none => rw [hbst] at h'; cases h'
        | some m =>
          rw [hbst] at h'
          simp only at h'
          -- some box overlaps
          have hoe : o.empty = false := hh o (by rw [List.head?_eq_getElem?]; exact ho)
          have hoo : o ∈ old := List.mem_of_getElem? ho
          obtain ⟨c, hc, hpc⟩ := hnew.exists_box (hold.mem_world hoo (Box.low_mem hoe))
          obtain ⟨i, hi, hic⟩ := List.getElem_of_mem hc
          have hci : new[i]? = some c := by rw [List.getElem?_eq_getElem hi, hic]
          have hti : (r.flags new.length)[i]? = some false := by
            rw [List.getElem?_eq_getElem (by omega)]
            cases hfi : (r.flags new.length)[i]'(by omega) with
            | false => rfl
            | true =>
              exfalso
              have hx : (r.flags new.length)[i]? = some true := by
                rw [List.getElem?_eq_getElem (by omega), hfi]
              unfold Remap.flags at hx
              split at hx
              · simp [hi] at hx
              · rw [List.getElem?_map, Option.map_eq_some_iff] at hx
                obtain ⟨a, ha, hna⟩ := hx
                cases a with
                | some v => simp at hna
                | none =>
                  have := hout i c ha hci
                  rw [Box.empty_false_of_mem hpc] at this; cases this
          have hlt : ∀ b : Box, (o.collide b).count < 2 ^ 31 := fun b =>
            (Box.collide_count_le_left o b).trans_lt (hsmall o hoo)
          have hpos : 0 < (o.collide c).count := by
            rw [Box.count_pos_iff]
            exact Box.empty_false_of_mem (Box.mem_collide.2 ⟨Box.low_mem hoe, hpc⟩)
          unfold findBest at hbst
          rcases overlapFold_spec o (new.zip (r.flags new.length)).zipIdx (-1, none) with
            ⟨h1, -⟩ | ⟨⟨⟨b', t⟩, i'⟩, he, h1, h2, h3, h4⟩
          · rw [h1] at hbst; cases hbst
          · rw [h2] at hbst
            simp only [Option.some.injEq] at hbst h1
            subst hbst h1
            have h5 := h4 ((c, false), i) (mem_zip_zipIdx.2 ⟨hci, hti⟩) rfl
            simp only at h5
            rw [toInt32_of_lt (Box.count_nonneg _) (hlt c), toInt32_of_lt (Box.count_nonneg _) (hlt b')] at h5
            have hb'e : b'.empty = false := by
              rw [← Box.count_pos_iff]
              have := Box.collide_count_le_right o b'
              omega
            rw [(mem_zip_zipIdx.1 he).1] at h'
            simp only at h'
            rw [bind_ok] at h'
            obtain ⟨rest, -, h'⟩ := h'
            injection h' with h'
            subst h'
            simp only [List.head?_cons, Option.some.injEq] at hb
            subst hb
            exact hb'e

end Verif
