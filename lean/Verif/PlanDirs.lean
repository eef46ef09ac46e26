import Verif.PlanLemmas

/-!
# The directions of a plan do not depend on the reordering
-/

namespace Verif

theorem SameBounds.cons {a b : Box} {l m : List Box} (h1 : a.low = b.low) (h2 : a.high = b.high) (h : SameBounds l m) : SameBounds (a :: l) (b :: m) := by
  unfold SameBounds at *
  rw [List.map_cons, List.map_cons, h, h1, h2]

theorem SameBounds.all {l m : List Box} (h : SameBounds l m) (f : A3 Int → A3 Int → Bool) : (l.all fun b => f b.low b.high) = m.all fun b => f b.low b.high := by
  have e : ∀ l : List Box, (l.all fun b => f b.low b.high) = (l.map fun b => (b.low, b.high)).all fun c => f c.1 c.2 := by
    intro l
    rw [List.all_map]
    rfl
  rw [e, e, h]

theorem SameBounds.isPencils {l m : List Box} (h : SameBounds l m) (w : Box) (d : Fin 3) : isPencils w l d = Verif.isPencils w m d :=
  h.all fun lo hi => (Box.mk lo hi w.order).size d == w.size d

theorem SameBounds.foldl {γ : Type} {l m : List Box} (h : SameBounds l m) (f : γ → A3 Int → A3 Int → γ) (c : γ) :
    l.foldl (fun c b => f c b.low b.high) c = m.foldl (fun c b => f c b.low b.high) c := by
  have e : ∀ (l : List Box) (c : γ), l.foldl (fun c b => f c b.low b.high) c = (l.map fun b => (b.low, b.high)).foldl (fun c x => f c x.1 x.2) c := by
    intro l c
    rw [List.foldl_map]
  rw [e, e, h]

theorem SameBounds.connections {l m : List Box} (h : SameBounds l m) (src : List Box) : countConnections l src = countConnections m src := by
  have e : ∀ (n o : Box), (n.collide o).empty = ((Box.mk n.low n.high o.order).collide o).empty := by
    intro n o
    obtain ⟨lo, hi, q⟩ := n
    have e1 : (Box.mk lo hi q).empty = (Box.mk lo hi o.order).empty := rfl
    unfold Box.collide
    rw [e1]
    split <;> rfl
  unfold countConnections
  simp only [e]
  exact h.foldl (fun c lo hi => src.foldl (fun c o => if !((Box.mk lo hi o.order).collide o).empty then c + 1 else c) c) 0

theorem overlapLoop_bounds (new old : List Box) (o o' : A3 (Fin 3)) (remap : Remap) :
    ∀ (fuel i : Nat) (taken : List Bool) (r r' : List Box), overlapLoop new old o remap fuel i taken = .ok r →
      overlapLoop new old o' remap fuel i taken = .ok r' → SameBounds r r' := by
  intro fuel
  induction fuel with
  | zero =>
    intro i taken r r' h h'
    unfold overlapLoop at h h'
    injection h with h
    injection h' with h'
    subst h; subst h'
    rfl
  | succ fuel ih =>
    intro i taken r r' h h'
    unfold overlapLoop at h h'
    split at h
    · rename_i b h1 h2
      rw [h1, h2] at h'
      simp only [bind, Except.bind] at h h'
      split at h
      · cases h
      · rename_i x hx
        split at h'
        · cases h'
        · rename_i x' hx'
          injection h with h
          injection h' with h'
          subst h; subst h'
          exact (ih _ _ _ _ hx hx').cons rfl rfl
    · rename_i b h1 h2
      rw [h1, h2] at h'
      simp only at h h'
      split at h
      · cases h
      · rename_i q hq
        rw [hq] at h'
        simp only at h h'
        split at h
        · cases h
        · rename_i k hk
          rw [hk] at h'
          simp only at h h'
          split at h
          · cases h
          · rename_i c hc
            rw [hc] at h'
            simp only [bind, Except.bind] at h h'
            split at h
            · cases h
            · rename_i x hx
              split at h'
              · cases h'
              · rename_i x' hx'
                injection h with h
                injection h' with h'
                subst h; subst h'
                exact (ih _ _ _ _ hx hx').cons rfl rfl
    · cases h

theorem maximizeOverlap_bounds {new old : List Box} {o o' : A3 (Fin 3)} {remap : Remap} {r r' : List Box} (h : maximizeOverlap new old o remap = .ok r)
    (h' : maximizeOverlap new old o' remap = .ok r') : SameBounds r r' := by
  unfold maximizeOverlap at h h'
  simp only [bind, Except.bind] at h h'
  split at h
  · cases h
  · rename_i t ht
    rw [ht] at h'
    exact overlapLoop_bounds _ _ _ _ _ _ _ _ _ _ h h'

theorem makePencils_bounds {w : Box} {grid : Nat × Nat} {d : Fin 3} {src : List Box} {o o' : A3 (Fin 3)} {remap : Remap} {r r' : List Box}
    (h : makePencils w grid d src o remap = .ok r) (h' : makePencils w grid d src o' remap = .ok r') : SameBounds r r' := by
  unfold makePencils at h h'
  split at h
  · rename_i hp
    rw [if_pos hp] at h'
    injection h with h
    injection h' with h'
    subst h; subst h'
    rw [reorder_eq, reorder_eq]
    exact (SameBounds.withOrder _ _).trans (SameBounds.withOrder _ _).symm
  · rename_i hp
    rw [if_neg hp] at h'
    simp only [bind, Except.bind] at h h'
    cases h1 : makeProcgrid2d w d grid with
    | error e => rw [h1] at h; cases h
    | ok ga =>
    cases h2 : splitWorld w ga remap with
    | error e => rw [h1] at h; simp only [h2] at h; cases h
    | ok sa =>
    cases h3 : maximizeOverlap sa src o remap with
    | error e => rw [h1] at h; simp only [h2, h3] at h; cases h
    | ok pa =>
    cases h3' : maximizeOverlap sa src o' remap with
    | error e => rw [h1] at h'; simp only [h2, h3'] at h'; cases h'
    | ok pa' =>
    cases h4 : makeProcgrid2d w d (grid.2, grid.1) with
    | error e => rw [h1] at h; simp only [h2, h3, h4] at h; cases h
    | ok gb =>
    cases h5 : splitWorld w gb remap with
    | error e => rw [h1] at h; simp only [h2, h3, h4, h5] at h; cases h
    | ok sb =>
    cases h6 : maximizeOverlap sb src o remap with
    | error e => rw [h1] at h; simp only [h2, h3, h4, h5, h6] at h; cases h
    | ok pb =>
    cases h6' : maximizeOverlap sb src o' remap with
    | error e => rw [h1] at h'; simp only [h2, h3', h4, h5, h6'] at h'; cases h'
    | ok pb' =>
    rw [h1] at h h'
    simp only [h2, h3, h4, h5, h6, Except.ok.injEq] at h
    simp only [h2, h3', h4, h5, h6', Except.ok.injEq] at h'
    have ba := maximizeOverlap_bounds h3 h3'
    have bb := maximizeOverlap_bounds h6 h6'
    rw [ba.connections, bb.connections] at h
    subst h; subst h'
    split
    · exact bb
    · exact ba

theorem nextPencilsShape_bounds {w : Box} {grid : Nat × Nat} {d : Fin 3} {src : List Box} {ur ur' : Bool} {wo : Box} {test : List (Fin 3)}
    {bout : List Box} {remap : Remap} {r r' : List Box} (h : nextPencilsShape w grid d src ur wo test bout remap = .ok r)
    (h' : nextPencilsShape w grid d src ur' wo test bout remap = .ok r') : SameBounds r r' := by
  have key : ∀ {ur r}, nextPencilsShape w grid d src ur wo test bout remap = .ok r →
      (isPencilsAll wo bout test = true ∧ SameBounds r bout) ∨ (isPencilsAll wo bout test = false ∧ ∃ o, makePencils w grid d src o remap = .ok r) := by
    intro ur r h
    unfold nextPencilsShape at h
    split at h
    · split at h
      · rename_i hp
        refine .inl ⟨hp, ?_⟩
        split at h
        · cases h
        · split at h
          · injection h with h; subst h; rfl
          · injection h with h; subst h
            rw [reorder_eq]
            exact SameBounds.withOrder _ _
      · rename_i hp
        refine .inr ⟨by simpa using hp, ?_⟩
        split at h
        · cases h
        · exact ⟨_, h⟩
    · split at h
      · rename_i hp
        injection h with h; subst h
        exact .inl ⟨hp, rfl⟩
      · rename_i hp
        exact .inr ⟨by simpa using hp, _, h⟩
  rcases key h with ⟨h1, h2⟩ | ⟨h1, o, h2⟩ <;> rcases key h' with ⟨h3, h4⟩ | ⟨h3, o', h4⟩
  · exact h2.trans h4.symm
  · rw [h1] at h3; cases h3
  · rw [h1] at h3; cases h3
  · exact makePencils_bounds h2 h4

theorem nextPencilsShape0_bounds {w : Box} {grid : Nat × Nat} {d : Fin 3} {r2c : Option (Fin 3)} {src : List Box} {ur ur' : Bool} {wo : Box} {test : List (Fin 3)}
    {bout : List Box} {remap : Remap} {r r' : List Box} (h : nextPencilsShape0 w grid d r2c src ur wo test bout remap = .ok r)
    (h' : nextPencilsShape0 w grid d r2c src ur' wo test bout remap = .ok r') : SameBounds r r' := by
  unfold nextPencilsShape0 at h h'
  split at h
  · split at h
    · rename_i hp
      simp only [hp, if_true] at h'
      exact nextPencilsShape_bounds h h'
    · rename_i hp
      simp only [hp] at h'
      exact nextPencilsShape_bounds h h'
  · exact nextPencilsShape_bounds h h'

theorem SameBounds.applyR2c {l m : List Box} (h : SameBounds l m) (r2c : Option (Fin 3)) : SameBounds (applyR2c l r2c) (Verif.applyR2c m r2c) := by
  cases r2c with
  | none => exact h
  | some d =>
    have e : ∀ l : List Box, ((Verif.applyR2c l (some d)).map fun b => (b.low, b.high)) =
        (l.map fun b => (b.low, b.high)).map fun c => (((Box.mk c.1 c.2 ⟨0, 1, 2⟩).r2c d).low, ((Box.mk c.1 c.2 ⟨0, 1, 2⟩).r2c d).high) := by
      intro l
      unfold Verif.applyR2c
      rw [List.map_map, List.map_map]
      refine List.map_congr_left fun b _ => ?_
      obtain ⟨lo, hi, o⟩ := b
      simp only [Function.comp, Box.r2c]
      have e1 : (Box.mk lo hi o).empty = (Box.mk lo hi ⟨0, 1, 2⟩).empty := rfl
      have e2 : (Box.mk lo hi o).size = (Box.mk lo hi ⟨0, 1, 2⟩).size := rfl
      rw [e1, e2]
      split <;> rfl
    unfold SameBounds at *
    rw [e, e, h]

theorem planPencil_dirs {wi wo : Box} {bin bout : List Box} {r2c : Option (Fin 3)} {opts opts' : Opts} {remap : Remap} {p p' : Plan}
    (h : planPencil wi wo bin bout r2c opts remap = .ok p) (h' : planPencil wi wo bin bout r2c opts' remap = .ok p') : p.dirs = p'.dirs := by
  unfold planPencil at h h'
  simp only [bind, Except.bind] at h h'
  split at h
  · cases h
  rename_i grid hgrid
  rw [hgrid] at h'
  simp only at h h'
  split at h
  · cases h
  rename_i d0 hd0
  rw [hd0] at h'
  simp only at h h'
  split at h
  · cases h
  rename_i s0 hs0
  split at h'
  · cases h'
  rename_i s0' hs0'
  have hb := (nextPencilsShape0_bounds hs0 hs0').applyR2c r2c
  have hpen : isPencils wo (applyR2c s0 r2c) = isPencils wo (applyR2c s0' r2c) := funext fun d => hb.isPencils wo d
  rw [hpen] at h
  split at h
  · cases h
  rename_i d1 hd1
  rw [hd1] at h'
  simp only at h h'
  split at h
  · cases h
  rename_i d2 hd2
  rw [hd2] at h'
  simp only at h h'
  split at h
  · cases h
  split at h
  · cases h
  split at h'
  · cases h'
  split at h'
  · cases h'
  injection h with h
  injection h' with h'
  subst h; subst h'
  rfl

/-- The directions of a plan with slabs. -/
theorem planSlab_dirs {wi wo : Box} {bin bout : List Box} {r2c : Option (Fin 3)} {opts opts' : Opts} {remap remap' : Remap} {p p' : Plan} (h2 : wi.is2d = false)
    (h : planSlab wi wo bin bout r2c opts remap = .ok p) (h' : planSlab wi wo bin bout r2c opts' remap' = .ok p') : p.dirs = p'.dirs := by
  have key : ∀ {opts : Opts} {remap : Remap} {p : Plan}, planSlab wi wo bin bout r2c opts remap = .ok p →
      some p.dirs = match slabInput wi bin r2c with
        | some (d0, d1) => (getAnyValid ⟨some d0, some d1, none⟩).map fun d2 => (⟨d0, d1, d2⟩ : A3 (Fin 3))
        | none => match slabOutput wo bout r2c with
          | some (d1, d2) => (getAnyValid ⟨none, some d1, some d2⟩).map fun d0 => ⟨d0, d1, d2⟩
          | none => match slabPencilInput wi bin r2c with
            | some d0 => (getAnyValid ⟨some d0, none, none⟩).bind fun d1 => (getAnyValid ⟨some d0, some d1, none⟩).map fun d2 => ⟨d0, d1, d2⟩
            | none => (slabGeneralDirs wo bout r2c).x.bind fun d0 => (slabGeneralDirs wo bout r2c).y.bind fun d1 => (slabGeneralDirs wo bout r2c).z.map fun d2 => ⟨d0, d1, d2⟩ := by
    intro opts remap p h
    unfold planSlab at h
    rw [if_neg (by rw [h2]; simp)] at h
    simp only [bind, Except.bind] at h
    split at h
    · cases h
    split at h
    · rename_i d0 d1 e
      rw [e]
      simp only
      cases e2 : getAnyValid ⟨some d0, some d1, none⟩ with
      | none => rw [e2] at h; simp only [req] at h; cases h
      | some d2 =>
        rw [e2] at h
        simp only [req] at h
        split at h
        · cases h
        split at h
        · cases h
        split at h
        · cases h
        injection h with h
        subst h
        rfl
    rename_i e
    rw [e]
    simp only
    split at h
    · rename_i d1 d2 e
      rw [e]
      simp only
      cases e2 : getAnyValid ⟨none, some d1, some d2⟩ with
      | none => rw [e2] at h; simp only [req] at h; cases h
      | some d0 =>
        rw [e2] at h
        simp only [req] at h
        split at h
        · cases h
        split at h
        · cases h
        split at h
        · cases h
        injection h with h
        subst h
        rfl
    rename_i e
    rw [e]
    simp only
    split at h
    · rename_i d0 e
      rw [e]
      simp only
      cases e2 : getAnyValid ⟨some d0, none, none⟩ with
      | none => rw [e2] at h; simp only [req] at h; cases h
      | some d1 =>
        rw [e2] at h
        simp only [req] at h
        cases e3 : getAnyValid ⟨some d0, some d1, none⟩ with
        | none => rw [e3] at h; simp only at h; cases h
        | some d2 =>
          rw [e3] at h
          simp only at h
          split at h
          · cases h
          split at h
          · cases h
          split at h
          · cases h
          split at h
          · cases h
          injection h with h
          subst h
          simp only [Option.bind_some, e3, Option.map_some]
    rename_i e
    rw [e]
    simp only
    cases e0 : (slabGeneralDirs wo bout r2c).x with
    | none => rw [e0] at h; simp only [req] at h; cases h
    | some d0 =>
    cases e1 : (slabGeneralDirs wo bout r2c).y with
    | none => rw [e0, e1] at h; simp only [req] at h; cases h
    | some d1 =>
    cases e2 : (slabGeneralDirs wo bout r2c).z with
    | none => rw [e0, e1, e2] at h; simp only [req] at h; cases h
    | some d2 =>
      rw [e0, e1, e2] at h
      simp only [req] at h
      split at h
      · cases h
      split at h
      · cases h
      split at h
      · cases h
      split at h
      · cases h
      injection h with h
      subst h
      rfl
  exact Option.some.inj ((key h).trans (key h').symm)

/-- The order of the transforms is the same with and without reordering, for all algorithms. -/
theorem planOperations_dirs {bin bout : List Box} {r2c : Option (Fin 3)} {opts opts' : Opts} {p p' : Plan} (hu : opts.usePencils = opts'.usePencils)
    (hn : opts.numSub = opts'.numSub) (h : planOperations bin bout r2c opts = .ok p) (h' : planOperations bin bout r2c opts' = .ok p') : p.dirs = p'.dirs := by
  unfold planOperations at h h'
  have hr : planRemap bin.length opts = planRemap bin.length opts' := by unfold planRemap; rw [hn]
  rw [hr, hu] at h
  simp only [bind, Except.bind] at h h'
  split at h
  · cases h
  rename_i remap hremap
  rw [hremap] at h'
  simp only at h h'
  split at h
  · cases h
  rename_i wi hwi
  rw [hwi] at h'
  simp only at h h'
  split at h
  · cases h
  rename_i wo hwo
  rw [hwo] at h'
  simp only at h h'
  split at h
  · rename_i hp
    rw [if_pos hp] at h'
    exact planPencil_dirs h h'
  · rename_i hp
    rw [if_neg hp] at h'
    cases h2 : wi.is2d with
    | false => exact planSlab_dirs h2 h h'
    | true =>
      unfold planSlab at h h'
      rw [if_pos h2] at h h'
      exact planPencil_dirs h h'

end Verif
