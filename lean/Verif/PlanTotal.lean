import Verif.PlanMain

/-! # The planner returns a plan or throws, it has no undefined behaviour -/

namespace Verif

/-- A result or the exception thrown by the code; in particular no undefined behaviour. With `must` only a result. -/
def Fine (must : Bool) {α : Type} (x : Res α) : Prop := (∃ a, x = .ok a) ∨ must = false ∧ x = .error .runtime

theorem Fine.ok {must : Bool} {α : Type} (a : α) : Fine must (Except.ok a : Res α) := .inl ⟨a, rfl⟩

theorem Fine.bind {must : Bool} {α β : Type} {x : Res α} {f : α → Res β} (h : Fine must x)
    (hf : ∀ a, x = .ok a → Fine must (f a)) : Fine must (x >>= f) := by
  rcases h with ⟨a, rfl⟩ | ⟨h, rfl⟩
  · exact hf a rfl
  · exact .inr ⟨h, rfl⟩

/-- The grids fit: the number of ranks is not larger than any extent of the world. -/
def Fits (must : Bool) (w : Box) (n : Nat) : Prop := must = true → ∀ d, (n : Int) ≤ w.size.get d

theorem makePencils_fine {must : Bool} {w : Box} {grid : Nat × Nat} {dim : Fin 3} {source : List Box}
    {order : A3 (Fin 3)} {r : Remap} {ranks : Nat} (h1 : 0 < grid.1) (h2 : 0 < grid.2)
    (hr : r.Good ranks (grid.1 * grid.2)) (hlen : source.length = ranks)
    (hsmall : ∀ b ∈ source, b.count < 2 ^ 31) (hfit : Fits must w (grid.1 * grid.2)) :
    Fine must (makePencils w grid dim source order r) := by
  by_cases hf : ∃ a b, a * b = grid.1 * grid.2 ∧ ∀ d, ((gridWithout dim (a, b)).get d : Int) ≤ w.size.get d
  · exact .inl (makePencils_ok h1 h2 hr hlen hsmall hf)
  · have hm : must = false := by
      cases must with
      | false => rfl
      | true =>
        exfalso; apply hf
        have hfit := hfit rfl
        refine ⟨1, grid.1 * grid.2, by simp, ?_⟩
        have hpos : 0 < grid.1 * grid.2 := Nat.mul_pos h1 h2
        have h1' : ∀ d, (1 : Int) ≤ w.size.get d := fun d => by have := hfit d; omega
        intro d
        match dim, d with
        | 0, 0 => exact h1' 0
        | 0, 1 => exact h1' 1
        | 0, 2 => exact hfit 2
        | 1, 0 => exact h1' 0
        | 1, 1 => exact h1' 1
        | 1, 2 => exact hfit 2
        | 2, 0 => exact h1' 0
        | 2, 1 => exact hfit 1
        | 2, 2 => exact h1' 2
    unfold makePencils
    split
    · exact .inl ⟨_, rfl⟩
    · rcases makeProcgrid2d_cases w dim grid h1 h2 with ⟨h, -⟩ | ⟨-, f, h3, h, -⟩ | ⟨-, h⟩
      · exact absurd ⟨_, _, rfl, gridFits_iff.1 h⟩ hf
      · exact absurd ⟨_, _, h3, gridFits_iff.1 h⟩ hf
      · rw [h]; exact .inr ⟨hm, rfl⟩

theorem nextPencilsShape_fine {must : Bool} {w wo : Box} {grid : Nat × Nat} {d : Fin 3} {source bout : List Box}
    {ur : Bool} {test : List (Fin 3)} {r : Remap} (hs : source ≠ []) (hb : bout ≠ [])
    (hok : ∀ order, Fine must (makePencils w grid d source order r)) :
    Fine must (nextPencilsShape w grid d source ur wo test bout r) := by
  unfold nextPencilsShape
  split
  · split
    · cases bout with
      | nil => exact absurd rfl hb
      | cons a l =>
        simp only [List.head?_cons]
        split <;> exact Fine.ok _
    · cases source with
      | nil => exact absurd rfl hs
      | cons a l =>
        simp only [List.head?_cons]
        exact hok _
  · split
    · exact Fine.ok _
    · exact hok _

theorem Tiles.count_le {l : List Box} {w : Box} (h : Tiles l w) {b : Box} (hb : b ∈ l) : b.count ≤ w.count :=
  Box.count_mono fun _ hp => h.mem_world hb hp

theorem Geometry.count_le {bin bout : List Box} {r2c : Option (Fin 3)} {wi wo : Box}
    (g : Geometry bin bout r2c wi wo) : wo.count ≤ wi.count := by
  apply Box.count_mono
  intro p hp d
  obtain ⟨q, hq⟩ := g.nonempty
  have h1 := hp d
  have h2 := hq d
  obtain ⟨h3, h4⟩ := g.complex d
  rw [h3, h4] at h1
  split at h1 <;> omega

section
variable {bin bout : List Box} {r2c : Option (Fin 3)} {wi wo : Box} {opts : Opts} {r : Remap} {n : Nat} {must : Bool}

theorem fine_ne_nil {l bin : List Box} (h : l.length = bin.length) (hb : 0 < bin.length) : l ≠ [] := by
  rintro rfl
  simp at h; omega

theorem fine_req {d : Option (Fin 3)} (h : ∃ x, d = some x) : Fine must (req d) := by
  obtain ⟨x, rfl⟩ := h; exact Fine.ok _

theorem planPencil_fine (geo : Geometry bin bout r2c wi wo) (hn : 0 < n) (hr : r.Good bin.length n)
    (hs : r.isAll = true ∨ r.sub = n) (hh : r.map.head? ≠ some none) (hsmall : wi.count < 2 ^ 31)
    (hfi : Fits must wi n) (hfo : Fits must wo n) : Fine must (planPencil wi wo bin bout r2c opts r) := by
  have hout : bout ≠ [] := fine_ne_nil geo.length geo.ranks_pos
  have hbin : bin ≠ [] := fine_ne_nil rfl geo.ranks_pos
  unfold planPencil
  rw [workRanks_good hr hs]
  obtain ⟨grid, hg, hmul, -⟩ := makeProcgrid_spec hn
  subst hmul
  have c : Ctx bin bout r2c wi wo grid r :=
    ⟨geo, Nat.pos_of_mul_pos_right hn, Nat.pos_of_mul_pos_left hn, hr, hh⟩
  refine Fine.bind (.inl ⟨_, hg⟩) ?_
  intro g' hg'
  rw [hg] at hg'
  injection hg' with hg'
  subst hg'
  have hdirs := pencil_dirs wi wo bin bout r2c
  refine Fine.bind (fine_req ?_) ?_
  · obtain ⟨d0, d1, d2, -, -, h0, -⟩ := hdirs (fun _ _ => true)
    exact ⟨_, h0⟩
  · intro d0 hd0
    rw [req_ok] at hd0
    have mp : ∀ {l w d}, l.length = bin.length → Tiles l w → w.count < 2 ^ 31 → Fits must w (grid.1 * grid.2) →
        ∀ order, Fine must (makePencils w grid d l order r) := by
      intro l w d hl ht hw hf order
      exact makePencils_fine c.g1 c.g2 hr hl (fun b hb => (ht.count_le hb).trans_lt hw) hf
    have hwo : wo.count < 2 ^ 31 := geo.count_le.trans_lt hsmall
    refine Fine.bind ?_ ?_
    · unfold nextPencilsShape0
      have := fun order => mp (l := bin) (w := wi) (d := d0) rfl geo.tilesIn hsmall hfi order
      split
      · split
        · exact nextPencilsShape_fine hbin (by simpa using hout) this
        · exact nextPencilsShape_fine hbin hout this
      · exact nextPencilsShape_fine hbin hout this
    · intro shape0 hs0
      have f := first_next0 c hs0
      have hk : ∀ k, r2c = some k → d0 = k := by
        intro k hk
        obtain ⟨e0, -, -, -, hr2c, he0, -⟩ := hdirs (fun _ _ => true)
        have := hd0.symm.trans he0
        injection this with this
        rw [this]; exact hr2c k hk
      have m := f.mid c hk
      obtain ⟨e0, e1, e2, hall, hr2c, he0, he1, he2⟩ := hdirs (fun _ => isPencils wo (applyR2c shape0 r2c))
      refine Fine.bind (fine_req ⟨_, he1⟩) ?_
      intro d1 hd1
      refine Fine.bind (fine_req ⟨_, he2⟩) ?_
      intro d2 hd2
      refine Fine.bind ?_ ?_
      · exact nextPencilsShape_fine (fine_ne_nil m.length geo.ranks_pos) hout
          (mp m.length m.tiles hwo hfo)
      · intro shape1 hs1
        have l1 := m.next c (by simp) hs1
        refine Fine.bind ?_ ?_
        · exact nextPencilsShape_fine (fine_ne_nil l1.stage.length geo.ranks_pos) hout
            (mp l1.stage.length l1.stage.tiles hwo hfo)
        · intro shape2 _
          exact Fine.ok _

theorem planSlab_fine (geo : Geometry bin bout r2c wi wo) (hn : 0 < n) (hr : r.Good bin.length n)
    (hs : r.isAll = true ∨ r.sub = n) (hh : r.map.head? ≠ some none) (hsmall : wi.count < 2 ^ 31)
    (hfi : Fits must wi n) (hfo : Fits must wo n) : Fine must (planSlab wi wo bin bout r2c opts r) := by
  have hout : bout ≠ [] := fine_ne_nil geo.length geo.ranks_pos
  have hbin : bin ≠ [] := fine_ne_nil rfl geo.ranks_pos
  unfold planSlab
  split
  · exact planPencil_fine geo hn hr hs hh hsmall hfi hfo
  rw [workRanks_good hr hs]
  obtain ⟨grid, hg, hmul, -⟩ := makeProcgrid_spec hn
  subst hmul
  have c : Ctx bin bout r2c wi wo grid r :=
    ⟨geo, Nat.pos_of_mul_pos_right hn, Nat.pos_of_mul_pos_left hn, hr, hh⟩
  refine Fine.bind (.inl ⟨_, hg⟩) ?_
  intro g' hg'
  rw [hg] at hg'
  injection hg' with hg'
  subst hg'
  have mp : ∀ {l w d}, l.length = bin.length → Tiles l w → w.count < 2 ^ 31 → Fits must w (grid.1 * grid.2) →
      ∀ order, Fine must (makePencils w grid d l order r) := by
    intro l w d hl ht hw hf order
    exact makePencils_fine c.g1 c.g2 hr hl (fun b hb => (ht.count_le hb).trans_lt hw) hf
  have hwo : wo.count < 2 ^ 31 := geo.count_le.trans_lt hsmall
  have rs : ∀ {l d}, l.length = bin.length → Fine must (reorderSlabs l d opts.useReorder) :=
    fun hl => .inl (reorderSlabs_ok (fine_ne_nil hl geo.ranks_pos) _ _)
  have av : ∀ a b : Option (Fin 3), ∃ d, getAnyValid ⟨a, b, none⟩ = some d := fun a b =>
    getAnyValid_exists a b none (.inr (.inr rfl))
  dsimp only
  split
  · rename_i d0 d1 hsi
    obtain ⟨hne, hsl, hk⟩ := slabInput_spec hsi
    refine Fine.bind (fine_req (av _ _)) fun d2 _ => ?_
    refine Fine.bind (rs rfl) fun shape0 hs0 => ?_
    have hl0 := (reorderSlabs_spec hs0).1
    have hl0' : (applyR2c shape0 r2c).length = bin.length := (applyR2c_length _ _).trans hl0.length
    refine Fine.bind (rs hl0') fun shape1 hs1 => ?_
    rw [isSlab_iff] at hsl
    have sp : ∀ e, (∀ b ∈ bin, b.size.get e = wi.size.get e) → ∀ b ∈ bin, b.empty = false → Spans b wi e :=
      fun e he b hb hbe => spans_of_size geo.tilesIn hb hbe (he b hb)
    have f := first_slabs c (sp d0 fun b hb => (hsl b hb).1) hs0
    have m := f.mid c hk
    have l1 := m.slabs (applyR2c_spans geo.complex
      (spans_same (reorderSlabs_spec hs0).1 (sp d1 fun b hb => (hsl b hb).2))) hs1
    refine Fine.bind ?_ fun _ _ => Fine.ok _
    exact nextPencilsShape_fine (fine_ne_nil l1.stage.length geo.ranks_pos) hout
            (mp l1.stage.length l1.stage.tiles hwo hfo)
  · rename_i hsi
    have hns := slabInput_none hsi
    split
    · rename_i d1 d2 hso
      obtain ⟨hne, hsl, hk1, hk2⟩ := slabOutput_spec hso
      refine Fine.bind (fine_req (getAnyValid_exists _ _ _ (.inl rfl))) fun d0 hd0 => ?_
      refine Fine.bind (nextPencilsShape_fine hbin hout (mp rfl geo.tilesIn hsmall hfi)) fun shape0 hs0 => ?_
      refine Fine.bind (rs geo.length) fun shape1 hs1 => ?_
      refine Fine.bind (rs ((reorderSlabs_spec hs1).1.length.trans geo.length)) fun shape2 _ => Fine.ok _
    · split
      · rename_i d0 hpi
        obtain ⟨-, hk⟩ := slabPencilInput_spec hpi
        refine Fine.bind (fine_req (av _ _)) fun d1 hd1 => ?_
        refine Fine.bind (fine_req (av _ _)) fun d2 hd2 => ?_
        rw [req_ok] at hd1 hd2
        have hall := anyValid1 _ _ _ hd1 hd2
        refine Fine.bind (nextPencilsShape_fine hbin hout (mp rfl geo.tilesIn hsmall hfi)) fun shape0 hs0 => ?_
        have m := (first_next c hns hs0).mid c hk
        refine Fine.bind (.inl (makeSlabs_ok hall.2.2 c.good m.length
          (fun b hb => (m.tiles.count_le hb).trans_lt hwo))) fun slabs hsl => ?_
        have hls := (makeSlabs_spec hall.2.2 hn c.good hsl).1.length
        refine Fine.bind (rs hls) fun _ _ => Fine.bind (rs hls) fun _ _ => Fine.ok _
      · obtain ⟨e0, e1, e2, hf, hall, hk⟩ := slabGeneralDirs_spec wo bout r2c
        rw [hf]
        dsimp only
        refine Fine.bind (fine_req ⟨_, rfl⟩) fun d0 hd0 => ?_
        refine Fine.bind (fine_req ⟨_, rfl⟩) fun d1 hd1 => ?_
        refine Fine.bind (fine_req ⟨_, rfl⟩) fun d2 hd2 => ?_
        rw [req_ok] at hd0 hd1 hd2
        injection hd0 with hd0
        injection hd1 with hd1
        injection hd2 with hd2
        subst hd0 hd1 hd2
        refine Fine.bind (.inl (makeSlabs_ok hall.1 c.good rfl
          (fun b hb => (geo.tilesIn.count_le hb).trans_lt hsmall))) fun slabs hsl => ?_
        obtain ⟨hls, b, -⟩ := makeSlabs_spec hall.1 hn c.good hsl
        refine Fine.bind (rs hls.length) fun shape0 hs0 => ?_
        have f := first_made c hall.1 rfl (.inl rfl) hsl hs0
        have m := f.mid c hk
        refine Fine.bind (rs m.length) fun shape1 hs1 => ?_
        have l1 := m.slabs (applyR2c_spans geo.complex
          (spans_same (reorderSlabs_spec hs0).1 fun x hx he => (b x hx he).2)) hs1
        refine Fine.bind ?_ fun _ _ => Fine.ok _
        exact nextPencilsShape_fine (fine_ne_nil l1.stage.length geo.ranks_pos) hout
            (mp l1.stage.length l1.stage.tiles hwo hfo)

theorem planOperations_fine (geo : Geometry bin bout r2c wi wo) (hsmall : wi.count < 2 ^ 31)
    (hfi : Fits must wi bin.length) (hfo : Fits must wo bin.length) :
    Fine must (planOperations bin bout r2c opts) := by
  have hrr : ∃ r, planRemap bin.length opts = .ok r := by
    unfold planRemap
    split
    · unfold Remap.setSubranks
      rw [if_pos (by omega)]
      exact ⟨_, rfl⟩
    · exact ⟨_, rfl⟩
  obtain ⟨r, hr⟩ := hrr
  obtain ⟨n, h1, h2, h3, h4, -⟩ := planRemap_spec geo.ranks_pos hr
  have hle : n ≤ bin.length := by
    rcases h2 with ⟨-, h⟩ | ⟨-, h, h'⟩
    · omega
    · have := h'.length_eq
      rw [List.length_range] at this
      have := List.length_filterMap_le id r.map
      omega
  have fit : ∀ {w}, Fits must w bin.length → Fits must w n := fun h hm d => by have := h hm d; omega
  unfold planOperations
  rw [hr, geo.worldIn, geo.worldOut]
  refine Fine.bind (Fine.ok _) fun a ha => Fine.bind (Fine.ok _) fun b hb => Fine.bind (Fine.ok _) fun c hc => ?_
  injection ha with ha
  injection hb with hb
  injection hc with hc
  subst ha hb hc
  split
  · exact planPencil_fine geo h1 h2 h3 h4 hsmall (fit hfi) (fit hfo)
  · exact planSlab_fine geo h1 h2 h3 h4 hsmall (fit hfi) (fit hfo)

end

end Verif
