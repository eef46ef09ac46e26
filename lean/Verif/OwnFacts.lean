import Verif.OwnPaths

/-!
# What a successful reshape of all the ranks together tells about each rank
-/

namespace Verif

section
variable {α β γ : Type} {K : Kernel α β} {env : Nat → Env} {port : Nat → Port α β γ} {i : Fin 4} {stride nb : Nat} {done : Nat → List Nat}
  {shs : List (Option Shaper)} {sts sts' : State α β}

/-- The jobs of a reshape. -/
def jobsOf (stride nb : Nat) (done : Nat → List Nat) (shs : List (Option Shaper)) : List Job :=
  shs.zipIdx.map fun x => Shaper.job stride nb (done x.2) x.1

theorem jobsOf_get {r : Nat} {sh : Option Shaper} (h : shs[r]? = some sh) : (jobsOf stride nb done shs)[r]? = some (Shaper.job stride nb (done r) sh) := by
  unfold jobsOf
  rw [List.getElem?_map, List.getElem?_zipIdx, h]
  simp

/-- One rank with a reshape object. -/
structure RankDone (K : Kernel α β) (E : Env) (P : Port α β γ) (i : Fin 4) (stride nb : Nat) (jobs : List Job) (packed : List (List γ)) (r : Nat) (sh : Shaper)
    (job : Job) (x x' : List Instr × Mem α β) : Prop where
  intro ::
  facts : ∃ t sd m a ws ws' ws'' d d', advance K E i x.1 x.2 = .ok (t, sd, m) ∧ P.arrays m sd = some a ∧
    packed[r]? = some ws ∧ copyMoves job.packs a.src a.ws = .ok ws ∧
    writeAll (deliveries jobs packed r job) ws = .ok ws' ∧ copyMoves job.selfPacks a.src ws' = .ok ws'' ∧
    copyMoves job.unpacks ws'' a.dst = .ok d ∧
    (match sh with
      | .transpose plan => transposeLocal stride nb plan (decide (E.pointer sd.1 = E.pointer sd.2)) a
      | _ => .ok d) = .ok d' ∧ ∃ m', P.put m sd d' = .ok m' ∧ x' = (t, m')

theorem runStage_facts (h : runStage K env port i stride nb done shs sts = .ok sts') (hl : shs.length = sts.length) :
    (shs.all Option.isNone = true ∧ sts' = sts) ∨
    ∃ packed : List (List γ), packed.length = shs.length ∧
      (∀ r job, (jobsOf stride nb done shs)[r]? = some job → deliverable (jobsOf stride nb done shs) r job = true) ∧ sts'.length = sts.length ∧
      ∀ r x sh, sts[r]? = some x → shs[r]? = some sh → ∃ x', sts'[r]? = some x' ∧
        (sh = none → x' = x) ∧ ∀ s, sh = some s → RankDone K (env r) (port r) i stride nb (jobsOf stride nb done shs) packed r s
          (Shaper.job stride nb (done r) sh) x x' := by
  unfold runStage at h
  split at h
  · rename_i h0
    exact .inl ⟨h0, (Except.ok.inj h).symm⟩
  · right
    simp only [bind, Except.bind] at h
    split at h
    · cases h
    rename_i adv hadv
    split at h
    · cases h
    rename_i arrs harrs
    split at h
    · cases h
    rename_i dsts hdsts
    obtain ⟨l1, g1⟩ := mapRes_get hadv
    obtain ⟨l2, g2⟩ := mapRes_get harrs
    obtain ⟨l3, g3⟩ := mapRes_get h
    rw [List.length_zip] at l1 l3
    unfold reshapeAll at hdsts
    simp only [bind, Except.bind] at hdsts
    split at hdsts
    · cases hdsts
    rename_i moved hmoved
    obtain ⟨l4, g4⟩ := mapRes_get hdsts
    rw [List.length_zip, List.length_zip] at l4
    change runJobs (jobsOf stride nb done shs) arrs = _ at hmoved
    unfold runJobs at hmoved
    simp only [bind, Except.bind] at hmoved
    split at hmoved
    · cases hmoved
    rename_i packed hpacked
    split at hmoved
    · cases hmoved
    rename_i hdel
    split at hmoved
    · cases hmoved
    rename_i received hreceived
    split at hmoved
    · cases hmoved
    rename_i wss hwss
    obtain ⟨l5, g5⟩ := mapRes_get hpacked
    obtain ⟨l6, g6⟩ := mapRes_get hreceived
    obtain ⟨l7, g7⟩ := mapRes_get hwss
    obtain ⟨l8, g8⟩ := mapRes_get hmoved
    have lj : (jobsOf stride nb done shs).length = shs.length := by simp [jobsOf]
    rw [List.length_zip] at l5 l6
    rw [List.length_zip, List.length_zip] at l7 l8
    refine ⟨packed, by omega, ?_, by omega, ?_⟩
    · intro r job hr
      rw [Bool.not_eq_true, Bool.not_eq_false', List.all_eq_true] at hdel
      refine hdel (job, r) ?_
      rw [List.mem_iff_getElem?]
      exact ⟨r, by rw [List.getElem?_zipIdx, hr]; simp⟩
    · intro r x sh hx hsh
      obtain ⟨y, hy, e1⟩ := g1 r (sh, x) (List.getElem?_zip_eq_some.2 ⟨hsh, hx⟩)
      obtain ⟨a, ha, e2⟩ := g2 r y hy
      have hj := jobsOf_get (stride := stride) (nb := nb) (done := done) hsh
      obtain ⟨ws, hws, e5⟩ := g5 r (_, a) (List.getElem?_zip_eq_some.2 ⟨hj, ha⟩)
      obtain ⟨ws', hws', e6⟩ := g6 r (_, ws) (List.getElem?_zip_eq_some.2 ⟨hj, hws⟩)
      obtain ⟨ws'', hws'', e7⟩ := g7 r ((_, a), ws') (List.getElem?_zip_eq_some.2 ⟨List.getElem?_zip_eq_some.2 ⟨hj, ha⟩, hws'⟩)
      obtain ⟨d, hd, e8⟩ := g8 r ((_, a), ws'') (List.getElem?_zip_eq_some.2 ⟨List.getElem?_zip_eq_some.2 ⟨hj, ha⟩, hws''⟩)
      obtain ⟨d', hd', e4⟩ := g4 r ((sh, a), d) (List.getElem?_zip_eq_some.2 ⟨List.getElem?_zip_eq_some.2 ⟨hsh, ha⟩, hd⟩)
      obtain ⟨x', hx', e3⟩ := g3 r (y, d') (List.getElem?_zip_eq_some.2 ⟨hy, hd'⟩)
      rw [Nat.zero_add] at e1 e2 e3 e4 e6
      refine ⟨x', hx', ?_, ?_⟩
      · rintro rfl
        unfold stageAdvance at e1
        obtain rfl := Except.ok.inj e1
        unfold stagePut at e3
        exact (Except.ok.inj e3).symm
      · rintro s rfl
        unfold stageAdvance at e1
        dsimp only at e1
        split at e1
        · rename_i t sd m hm
          obtain rfl := Except.ok.inj e1
          unfold stageArrays at e2
          dsimp only at e2
          split at e2
          · rename_i a' ha'
            obtain rfl := Except.ok.inj e2
            unfold stagePut at e3
            dsimp only at e3
            split at e3
            · rename_i m' hm'
              refine ⟨t, sd, m, a', ws, ws', ws'', d, d', hm, ha', hws, e5, e6, e7, e8, ?_, m', hm', (Except.ok.inj e3).symm⟩
              have hip : stageInplace env adv r = decide ((env r).pointer sd.1 = (env r).pointer sd.2) := by
                unfold stageInplace
                rw [hy]
                rfl
              rw [← hip]
              cases s <;> exact e4
            · cases e3
          · cases e2
        · cases e1

end
end Verif
