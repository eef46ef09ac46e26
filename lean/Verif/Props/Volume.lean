import Verif.VolumeLemmas
import Verif.Props.Mpi

/-!
# Properties of the amount of communication (C89)

How much a call of `forward` or `backward` sends.  A plan moves the data through four reshapes, from the boxes of the user over the boxes of the
plan to the boxes of the user; a point that stays on its rank in a reshape need not travel.
-/

namespace Verif
variable {n : Nat} {P : MpiPlan} {i : Nat} {mode : Mode} {fwd inplace : Bool} {nb : Nat} {r : Nat}

/-- The reshapes of a call: the boxes before and after, in the order of the call. -/
def MpiPlan.moves (P : MpiPlan) (fwd : Bool) : List (List Box × List Box) :=
  if fwd then [(P.obj.plan.in0, P.obj.plan.out0), (P.obj.plan.in1, P.obj.plan.out1), (P.obj.plan.in2, P.obj.plan.out2), (P.obj.plan.in3, P.obj.plan.out3)]
  else [(P.obj.plan.out3, P.obj.plan.in3), (P.obj.plan.out2, P.obj.plan.in2), (P.obj.plan.out1, P.obj.plan.in1), (P.obj.plan.out0, P.obj.plan.in0)]

/-- A call is a sequence of four reshapes with their boxes. -/
theorem call_moves (hm : Made n P) (hok : ∃ l, P.instrs mode fwd inplace r = .ok l) :
    ∃ js : List (Fin 4), ∃ mv : Fin 4 → List Box × List Box, P.moves fwd = js.map mv ∧
      P.call i mode fwd inplace nb r = (js.flatMap fun j => Shaper.mpiApply P.alg (shaperKey i fwd j) nb (shaperAt (P.obj.fft.shapers fwd) r j)) ∧
      ∀ j, (mv j).1.length = n ∧ (∃ w, Redistribution (mv j).1 (mv j).2 w) ∧ shapersOf P.alg (mv j).1 (mv j).2 = .ok (P.obj.fft.shapers fwd j) := by
  obtain ⟨r2c, wi, wo, ex, hp, hs⟩ := hm.facts
  refine ⟨[0, 1, 2, 3], fun j => if fwd then (P.obj.plan.inAt j, P.obj.plan.outAt j) else (P.obj.plan.outAt j.rev, P.obj.plan.inAt j.rev), ?_,
    call_eq P i mode fwd inplace nb r (.inl hok), ?_⟩
  · cases fwd <;> rfl
  · intro j
    cases fwd
    · exact ⟨hp.lenOut _, ⟨_, (hp.redis j.rev).symm⟩, hs.bwd j⟩
    · exact ⟨hp.lenIn _, ⟨_, hp.redis j⟩, hs.fwd j⟩

/-- **C89.** With point-to-point messages and with `MPI_Alltoallv`, a rank sends to other ranks, in a call, exactly the points that it has before a
reshape and not after it, once for each array of the batch, and it receives exactly the points that it has after a reshape and not before it. -/
theorem C89_volume (hm : Made n P) (hok : ∃ l, P.instrs mode fwd inplace r = .ok l) (hr : r < n) (ha : P.alg ≠ .alltoall) :
    wireOut r (P.call i mode fwd inplace nb r) = nb * (((P.moves fwd).map fun m => pointsLost m.1 m.2 r).sum : Nat) ∧
    wireIn r (P.call i mode fwd inplace nb r) = nb * (((P.moves fwd).map fun m => pointsLost m.2 m.1 r).sum : Nat) := by
  obtain ⟨js, mv, e1, e2, e3⟩ := call_moves (i := i) (nb := nb) hm hok
  rw [e1, e2, wireOut_flatMap, wireIn_flatMap]
  clear e1 e2
  induction js with
  | nil => simp
  | cons j t ih =>
    obtain ⟨hl, ⟨w, hw⟩, hs⟩ := e3 j
    obtain ⟨h1, h2⟩ := (stage_wire hw hs (shaperKey i fwd j) nb (r := r) (by omega)).1 ha
    simp only [List.map_cons, List.sum_cons, Nat.cast_add, mul_add]
    rw [ih.1, ih.2]
    exact ⟨by congr 1, by congr 1⟩

/-- **C89.** With `MPI_Alltoall`, a rank sends and receives at least that much, see `C89_false_alltoall` for more and `C89_blocks` for how much. -/
theorem C89_alltoall (hm : Made n P) (hok : ∃ l, P.instrs mode fwd inplace r = .ok l) (hr : r < n) :
    nb * (((P.moves fwd).map fun m => pointsLost m.1 m.2 r).sum : Nat) ≤ wireOut r (P.call i mode fwd inplace nb r) ∧
    nb * (((P.moves fwd).map fun m => pointsLost m.2 m.1 r).sum : Nat) ≤ wireIn r (P.call i mode fwd inplace nb r) := by
  obtain ⟨js, mv, e1, e2, e3⟩ := call_moves (i := i) (nb := nb) hm hok
  rw [e1, e2, wireOut_flatMap, wireIn_flatMap]
  clear e1 e2
  induction js with
  | nil => simp
  | cons j t ih =>
    obtain ⟨hl, ⟨w, hw⟩, hs⟩ := e3 j
    obtain ⟨h1, h2⟩ := (stage_wire hw hs (shaperKey i fwd j) nb (r := r) (by omega)).2
    simp only [List.map_cons, List.sum_cons, Nat.cast_add, mul_add]
    exact ⟨add_le_add h1 ih.1, add_le_add h2 ih.2⟩

/-- The boxes of all the ranks have the same bounds before and after. -/
def EqualBounds (m : List Box × List Box) : Prop := ∀ (q : Nat) a b, m.1[q]? = some a → m.2[q]? = some b → a.low = b.low ∧ a.high = b.high

theorem sameBounds_match : ∀ {l m : List Box}, m.length = l.length → EqualBounds (l, m) → boxesMatch l m = true
  | [], [], _, _ => rfl
  | [], _ :: _, h, _ => by simp at h
  | _ :: _, [], h, _ => by simp at h
  | a :: s, b :: t, h, e => by
    have h0 := e 0 a b rfl rfl
    have := sameBounds_match (l := s) (m := t) (by simpa using h) fun q x y hx hy => e (q + 1) x y (by simpa using hx) (by simpa using hy)
    simp [boxesMatch, this, Box.sameBounds, h0.1, h0.2]

/-- **C89.** If no reshape changes the bounds of a box, e.g., on one rank, then a call does not call MPI at all, whatever the algorithm; the
reshapes may change the order of the entries. -/
theorem C89_silent (hm : Made n P) (hok : ∃ l, P.instrs mode fwd inplace r = .ok l) (hr : r < n) (hb : ∀ m ∈ P.moves fwd, EqualBounds m) :
    P.call i mode fwd inplace nb r = [] := by
  obtain ⟨js, mv, e1, e2, e3⟩ := call_moves (i := i) (nb := nb) hm hok
  rw [e2, List.flatMap_eq_nil_iff]
  intro j hj
  obtain ⟨hl, ⟨w, hw⟩, hs⟩ := e3 j
  have hmatch := sameBounds_match hw.length (hb (mv j) (by rw [e1]; exact List.mem_map_of_mem hj))
  rcases stage_steps hw hs (shaperKey i fwd j) nb with ⟨-, e⟩ | ⟨h, -⟩
  · exact e r (by omega)
  · rw [hmatch] at h; cases h

theorem lettersOut_append (a b : List MpiStep) : lettersOut (a ++ b) = lettersOut a ++ lettersOut b := List.filterMap_append
theorem gatherings_append (a b : List MpiStep) : gatherings (a ++ b) = gatherings a ++ gatherings b := List.filterMap_append

theorem letters_sendLens (d : Nat) (l : List MpiStep) : ((lettersOut l).filter fun x => decide (x.1 = d)).map Prod.snd = sendLens d l := by
  induction l with
  | nil => rfl
  | cons a t ih =>
    have e1 : lettersOut (a :: t) = lettersOut [a] ++ lettersOut t := lettersOut_append [a] t
    have e2 : sendLens d (a :: t) = sendLens d [a] ++ sendLens d t := sendLens_append d [a] t
    rw [e1, e2, List.filter_append, List.map_append, ih]
    congr 1
    cases a with
    | isend p len => by_cases h : p = d <;> simp [lettersOut, sendLens, h]
    | _ => rfl

theorem shared_match {bin bout : List Box} {w : Box} (h : Redistribution bin bout w) (hm : boxesMatch bin bout = true) {s d : Nat} (hs : s < bin.length)
    (hd : d < bin.length) (hne : d ≠ s) : sharedPoints bin bout s d = 0 := by
  have hc := cnt_shared h.length hs hd
  have : cnt bin bout s d = 0 := by
    by_contra hne0
    have h0 := cnt_nonneg (bin := bin) (bout := bout) s d
    have hpos : 0 < cnt bin bout s d := by omega
    have hpos := hpos
    unfold cnt msgCount at hpos
    rw [Box.count_eq_card] at hpos
    have hpos' : 0 < ((boxAt bin s).collide (boxAt bout d)).points.card := by exact_mod_cast hpos
    obtain ⟨p, hp⟩ := Finset.card_pos.1 hpos'
    rw [collide_points, Finset.mem_inter, Box.mem_points, Box.mem_points] at hp
    have b := boxesMatch_get hm hd
    have hp2 : p ∈ boxAt bin d := (mem_congr_bounds b.1 b.2 p).2 hp.2
    exact hne (h.tilesIn.boxAt_unique hd hs hp2 hp.1)
  omega

/-- **C89.** With point-to-point messages, a rank sends to another rank, in a call, one message for each reshape in which they have common points
(before on the one, after on the other), with the number of these points times the batch size, and none otherwise; there are no messages to
itself. -/
theorem C89_messages (hm : Made n P) (hok : ∃ l, P.instrs mode fwd inplace r = .ok l) (hr : r < n) (ha : P.alg = .p2p ∨ P.alg = .p2pPlined)
    {d : Nat} (hd : d < n) :
    ((lettersOut (P.call i mode fwd inplace nb r)).filter fun x => decide (x.1 = d)).map Prod.snd =
      if d = r then [] else ((P.moves fwd).filter fun m => decide (0 < sharedPoints m.1 m.2 r d)).map fun m => (nb : Int) * sharedPoints m.1 m.2 r d := by
  obtain ⟨js, mv, e1, e2, e3⟩ := call_moves (i := i) (nb := nb) hm hok
  rw [letters_sendLens, e1, e2]
  clear e1 e2
  induction js with
  | nil => simp [sendLens]
  | cons j t ih =>
    obtain ⟨hl, ⟨w, hw⟩, hs⟩ := e3 j
    have hr' : r < (mv j).1.length := by omega
    have hd' : d < (mv j).1.length := by omega
    have hc := cnt_shared hw.length hr' hd'
    have stage : sendLens d (Shaper.mpiApply P.alg (shaperKey i fwd j) nb (shaperAt (P.obj.fft.shapers fwd) r j)) =
        if d = r then [] else if 0 < sharedPoints (mv j).1 (mv j).2 r d then [(nb : Int) * sharedPoints (mv j).1 (mv j).2 r d] else [] := by
      rcases stage_steps hw hs (shaperKey i fwd j) nb with ⟨hmt, e⟩ | ⟨-, g, -, e⟩
      · rw [show shaperAt (P.obj.fft.shapers fwd) r j = shAt (P.obj.fft.shapers fwd j) r from rfl, e r hr']
        by_cases h : d = r
        · simp [h, sendLens]
        · simp [h, shared_match hw hmt hr' hd' h, sendLens]
      · have hstep : ∃ plined, Shaper.mpiApply P.alg (shaperKey i fwd j) nb (shAt (P.obj.fft.shapers fwd j) r) =
            (objP (directOf (mv j).1 (mv j).2) (mv j).1 (mv j).2 r).mpiSteps plined nb := by
          have := e r hr'
          rcases ha with ha | ha <;> rw [ha] at this ⊢ <;> unfold stageSteps at this
          · exact ⟨false, this⟩
          · exact ⟨true, this⟩
        obtain ⟨plined, hstep⟩ := hstep
        rw [show shaperAt (P.obj.fft.shapers fwd) r j = shAt (P.obj.fft.shapers fwd j) r from rfl, hstep, p2p_sendLens]
        unfold objP
        dsimp only
        have n1 := dropSelf_nodup (b := decide (0 < cnt (mv j).1 (mv j).2 r r)) (send_nodup hw.length hr')
        classical
        rw [filterMap_proc_look _ _ _ n1, look_eq_if (P := fun q => q < (mv j).1.length ∧ q ≠ r ∧ 0 < cnt (mv j).1 (mv j).2 r q)
          (E := sendE (mv j).1 (mv j).2 r) n1 (fun q => rfl) (fun e => by rw [mem_dropSend hw.length hr']; simp only [and_assoc])]
        by_cases h : d = r
        · simp [h]
        · by_cases h2 : 0 < sharedPoints (mv j).1 (mv j).2 r d
          · rw [if_pos ⟨hd', h, by omega⟩, if_neg h, if_pos h2]
            simp [sendE_size, hc]
          · rw [if_neg (fun x => h2 (by have := x.2.2; omega)), if_neg h, if_neg h2]
            rfl
    rw [List.flatMap_cons, sendLens_append, stage, ih]
    by_cases h : d = r
    · simp [h]
    · by_cases h2 : 0 < sharedPoints (mv j).1 (mv j).2 r d <;> simp [h, h2]

theorem p2p_gatherings (plined : Bool) (nb : Nat) (o : PointToPoint) : gatherings (o.mpiSteps plined nb) = [] := by
  unfold gatherings
  rw [List.filterMap_eq_nil_iff]
  intro x hx
  rcases p2p_mem plined nb o hx with ⟨e, -, rfl⟩ | ⟨e, -, rfl⟩ | rfl | rfl | rfl <;> rfl

/-- **C89.** The collective calls of a call: at most one for each reshape, among ranks of which the calling one is one; `MPI_Alltoallv` has for each
pair of members the number of their common points times the batch size; `MPI_Alltoall` has one number for all the pairs, the largest one.  The
point-to-point algorithms make no collective calls, the collective ones send no messages. -/
theorem C89_blocks (hm : Made n P) (hok : ∃ l, P.instrs mode fwd inplace r = .ok l) (hr : r < n) :
    (gatherings (P.call i mode fwd inplace nb r)).length ≤ 4 ∧
    ∀ x ∈ gatherings (P.call i mode fwd inplace nb r), r ∈ x.1 ∧ (∀ q ∈ x.1, q < n) ∧ ∃ m ∈ P.moves fwd,
      (P.alg = .alltoallv ∧ x.2 = .alltoallv (x.1.map fun q => (sharedPoints m.1 m.2 r q : Int) * nb) (x.1.map fun q => (sharedPoints m.1 m.2 q r : Int) * nb)) ∨
      (P.alg = .alltoall ∧ ∃ big : Nat, x.2 = .alltoall (nb * big) ∧ (∀ s ∈ x.1, ∀ d ∈ x.1, sharedPoints m.1 m.2 s d ≤ big) ∧
        ∃ s ∈ x.1, ∃ d ∈ x.1, sharedPoints m.1 m.2 s d = big) := by
  obtain ⟨js, mv, e1, e2, e3⟩ := call_moves (i := i) (nb := nb) hm hok
  have hlen : (P.moves fwd).length = 4 := by unfold MpiPlan.moves; split <;> rfl
  rw [e1, List.length_map] at hlen
  have stage : ∀ j, (gatherings (Shaper.mpiApply P.alg (shaperKey i fwd j) nb (shaperAt (P.obj.fft.shapers fwd) r j))).length ≤ 1 ∧
      ∀ x ∈ gatherings (Shaper.mpiApply P.alg (shaperKey i fwd j) nb (shaperAt (P.obj.fft.shapers fwd) r j)), r ∈ x.1 ∧ (∀ q ∈ x.1, q < n) ∧
      ((P.alg = .alltoallv ∧ x.2 = .alltoallv (x.1.map fun q => (sharedPoints (mv j).1 (mv j).2 r q : Int) * nb)
          (x.1.map fun q => (sharedPoints (mv j).1 (mv j).2 q r : Int) * nb)) ∨
      (P.alg = .alltoall ∧ ∃ big : Nat, x.2 = .alltoall (nb * big) ∧ (∀ s ∈ x.1, ∀ d ∈ x.1, sharedPoints (mv j).1 (mv j).2 s d ≤ big) ∧
        ∃ s ∈ x.1, ∃ d ∈ x.1, sharedPoints (mv j).1 (mv j).2 s d = big)) := by
    intro j
    obtain ⟨hl, ⟨w, hw⟩, hs⟩ := e3 j
    have hr' : r < (mv j).1.length := by omega
    rw [show shaperAt (P.obj.fft.shapers fwd) r j = shAt (P.obj.fft.shapers fwd j) r from rfl]
    rcases stage_steps hw hs (shaperKey i fwd j) nb with ⟨-, e⟩ | ⟨-, g, hg, e⟩
    · rw [e r hr']; simp [gatherings]
    · rw [e r hr']
      unfold stageSteps
      by_cases he : g r = []
      · cases P.alg with
        | p2p => dsimp only; rw [p2p_gatherings]; simp
        | p2pPlined => dsimp only; rw [p2p_gatherings]; simp
        | _ => simp [he, gatherings]
      · have hself : r ∈ g r := by
          obtain ⟨q, hq⟩ := List.exists_mem_of_ne_nil _ he
          exact hg.self r q hr' hq
        have hlt : ∀ q ∈ g r, q < n := fun q hq => by have := hg.lt hr' hq; omega
        have hlt' : ∀ q ∈ g r, q < (mv j).1.length := fun q hq => hg.lt hr' hq
        cases P.alg with
        | p2p => dsimp only; rw [p2p_gatherings]; simp
        | p2pPlined => dsimp only; rw [p2p_gatherings]; simp
        | alltoallv =>
          simp only [he, if_false, gatherings, collSteps, List.filterMap_cons, List.filterMap_nil, List.length_cons, List.length_nil, List.mem_singleton]
          refine ⟨le_refl _, ?_⟩
          rintro x rfl
          refine ⟨hself, hlt, .inl ⟨trivial, ?_⟩⟩
          dsimp only
          congr 1
          · exact List.map_congr_left fun q hq => by rw [cnt_shared hw.length hr' (hlt' q hq)]
          · exact List.map_congr_left fun q hq => by rw [cnt_shared hw.length (hlt' q hq) hr']
        | alltoall =>
          simp only [he, if_false, gatherings, collSteps, List.filterMap_cons, List.filterMap_nil, List.length_cons, List.length_nil, List.mem_singleton]
          refine ⟨le_refl _, ?_⟩
          rintro x rfl
          refine ⟨hself, hlt, .inr ⟨trivial, ?_⟩⟩
          have h0 := getMaxSize_nonneg (g r) (mv j).1 (mv j).2
          refine ⟨(getMaxSize (g r) (mv j).1 (mv j).2).toNat, ?_, ?_, ?_⟩
          · dsimp only; rw [Int.toNat_of_nonneg h0]
          · intro s hs d hd
            dsimp only at hs hd
            have := cnt_le_getMaxSize hw.length hs hd (hlt' s hs) (hlt' d hd)
            rw [cnt_shared hw.length (hlt' s hs) (hlt' d hd)] at this
            omega
          · rcases getMaxSize_attained hw.length hlt' with h | ⟨s, hs, d, hd, h⟩
            · refine ⟨r, hself, r, hself, ?_⟩
              have := cnt_le_getMaxSize hw.length hself hself hr' hr'
              rw [cnt_shared hw.length hr' hr'] at this
              omega
            · refine ⟨s, hs, d, hd, ?_⟩
              rw [h, cnt_shared hw.length (hlt' s hs) (hlt' d hd)]
              rfl
  rw [e2, e1]
  suffices h : (gatherings (js.flatMap fun j => Shaper.mpiApply P.alg (shaperKey i fwd j) nb (shaperAt (P.obj.fft.shapers fwd) r j))).length ≤ js.length by
    refine ⟨by omega, ?_⟩
    clear e1 e2 hlen h
    induction js with
    | nil => simp [gatherings]
    | cons j t ih =>
      rw [List.flatMap_cons, gatherings_append]
      intro x hx
      rcases List.mem_append.1 hx with hx | hx
      · obtain ⟨a, b, c⟩ := (stage j).2 x hx
        exact ⟨a, b, mv j, by simp, c⟩
      · obtain ⟨a, b, m, hmem, c⟩ := ih x hx
        exact ⟨a, b, m, List.mem_cons_of_mem _ hmem, c⟩
  clear e1 e2 hlen
  induction js with
  | nil => simp [gatherings]
  | cons j t ih =>
    rw [List.flatMap_cons, gatherings_append]
    have := (stage j).1
    rw [List.length_append, List.length_cons]
    omega

/-! ## Examples and counterexamples -/

/-- Two ranks with boxes of different sizes, 20 and 60 points, and 64 and 16 points. -/
def unevenIn : List Box := [⟨⟨0, 0, 0⟩, ⟨0, 4, 3⟩, ⟨0, 1, 2⟩⟩, ⟨⟨1, 0, 0⟩, ⟨3, 4, 3⟩, ⟨0, 1, 2⟩⟩]
def unevenOut : List Box := [⟨⟨0, 0, 0⟩, ⟨3, 3, 3⟩, ⟨0, 1, 2⟩⟩, ⟨⟨0, 4, 0⟩, ⟨3, 4, 3⟩, ⟨0, 1, 2⟩⟩]

theorem unevenGeometry : ∃ wi wo, Geometry unevenIn unevenOut none wi wo ∧ wi.low = ⟨0, 0, 0⟩ ∧ wo.low = ⟨0, 0, 0⟩ :=
  checked_geometry (by decide) rfl (by decide) (by decide) ⟨_, List.mem_cons_self .., ⟨0, 0, 0⟩, by decide⟩

/-- The boxes of the plan. -/
def unevenMoves : List (List Box × List Box) := 
  let y := unevenIn.map fun b => { b with order := ⟨1, 0, 2⟩ }
  let z := unevenOut.map fun b => { b with order := ⟨2, 1, 0⟩ }
  [(unevenIn, y), (y, z), (z, unevenOut), (unevenOut, unevenOut)]

/-- What a plan for these boxes sends. -/
theorem unevenCalls (alg : Alg) : (makeFft3d .stock unevenIn unevenOut (exOpts alg)).map (fun ob =>
      isOk (MpiPlan.instrs ⟨alg, ob⟩ .same true false 0) && isOk (MpiPlan.instrs ⟨alg, ob⟩ .same true false 1) &&
      decide (wireOut 0 (MpiPlan.call ⟨alg, ob⟩ 0 .same true false 1 0) = if alg = .alltoall then 48 else 4) &&
      decide (wireOut 1 (MpiPlan.call ⟨alg, ob⟩ 0 .same true false 1 1) = 48) && decide (MpiPlan.moves ⟨alg, ob⟩ true = unevenMoves)) = .ok true := by
  cases alg <;> decide +kernel

theorem unevenPlan (alg : Alg) : ∃ ob, Made 2 ⟨alg, ob⟩ ∧ (∀ r, r < 2 → ∃ l, MpiPlan.instrs ⟨alg, ob⟩ .same true false r = .ok l) ∧
    wireOut 0 (MpiPlan.call ⟨alg, ob⟩ 0 .same true false 1 0) = (if alg = .alltoall then 48 else 4) ∧
    wireOut 1 (MpiPlan.call ⟨alg, ob⟩ 0 .same true false 1 1) = 48 ∧ MpiPlan.moves ⟨alg, ob⟩ true = unevenMoves := by
  have hu := unevenCalls alg
  obtain ⟨wi, wo, geo, -⟩ := unevenGeometry
  cases hob : makeFft3d .stock unevenIn unevenOut (exOpts alg) with
  | error e => rw [hob] at hu; cases hu
  | ok ob =>
    rw [hob] at hu
    have hu := Except.ok.inj hu
    simp only [Bool.and_eq_true, decide_eq_true_eq] at hu
    refine ⟨ob, .c2c _ unevenIn unevenOut wi wo _ rfl geo hob (by rfl), fun r hr => ?_, hu.1.1.2, hu.1.2, hu.2⟩
    have : r = 0 ∨ r = 1 := by omega
    rcases this with rfl | rfl
    · exact isOk_ok hu.1.1.1.1
    · exact isOk_ok hu.1.1.1.2

/-- The number of points that the ranks lose in the transform above: 4 and 48. -/
example : ∃ P, Made 2 P ∧ P.alg = .p2p ∧ ((P.moves true).map fun m => pointsLost m.1 m.2 0).sum = 4 ∧
    ((P.moves true).map fun m => pointsLost m.1 m.2 1).sum = 48 := by
  obtain ⟨ob, h1, h2, h3, h4, -⟩ := unevenPlan .p2p
  have e0 := (C89_volume (i := 0) (nb := 1) h1 (h2 0 (by omega)) (by omega) (by simp)).1
  have e1 := (C89_volume (i := 0) (nb := 1) h1 (h2 1 (by omega)) (by omega) (by simp)).1
  rw [h3] at e0
  rw [h4] at e1
  refine ⟨_, h1, rfl, ?_, ?_⟩
  · simp only [reduceCtorEq, if_false, Nat.cast_one, one_mul] at e0; omega
  · simp only [Nat.cast_one, one_mul] at e1; omega

/-- **C89** is false for `MPI_Alltoall`: a rank that loses 4 points in a transform hands 48 values for other ranks to MPI. -/
theorem C89_false_alltoall : ∃ P, Made 2 P ∧ P.alg = .alltoall ∧ (∃ l, P.instrs .same true false 0 = .ok l) ∧
    ((P.moves true).map fun m => pointsLost m.1 m.2 0).sum = 4 ∧ wireOut 0 (P.call 0 .same true false 1 0) = 48 := by
  obtain ⟨op, p1, p2, p3, -, p5⟩ := unevenPlan .p2p
  obtain ⟨oa, a1, a2, a3, -, a5⟩ := unevenPlan .alltoall
  have e0 := (C89_volume (i := 0) (nb := 1) p1 (p2 0 (by omega)) (by omega) (by simp)).1
  rw [p3, p5] at e0
  refine ⟨_, a1, rfl, a2 0 (by omega), ?_, a3⟩
  rw [a5]
  simp only [reduceCtorEq, if_false, Nat.cast_one, one_mul] at e0
  omega

/-- In the example of C73, rank 0 sends 48 values to rank 2 and then 48 to rank 1 (a batch of two). -/
example : ∃ P, Made 4 P ∧ P.alg = .p2p ∧ wireOut 0 (P.call 0 .same true false 2 0) = 96 ∧
    ((P.moves true).map fun m => pointsLost m.1 m.2 0).sum = 48 := by
  obtain ⟨ob, h1, h2, h3⟩ := exPlan .p2p
  have e0 := (C89_volume (i := 0) (nb := 2) h1 (h2 0 (by omega) true false) (by omega) (by simp)).1
  have e : wireOut 0 (exMpiCall .p2p) = 96 := by decide
  rw [h3, e] at e0
  refine ⟨_, h1, rfl, by rw [h3]; exact e, ?_⟩
  rw [show ((2 : Nat) : Int) = 2 from rfl] at e0
  omega

/-- The messages of rank 0 in this example (`C89_messages`), and its collective calls (`C89_blocks`). -/
example : (lettersOut (exMpiCall .p2p) = [(2, 48), (1, 48)] ∧ gatherings (exMpiCall .p2p) = []) ∧
    gatherings (exMpiCall .alltoallv) = [([0, 2], .alltoallv [48, 48] [48, 48]), ([0, 1], .alltoallv [48, 48] [48, 48])] ∧
    gatherings (exMpiCall .alltoall) = [([0, 2], .alltoall 48), ([0, 1], .alltoall 48)] := by decide

/-- One rank that wants its output in another order. -/
def aloneIn : List Box := [⟨⟨0, 0, 0⟩, ⟨1, 2, 3⟩, ⟨0, 1, 2⟩⟩]
def aloneOut : List Box := [⟨⟨0, 0, 0⟩, ⟨1, 2, 3⟩, ⟨2, 0, 1⟩⟩]

theorem alonePlan (alg : Alg) : (makeFft3d .stock aloneIn aloneOut (exOpts alg)).map (fun ob =>
      isOk (MpiPlan.instrs ⟨alg, ob⟩ .same true false 0) && decide (((MpiPlan.moves ⟨alg, ob⟩ true).map fun m =>
        (m.1.map fun b => (b.low, b.high), m.2.map fun b => (b.low, b.high))) = List.replicate 4 ([(⟨0, 0, 0⟩, ⟨1, 2, 3⟩)], [(⟨0, 0, 0⟩, ⟨1, 2, 3⟩)])) &&
      decide ((MpiPlan.moves ⟨alg, ob⟩ true).map (fun m => m.1 == m.2) = [false, false, false, true])) = .ok true := by
  cases alg <;> decide +kernel

/-- The hypotheses of `C89_silent` can be met: three of the four reshapes change the order, none communicates. -/
example (alg : Alg) : ∃ P, Made 1 P ∧ P.alg = alg ∧ (∃ l, P.instrs .same true false 0 = .ok l) ∧ (∀ m ∈ P.moves true, EqualBounds m) ∧
    (P.moves true).map (fun m => m.1 == m.2) = [false, false, false, true] ∧ P.call 0 .same true false 5 0 = [] := by
  have hu := alonePlan alg
  obtain ⟨wi, wo, geo, -⟩ : ∃ wi wo, Geometry aloneIn aloneOut none wi wo ∧ wi.low = ⟨0, 0, 0⟩ ∧ wo.low = ⟨0, 0, 0⟩ :=
    checked_geometry (by decide) rfl (by decide) (by decide) ⟨_, List.mem_cons_self .., ⟨0, 0, 0⟩, by decide⟩
  cases hob : makeFft3d .stock aloneIn aloneOut (exOpts alg) with
  | error e => rw [hob] at hu; cases hu
  | ok ob =>
    rw [hob] at hu
    have hu := Except.ok.inj hu
    simp only [Bool.and_eq_true, decide_eq_true_eq] at hu
    have hm : Made 1 ⟨alg, ob⟩ := .c2c _ aloneIn aloneOut wi wo _ rfl geo hob (by rfl)
    have hb : ∀ m ∈ MpiPlan.moves ⟨alg, ob⟩ true, EqualBounds m := by
      intro m hm q a b ha hb
      have := List.mem_map_of_mem (f := fun m : List Box × List Box => (m.1.map fun b => (b.low, b.high), m.2.map fun b => (b.low, b.high))) hm
      rw [hu.1.2] at this
      have := List.eq_of_mem_replicate this
      simp only [Prod.mk.injEq] at this
      have h1 := congrArg (fun l => l[q]?) this.1
      have h2 := congrArg (fun l => l[q]?) this.2
      simp only [List.getElem?_map, ha, hb, Option.map_some] at h1 h2
      rw [← h2] at h1
      have := Option.some.inj h1
      simp only [Prod.mk.injEq] at this
      exact this
    exact ⟨_, hm, rfl, isOk_ok hu.1.1, hb, hu.2, C89_silent hm (isOk_ok hu.1.1) (by omega) hb⟩

end Verif
