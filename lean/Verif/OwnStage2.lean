import Verif.OwnStage

/-!
# The reshapes of a call at their own speed
-/

namespace Verif

section
variable {α β γ υ : Type}

theorem job_packs (stride nb : Nat) (d d' : List Nat) (sh : Option Shaper) : (Shaper.job stride nb d sh).packs = (Shaper.job stride nb d' sh).packs := by
  rcases sh with _ | s
  · rfl
  · cases s <;> rfl

theorem job_sends (stride nb : Nat) (d d' : List Nat) (sh : Option Shaper) : (Shaper.job stride nb d sh).sends = (Shaper.job stride nb d' sh).sends := by
  rcases sh with _ | s
  · rfl
  · cases s <;> rfl

theorem job_recvs (stride nb : Nat) (d d' : List Nat) (sh : Option Shaper) : (Shaper.job stride nb d sh).recvs = (Shaper.job stride nb d' sh).recvs := by
  rcases sh with _ | s
  · rfl
  · cases s <;> rfl

theorem job_selfPacks (stride nb : Nat) (d d' : List Nat) (sh : Option Shaper) : (Shaper.job stride nb d sh).selfPacks = (Shaper.job stride nb d' sh).selfPacks := by
  rcases sh with _ | s
  · rfl
  · cases s <;> rfl

/-- The order in which a rank waits for the messages of a reshape. -/
def orderOf (len : Nat) (done : List Nat) : Shaper → List Nat
  | .p2p _ _ => done
  | _ => List.range len

theorem job_order (stride nb len : Nat) (done : List Nat) (sh : Shaper) :
    Shaper.job stride nb (orderOf len done sh) (some sh) = Shaper.job stride nb done (some sh) := by
  cases sh <;> rfl

variable {K : Kernel α β} {calls : List (OwnCall υ α β)} {c : Nat} {C : OwnCall υ α β} {i : Fin 4} {port : Nat → Port α β γ}

/-- One stage of all the ranks together is a history of ranks at their own speed. -/
theorem stage_runs {allow : Nat → Fin 4 → Nat → List Nat → Nat → Bool} {done : Nat → List Nat} {u : Nat → υ} {sts sts' : State α β}
    (hC : calls[c]? = some C) (L : Lane α β γ) (hL : ∀ l, L.prj (L.inj l) = some l)
    (hsends : ∀ r sh m sd, C.sends K r i sh m sd = startExchange L (port r) (Shaper.job C.world.stride C.nb [] (some sh)) m sd)
    (hends : ∀ r sh m sd got, C.ends K r i sh m sd got =
      endExchange L (port r) C.world.stride C.nb sh (decide ((C.env r).pointer sd.1 = (C.env r).pointer sd.2)) m sd got)
    (h : runStage K C.env port i C.world.stride C.nb done (C.fft.shapers C.fwd i) sts = .ok sts')
    (hl : (C.fft.shapers C.fwd i).length = sts.length) (key : Option (Nat × Bool × Fin 4))
    (hkey : ∀ r sh, shaperAt (C.fft.shapers C.fwd) r i = some sh → C.key i sh = key)
    (hord : ∀ r sh, shaperAt (C.fft.shapers C.fwd) r i = some sh → OrderOk (allow c i r) (C.recvs sh).length sh (orderOf (C.recvs sh).length (done r) sh) ∧
      (C.key i sh = none → RecvsApart (C.recvs sh)))
    {st : Net (Option (Nat × Bool × Fin 4)) (Packet α β) (OwnRank υ α β)}
    (hst : ∀ r x, sts[r]? = some x → ∃ past, st.loc r = ⟨c, u r, .busy x.1 x.2, past⟩) (hc : ∀ k s d, st.chan k s d = []) :
    sts'.length = sts.length ∧ ∃ j st', Net.Runs sts.length (ownNext K allow calls) j st st' ∧
      (∀ r x, sts'[r]? = some x → ∃ past, st'.loc r = ⟨c, u r, .busy x.1 x.2, past⟩) ∧ ∀ k s d, st'.chan k s d = [] := by
  rcases runStage_facts h hl with ⟨-, rfl⟩ | ⟨packed, hpl, hdel, hsl, hall⟩
  · exact ⟨rfl, 0, st, .refl _, hst, hc⟩
  refine ⟨hsl, ?_⟩
  generalize hshs : C.fft.shapers C.fwd i = shs at *
  generalize hn : sts.length = n at *
  let jobs := jobsOf C.world.stride C.nb done shs
  let J : Nat → Job := fun r => (jobs[r]?).getD Job.idle
  let ws : Nat → List γ := fun r => (packed[r]?).getD []
  let ord : Nat → List Nat := fun r => match (shs[r]?).join with
    | some sh => orderOf (C.recvs sh).length (done r) sh
    | none => []
  have hjl : jobs.length = n := by simp [jobs, jobsOf, hl]
  have hJ : ∀ r, r < n → jobs[r]? = some (J r) := fun r hr => by
    simp only [J]; rw [List.getElem?_eq_getElem (by omega)]; rfl
  have hw : ∀ r, r < n → packed[r]? = some (ws r) := fun r hr => by
    simp only [ws]; rw [List.getElem?_eq_getElem (by omega)]; rfl
  have hpj : packed.length = jobs.length := by omega
  have hat : ∀ r, shaperAt (C.fft.shapers C.fwd) r i = (shs[r]?).join := fun r => by unfold shaperAt; rw [hshs]
  -- the orders are permutations of the receives
  have hperm : ∀ r, r < n → (ord r).Perm (List.range (J r).recvs.length) := by
    intro r hr
    have hs : shs[r]? = some shs[r] := List.getElem?_eq_getElem (by omega)
    have e := jobsOf_get (stride := C.world.stride) (nb := C.nb) (done := done) hs
    have e := Option.some.inj ((hJ r hr).symm.trans e)
    simp only [ord]
    rw [hs, e]
    cases hsh : shs[r] with
    | none => simp [Shaper.job, Job.idle]
    | some sh =>
      rw [hsh] at hs
      have := (hord r sh (by rw [hat, hs]; rfl)).1.perm
      rw [job_recvs _ _ _ []]
      exact this
  have hpeer : ∀ r, r < n → ∀ j ∈ ord r, ((((J r).recvs[j]?).map Msg.peer).getD 0) < n := by
    intro r hr j hj
    have hj := List.mem_range.1 ((hperm r hr).mem_iff.1 hj)
    rw [List.getElem?_eq_getElem hj]
    have hd := hdel r _ (hJ r hr)
    unfold deliverable at hd
    simp only [Bool.and_eq_true, List.all_eq_true] at hd
    obtain ⟨s, hs⟩ := Option.isSome_iff_exists.1 (hd.1.1 _ (List.getElem_mem hj))
    obtain ⟨job, h1, -⟩ := matchSend_some hs
    have : ((J r).recvs[j]).peer < jobs.length := (List.getElem?_eq_some_iff.1 h1).1
    simpa [hjl] using this
  let ins : Nat → Option (Nat × Bool × Fin 4) → Nat → List (Packet α β) := fun r k s =>
    if k = key then takenFrom (J r).recvs (payload L jobs packed r (J r)) (ord r) s else []
  let outs : Nat → Option (Nat × Bool × Fin 4) → Nat → List (Packet α β) := fun r k d =>
    if k = key then (((J r).sends.filter fun m => decide (m.peer = d)).map (contents L (ws r))) else []
  -- the paths of one rank
  have hpaths : ∀ r, r < n → ∃ y z, Path (ownNext K allow calls r) (st.loc r) silence (outs r) y ∧ Path (ownNext K allow calls r) y (ins r) silence z ∧
      ∀ x, sts'[r]? = some x → ∃ past, z = ⟨c, u r, .busy x.1 x.2, past⟩ := by
    intro r hr
    have hx : sts[r]? = some sts[r] := List.getElem?_eq_getElem (by omega)
    have hs : shs[r]? = some shs[r] := List.getElem?_eq_getElem (by omega)
    obtain ⟨past, hloc⟩ := hst r _ hx
    obtain ⟨x', hx', hnone, hsome⟩ := hall r _ _ hx hs
    have e := jobsOf_get (stride := C.world.stride) (nb := C.nb) (done := done) hs
    have e := Option.some.inj ((hJ r hr).symm.trans e)
    cases hsh : shs[r] with
    | none =>
      rw [hsh] at hnone e
      have hid : J r = Job.idle := e
      have hor : ord r = [] := by simp only [ord]; rw [hs, hsh]; rfl
      refine ⟨st.loc r, st.loc r, (Path.refl _).cast (fun _ _ => rfl) (fun k d => ?_), (Path.refl _).cast (fun k s => ?_) (fun _ _ => rfl), fun x hx2 => ?_⟩
      · simp [outs, hid, Job.idle, silence]
      · simp [ins, hor, takenFrom, silence]
      · obtain rfl := Option.some.inj (hx'.symm.trans hx2)
        exact ⟨past, by rw [hnone rfl]; exact hloc⟩
    | some sh =>
      rw [hsh] at hs e
      have hat' : shaperAt (C.fft.shapers C.fwd) r i = some sh := by rw [hat, hs]; rfl
      obtain ⟨t, sd, m, a, ws1, ws2, ws3, d, d', f1, f2, f3, f4, f5, f6, f7, f8, m', f9, rfl⟩ := (hsome sh (by rw [hsh])).facts
      rw [hsh] at f4 f5 f6 f7
      obtain rfl := Option.some.inj ((hw r hr).symm.trans f3)
      have hsd : C.sends K r i sh m sd = .ok ((J r).sends.map fun s => (s.peer, contents L (ws r) s)) := by
        rw [hsends]
        unfold startExchange
        rw [f2]
        dsimp only
        rw [job_packs _ _ _ (done r), f4]
        dsimp only [bind, Except.bind]
        rw [e, job_sends _ _ [] (done r)]
        rfl
      have hor : ord r = orderOf (C.recvs sh).length (done r) sh := by simp only [ord]; rw [hs]; rfl
      have hrec : C.recvs sh = (J r).recvs := by rw [e]; exact job_recvs _ _ _ _ _
      have hrecv := recv_path (K := K) (u := u r) (past := past) (t := t) (sd := sd) (m := m) hC hat' (payload L jobs packed r (J r)) (hord r sh hat').1 (orderOf (C.recvs sh).length (done r) sh) [] rfl
      rw [← hor] at hrecv
      obtain ⟨w, g1, g2⟩ := arrivals_write L hL (job' := Shaper.job C.world.stride C.nb (done r) (some sh)) hpj (r := r) (jr := J r) (fun m hm => by
          have hd := hdel r _ (hJ r hr)
          unfold deliverable at hd
          simp only [Bool.and_eq_true, List.all_eq_true] at hd
          exact hd.1.1 m hm) (by rw [e]) (hperm r hr) (by
          by_cases hk : C.key i sh = none
          · exact .inr (by rw [← hrec]; exact (hord r sh hat').2 hk)
          · left
            rw [hor, ← hrec]
            cases sh with
            | p2p a b => exact absurd rfl hk
            | alltoall a b => rfl
            | alltoallv a b => rfl
            | transpose p => rfl) (by rw [e]; exact f5)
      have hend : C.ends K r i sh m sd ((ord r).map fun j => (j, payload L jobs packed r (J r) j)) = .ok m' := by
        rw [hends]
        unfold endExchange
        have e1 : ((ord r).map fun j => (j, payload L jobs packed r (J r) j)).map (·.1) = ord r := by rw [List.map_map]; exact List.map_id _
        rw [e1, f2]
        dsimp only
        rw [hor, job_order, ← hor, f4]
        dsimp only [bind, Except.bind]
        rw [g1]
        dsimp only
        rw [g2]
        dsimp only
        rw [f6]
        dsimp only
        rw [f7]
        dsimp only
        cases sh with
        | p2p a b =>
          dsimp only at f8 ⊢
          obtain rfl := Except.ok.inj f8
          exact f9
        | alltoall a b =>
          dsimp only at f8 ⊢
          obtain rfl := Except.ok.inj f8
          exact f9
        | alltoallv a b =>
          dsimp only at f8 ⊢
          obtain rfl := Except.ok.inj f8
          exact f9
        | transpose p =>
          dsimp only at f8 ⊢
          rw [f8]
          exact f9
      refine ⟨_, _, ((by rw [hloc]; exact advance_path hC f1 : Path (ownNext K allow calls r) (st.loc r) silence silence _).trans (send_path hC hat' hsd)).cast
        (fun _ _ => rfl) (fun k d => ?_), (hrecv.trans (end_path hC hat' (by rw [List.length_map, hrec]; simpa using (hperm r hr).length_eq) hend)).cast
        (fun k s => ?_) (fun _ _ => rfl), fun x hx2 => ?_⟩
      · simp only [silence, List.nil_append, outgoing, outs, hkey r sh hat']
        split
        · rw [List.filter_map, List.map_map]
          rfl
        · rfl
      · simp only [silence, List.append_nil, ins, hkey r sh hat', hrec]
      · obtain rfl := Option.some.inj (hx'.symm.trans hx2)
        exact ⟨_, rfl⟩
  haveI : Nonempty (OwnRank υ α β) := ⟨st.loc 0⟩
  choose! y z p1 p2 p3 using hpaths
  obtain ⟨j, st', r1, r2, r3⟩ := two_phases p1 p2 (fun r hr s hs k => by
      simp only [ins, outs]
      split
      · exact taken_eq L hpj hdel (hJ r hr) (hJ s hs) (hw s hs) (hperm r hr)
      · rfl)
    (fun r hr s hs k => by
      simp only [ins]
      split
      · unfold takenFrom
        rw [List.map_eq_nil_iff, List.filter_eq_nil_iff]
        intro j hj
        have := hpeer r hr j hj
        simp only [decide_eq_true_eq]
        omega
      · rfl)
    (fun s hs d hd k => by
      simp only [outs]
      split
      · rw [List.map_eq_nil_iff, List.filter_eq_nil_iff]
        intro m hm hmd
        have hmd := of_decide_eq_true hmd
        have hds := hdel s _ (hJ s hs)
        unfold deliverable at hds
        simp only [Bool.and_eq_true, List.all_eq_true] at hds
        have := hds.1.2 m hm
        rw [hmd, List.getElem?_eq_none (by change jobs.length ≤ d; omega)] at this
        cases this
      · rfl)
    (st := st) (fun _ _ => rfl) hc
  refine ⟨j, st', r1, fun r x hx => ?_, r3⟩
  have hr : r < n := by
    have := (List.getElem?_eq_some_iff.1 hx).1
    omega
  rw [r2 r hr]
  exact p3 r hr x hx

end
end Verif
