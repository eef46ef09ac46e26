import Verif.OwnStage2

/-!
# Calls and programs at their own speed
-/

namespace Verif

section
variable {α β υ : Type}

/-- What the objects of a call must satisfy: all ranks use the same kind of messages in a reshape, and the receive buffers of messages do not
overlap. -/
def OwnCall.Sound (n : Nat) (C : OwnCall υ α β) : Prop := ∀ i, (C.fft.shapers C.fwd i).length = n ∧
  (∃ key, ∀ r sh, shaperAt (C.fft.shapers C.fwd) r i = some sh → C.key i sh = key) ∧
  ∀ r d o, shaperAt (C.fft.shapers C.fwd) r i = some (.p2p d o) → RecvsApart (C.recvs (.p2p d o))

/-- `D i r` is a possible order of the messages in the reshape number `i` of rank `r`. -/
def OwnCall.Orders (C : OwnCall υ α β) (D : Fin 4 → Nat → List Nat) : Prop := ∀ i r d o, shaperAt (C.fft.shapers C.fwd) r i = some (.p2p d o) →
  (D i r).Perm (List.range (C.recvs (.p2p d o)).length)

variable {K : Kernel α β} {calls : List (OwnCall υ α β)} {c n : Nat} {C : OwnCall υ α β} {D : Nat → Fin 4 → Nat → List Nat}

theorem orderBy_ok (hD : C.Orders (D c)) {i : Fin 4} {r : Nat} {sh : Shaper} (hsh : shaperAt (C.fft.shapers C.fwd) r i = some sh) :
    OrderOk (orderBy D c i r) (C.recvs sh).length sh (orderOf (C.recvs sh).length (D c i r) sh) := by
  cases sh with
  | p2p d o =>
    refine ⟨hD i r d o hsh, fun pre j post h => ?_⟩
    unfold orderBy
    rw [decide_eq_true_eq]
    change D c i r = _ at h
    rw [h]
    simp
  | alltoall d o => rfl
  | alltoallv d o => rfl
  | transpose p => rfl

/-- All the reshapes of a call have the lane and port of the model. -/
theorem stage_call_runs (hC : calls[c]? = some C) (hS : C.Sound n) (hD : C.Orders (D c)) {i : Fin 4} {u : Nat → υ} {sts sts' : State α β} (hl : sts.length = n)
    (h : (if C.real i then runStage K C.env (C.rport K i) i C.world.stride C.nb (D c i) (C.fft.shapers C.fwd i) sts
      else runStage K C.env (C.cport K i) i C.world.stride C.nb (D c i) (C.fft.shapers C.fwd i) sts) = .ok sts')
    {st : Net (Option (Nat × Bool × Fin 4)) (Packet α β) (OwnRank υ α β)}
    (hst : ∀ r x, sts[r]? = some x → ∃ past, st.loc r = ⟨c, u r, .busy x.1 x.2, past⟩) (hc : ∀ k s d, st.chan k s d = []) :
    sts'.length = n ∧ ∃ j st', Net.Runs n (ownNext K (orderBy D) calls) j st st' ∧
      (∀ r x, sts'[r]? = some x → ∃ past, st'.loc r = ⟨c, u r, .busy x.1 x.2, past⟩) ∧ ∀ k s d, st'.chan k s d = [] := by
  obtain ⟨hlen, ⟨key, hkey⟩, hap⟩ := hS i
  have hord : ∀ r sh, shaperAt (C.fft.shapers C.fwd) r i = some sh → OrderOk (orderBy D c i r) (C.recvs sh).length sh (orderOf (C.recvs sh).length (D c i r) sh) ∧
      (C.key i sh = none → RecvsApart (C.recvs sh)) := by
    intro r sh hsh
    refine ⟨orderBy_ok hD hsh, fun hk => ?_⟩
    cases sh with
    | p2p d o => exact hap r d o hsh
    | alltoall d o => cases hk
    | alltoallv d o => cases hk
    | transpose p => cases hk
  subst hl
  split at h
  · rename_i hr
    exact stage_runs hC realLane (fun _ => rfl) (fun r sh m sd => by unfold OwnCall.sends; rw [if_pos hr])
      (fun r sh m sd got => by unfold OwnCall.ends; rw [if_pos hr]) h hlen key hkey hord hst hc
  · rename_i hr
    exact stage_runs hC complexLane (fun _ => rfl) (fun r sh m sd => by unfold OwnCall.sends; rw [if_neg hr])
      (fun r sh m sd got => by unfold OwnCall.ends; rw [if_neg hr]) h hlen key hkey hord hst hc

/-- The parts of a call of all the ranks together. -/
theorem transform_stages {us : List (Mem α β)} {ms : List (Mem α β)} (h : transform K C.world C.mode C.fft C.fwd C.nb C.inplace us = .ok ms) :
    ∃ s0 s1 s2 s3 s4 : State α β,
      mapRes (fun r (m : Mem α β) => do .ok (← program C.mode (patternOf (shaperAt (C.fft.shapers C.fwd) r) (C.env r).execs (C.inplace r)), m)) 0 us = .ok s0 ∧
      (if C.real 0 then runStage K C.env (C.rport K 0) 0 C.world.stride C.nb (C.world.done 0) (C.fft.shapers C.fwd 0) s0
        else runStage K C.env (C.cport K 0) 0 C.world.stride C.nb (C.world.done 0) (C.fft.shapers C.fwd 0) s0) = .ok s1 ∧
      (if C.real 1 then runStage K C.env (C.rport K 1) 1 C.world.stride C.nb (C.world.done 1) (C.fft.shapers C.fwd 1) s1
        else runStage K C.env (C.cport K 1) 1 C.world.stride C.nb (C.world.done 1) (C.fft.shapers C.fwd 1) s1) = .ok s2 ∧
      (if C.real 2 then runStage K C.env (C.rport K 2) 2 C.world.stride C.nb (C.world.done 2) (C.fft.shapers C.fwd 2) s2
        else runStage K C.env (C.cport K 2) 2 C.world.stride C.nb (C.world.done 2) (C.fft.shapers C.fwd 2) s2) = .ok s3 ∧
      (if C.real 3 then runStage K C.env (C.rport K 3) 3 C.world.stride C.nb (C.world.done 3) (C.fft.shapers C.fwd 3) s3
        else runStage K C.env (C.cport K 3) 3 C.world.stride C.nb (C.world.done 3) (C.fft.shapers C.fwd 3) s3) = .ok s4 ∧
      mapRes (fun r (x : List Instr × Mem α β) => finish K (C.env r) x.1 x.2) 0 s4 = .ok ms := by
  have r1 : C.real 1 = false := by simp [OwnCall.real]
  have r2 : C.real 2 = false := by simp [OwnCall.real]
  have r0 : C.real 0 = decide (C.mode = .r2c) := by simp [OwnCall.real]
  have r3 : C.real 3 = decide (C.mode = .c2r) := by simp [OwnCall.real]
  rw [r0, r1, r2, r3]
  simp only [Bool.false_eq_true, if_false, decide_eq_true_eq]
  unfold transform at h
  simp only [bind, Except.bind] at h
  split at h
  · cases h
  rename_i s0 h0
  split at h
  · rename_i hm
    split at h
    · cases h
    rename_i s1 h1
    split at h
    · cases h
    rename_i s2 h2
    split at h
    · cases h
    rename_i s3 h3
    split at h
    · rename_i hc
      split at h
      · cases h
      rename_i s4 h4
      exact ⟨s0, s1, s2, s3, s4, h0, (if_pos hm).trans h1, h2, h3, (if_pos hc).trans h4, h⟩
    · rename_i hc
      split at h
      · cases h
      rename_i s4 h4
      exact ⟨s0, s1, s2, s3, s4, h0, (if_pos hm).trans h1, h2, h3, (if_neg hc).trans h4, h⟩
  · rename_i hm
    split at h
    · cases h
    rename_i s1 h1
    split at h
    · cases h
    rename_i s2 h2
    split at h
    · cases h
    rename_i s3 h3
    split at h
    · rename_i hc
      split at h
      · cases h
      rename_i s4 h4
      exact ⟨s0, s1, s2, s3, s4, h0, (if_neg hm).trans h1, h2, h3, (if_pos hc).trans h4, h⟩
    · rename_i hc
      split at h
      · cases h
      rename_i s4 h4
      exact ⟨s0, s1, s2, s3, s4, h0, (if_neg hm).trans h1, h2, h3, (if_neg hc).trans h4, h⟩

theorem call_runs (hC : calls[c]? = some C) (hS : C.Sound n) (hD : C.Orders (D c)) (hw : C.world.done = D c) {us us' : List υ} (hl : us.length = n)
    (h : C.together K us = .ok us') {st : Net (Option (Nat × Bool × Fin 4)) (Packet α β) (OwnRank υ α β)}
    (hst : ∀ r u, us[r]? = some u → ∃ past, st.loc r = ⟨c, u, .idle, past⟩) (hc : ∀ k s d, st.chan k s d = []) :
    us'.length = n ∧ ∃ j st', Net.Runs n (ownNext K (orderBy D) calls) j st st' ∧
      (∀ r u, us'[r]? = some u → ∃ past, st'.loc r = ⟨c + 1, u, .idle, past⟩) ∧ ∀ k s d, st'.chan k s d = [] := by
  unfold OwnCall.together at h
  simp only [bind, Except.bind] at h
  split at h
  · cases h
  rename_i ms hms
  obtain ⟨s0, s1, s2, s3, s4, h0, h1, h2, h3, h4, hms⟩ := transform_stages hms
  obtain ⟨l0, g0⟩ := mapRes_get h0
  rw [List.length_mapIdx, hl] at l0
  have hne : ∀ r, r < n → ∃ u, us[r]? = some u := fun r hr => ⟨us[r], List.getElem?_eq_getElem (by omega)⟩
  haveI : Nonempty υ := ⟨(st.loc 0).user⟩
  choose! U hU using hne
  -- the start of the call
  have p0 : ∀ r, r < n → ∃ y, Path (ownNext K (orderBy D) calls r) (st.loc r) silence silence y ∧
      ∀ x, s0[r]? = some x → ∃ past, y = ⟨c, U r, .busy x.1 x.2, past⟩ := by
    intro r hr
    obtain ⟨past, e⟩ := hst r _ (hU r hr)
    obtain ⟨x, hx, hx2⟩ := g0 r (C.args r (U r)) (by rw [List.getElem?_mapIdx, hU r hr]; rfl)
    rw [Nat.zero_add] at hx2
    simp only [bind, Except.bind] at hx2
    split at hx2
    · cases hx2
    · rename_i l hl
      obtain rfl := Except.ok.inj hx2
      refine ⟨⟨c, U r, .busy l (C.args r (U r)), past⟩, ?_, fun x' hx' => ?_⟩
      · rw [e]
        refine work_path ?_
        unfold ownNext
        dsimp only
        rw [hC]
        dsimp only
        have hl' : program C.mode (patternOf (shaperAt (C.fft.shapers C.fwd) r) (C.env r).execs (C.inplace r)) = .ok l := hl
        rw [hl']
      · obtain rfl := Option.some.inj (hx.symm.trans hx')
        exact ⟨past, rfl⟩
  haveI : Nonempty (OwnRank υ α β) := ⟨st.loc 0⟩
  choose! y0 p0 q0 using p0
  obtain ⟨j0, t0, r0, a0, b0⟩ := one_phase p0 (st := st) (fun _ _ => rfl) hc
  have lt0 : ∀ {γ : Type} {l : List γ} {r : Nat} {x : γ}, l.length = n → l[r]? = some x → r < n := fun hl hx => by
    have := (List.getElem?_eq_some_iff.1 hx).1
    omega
  -- the stages
  obtain ⟨l1, j1, t1, r1, a1, b1⟩ := stage_call_runs (K := K) (i := 0) (u := U) (st := t0) hC hS hD (by omega : s0.length = n) (sts' := s1) (by rw [← hw]; exact h1)
    (fun r x hx => by rw [a0 r (lt0 l0 hx)]; exact q0 r (lt0 l0 hx) x hx) b0
  obtain ⟨l2, j2, t2, r2, a2, b2⟩ := stage_call_runs (K := K) (i := 1) (u := U) (st := t1) hC hS hD l1 (sts' := s2) (by rw [← hw]; exact h2) a1 b1
  obtain ⟨l3, j3, t3, r3, a3, b3⟩ := stage_call_runs (K := K) (i := 2) (u := U) (st := t2) hC hS hD l2 (sts' := s3) (by rw [← hw]; exact h3) a2 b2
  obtain ⟨l4, j4, t4, r4, a4, b4⟩ := stage_call_runs (K := K) (i := 3) (u := U) (st := t3) hC hS hD l3 (sts' := s4) (by rw [← hw]; exact h4) a3 b3
  -- the end of the call
  obtain ⟨l5, g5⟩ := mapRes_get hms
  obtain ⟨l6, g6⟩ := mapRes_get h
  rw [List.length_zip] at l6
  have p6 : ∀ r, r < n → ∃ y, Path (ownNext K (orderBy D) calls r) (t4.loc r) silence silence y ∧
      ∀ u, us'[r]? = some u → ∃ past, y = ⟨c + 1, u, .idle, past⟩ := by
    intro r hr
    have hx : s4[r]? = some s4[r] := List.getElem?_eq_getElem (by omega)
    obtain ⟨past, e⟩ := a4 r _ hx
    obtain ⟨m, hm, e5⟩ := g5 r _ hx
    obtain ⟨u, hu, e6⟩ := g6 r (U r, m) (List.getElem?_zip_eq_some.2 ⟨hU r hr, hm⟩)
    rw [Nat.zero_add] at e5 e6
    refine ⟨⟨c + 1, u, .idle, past⟩, ?_, fun u' hu' => ?_⟩
    · rw [e]
      refine (finish_path hC e5).trans_silent (work_path ?_)
      unfold ownNext
      dsimp only
      rw [hC]
      dsimp only
      rw [e6]
    · obtain rfl := Option.some.inj (hu.symm.trans hu')
      exact ⟨past, rfl⟩
  choose! y6 p6 q6 using p6
  obtain ⟨j6, t6, r6, a6, b6⟩ := one_phase p6 (st := t4) (fun _ _ => rfl) b4
  have hl' : us'.length = n := by omega
  exact ⟨hl', _, t6, ((((r0.trans r1).trans r2).trans r3).trans r4).trans r6, fun r u hu => by
    rw [a6 r (lt0 hl' hu)]; exact q6 r (lt0 hl' hu) u hu, b6⟩

/-- The calls with the orders `D` of the messages. -/
def withOrders (D : Nat → Fin 4 → Nat → List Nat) (calls : List (OwnCall υ α β)) : List (OwnCall υ α β) := calls.mapIdx fun c C => C.withOrder (D c)

/-- Ranks at their own speed do not look at the orders that are given. -/
theorem ownNext_withOrders (D : Nat → Fin 4 → Nat → List Nat) (allow : Nat → Fin 4 → Nat → List Nat → Nat → Bool) :
    ownNext K allow (withOrders D calls) = ownNext K allow calls := by
  funext r x
  unfold ownNext withOrders
  rw [List.getElem?_mapIdx]
  cases calls[x.calls]? with
  | none => rfl
  | some C => rfl

/-- A program without failures is a history that ends with the same result. -/
theorem session_runs (hS : ∀ c (C : OwnCall υ α β), calls[c]? = some C → C.Sound n ∧ C.Orders (D c)) : ∀ (suf pre : List (OwnCall υ α β)), calls = pre ++ suf →
    ∀ {us us' : List υ}, us.length = n → allTogether K ((withOrders D calls).drop pre.length) us = .ok us' →
    ∀ {st : Net (Option (Nat × Bool × Fin 4)) (Packet α β) (OwnRank υ α β)},
    (∀ r u, us[r]? = some u → ∃ past, st.loc r = ⟨pre.length, u, .idle, past⟩) → (∀ k s d, st.chan k s d = []) →
    us'.length = n ∧ ∃ j st', Net.Runs n (ownNext K (orderBy D) calls) j st st' ∧
      (∀ r u, us'[r]? = some u → ∃ past, st'.loc r = ⟨calls.length, u, .idle, past⟩) ∧ ∀ k s d, st'.chan k s d = []
  | [], pre, hp, us, us', hl, h, st, hst, hc => by
    rw [List.append_nil] at hp
    subst hp
    rw [List.drop_eq_nil_of_le (by simp [withOrders])] at h
    obtain rfl := Except.ok.inj h
    exact ⟨hl, 0, st, .refl _, hst, hc⟩
  | C :: suf, pre, hp, us, us', hl, h, st, hst, hc => by
    have hget : calls[pre.length]? = some C := by rw [hp]; simp
    have hget' : (withOrders D calls)[pre.length]? = some (C.withOrder (D pre.length)) := by
      unfold withOrders
      rw [List.getElem?_mapIdx, hget]
      rfl
    rw [List.drop_eq_getElem_cons (List.getElem?_eq_some_iff.1 hget').1, (List.getElem?_eq_some_iff.1 hget').2] at h
    unfold allTogether at h
    simp only [bind, Except.bind] at h
    split at h
    · cases h
    rename_i us1 h1
    obtain ⟨s1, s2⟩ := hS _ _ hget
    obtain ⟨l1, j1, t1, r1, a1, b1⟩ := call_runs (K := K) (D := D) hget' s1 s2 rfl hl h1 hst hc
    rw [ownNext_withOrders] at r1
    obtain ⟨l2, j2, t2, r2, a2, b2⟩ := session_runs hS suf (pre ++ [C]) (by simp [hp]) l1 (by rw [List.length_append]; exact h) (st := t1)
      (by rw [List.length_append]; exact a1) b1
    exact ⟨l2, _, t2, r1.trans r2, a2, b2⟩

/-- A program of all the ranks together is a history of ranks at their own speed in which all ranks come to the end. -/
theorem together_runs (hS : ∀ c (C : OwnCall υ α β), calls[c]? = some C → C.Sound n ∧ C.Orders (D c)) (us : Nat → υ) {us' : List υ}
    (h : allTogether K (withOrders D calls) ((List.range n).map us) = .ok us') :
    us'.length = n ∧ ∃ j st', Net.Runs n (ownNext K (orderBy D) calls) j (ownStart us) st' ∧ st'.Stopped n (ownNext K (orderBy D) calls) ∧
      (∀ r u, us'[r]? = some u → (st'.loc r).calls = calls.length ∧ (st'.loc r).user = u) ∧ ∀ k s d, st'.chan k s d = [] := by
  obtain ⟨l, j, st', r, a, b⟩ := session_runs (K := K) hS calls [] rfl (us := (List.range n).map us) (us' := us') (by simp) h (st := ownStart us) (by
      intro r u hu
      have hr : r < n := by simpa using (List.getElem?_eq_some_iff.1 hu).1
      rw [List.getElem?_map, List.getElem?_range hr] at hu
      obtain rfl := Option.some.inj hu
      exact ⟨[], rfl⟩) (fun _ _ _ => rfl)
  refine ⟨l, j, st', r, fun r hr => ?_, fun r u hu => ?_, b⟩
  · obtain ⟨past, e⟩ := a r us'[r] (List.getElem?_eq_getElem (by omega))
    rw [e]
    unfold ownNext
    dsimp only
    rw [List.getElem?_eq_none (le_refl _)]
  · obtain ⟨past, e⟩ := a r u hu
    rw [e]
    exact ⟨rfl, rfl⟩

theorem le_one_of_equal {l : List Nat} (hn : l.Nodup) (h : ∀ a ∈ l, ∀ b ∈ l, a = b) : l.length ≤ 1 := by
  match l with
  | [] => simp
  | [_] => simp
  | a :: b :: t =>
    have := h a (by simp) b (by simp)
    rw [List.nodup_cons] at hn
    exact absurd (by simp [this]) hn.1

theorem orderBy_single (D : Nat → Fin 4 → Nat → List Nat) (calls : List (OwnCall υ α β)) (r : Nat) : Single (ownNext K (orderBy D) calls r) := by
  intro x key alts h
  unfold ownNext at h
  split at h
  · cases h
  · split at h
    · split at h <;> cases h
    · split at h <;> cases h
    · split at h
      · cases h
      · split at h <;> cases h
    · split at h <;> cases h
    · split at h
      · cases h
      · rename_i sh hsh
        dsimp only at h
        split at h
        · injection h with h1 h2
          rw [← h2, List.length_map]
          cases sh with
          | p2p d o =>
            unfold awaited
            dsimp only
            refine le_one_of_equal (List.nodup_range.filter _) fun a ha b hb => ?_
            rw [List.mem_filter, Bool.and_eq_true] at ha hb
            exact Option.some.inj ((of_decide_eq_true ha.2.2).symm.trans (of_decide_eq_true hb.2.2))
          | alltoall d o => simp [awaited]
          | alltoallv d o => simp [awaited]
          | transpose p => simp [awaited]
        · split at h <;> cases h

end
end Verif
