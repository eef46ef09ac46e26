import Verif.OwnSpeed

/-!
# One rank in the model `OwnSpeed`

A rank follows the operations of `Transform`: the operations up to a reshape, the messages, the operations after the last reshape.
-/

namespace Verif

/-- All results of `mapRes`. -/
theorem mapRes_get {β γ : Type} {f : Nat → β → Res γ} : ∀ {l : List β} {k : Nat} {out : List γ}, mapRes f k l = .ok out →
    out.length = l.length ∧ ∀ i b, l[i]? = some b → ∃ c, out[i]? = some c ∧ f (k + i) b = .ok c
  | [], _, _, h => by cases h; simp
  | a :: t, k, out, h => by
    unfold mapRes at h
    cases h1 : f k a with
    | error e => rw [h1] at h; cases h
    | ok c =>
      rw [h1] at h
      dsimp only at h
      cases h2 : mapRes f (k + 1) t with
      | error e => rw [h2] at h; cases h
      | ok cs =>
        rw [h2] at h
        obtain rfl := Except.ok.inj h
        obtain ⟨hl, hr⟩ := mapRes_get h2
        refine ⟨by simp [hl], fun i b hb => ?_⟩
        cases i with
        | zero =>
          simp only [List.getElem?_cons_zero, Option.some.injEq] at hb
          exact ⟨c, by simp, by rw [← hb]; exact h1⟩
        | succ i =>
          rw [List.getElem?_cons_succ] at hb
          obtain ⟨c', e1, e2⟩ := hr i b hb
          exact ⟨c', by simpa using e1, by rw [← e2]; congr 1; omega⟩

section
variable {α β γ υ : Type} {K : Kernel α β} {allow : Nat → Fin 4 → Nat → List Nat → Nat → Bool} {calls : List (OwnCall υ α β)} {r c : Nat}
  {C : OwnCall υ α β} {u : υ} {past : List (Nat × Fin 4 × List Nat)}

theorem work_path {x y : OwnRank υ α β} (h : ownNext K allow calls r x = .work y) : Path (ownNext K allow calls r) x silence silence y :=
  .one (.work h)

theorem instr_path (hC : calls[c]? = some C) {a : Instr} (ha : ∀ i s d, a ≠ .reshape i s d) {t : List Instr} {m m' : Mem α β} (h : runInstr K (C.env r) a m = .ok m') :
    Path (ownNext K allow calls r) ⟨c, u, .busy (a :: t) m, past⟩ silence silence ⟨c, u, .busy t m', past⟩ := by
  refine work_path ?_
  unfold ownNext
  dsimp only
  rw [hC]
  cases a with
  | reshape i s d => exact absurd rfl (ha i s d)
  | copy k s d => dsimp only; rw [h]
  | batch l => dsimp only; rw [h]

theorem advance_path (hC : calls[c]? = some C) {i : Fin 4} {t : List Instr} {sd : Buf × Buf} {m' : Mem α β} : ∀ {todo : List Instr} {m : Mem α β},
    advance K (C.env r) i todo m = .ok (t, sd, m') →
    Path (ownNext K allow calls r) ⟨c, u, .busy todo m, past⟩ silence silence ⟨c, u, .busy (.reshape i sd.1 sd.2 :: t) m', past⟩
  | [], m, h => by cases h
  | .reshape k s d :: l, m, h => by
    unfold advance at h
    split at h
    · rename_i e
      obtain ⟨rfl, rfl, rfl⟩ := Except.ok.inj h
      rw [e]
      exact .refl _
    · cases h
  | .copy k s d :: l, m, h => by
    unfold advance at h
    simp only [bind, Except.bind] at h
    split at h
    · cases h
    · rename_i m1 e
      exact (instr_path hC (by simp) e).trans_silent (advance_path hC h)
  | .batch k :: l, m, h => by
    unfold advance at h
    simp only [bind, Except.bind] at h
    split at h
    · cases h
    · rename_i m1 e
      exact (instr_path hC (by simp) e).trans_silent (advance_path hC h)

theorem finish_path (hC : calls[c]? = some C) {m' : Mem α β} : ∀ {todo : List Instr} {m : Mem α β}, finish K (C.env r) todo m = .ok m' →
    Path (ownNext K allow calls r) ⟨c, u, .busy todo m, past⟩ silence silence ⟨c, u, .busy [] m', past⟩
  | [], m, h => by
    obtain rfl := Except.ok.inj h
    exact .refl _
  | .reshape k s d :: l, m, h => by cases h
  | .copy k s d :: l, m, h => by
    unfold finish at h
    simp only [bind, Except.bind] at h
    split at h
    · cases h
    · rename_i m1 e
      exact (instr_path hC (by simp) e).trans_silent (finish_path hC h)
  | .batch k :: l, m, h => by
    unfold finish at h
    simp only [bind, Except.bind] at h
    split at h
    · cases h
    · rename_i m1 e
      exact (instr_path hC (by simp) e).trans_silent (finish_path hC h)

/-! ## A reshape -/

theorem send_path (hC : calls[c]? = some C) {i : Fin 4} {sh : Shaper} (hsh : shaperAt (C.fft.shapers C.fwd) r i = some sh) {t : List Instr} {sd : Buf × Buf}
    {m : Mem α β} {msgs : List (Nat × Packet α β)} (h : C.sends K r i sh m sd = .ok msgs) :
    Path (ownNext K allow calls r) ⟨c, u, .busy (.reshape i sd.1 sd.2 :: t) m, past⟩ silence (outgoing (C.key i sh) msgs) ⟨c, u, .wait t m i sd [], past⟩ := by
  refine .one (.send ?_)
  unfold ownNext
  dsimp only
  rw [hC]
  dsimp only
  rw [hsh]
  dsimp only
  rw [h]

/-- The receives of a reshape. -/
def OwnCall.recvs (C : OwnCall υ α β) (sh : Shaper) : List Msg := (Shaper.job C.world.stride C.nb [] (some sh)).recvs

/-- An order in which a rank may wait for its messages. -/
def OrderOk (allow : List Nat → Nat → Bool) (len : Nat) (sh : Shaper) (ord : List Nat) : Prop :=
  match sh with
  | .p2p _ _ => ord.Perm (List.range len) ∧ ∀ pre j post, ord = pre ++ j :: post → allow pre j = true
  | _ => ord = List.range len

theorem OrderOk.perm {allow : List Nat → Nat → Bool} {len : Nat} {sh : Shaper} {ord : List Nat} (h : OrderOk allow len sh ord) : ord.Perm (List.range len) := by
  unfold OrderOk at h
  split at h
  · exact h.1
  · rw [h]

theorem OrderOk.awaited {allow : List Nat → Nat → Bool} {recvs : List Msg} {sh : Shaper} {pre post : List Nat} {j : Nat}
    (h : OrderOk allow recvs.length sh (pre ++ j :: post)) : j ∈ awaited allow recvs pre sh := by
  have hp := h.perm
  have hj : j < recvs.length := List.mem_range.1 (hp.mem_iff.1 (by simp))
  have hn : j ∉ pre := by
    have := (hp.nodup_iff.2 List.nodup_range)
    rw [List.nodup_append] at this
    exact fun hm => this.2.2 j hm j (by simp) rfl
  cases sh with
  | p2p d o =>
    unfold OrderOk at h
    unfold Verif.awaited
    rw [List.mem_filter]
    refine ⟨List.mem_range.2 hj, ?_⟩
    rw [Bool.and_eq_true, decide_eq_true_eq]
    exact ⟨hn, h.2 pre j post rfl⟩
  | alltoall d o =>
    have h : pre ++ j :: post = List.range recvs.length := h
    have := congrArg (·[pre.length]?) h
    simp only [List.getElem?_append_right (le_refl _), Nat.sub_self, List.getElem?_cons_zero] at this
    rw [List.getElem?_range (by have := hp.length_eq; simp at this; omega)] at this
    simp [Verif.awaited, Option.some.inj this]
  | alltoallv d o =>
    have h : pre ++ j :: post = List.range recvs.length := h
    have := congrArg (·[pre.length]?) h
    simp only [List.getElem?_append_right (le_refl _), Nat.sub_self, List.getElem?_cons_zero] at this
    rw [List.getElem?_range (by have := hp.length_eq; simp at this; omega)] at this
    simp [Verif.awaited, Option.some.inj this]
  | transpose p =>
    have h : pre ++ j :: post = List.range recvs.length := h
    have := congrArg (·[pre.length]?) h
    simp only [List.getElem?_append_right (le_refl _), Nat.sub_self, List.getElem?_cons_zero] at this
    rw [List.getElem?_range (by have := hp.length_eq; simp at this; omega)] at this
    simp [Verif.awaited, Option.some.inj this]

/-- The messages from `s` among the receives `l`. -/
def takenFrom (recvs : List Msg) (p : Nat → Packet α β) (l : List Nat) (s : Nat) : List (Packet α β) :=
  (l.filter fun j => decide (((recvs[j]?).map Msg.peer).getD 0 = s)).map p

theorem recv_path (hC : calls[c]? = some C) {i : Fin 4} {sh : Shaper} (hsh : shaperAt (C.fft.shapers C.fwd) r i = some sh) {t : List Instr} {sd : Buf × Buf}
    {m : Mem α β} (p : Nat → Packet α β) {ord : List Nat} (ho : OrderOk (allow c i r) (C.recvs sh).length sh ord) : ∀ (l pre : List Nat), ord = pre ++ l →
    Path (ownNext K allow calls r) ⟨c, u, .wait t m i sd (pre.map fun j => (j, p j)), past⟩
      (fun k s => if k = C.key i sh then takenFrom (C.recvs sh) p l s else []) silence ⟨c, u, .wait t m i sd (ord.map fun j => (j, p j)), past⟩
  | [], pre, h => by
    rw [h, List.append_nil]
    exact (Path.refl _).cast (fun k s => by simp [silence, takenFrom]) (fun _ _ => rfl)
  | j :: l, pre, h => by
    have ih := recv_path (t := t) (sd := sd) (m := m) hC hsh p ho l (pre ++ [j]) (by simp [h])
    have hlen : pre.length < (C.recvs sh).length := by
      have := ho.perm.length_eq
      rw [h] at this
      simp at this
      omega
    have hf : Fire (ownNext K allow calls r) ⟨c, u, .wait t m i sd (pre.map fun j => (j, p j)), past⟩
        (incoming (C.key i sh) ((((C.recvs sh)[j]?).map Msg.peer).getD 0) (p j)) silence
        ((fun q => ⟨c, u, .wait t m i sd ((pre.map fun j => (j, p j)) ++ [(j, q)]), past⟩ : Packet α β → OwnRank υ α β) (p j)) := by
      refine Fire.recv (f := fun q => (⟨c, u, .wait t m i sd ((pre.map fun j => (j, p j)) ++ [(j, q)]), past⟩ : OwnRank υ α β))
        (alts := (awaited (allow c i r) (C.recvs sh) pre sh).map fun j =>
        ((((C.recvs sh)[j]?).map Msg.peer).getD 0, fun q => ⟨c, u, .wait t m i sd ((pre.map fun j => (j, p j)) ++ [(j, q)]), past⟩)) (p j) ?_ ?_
      · unfold ownNext
        dsimp only
        rw [hC]
        dsimp only
        rw [hsh]
        dsimp only
        rw [if_pos (by rw [List.length_map]; exact hlen)]
        have e : (pre.map fun j => (j, p j)).map (·.1) = pre := by rw [List.map_map]; exact List.map_id _
        rw [e]
        rfl
      · rw [List.mem_map]
        rw [h] at ho
        exact ⟨j, ho.awaited, rfl⟩
    have hp := Path.step hf (by simpa using ih)
    refine hp.cast (fun k s => ?_) (fun _ _ => rfl)
    unfold incoming takenFrom
    by_cases hk : k = C.key i sh
    · rw [if_pos hk]
      by_cases hs : s = (((C.recvs sh)[j]?).map Msg.peer).getD 0
      · rw [if_pos ⟨hk, hs⟩, if_pos hk, List.filter_cons_of_pos (by simp [hs])]
        rfl
      · rw [if_neg (fun h => hs h.2), if_pos hk, List.filter_cons_of_neg (by simpa using Ne.symm hs)]
        rfl
    · rw [if_neg hk, if_neg hk, if_neg (fun h => hk h.1)]
      rfl

theorem end_path (hC : calls[c]? = some C) {i : Fin 4} {sh : Shaper} (hsh : shaperAt (C.fft.shapers C.fwd) r i = some sh) {t : List Instr} {sd : Buf × Buf}
    {m m' : Mem α β} {got : List (Nat × Packet α β)} (hl : got.length = (C.recvs sh).length) (h : C.ends K r i sh m sd got = .ok m') :
    Path (ownNext K allow calls r) ⟨c, u, .wait t m i sd got, past⟩ silence silence ⟨c, u, .busy t m', past ++ [(c, i, got.map (·.1))]⟩ := by
  refine work_path ?_
  unfold ownNext
  dsimp only
  rw [hC]
  dsimp only
  rw [hsh]
  dsimp only
  rw [if_neg (by rw [hl]; exact Nat.lt_irrefl _), h]

end
end Verif
