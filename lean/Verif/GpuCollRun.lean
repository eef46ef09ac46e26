import Verif.GpuColl

/-!
# The result of a collective reshape on devices
-/

namespace Verif
variable {α : Type} {n nb : Nat} {I O : Nat → Box} {W : Nat → Int} {link : Nat → Nat → Prop}
  {S R e : Nat → Nat → Int} {mid : Nat → Int} {c : Coll}

/-- The moves of the operations `f r` of all ranks. -/
def allRanks (c : Coll) (n : Nat) (f : Nat → CollOp) : List (Loc × Loc) := (List.range n).flatMap fun r => collMoves c (f r)

theorem mem_allRanks {f : Nat → CollOp} {x : Loc × Loc} : x ∈ allRanks c n f ↔ ∃ r, r < n ∧ x ∈ collMoves c (f r) := by
  simp [allRanks]

/-- All the transfers of MPI. -/
def allTransfers (c : Coll) (n : Nat) : List (Loc × Loc) :=
  (List.range n).flatMap fun s => (List.range n).flatMap fun r => collMoves c (.xf s r)

theorem runAtoms_collOps (c : Coll) (pre : Nat → List (Atom α)) (n : Nat) (m : Store α) :
    runAtoms ((collOps n).flatMap (collAct c pre)) m =
      runMoves (allRanks c n .un) (runMoves (allRanks c n .ld) (runMoves (allTransfers c n) (runMoves (allRanks c n .ul)
        (runMoves (allRanks c n .pk) (runAtoms ((List.range n).flatMap pre) m))))) := by
  have hf : ∀ (f : Nat → CollOp), (∀ r, collAct c pre (f r) = (collMoves c (f r)).map fun x => Atom.move x.1 x.2) →
      ((List.range n).map f).flatMap (collAct c pre) = (allRanks c n f).map fun x => Atom.move x.1 x.2 := by
    intro f h
    rw [List.flatMap_map, allRanks, List.map_flatMap]
    congr 1
    funext r
    exact h r
  have hx : ((List.range n).flatMap fun s => (List.range n).map (CollOp.xf s)).flatMap (collAct c pre) =
      (allTransfers c n).map fun x => Atom.move x.1 x.2 := by
    rw [List.flatMap_assoc, allTransfers, List.map_flatMap]
    congr 1
    funext s
    rw [List.flatMap_map, List.map_flatMap]
    rfl
  have hp : ((List.range n).map CollOp.pre).flatMap (collAct c pre) = (List.range n).flatMap pre := by
    rw [List.flatMap_map]
    rfl
  unfold collOps
  simp only [List.flatMap_append, runAtoms_append]
  rw [hf .pk (fun _ => rfl), hf .ul (fun _ => rfl), hf .ld (fun _ => rfl), hf .un (fun _ => rfl), hx, hp]
  rfl

theorem Coll.from_ne (c : Coll) : c.from = .ws ∨ c.from = .hs := by
  unfold Coll.from
  split <;> simp

/-- The buffers that are not `src` and `dst`. -/
def DevBuf.inner : DevBuf → Bool
  | .ws | .hs | .hr => true
  | _ => false

theorem CollOk.inner (h : CollOk n nb I O W link S R e mid c) {o : CollOp} (ho : o ∈ collOps n) (hu : ∀ r, o ≠ .un r)
    {x : Loc × Loc} (hx : x ∈ collMoves c o) : ∃ r b a, x.1 = .mem r b a ∧ b.inner = true := by
  cases o with
  | pre q => simp [collMoves] at hx
  | pk q =>
    obtain ⟨a, b, -, rfl⟩ := mem_onRank.1 hx
    exact ⟨_, _, _, rfl, rfl⟩
  | ul q =>
    simp only [collMoves] at hx
    split at hx
    · simp at hx
    · obtain ⟨t, -, rfl⟩ := mem_transfer.1 hx
      exact ⟨_, _, _, rfl, rfl⟩
  | xf s q =>
    have hq : q < n := by
      rcases mem_collOps ho with ⟨r, -, h1⟩ | ⟨s', r, -, hr, h1⟩
      · simp [CollOp.rank?] at h1
      · simp only [CollOp.xf.injEq] at h1
        omega
    obtain ⟨-, t, -, rfl⟩ := (h.xf hq x).1 hx
    dsimp only
    unfold Coll.into
    split
    · exact ⟨_, _, _, rfl, rfl⟩
    · exact ⟨_, _, _, rfl, rfl⟩
  | ld q =>
    simp only [collMoves] at hx
    split at hx
    · simp at hx
    · obtain ⟨t, -, rfl⟩ := mem_transfer.1 hx
      exact ⟨_, _, _, rfl, rfl⟩
  | un q => exact absurd rfl (hu q)

theorem mem_allTransfers {x : Loc × Loc} : x ∈ allTransfers c n ↔ ∃ s r, s < n ∧ r < n ∧ x ∈ collMoves c (.xf s r) := by
  simp only [allTransfers, List.mem_flatMap, List.mem_range]
  constructor
  · rintro ⟨s, hs, r, hr, hx⟩; exact ⟨s, r, hs, hr, hx⟩
  · rintro ⟨s, r, hs, hr, hx⟩; exact ⟨s, hs, r, hr, hx⟩

theorem Coll.out_inner (c : Coll) (r : Nat) : (c.out r).inner = false := by
  unfold Coll.out
  split <;> rfl

/-- After packing. -/
theorem CollOk.packed (h : CollOk n nb I O W link S R e mid c) (m : Store α) {s r j : Nat} {p : A3 Int} (hl : link s r)
    (hj : j < nb) (hI : p ∈ I s) (hO : p ∈ O r) :
    runMoves (allRanks c n .pk) m (.mem s .ws (S s r + j * e s r + msgOff (I s) (O r) p)) =
      m (.mem s .src (j * (I s).count + (I s).offset p)) := by
  have hch : ∀ x ∈ allRanks c n .pk, ∃ s r j p, s < n ∧ link s r ∧ j < nb ∧ p ∈ I s ∧ p ∈ O r ∧
      x = (Loc.mem s .ws (S s r + j * e s r + msgOff (I s) (O r) p), Loc.mem s .src (j * (I s).count + (I s).offset p)) := by
    intro x hx
    obtain ⟨s, hs, hx⟩ := mem_allRanks.1 hx
    obtain ⟨a, b, hm, rfl⟩ := mem_onRank.1 hx
    obtain ⟨job, hjob⟩ := h.good.job_exists hs
    rw [Coll.job_eq hjob] at hm
    obtain ⟨r, j, p, h1, h2, h3, h4, h5⟩ := (h.good.packs s job hjob _).1 hm
    simp only [Prod.mk.injEq] at h5
    exact ⟨s, r, j, p, hs, h1, h2, h3, h4, by rw [h5.1, h5.2]⟩
  have hs := (h.good.linkLt s r hl).1
  have hmem : (Loc.mem s .ws (S s r + j * e s r + msgOff (I s) (O r) p), Loc.mem s .src (j * (I s).count + (I s).offset p)) ∈
      allRanks c n .pk := by
    obtain ⟨job, hjob⟩ := h.good.job_exists hs
    refine mem_allRanks.2 ⟨s, hs, mem_onRank.2 ⟨_, _, ?_, rfl⟩⟩
    rw [Coll.job_eq hjob]
    exact (h.good.packs s job hjob _).2 ⟨r, j, p, hl, hj, hI, hO, rfl⟩
  refine runMoves_ok _ m ?_ ?_ _ hmem
  · intro x hx y hy
    obtain ⟨s, r, j, p, -, -, -, -, -, rfl⟩ := hch x hx
    obtain ⟨s', r', j', p', -, -, -, -, -, rfl⟩ := hch y hy
    simp
  · intro x hx y hy heq
    obtain ⟨s, r, j, p, hs, hl, hjb, hpI, hpO, rfl⟩ := hch x hx
    obtain ⟨s', r', j', p', hs', hl', hjb', hpI', hpO', rfl⟩ := hch y hy
    simp only [Loc.mem.injEq, true_and] at heq
    obtain ⟨rfl, heq⟩ := heq
    have hr := msgOff_range (h.ordI s hs) hpI hpO
    have hr' := msgOff_range (h.ordI s hs) hpI' hpO'
    have h4 := h.good.stride s r (.inl hl)
    have h4' := h.good.stride s r' (.inl hl')
    have h6 := entry_range (nb := nb) h4 hr hjb
    have h6' := entry_range (nb := nb) h4' hr' hjb'
    by_cases hrr : r = r'
    · subst hrr
      obtain ⟨hjj, hoff⟩ := entry_inj h4 hr hr' heq hjb
      have := msgOff_inj (h.ordI s hs) hpI hpO hpI' hpO' hoff
      rw [hjj, this]
    · have := h.good.sendApart s r r' hl hl' hrr
      omega

/-- After `unload`. -/
theorem CollOk.unloaded (h : CollOk n nb I O W link S R e mid c) (m : Store α) {s r : Nat} (hl : link s r) {t : Int}
    (ht : 0 ≤ t ∧ t < nb * e s r) :
    runMoves (allRanks c n .ul) m (.mem s c.from (S s r + t)) = m (.mem s .ws (S s r + t)) := by
  have hs := (h.good.linkLt s r hl).1
  have hin := h.good.sendIn s r hl
  cases hc : c.transport with
  | aware =>
    have : allRanks c n .ul = [] := by simp [allRanks, collMoves, hc]
    rw [this]
    simp [Coll.from, hc, runMoves, runAtoms]
  | staged w =>
    have hch : ∀ x ∈ allRanks c n .ul, ∃ s t, x = (Loc.mem s .hs (0 + t), Loc.mem s .ws (0 + t)) := by
      intro x hx
      obtain ⟨s, hs, hx⟩ := mem_allRanks.1 hx
      simp only [collMoves, hc] at hx
      obtain ⟨t, -, rfl⟩ := mem_transfer.1 hx
      exact ⟨s, t, rfl⟩
    have hmem : (Loc.mem s .hs (0 + (S s r + t)), Loc.mem s .ws (0 + (S s r + t))) ∈ allRanks c n .ul := by
      refine mem_allRanks.2 ⟨s, hs, ?_⟩
      simp only [collMoves, hc]
      refine mem_transfer.2 ⟨S s r + t, ?_, rfl⟩
      rw [h.sendLen s hs (h.active s r hl).1]
      omega
    have := runMoves_ok _ m ?_ ?_ _ hmem
    · simp only [zero_add] at this
      simp only [Coll.from, hc]
      exact this
    · intro x hx y hy
      obtain ⟨s, t, rfl⟩ := hch x hx
      obtain ⟨s', t', rfl⟩ := hch y hy
      simp
    · intro x hx y hy heq
      obtain ⟨s, t, rfl⟩ := hch x hx
      obtain ⟨s', t', rfl⟩ := hch y hy
      simp only [Loc.mem.injEq, true_and] at heq
      simp only [Loc.mem.injEq, true_and]
      exact heq

/-- After the call of MPI. -/
theorem CollOk.transferred (h : CollOk n nb I O W link S R e mid c) (m : Store α) {s r : Nat} (hl : link s r) {t : Int}
    (ht : 0 ≤ t ∧ t < nb * e s r) :
    runMoves (allTransfers c n) m (c.into r (R r s + t)) = m (.mem s c.from (S s r + t)) := by
  obtain ⟨hs, hr⟩ := h.good.linkLt s r hl
  have hmem : (c.into r (R r s + t), Loc.mem s c.from (S s r + t)) ∈ allTransfers c n :=
    mem_allTransfers.2 ⟨s, r, hs, hr, (h.xf hr _).2 ⟨hl, t, ht, rfl⟩⟩
  refine runMoves_ok _ m ?_ ?_ _ hmem
  · intro x hx y hy
    obtain ⟨s, r, hs, hr, hx⟩ := mem_allTransfers.1 hx
    obtain ⟨s', r', hs', hr', hy⟩ := mem_allTransfers.1 hy
    by_cases hne : s = s' ∧ r = r'
    · obtain ⟨rfl, rfl⟩ := hne
      obtain ⟨hl, t, ht, rfl⟩ := (h.xf hr x).1 hx
      obtain ⟨hl', t', ht', rfl⟩ := (h.xf hr y).1 hy
      have hA := h.good.recvIn s r (.inl hl)
      have hB := h.good.sendIn s r hl
      cases hc : c.transport with
      | aware =>
        simp only [Coll.into, Coll.from, hc, ne_eq, Loc.mem.injEq, true_and]
        rintro ⟨rfl, h2⟩
        omega
      | staged w => simp [Coll.into, Coll.from, hc]
    · exact (h.xf_xf hr hr' hne x hx y hy).2.1
  · intro x hx y hy heq
    obtain ⟨s, r, hs, hr, hx⟩ := mem_allTransfers.1 hx
    obtain ⟨s', r', hs', hr', hy⟩ := mem_allTransfers.1 hy
    by_cases hne : s = s' ∧ r = r'
    · obtain ⟨rfl, rfl⟩ := hne
      obtain ⟨hl, t, ht, rfl⟩ := (h.xf hr x).1 hx
      obtain ⟨hl', t', ht', rfl⟩ := (h.xf hr y).1 hy
      have : t = t' := by
        dsimp only at heq
        cases hc : c.transport <;> simp only [Coll.into, hc, Loc.mem.injEq, true_and] at heq <;> omega
      rw [this]
    · exact absurd heq (h.xf_xf hr hr' hne x hx y hy).1

/-- After `load`. -/
theorem CollOk.loaded (h : CollOk n nb I O W link S R e mid c) (m : Store α) {s r : Nat} (hl : link s r) {t : Int}
    (ht : 0 ≤ t ∧ t < nb * e s r) :
    runMoves (allRanks c n .ld) m (.mem r .ws (R r s + t)) = m (c.into r (R r s + t)) := by
  have hr := (h.good.linkLt s r hl).2
  have hin := h.good.recvIn s r (.inl hl)
  cases hc : c.transport with
  | aware =>
    have : allRanks c n .ld = [] := by simp [allRanks, collMoves, hc]
    rw [this]
    simp [Coll.into, hc, runMoves, runAtoms]
  | staged w =>
    have hch : ∀ x ∈ allRanks c n .ld, ∃ r t, x = (Loc.mem r .ws ((c.staging r).base + t), Loc.mem r .hr (0 + t)) := by
      intro x hx
      obtain ⟨s, hs, hx⟩ := mem_allRanks.1 hx
      simp only [collMoves, hc] at hx
      obtain ⟨t, -, rfl⟩ := mem_transfer.1 hx
      exact ⟨s, t, rfl⟩
    have hb := h.base r hr (h.active s r hl).2
    have hmem : (Loc.mem r .ws ((c.staging r).base + (R r s + t - (c.staging r).base)),
        Loc.mem r .hr (0 + (R r s + t - (c.staging r).base))) ∈ allRanks c n .ld := by
      refine mem_allRanks.2 ⟨r, hr, ?_⟩
      simp only [collMoves, hc]
      refine mem_transfer.2 ⟨_, ?_, rfl⟩
      rw [h.recvLen r hr (h.active s r hl).2, hb]
      omega
    have := runMoves_ok _ m ?_ ?_ _ hmem
    · simp only [zero_add, add_sub_cancel] at this
      simp only [Coll.into, hc]
      exact this
    · intro x hx y hy
      obtain ⟨s, t, rfl⟩ := hch x hx
      obtain ⟨s', t', rfl⟩ := hch y hy
      simp
    · intro x hx y hy heq
      obtain ⟨s, t, rfl⟩ := hch x hx
      obtain ⟨s', t', rfl⟩ := hch y hy
      simp only [Loc.mem.injEq, true_and] at heq
      obtain ⟨rfl, h2⟩ := heq
      have : t = t' := by omega
      rw [this]

/-- The moves of the unpacking. -/
theorem CollOk.unpacks (h : CollOk n nb I O W link S R e mid c) (x : Loc × Loc) : x ∈ allRanks c n .un ↔
    ∃ (s r j : Nat) (p : A3 Int), s < n ∧ r < n ∧ j < nb ∧ p ∈ I s ∧ p ∈ O r ∧
      x = (Loc.mem r (c.out r) (j * (O r).count + (O r).offset p), Loc.mem r .ws (R r s + j * e s r + msgOff (I s) (O r) p)) := by
  constructor
  · intro hx
    obtain ⟨r, hr, hx⟩ := mem_allRanks.1 hx
    obtain ⟨a, b, hm, rfl⟩ := mem_onRank.1 hx
    obtain ⟨job, hjob⟩ := h.good.job_exists hr
    rw [Coll.job_eq hjob] at hm
    obtain ⟨s, j, p, h1, h2, h3, h4, h5⟩ := (h.good.unpacks r job hjob _).1 hm
    simp only [Prod.mk.injEq] at h5
    exact ⟨s, r, j, p, h1, hr, h2, h3, h4, by rw [h5.1, h5.2]⟩
  · rintro ⟨s, r, j, p, h1, hr, h2, h3, h4, rfl⟩
    obtain ⟨job, hjob⟩ := h.good.job_exists hr
    refine mem_allRanks.2 ⟨r, hr, mem_onRank.2 ⟨_, _, ?_, rfl⟩⟩
    rw [Coll.job_eq hjob]
    exact (h.good.unpacks r job hjob _).2 ⟨s, j, p, h1, h2, h3, h4, rfl⟩

/-- The result of the reshape from the contents `m0` of the memory: the values of the indexes, and what stays. -/
structure Moved (n nb : Nat) (I O : Nat → Box) (inplace : Nat → Bool) (m0 m : Store α) : Prop where
  values : ∀ s r, s < n → r < n → ∀ (j : Nat) (p : A3 Int), j < nb → p ∈ I s → p ∈ O r →
      m (.mem r (if inplace r then .src else .dst) (j * (O r).count + (O r).offset p)) =
        m0 (.mem s .src (j * (I s).count + (I s).offset p))
  beyond : ∀ r a, (¬ (0 ≤ a ∧ a < nb * (O r).count)) → m (.mem r (if inplace r then .src else .dst) a) =
    m0 (.mem r (if inplace r then .src else .dst) a)
  source : ∀ r a, inplace r = false → m (.mem r .src a) = m0 (.mem r .src a)

/-- The values after a collective reshape, and the cells that it leaves alone. -/
theorem CollOk.result (h : CollOk n nb I O W link S R e mid c) (m0 : Store α) :
    Moved n nb I O c.inplace m0
      (runMoves (allRanks c n .un) (runMoves (allRanks c n .ld) (runMoves (allTransfers c n) (runMoves (allRanks c n .ul)
        (runMoves (allRanks c n .pk) m0))))) := by
  have hin : ∀ (f : Nat → CollOp), (∀ r, r < n → f r ∈ collOps n) → (∀ r q, f r ≠ .un q) → ∀ x ∈ allRanks c n f,
      ∃ r b a, x.1 = .mem r b a ∧ b.inner = true := by
    intro f hf hu x hx
    obtain ⟨r, hr, hx⟩ := mem_allRanks.1 hx
    exact h.inner (hf r hr) (hu r) hx
  have hfr : ∀ (L : List (Loc × Loc)), (∀ x ∈ L, ∃ r b a, x.1 = .mem r b a ∧ b.inner = true) → ∀ (m : Store α) r b a,
      b.inner = false → runMoves L m (.mem r b a) = m (.mem r b a) := by
    intro L hL m r b a hb
    apply runMoves_frame
    intro x hx heq
    obtain ⟨r', b', a', h1, h2⟩ := hL x hx
    rw [h1] at heq
    simp only [Loc.mem.injEq] at heq
    rw [heq.2.1, hb] at h2
    exact absurd h2 (by simp)
  have hA : ∀ (m : Store α) r b a, b.inner = false →
      runMoves (allRanks c n .ld) (runMoves (allTransfers c n) (runMoves (allRanks c n .ul) (runMoves (allRanks c n .pk) m)))
        (.mem r b a) = m (.mem r b a) := by
    intro m r b a hb
    rw [hfr _ (hin .ld (fun r hr => by simp [collOps, hr]) (by simp)) _ r b a hb, hfr _ ?_ _ r b a hb,
      hfr _ (hin .ul (fun r hr => by simp [collOps, hr]) (by simp)) _ r b a hb,
      hfr _ (hin .pk (fun r hr => by simp [collOps, hr]) (by simp)) _ r b a hb]
    intro x hx
    obtain ⟨s, r, hs, hr, hx⟩ := mem_allTransfers.1 hx
    exact h.inner (by simp [collOps, hs, hr]) (by simp) hx
  refine ⟨?_, ?_, ?_⟩
  · intro s r hs hr j p hj hI hO
    have hl : link s r := (h.good.cover s r hs hr (msgCount_pos hI hO)).resolve_right (fun x => x.2)
    have hro := msgOff_range (h.ordI s hs) hI hO
    have h6 := entry_range (nb := nb) (h.good.stride s r (.inl hl)) hro hj
    have hmem := (h.unpacks _).2 ⟨s, r, j, p, hs, hr, hj, hI, hO, rfl⟩
    have := runMoves_ok (allRanks c n .un) (runMoves (allRanks c n .ld) (runMoves (allTransfers c n)
      (runMoves (allRanks c n .ul) (runMoves (allRanks c n .pk) m0)))) ?_ ?_ _ hmem
    · dsimp only at this
      refine this.trans ?_
      rw [add_assoc, h.loaded _ hl h6, h.transferred _ hl h6, h.unloaded _ hl h6, ← add_assoc, h.packed _ hl hj hI hO]
    · intro x hx y hy heq
      obtain ⟨_, r, _, _, -, -, -, -, -, rfl⟩ := (h.unpacks x).1 hx
      obtain ⟨_, _, _, _, -, -, -, -, -, rfl⟩ := (h.unpacks y).1 hy
      simp only [Loc.mem.injEq] at heq
      have := c.out_inner r
      rw [heq.2.1] at this
      exact absurd this (by simp [DevBuf.inner])
    · intro x hx y hy heq
      obtain ⟨s, r, j, p, hs, hr, hjb, hpI, hpO, rfl⟩ := (h.unpacks x).1 hx
      obtain ⟨s', r', j', p', hs', hr', hjb', hpI', hpO', rfl⟩ := (h.unpacks y).1 hy
      simp only [Loc.mem.injEq] at heq
      obtain ⟨rfl, -, heq⟩ := heq
      have hro := Box.offset_range (h.ordO r hr) hpO
      have hro' := Box.offset_range (h.ordO r hr) hpO'
      obtain ⟨hjj, hoff⟩ := entry_inj (A := 0) (nb := nb) (e := (O r).count) le_rfl hro hro' (by linarith) hjb
      have hpp := Box.offset_inj (h.ordO r hr) hpO hpO' hoff
      subst hpp
      have := h.uniq s s' hs hs' p hpI hpI'
      rw [hjj, this]
  · intro r a ha
    have : runMoves (allRanks c n .un) (runMoves (allRanks c n .ld) (runMoves (allTransfers c n)
      (runMoves (allRanks c n .ul) (runMoves (allRanks c n .pk) m0)))) (.mem r (c.out r) a) = m0 (.mem r (c.out r) a) := by
      rw [runMoves_frame, hA _ _ _ _ (c.out_inner r)]
      intro x hx heq
      obtain ⟨s, r', j, p, hs, hr, hj, hI, hO, rfl⟩ := (h.unpacks x).1 hx
      simp only [Loc.mem.injEq] at heq
      obtain ⟨rfl, -, heq⟩ := heq
      have := mul_count_le hj (Box.offset_range (h.ordO r' hr) hO)
      omega
    exact this
  · intro r a ha
    rw [runMoves_frame, hA _ _ _ _ rfl]
    intro x hx heq
    obtain ⟨s, r', j, p, hs, hr, hj, hI, hO, rfl⟩ := (h.unpacks x).1 hx
    simp only [Loc.mem.injEq] at heq
    obtain ⟨rfl, h2, -⟩ := heq
    simp [Coll.out, ha] at h2

/-- Every execution moves every index. -/
theorem CollOk.run (h : CollOk n nb I O W link S R e mid c) (hs : c.transport.sound = true) {pre : Nat → List (Atom α)}
    (hpre : ∀ r, ∀ a ∈ pre r, a.onRank r) {l : List (CollOp × Nat)}
    (hl : Execution (Guarantee (collProg c) fun _ _ => False) CollOp.inOrder (collAct c pre) (collOps n) l) (m : Store α) :
    Moved n nb I O c.inplace (runAtoms ((List.range n).flatMap pre) m) (runSteps (collAct c pre) l m) := by
  rw [h.any_schedule hs hpre hl m, runAtoms_collOps]
  exact h.result _

end Verif
