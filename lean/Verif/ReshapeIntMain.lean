import Verif.ReshapeIntLemmas

/-!
# Machine integers: the objects and the jobs agree with the unbounded model when the sizes fit
-/

namespace Verif

theorem jmul_lt {j nb : Nat} (hj : j < nb) {x N : Int} (hx : 0 ≤ x) (h : nb * x < N) : 0 ≤ (j : Int) * x ∧ (j : Int) * x < N := by
  refine ⟨mul_nonneg (by omega) hx, ?_⟩
  have : (j : Int) * x ≤ nb * x := mul_le_mul_of_nonneg_right (by omega) hx
  omega

/-! ## alltoallv -/

section
variable {t : IndexType} {entries : List Entry} (hn : (entries.map Entry.proc).Nodup) (hp : ∀ e ∈ entries, 0 ≤ e.size)
include hn hp

theorem allToAllvPackM_eq (hf : ∀ e ∈ entries, packFits t e.plan = true) {nb : Nat} {inSize : Int} (hi : 0 ≤ inSize)
    (h1 : nb * inSize < 2 ^ 31) : ∀ (g : List Nat) (off off' : Int), 0 ≤ off' →
      off' + nb * (g.map (lookSize entries)).sum < 2 ^ 31 →
      allToAllvPackM t nb inSize entries (ioRows entries g off) off' = .ok (allToAllvPack nb inSize entries (ioRows entries g off) off')
  | [], _, _, _, _ => rfl
  | a :: l, off, off', h0, h2 => by
    rw [List.map_cons, List.sum_cons, mul_add] at h2
    have ha := lookSize_nonneg hp a
    have ht : 0 ≤ (l.map (lookSize entries)).sum := List.sum_nonneg (by
      intro x hx
      obtain ⟨q, -, rfl⟩ := List.mem_map.1 hx
      exact lookSize_nonneg hp q)
    have q1 : 0 ≤ (nb : Int) * lookSize entries a := mul_nonneg (by omega) ha
    have q2 : 0 ≤ (nb : Int) * (l.map (lookSize entries)).sum := mul_nonneg (by omega) ht
    obtain ⟨row, e1, e2, e3, e4⟩ := ioInner_eq hn a off
    have e5 : ioRows entries (a :: l) off = row :: ioRows entries l (off + lookSize entries a) := by
      simp only [ioRows, e1]
    rw [e5]
    unfold allToAllvPackM allToAllvPack
    rw [e4]
    rcases hlk : look entries a with _ | e
    · dsimp only
      exact allToAllvPackM_eq hf hi h1 l _ off' h0 (by omega)
    · have he := List.mem_of_find?_eq_some hlk
      have hls : lookSize entries a = e.size := by simp [lookSize, hlk]
      dsimp only
      rw [hls] at q1 h2
      rw [packBatches_range (hf e he) hi (hp e he) h0 h1 (by omega), res_bind]
      dsimp only
      rw [allToAllvPackM_eq hf hi h1 l _ (off' + nb * e.size) (by omega) (by omega), res_bind]

theorem allToAllvUnpackM_eq {direct : Bool} {stride : Nat} (hf : ∀ e ∈ entries, unpackFits t direct stride e.plan = true)
    {nb : Nat} {outSize base : Int} (hi : 0 ≤ outSize)
    (h1 : nb * outSize < 2 ^ 31) : ∀ (g : List Nat) (off off' : Int), 0 ≤ off' →
      off' + nb * (g.map (lookSize entries)).sum < 2 ^ 31 →
      allToAllvUnpackM t direct stride nb outSize base entries (ioRows entries g off) off' =
        .ok (allToAllvUnpack direct stride nb outSize base entries (ioRows entries g off) off')
  | [], _, _, _, _ => rfl
  | a :: l, off, off', h0, h2 => by
    rw [List.map_cons, List.sum_cons, mul_add] at h2
    have ha := lookSize_nonneg hp a
    have ht : 0 ≤ (l.map (lookSize entries)).sum := List.sum_nonneg (by
      intro x hx
      obtain ⟨q, -, rfl⟩ := List.mem_map.1 hx
      exact lookSize_nonneg hp q)
    have q1 : 0 ≤ (nb : Int) * lookSize entries a := mul_nonneg (by omega) ha
    have q2 : 0 ≤ (nb : Int) * (l.map (lookSize entries)).sum := mul_nonneg (by omega) ht
    obtain ⟨row, e1, e2, e3, e4⟩ := ioInner_eq hn a off
    have e5 : ioRows entries (a :: l) off = row :: ioRows entries l (off + lookSize entries a) := by
      simp only [ioRows, e1]
    rw [e5]
    unfold allToAllvUnpackM allToAllvUnpack
    rw [e4]
    rcases hlk : look entries a with _ | e
    · dsimp only
      exact allToAllvUnpackM_eq hf hi h1 l _ off' h0 (by omega)
    · have he := List.mem_of_find?_eq_some hlk
      have hls : lookSize entries a = e.size := by simp [lookSize, hlk]
      dsimp only
      rw [hls] at q1 h2
      rw [unpackBatches_range (hf e he) hi (hp e he) h0 h1 (by omega), res_bind]
      dsimp only
      rw [allToAllvUnpackM_eq hf hi h1 l _ (off' + nb * e.size) (by omega) (by omega), res_bind]

theorem ioRows_bounds : ∀ (g : List Nat) (off : Int), 0 ≤ off → ∀ row ∈ ioRows entries g off,
    0 ≤ row.displ ∧ 0 ≤ row.count ∧ row.displ + row.count ≤ off + (g.map (lookSize entries)).sum
  | [], _, _, row, hr => by simp [ioRows] at hr
  | a :: l, off, h0, row, hr => by
    have ha := lookSize_nonneg hp a
    have ht : 0 ≤ (l.map (lookSize entries)).sum := List.sum_nonneg (by
      intro x hx
      obtain ⟨q, -, rfl⟩ := List.mem_map.1 hx
      exact lookSize_nonneg hp q)
    obtain ⟨r0, e1, e2, e3, e4⟩ := ioInner_eq hn a off
    have e5 : ioRows entries (a :: l) off = r0 :: ioRows entries l (off + lookSize entries a) := by
      simp only [ioRows, e1]
    rw [e5] at hr
    rw [List.map_cons, List.sum_cons]
    rcases List.mem_cons.1 hr with rfl | hr
    · rw [e2, e3]
      split <;> omega
    · have := ioRows_bounds l (off + lookSize entries a) (by omega) row hr
      omega

theorem ioMsgs_eq {nb : Nat} {g : List Nat} (h : nb * (g.map (lookSize entries)).sum < 2 ^ 31) (base : Int) :
    mapRes (fun _ m => ioMsgM nb base m) 0 (g.zip (ioRows entries g 0)) =
      .ok ((g.zip (ioRows entries g 0)).map fun m => ⟨m.1, base + m.2.displ * nb, m.2.count * nb⟩) := by
  apply mapRes_map
  intro _ m hm
  obtain ⟨b1, b2, b3⟩ := ioRows_bounds hn hp g 0 (le_refl _) m.2 (List.of_mem_zip hm).2
  rw [zero_add] at b3
  have q : (m.2.displ + m.2.count) * nb ≤ (g.map (lookSize entries)).sum * nb := mul_le_mul_of_nonneg_right b3 (by omega)
  rw [add_mul] at q
  have e : (g.map (lookSize entries)).sum * (nb : Int) = nb * (g.map (lookSize entries)).sum := by ring
  rw [e] at q
  have q1 : 0 ≤ m.2.displ * (nb : Int) := mul_nonneg b1 (by omega)
  have q2 : 0 ≤ m.2.count * (nb : Int) := mul_nonneg b2 (by omega)
  unfold ioMsgM
  rw [intArith_of q1 (by omega), intArith_of q2 (by omega), res_bind, res_bind, mpiCount_of q2, res_bind]

end

theorem AllToAllv.jobM_eq {t : IndexType} {o : AllToAllv} {direct : Bool} {stride nb : Nat}
    (hs : o.send = ioRows o.packs o.group 0) (hr : o.recv = ioRows o.unpacks o.group 0)
    (hn : (o.packs.map Entry.proc).Nodup) (hn' : (o.unpacks.map Entry.proc).Nodup)
    (hp : ∀ e ∈ o.packs, 0 ≤ e.size) (hp' : ∀ e ∈ o.unpacks, 0 ≤ e.size)
    (hf : ∀ e ∈ o.packs, packFits t e.plan = true) (hf' : ∀ e ∈ o.unpacks, unpackFits t direct stride e.plan = true)
    (h0 : 0 ≤ o.inSize) (h0' : 0 ≤ o.outSize) (h1 : nb * o.inSize < 2 ^ 31) (h1' : nb * o.outSize < 2 ^ 31)
    (h2 : (o.group.map (lookSize o.packs)).sum ≤ o.inSize) (h2' : (o.group.map (lookSize o.unpacks)).sum ≤ o.outSize) :
    o.jobM t direct stride nb = .ok (o.job direct stride nb) := by
  have q : (nb : Int) * (o.group.map (lookSize o.packs)).sum ≤ nb * o.inSize := mul_le_mul_of_nonneg_left h2 (by omega)
  have q' : (nb : Int) * (o.group.map (lookSize o.unpacks)).sum ≤ nb * o.outSize := mul_le_mul_of_nonneg_left h2' (by omega)
  unfold AllToAllv.jobM AllToAllv.job
  rw [IndexType.arith_of (mul_nonneg (by omega) h0) h1, res_bind, hs, hr,
    allToAllvPackM_eq hn hp hf h0 h1 _ _ _ (le_refl _) (by omega), res_bind, ioMsgs_eq hn hp (by omega), res_bind,
    ioMsgs_eq hn' hp' (by omega), res_bind,
    allToAllvUnpackM_eq hn' hp' hf' h0' h1' _ _ _ (le_refl _) (by omega), res_bind]
  simp only [zero_add]

/-! ## alltoall -/

theorem allToAllPackM_eq {t : IndexType} {nb : Nat} {inSize E : Int} (hi : 0 ≤ inSize) (hE : 0 ≤ E)
    (h1 : nb * inSize < 2 ^ 31) : ∀ (l : List (Int × PackPlan)) (off : Int),
      (∀ e ∈ l, e.2.size 0 > 0 → packFits t e.2 = true) → 0 ≤ off → off + l.length * (nb * E) < 2 ^ 31 →
      allToAllPackM t nb inSize E l off = .ok (allToAllPack nb inSize E l off)
  | [], _, _, _, _ => rfl
  | e :: l, off, hf, h0, h2 => by
    have q : 0 ≤ (nb : Int) * E := mul_nonneg (by omega) hE
    have q2 : 0 ≤ (l.length : Int) * (nb * E) := mul_nonneg (by omega) q
    rw [List.length_cons, Nat.cast_succ, add_mul, one_mul] at h2
    have ih := allToAllPackM_eq hi hE h1 l (off + nb * E) (fun a ha => hf a (by simp [ha])) (by omega) (by omega)
    unfold allToAllPackM allToAllPack
    split
    · rename_i hc
      rw [packBatches_range (hf e (by simp) hc) hi hE h0 h1 (by omega), res_bind]
      dsimp only
      rw [ih, res_bind]
    · rw [intArith_of q (by omega), res_bind, intArith_of (by omega) (by omega), res_bind, ih]

theorem allToAllUnpackM_eq {t : IndexType} {direct : Bool} {stride nb : Nat} {outSize E base : Int} (hi : 0 ≤ outSize)
    (hE : 0 ≤ E) (h1 : nb * outSize < 2 ^ 31) : ∀ (l : List (Int × PackPlan)) (off : Int),
      (∀ e ∈ l, e.2.size 0 > 0 → unpackFits t direct stride e.2 = true) → 0 ≤ off → off + l.length * (nb * E) < 2 ^ 31 →
      allToAllUnpackM t direct stride nb outSize E base l off = .ok (allToAllUnpack direct stride nb outSize E base l off)
  | [], _, _, _, _ => rfl
  | e :: l, off, hf, h0, h2 => by
    have q : 0 ≤ (nb : Int) * E := mul_nonneg (by omega) hE
    have q2 : 0 ≤ (l.length : Int) * (nb * E) := mul_nonneg (by omega) q
    rw [List.length_cons, Nat.cast_succ, add_mul, one_mul] at h2
    have ih := allToAllUnpackM_eq (base := base) hi hE h1 l (off + nb * E) (fun a ha => hf a (by simp [ha])) (by omega)
      (by omega)
    unfold allToAllUnpackM allToAllUnpack
    split
    · rename_i hc
      rw [unpackBatches_range (hf e (by simp) hc) hi hE h0 h1 (by omega), res_bind]
      dsimp only
      rw [ih, res_bind]
    · rw [intArith_of q (by omega), res_bind, intArith_of (by omega) (by omega), res_bind, ih]

theorem AllToAll.jobM_eq {t : IndexType} {o : AllToAll} {direct : Bool} {stride nb : Nat}
    (hf : ∀ e ∈ o.packplan, e.2.size 0 > 0 → packFits t e.2 = true)
    (hf' : ∀ e ∈ o.unpackplan, e.2.size 0 > 0 → unpackFits t direct stride e.2 = true)
    (h0 : 0 ≤ o.inSize) (h0' : 0 ≤ o.outSize) (hE : 0 ≤ o.numEntries) (h1 : nb * o.inSize < 2 ^ 31)
    (h1' : nb * o.outSize < 2 ^ 31) (hl : o.unpackplan.length = o.packplan.length) (hE1 : nb * o.numEntries < 2 ^ 31)
    (h2 : nb * o.numEntries * o.packplan.length < 2 ^ 31) :
    o.jobM t direct stride nb = .ok (o.job direct stride nb) := by
  have q : 0 ≤ (nb : Int) * o.numEntries := mul_nonneg (by omega) hE
  have q2 : 0 ≤ (nb : Int) * o.numEntries * o.packplan.length := mul_nonneg q (by omega)
  have e : (o.packplan.length : Int) * (nb * o.numEntries) = nb * o.numEntries * o.packplan.length := by ring
  unfold AllToAll.jobM AllToAll.job
  rw [intArith_of q hE1, res_bind]
  dsimp only
  rw [toSize_of q (by omega), toSize_of q2 (by omega), allToAllPackM_eq h0 hE h1 _ _ hf (le_refl _) (by rw [e]; omega),
    res_bind, mpiCount_of q, res_bind,
    allToAllUnpackM_eq h0' hE h1' _ _ hf' (le_refl _) (by rw [hl, e]; omega), res_bind]

/-! ## Point-to-point -/

theorem recvLocs_bounds : ∀ (l : List Int) (s : Int), (∀ x ∈ l, 0 ≤ x) → ∀ y ∈ recvLocs l s, s ≤ y ∧ y ≤ s + l.sum
  | [], s, _, y, hy => by simp [recvLocs] at hy; simp [hy]
  | [x], s, hp, y, hy => by
    have := hp x (by simp)
    simp only [recvLocs, List.mem_singleton] at hy
    simp only [List.sum_cons, List.sum_nil]
    omega
  | x :: z :: l, s, hp, y, hy => by
    have hx := hp x (by simp)
    have hs : 0 ≤ (z :: l).sum := List.sum_nonneg (fun a ha => hp a (by simp only [List.mem_cons] at ha ⊢; exact .inr ha))
    have e : recvLocs (x :: z :: l) s = s :: recvLocs (z :: l) (s + x) := rfl
    rw [e] at hy
    rw [List.sum_cons]
    rcases List.mem_cons.1 hy with rfl | hy
    · omega
    · have := recvLocs_bounds (z :: l) (s + x) (fun a ha => hp a (by simp only [List.mem_cons] at ha ⊢; exact .inr ha)) y hy
      omega

theorem p2pBatches_eq {t : IndexType} {inSize : Int} {e : Entry} {nb : Nat} (hi : 0 ≤ inSize) (h1 : nb * inSize < 2 ^ 31)
    (hp : 0 ≤ e.size) (h2 : nb * e.size < 2 ^ 31) (hf : packFits t e.plan = true) (buf : Int) :
    mapRes (fun _ j => p2pBatchM t inSize e buf j) 0 (List.range nb) =
      .ok ((List.range nb).map fun j : Nat => packMoves e.plan (j * inSize + e.offset) (buf + j * e.size)) := by
  apply mapRes_map
  intro _ j hj
  rw [List.mem_range] at hj
  have a1 := jmul_lt hj hi h1
  have a2 := jmul_lt hj hp h2
  unfold p2pBatchM
  rw [IndexType.arith_of a1.1 a1.2, res_bind, intArith_of a2.1 a2.2, res_bind, packM_ok hf]

theorem p2pUnbatches_eq {t : IndexType} {direct : Bool} {stride : Nat} {outSize size : Int} {plan : PackPlan} {nb : Nat}
    (hi : 0 ≤ outSize) (h1 : nb * outSize < 2 ^ 31) (hp : 0 ≤ size) (h2 : nb * size < 2 ^ 31)
    (hf : unpackFits t direct stride plan = true) (offset buf : Int) :
    mapRes (fun _ j => p2pUnbatchM t direct stride outSize size plan offset buf j) 0 (List.range nb) =
      .ok ((List.range nb).map fun j : Nat => unpackWith direct stride plan (buf + j * size) (j * outSize + offset)) := by
  apply mapRes_map
  intro _ j hj
  rw [List.mem_range] at hj
  have a1 := jmul_lt hj hi h1
  have a2 := jmul_lt hj hp h2
  unfold p2pUnbatchM
  rw [intArith_of a2.1 a2.2, res_bind, IndexType.arith_of a1.1 a1.2, res_bind, unpackM_ok hf]

theorem p2pSendM_eq {t : IndexType} {nb : Nat} {inSize : Int} (hi : 0 ≤ inSize) (h1 : nb * inSize < 2 ^ 31) :
    ∀ (l : List Entry) (off : Int), (∀ e ∈ l, 0 ≤ e.size) → (∀ e ∈ l, packFits t e.plan = true) → 0 ≤ off →
      off + nb * (l.map Entry.size).sum < 2 ^ 31 →
      p2pSendM t nb inSize l off = .ok (p2pPack nb inSize l off, p2pSends nb l off)
  | [], _, _, _, _, _ => rfl
  | e :: l, off, hp, hf, h0, h2 => by
    rw [List.map_cons, List.sum_cons, mul_add] at h2
    have he := hp e (by simp)
    have ht : 0 ≤ (l.map Entry.size).sum := List.sum_nonneg (by
      intro x hx
      obtain ⟨q, hq, rfl⟩ := List.mem_map.1 hx
      exact hp q (by simp [hq]))
    have q1 : 0 ≤ (nb : Int) * e.size := mul_nonneg (by omega) he
    have q2 : 0 ≤ (nb : Int) * (l.map Entry.size).sum := mul_nonneg (by omega) ht
    unfold p2pSendM p2pPack p2pSends
    rw [p2pBatches_eq hi h1 he (by omega) (hf e (by simp)), res_bind, intArith_of q1 (by omega), res_bind, mpiCount_of q1,
      res_bind, toSize_of (by omega) (by omega),
      p2pSendM_eq hi h1 l (off + nb * e.size) (fun a ha => hp a (by simp [ha])) (fun a ha => hf a (by simp [ha])) (by omega)
        (by omega), res_bind, List.flatMap_def]

theorem dropSelf_mem {b : Bool} {l : List Entry} {e : Entry} (h : e ∈ dropSelf b l) : e ∈ l := by
  unfold dropSelf at h
  split at h
  · exact List.dropLast_subset _ h
  · exact h

theorem dropSelf_sum {b : Bool} {l : List Entry} (hp : ∀ e ∈ l, 0 ≤ e.size) :
    ((dropSelf b l).map Entry.size).sum ≤ (l.map Entry.size).sum := by
  unfold dropSelf
  split
  · rcases List.eq_nil_or_concat l with rfl | ⟨l', e, rfl⟩
    · simp
    · have := hp e (by simp)
      simp [this]
  · exact le_refl _

theorem size_le_sum {l : List Entry} (hp : ∀ e ∈ l, 0 ≤ e.size) {e : Entry} (he : e ∈ l) : e.size ≤ (l.map Entry.size).sum :=
  List.single_le_sum (by
    intro x hx
    obtain ⟨a, ha, rfl⟩ := List.mem_map.1 hx
    exact hp a ha) _ (List.mem_map_of_mem he)

theorem PointToPoint.jobM_eq {t : IndexType} {o : PointToPoint} {direct : Bool} {stride nb : Nat} (done : List Nat)
    (hloc : o.recvLoc = recvLocs (o.unpacks.map Entry.size) 0)
    (hp : ∀ e ∈ o.packs, 0 ≤ e.size) (hp' : ∀ e ∈ o.unpacks, 0 ≤ e.size)
    (hf : ∀ e ∈ o.packs, packFits t e.plan = true) (hf' : ∀ e ∈ o.unpacks, unpackFits t direct stride e.plan = true)
    (h0 : 0 ≤ o.inSize) (h0' : 0 ≤ o.outSize) (h1 : nb * o.inSize < 2 ^ 31) (h1' : nb * o.outSize < 2 ^ 31)
    (h2 : (o.packs.map Entry.size).sum ≤ o.inSize) (h2' : (o.unpacks.map Entry.size).sum ≤ o.outSize) :
    o.jobM t direct stride nb done = .ok (o.job direct stride nb done) := by
  have mono : ∀ {x y : Int}, x ≤ y → (nb : Int) * x ≤ nb * y := fun h => mul_le_mul_of_nonneg_left h (by omega)
  have nn : ∀ {x : Int}, 0 ≤ x → 0 ≤ (nb : Int) * x := fun h => mul_nonneg (by omega) h
  have hlb : ∀ y ∈ o.recvLoc, 0 ≤ y ∧ y ≤ (o.unpacks.map Entry.size).sum := by
    intro y hy
    rw [hloc] at hy
    have := recvLocs_bounds _ 0 (by
      intro x hx
      obtain ⟨a, ha, rfl⟩ := List.mem_map.1 hx
      exact hp' a ha) y hy
    omega
  have locOk : ∀ y ∈ o.recvLoc, intArith (nb * y) = .ok (nb * y) := by
    intro y hy
    have := hlb y hy
    have := mono this.2
    have := mono h2'
    exact intArith_of (nn (hlb y hy).1) (by omega)
  have sizeIn : ∀ e ∈ o.packs, 0 ≤ (nb : Int) * e.size ∧ nb * e.size < 2 ^ 31 := by
    intro e he
    have a1 := mono (size_le_sum hp he)
    have a2 := mono h2
    exact ⟨nn (hp e he), by omega⟩
  have sizeOut : ∀ e ∈ o.unpacks, 0 ≤ (nb : Int) * e.size ∧ nb * e.size < 2 ^ 31 := by
    intro e he
    have a1 := mono (size_le_sum hp' he)
    have a2 := mono h2'
    exact ⟨nn (hp' e he), by omega⟩
  have hrecv : ∀ base : Int, mapRes (fun _ m => p2pRecvM nb base m) 0 ((dropSelf o.selfToSelf o.unpacks).zip o.recvLoc) =
      .ok (((dropSelf o.selfToSelf o.unpacks).zip o.recvLoc).map fun m => ⟨m.1.proc, base + nb * m.2, nb * m.1.size⟩) := by
    intro base
    apply mapRes_map
    intro _ m hm
    have hm' := List.of_mem_zip hm
    have a := sizeOut m.1 (dropSelf_mem hm'.1)
    unfold p2pRecvM
    rw [locOk m.2 hm'.2, res_bind, intArith_of a.1 a.2, res_bind, mpiCount_of a.1, res_bind]
  have hsend := p2pSendM_eq (t := t) h0 h1 (dropSelf o.selfToSelf o.packs) 0 (fun e he => hp e (dropSelf_mem he))
    (fun e he => hf e (dropSelf_mem he)) (le_refl _) (by
      have a1 := mono (dropSelf_sum (b := o.selfToSelf) hp)
      have a2 := mono h2
      omega)
  have hone : ∀ base : Int, base = nb * o.inSize → mapRes (fun _ i => p2pUnpackOneM t direct stride nb o base i) 0 done =
      .ok (done.map (p2pUnpackOne direct stride nb o)) := by
    intro base hb
    apply mapRes_map
    intro _ i _
    unfold p2pUnpackOneM p2pUnpackOne
    rcases hu : o.unpacks[i]? with _ | e
    · rfl
    · rcases hl : o.recvLoc[i]? with _ | loc
      · rfl
      · have he := List.mem_of_getElem? hu
        dsimp only
        rw [locOk loc (List.mem_of_getElem? hl), res_bind, p2pUnbatches_eq h0' h1' (hp' e he) (sizeOut e he).2 (hf' e he),
          res_bind, hb, List.flatMap_def]
  have hself : p2pSelfPackM t nb o (nb * o.inSize) = .ok (match o.packs.getLast?, o.recvLoc.getLast? with
        | some e, some loc => (List.range nb).flatMap fun (j : Nat) =>
            packMoves e.plan (e.offset + j * o.inSize) (nb * o.inSize + nb * loc + j * e.size)
        | _, _ => []) := by
    unfold p2pSelfPackM
    rcases hu : o.packs.getLast? with _ | e
    · rfl
    · rcases hl : o.recvLoc.getLast? with _ | loc
      · rfl
      · have he := List.mem_of_getLast? hu
        dsimp only
        rw [locOk loc (List.mem_of_getLast? hl), res_bind, p2pBatches_eq h0 h1 (hp e he) (sizeIn e he).2 (hf e he), res_bind,
          List.flatMap_def]
        simp only [add_comm e.offset]
  have hselfU : p2pSelfUnpackM t direct stride nb o (nb * o.inSize) =
      .ok (match o.packs.getLast?, o.unpacks.getLast?, o.recvLoc.getLast? with
        | some e, some u, some loc => (List.range nb).flatMap fun (j : Nat) =>
            unpackWith direct stride u.plan (nb * o.inSize + nb * loc + j * e.size) (j * o.outSize + u.offset)
        | _, _, _ => []) := by
    unfold p2pSelfUnpackM
    rcases hu : o.packs.getLast? with _ | e
    · rfl
    · rcases hv : o.unpacks.getLast? with _ | u
      · rfl
      · rcases hl : o.recvLoc.getLast? with _ | loc
        · rfl
        · have he := List.mem_of_getLast? hu
          have hu' := List.mem_of_getLast? hv
          dsimp only
          rw [locOk loc (List.mem_of_getLast? hl), res_bind, p2pUnbatches_eq h0' h1' (hp e he) (sizeIn e he).2 (hf' u hu'),
            res_bind, List.flatMap_def]
  unfold PointToPoint.jobM PointToPoint.job
  rw [IndexType.arith_of (nn h0) h1, res_bind, hrecv, res_bind, hsend, res_bind]
  dsimp only
  rw [hself, hselfU]
  cases o.selfToSelf
  · simp only [Bool.false_eq_true, if_false, res_bind]
    rw [hone _ rfl, res_bind, List.flatMap_def]
  · simp only [if_true, res_bind]
    rw [hone _ rfl, res_bind, List.flatMap_def]
    rfl

end Verif

namespace Verif
variable {bin bout : List Box} {w : Box}

/-! ## The objects -/

theorem foldl_le {β : Type} {f : Int → β → Int} {M : Int} (hf : ∀ m b, m ≤ M → f m b ≤ M) : ∀ (l : List β) (m : Int), m ≤ M →
    l.foldl f m ≤ M
  | [], _, h => h
  | b :: l, m, h => foldl_le hf l (f m b) (hf m b h)

theorem getMaxSize_le {M : Int} (hM : 0 ≤ M) (h : ∀ a ∈ bin, ∀ b ∈ bout, (a.collide b).count ≤ M) (g : List Nat) :
    getMaxSize g bin bout ≤ M := by
  unfold getMaxSize
  apply foldl_le _ _ _ hM
  intro m i hm
  apply foldl_le _ _ _ hm
  intro m j hm
  rcases hi : bin[i]? with _ | a
  · exact hm
  · rcases hj : bout[j]? with _ | b
    · exact hm
    · exact max_le hm (h a (List.mem_of_getElem? hi) b (List.mem_of_getElem? hj))

theorem sizes_sum {l : List Entry} (hn : (l.map Entry.proc).Nodup) :
    (l.map Entry.size).sum = ((l.map Entry.proc).map (lookSize l)).sum := by
  congr 1
  rw [List.map_map]
  apply List.map_congr_left
  intro e he
  have : look l e.proc = some e := (look_some hn).2 ⟨he, rfl⟩
  simp [lookSize, this]

section
variable {direct : Bool} (hs : Setup direct bin bout)
include hs

theorem send_sizes {r : Nat} (hr : r < bin.length) : ∀ e ∈ sendEntries bout r (boxAt bin r), 0 ≤ e.size := by
  intro e he
  obtain ⟨q, -, -, rfl⟩ := (mem_sendEntries hs.len hr).1 he
  rw [sendE_size]
  exact cnt_nonneg _ _

theorem recv_sizes {r : Nat} (hr : r < bin.length) : ∀ e ∈ recvEntries direct bin r (boxAt bout r), 0 ≤ e.size := by
  intro e he
  obtain ⟨q, -, -, rfl⟩ := (mem_recvEntries hs.len hr).1 he
  rw [recvE_size]
  exact cnt_nonneg _ _

/-- The messages to any ranks have at most the size of the box. -/
theorem send_sum {r : Nat} (hr : r < bin.length) {g : List Nat} (hg : g.Nodup) (hlt : ∀ q ∈ g, q < bin.length) :
    (g.map (lookSize (sendEntries bout r (boxAt bin r)))).sum ≤ (boxAt bin r).count := by
  have e : g.map (lookSize (sendEntries bout r (boxAt bin r))) = g.map (fun q => cnt bin bout r q) :=
    List.map_congr_left fun q hq => lookSize_send hs.len hr (hlt q hq)
  rw [e]
  exact le_trans (sum_le_range (fun a _ => cnt_nonneg _ _) hg hlt) (hs.sumOut r)

theorem recv_sum {r : Nat} (hr : r < bin.length) {g : List Nat} (hg : g.Nodup) (hlt : ∀ q ∈ g, q < bin.length) :
    (g.map (lookSize (recvEntries direct bin r (boxAt bout r)))).sum ≤ (boxAt bout r).count := by
  have e : g.map (lookSize (recvEntries direct bin r (boxAt bout r))) = g.map (fun q => cnt bin bout q r) :=
    List.map_congr_left fun q hq => lookSize_recv hs.len hr (hlt q hq)
  rw [e]
  exact le_trans (sum_le_range (fun a _ => cnt_nonneg _ _) hg hlt) (hs.sumIn r)

theorem send_total {r : Nat} (hr : r < bin.length) :
    ((sendEntries bout r (boxAt bin r)).map Entry.size).sum ≤ (boxAt bin r).count := by
  rw [sizes_sum (send_nodup hs.len hr)]
  exact send_sum hs hr (send_nodup hs.len hr) (fun q hq => ((mem_send_procs hs.len hr).1 hq).1)

theorem recv_total {r : Nat} (hr : r < bin.length) :
    ((recvEntries direct bin r (boxAt bout r)).map Entry.size).sum ≤ (boxAt bout r).count := by
  rw [sizes_sum (recv_nodup hr)]
  exact recv_sum hs hr (recv_nodup hr) (fun q hq => ((mem_recv_procs hs.len hr).1 hq).1)

theorem send_fits (t : IndexType) {r : Nat} (hr : r < bin.length) (hn : (boxAt bin r).count < 2 ^ 31) :
    ∀ e ∈ sendEntries bout r (boxAt bin r), packFits t e.plan = true := by
  intro e he
  obtain ⟨q, hq, hc, rfl⟩ := (mem_sendEntries hs.len hr).1 he
  have hne := cnt_pos.1 hc
  rw [Box.count_osize (hs.ordI hr) (nonempty_left hne)] at hn
  exact (collide_inside hne).packFits t hn rfl rfl rfl rfl

theorem recv_fits (t : IndexType) {stride : Nat} {r : Nat} (hr : r < bin.length) (hn : (boxAt bout r).count < 2 ^ 31)
    (hst : (boxAt bout r).count + stride ≤ 2 ^ 31) :
    ∀ e ∈ recvEntries direct bin r (boxAt bout r), unpackFits t direct stride e.plan = true := by
  intro e he
  obtain ⟨q, hq, hc, rfl⟩ := (mem_recvEntries hs.len hr).1 he
  have hne := cnt_pos.1 hc
  rw [Box.collide_empty_comm] at hne
  unfold unpackFits
  cases direct
  · exact Inside.transposeFits t (hs.ordO hr) (hs.ordI hq) hne hn hst
  · rw [Box.count_osize (hs.ordO hr) (nonempty_left hne)] at hn
    exact (collide_inside hne).unpackDirectFits t hn

variable (hin : ∀ r, r < bin.length → (boxAt bin r).count < 2 ^ 31) (hout : ∀ r, r < bin.length → (boxAt bout r).count < 2 ^ 31)
include hin hout

theorem makeAllToAllvM_eq (t : IndexType) {r : Nat} (hr : r < bin.length) :
    makeAllToAllvM t direct bin bout r = makeAllToAllv direct bin bout r := by
  obtain ⟨g, hg, hmk⟩ := groupsV (direct := direct) hs.len
  have hobj := hmk r hr
  unfold makeAllToAllv at hobj
  unfold makeAllToAllvM makeAllToAllv
  rw [boxAt_get hr, getO hs.len hr] at hobj ⊢
  dsimp only at hobj ⊢
  rw [sendEntriesM_eq t (hs.ordI hr) hs.ordOut (hin r hr), res_bind,
    recvEntriesM_eq t direct (hs.ordO hr) hs.ordIn (hout r hr), res_bind]
  cases ha : a2aGroup ((sendEntries bout r (boxAt bin r)).map Entry.proc)
    ((recvEntries direct bin r (boxAt bout r)).map Entry.proc) bin bout with
  | error e => rfl
  | ok grp =>
    rw [ha, res_bind] at hobj
    rw [res_bind, res_bind]
    by_cases hgr : grp = []
    · rw [if_pos hgr, if_pos hgr]
    · rw [if_neg hgr] at hobj ⊢
      rw [if_neg hgr]
      have hgrp : grp = g r := by
        unfold objV at hobj
        by_cases h0 : g r = []
        · rw [if_pos h0] at hobj; cases hobj
        · rw [if_neg h0] at hobj
          cases hobj
          rfl
      have hnd : grp.Nodup := by rw [hgrp]; exact hg.nodup hr
      have hlt : ∀ q ∈ grp, q < bin.length := by rw [hgrp]; exact fun q hq => hg.lt hr hq
      have s1 := send_total hs hr
      have s2 := recv_total hs hr
      have s3 := send_sum hs hr hnd hlt
      have s4 := recv_sum hs hr hnd hlt
      have b1 := hin r hr
      have b2 := hout r hr
      rw [totalM_eq _ _ (send_sizes hs hr) (le_refl _) (by omega), res_bind,
        totalM_eq _ _ (recv_sizes hs hr) (le_refl _) (by omega), res_bind,
        ioRowsM_eq (send_nodup hs.len hr) (send_sizes hs hr) grp 0 (le_refl _) (by omega), res_bind,
        ioRowsM_eq (recv_nodup hr) (recv_sizes hs hr) grp 0 (le_refl _) (by omega), res_bind,
        toInt32_of_lt (Box.count_nonneg _) b1, toInt32_of_lt (Box.count_nonneg _) b2]

theorem makeAllToAllM_eq (t : IndexType) {r : Nat} (hr : r < bin.length) :
    makeAllToAllM t direct bin bout r = makeAllToAll direct bin bout r := by
  have b1 := hin r hr
  have b2 := hout r hr
  have hM : ∀ g, getMaxSize g bin bout < 2 ^ 31 := by
    intro g
    have := getMaxSize_le (bin := bin) (bout := bout) (M := 2 ^ 31 - 1) (by decide) (by
      intro a ha b _
      obtain ⟨i, hi⟩ := List.mem_iff_getElem?.1 ha
      have hlt := (List.getElem?_eq_some_iff.1 hi).1
      rw [boxAt_get hlt] at hi
      have e := Option.some.inj hi
      have h1 := hin i hlt
      rw [e] at h1
      have h2 := count_collide_le (s := a) (b := b)
      omega) g
    omega
  unfold makeAllToAllM makeAllToAll
  rw [boxAt_get hr, getO hs.len hr]
  dsimp only
  cases ha : a2aGroup (if (boxAt bin r).empty then [] else [r]) (if (boxAt bout r).empty then [] else [r]) bin bout with
  | error e => rfl
  | ok grp =>
    rw [res_bind, res_bind]
    by_cases hgr : grp = []
    · rw [if_pos hgr, if_pos hgr]
    · rw [if_neg hgr, if_neg hgr, overlapMapA2aM_eq t false (hs.ordI hr) hs.ordOut b1, res_bind,
        overlapMapA2aM_eq t _ (hs.ordO hr) hs.ordIn b2, res_bind, toInt32_of_lt (Box.count_nonneg _) b1,
        toInt32_of_lt (Box.count_nonneg _) b2, toInt32_of_lt (getMaxSize_nonneg _ _ _) (hM _)]

theorem makePointToPointM_eq (t : IndexType) {r : Nat} (hr : r < bin.length) :
    makePointToPointM t direct bin bout r = makePointToPoint direct bin bout r := by
  have b1 := hin r hr
  have b2 := hout r hr
  have s1 := send_total hs hr
  have s2 := recv_total hs hr
  unfold makePointToPointM makePointToPoint
  rw [boxAt_get hr, getO hs.len hr]
  dsimp only
  rw [sendEntriesM_eq t (hs.ordI hr) hs.ordOut b1, res_bind, recvEntriesM_eq t direct (hs.ordO hr) hs.ordIn b2, res_bind,
    recvLocsM_eq _ _ (by
      intro x hx
      obtain ⟨e, he, rfl⟩ := List.mem_map.1 hx
      exact recv_sizes hs hr e he) (le_refl _) (by omega), res_bind,
    totalM_eq _ _ (send_sizes hs hr) (le_refl _) (by omega), res_bind,
    totalM_eq _ _ (recv_sizes hs hr) (le_refl _) (by omega), res_bind,
    toInt32_of_lt (Box.count_nonneg _) b1, toInt32_of_lt (Box.count_nonneg _) b2]

end

/-- The number of entries of a transposed box. -/
theorem planSizeM_eq (t : IndexType) {s b : Box} (ho : IsOrder s.order) (h : (s.collide b).empty = false)
    (hn : s.count < 2 ^ 31) :
    planSizeM t (transposePlan s (s.collide b) b.order) = .ok ((s.collide b).osize 0 * (s.collide b).osize 1 * (s.collide b).osize 2)
      ∧ (s.collide b).osize 0 * (s.collide b).osize 1 * (s.collide b).osize 2 = (s.collide b).count := by
  have hin := collide_inside h
  have ho' : IsOrder (s.collide b).order := by rw [hin.order]; exact ho
  have q0 := hin.pos 0
  have q1 := hin.pos 1
  have q2 := hin.pos 2
  have e : (s.collide b).osize 0 * (s.collide b).osize 1 * (s.collide b).osize 2 = (s.collide b).count := by
    rw [Box.count_osize ho' h]; ring
  refine ⟨?_, e⟩
  have hc := count_collide_le (s := s) (b := b)
  have p1 : 0 < (s.collide b).osize 0 * (s.collide b).osize 1 := mul_pos q0 q1
  have p2 : (s.collide b).osize 0 * (s.collide b).osize 1 ≤
      (s.collide b).osize 0 * (s.collide b).osize 1 * (s.collide b).osize 2 := by nlinarith
  unfold planSizeM
  show (do
    let a ← t.arith ((s.collide b).osize 0 * (s.collide b).osize 1)
    t.arith (a * (s.collide b).osize 2)) = _
  rw [IndexType.arith_of p1.le (by omega), res_bind, IndexType.arith_of (by omega) (by omega)]

theorem makeReshapeM_eq (t : IndexType) (h : Redistribution bin bout w) (alg : Alg)
    (hin : ∀ r, r < bin.length → (boxAt bin r).count < 2 ^ 31) (hout : ∀ r, r < bin.length → (boxAt bout r).count < 2 ^ 31)
    {r : Nat} (hr : r < bin.length) : makeReshapeM t alg bin bout r = makeReshape alg bin bout r := by
  have hn : 0 < bin.length := List.length_pos_iff.2 h.ranks
  have e1 := boxAt_get hn
  have e2 := boxAt_get (l := bout) (r := 0) (by rw [h.length]; exact hn)
  rw [← List.head?_eq_getElem?] at e1 e2
  have hs := h.setup (direct := directOf bin bout) rfl
  have hd : (boxAt bin 0).orderedSameAs (boxAt bout 0) = directOf bin bout := rfl
  cases hm : boxesMatch bin bout with
  | true =>
    rw [makeReshape_match h hm alg hr]
    unfold makeReshapeM
    rw [e1, e2]
    simp only [hm, if_true]
    unfold matchShaper directOf
    split
    · rfl
    · rw [boxAt_get hr, boxAt_get (show r < bout.length by rw [h.length]; exact hr)]
      dsimp only
      rw [overlapMapM_eq t true (hs.ordO hr) (fun b hb => by
        rw [List.mem_singleton.1 hb]; exact hs.ordI hr) (hout r hr), res_bind]
      have : overlapG (planOf true (boxAt bout r)) 0 (boxAt bout r) [boxAt bin r] =
          if ((boxAt bout r).collide (boxAt bin r)).empty then [] else
            [⟨0, overlapOffset (boxAt bout r) ((boxAt bout r).collide (boxAt bin r)), ((boxAt bout r).collide (boxAt bin r)).count,
              transposePlan (boxAt bout r) ((boxAt bout r).collide (boxAt bin r)) (boxAt bin r).order⟩] := by
        unfold overlapG
        simp only [List.length_singleton, List.range_succ, List.range_zero, List.nil_append, Nat.mod_one, List.filterMap_cons,
          List.filterMap_nil, List.getElem?_cons_zero, Option.bind_some, planOf, if_true]
        split <;> split <;> simp_all
      rw [this]
      cases he : ((boxAt bout r).collide (boxAt bin r)).empty with
      | true => rfl
      | false =>
        simp only [Bool.false_eq_true, if_false, List.head?_cons]
        rw [(planSizeM_eq t (hs.ordO hr) he (hout r hr)).1, res_bind]
  | false =>
    unfold makeReshapeM makeReshape
    rw [e1, e2]
    simp only [hm, Bool.false_eq_true, if_false, hd]
    cases alg <;> simp only
    · rw [makeAllToAllvM_eq hs hin hout t hr]
    · rw [makeAllToAllM_eq hs hin hout t hr]
    · rw [makePointToPointM_eq hs hin hout t hr]
    · rw [makePointToPointM_eq hs hin hout t hr]

theorem mapRes_congr {β γ : Type} {f f' : Nat → γ → Res β} : ∀ (l : List γ) (k : Nat),
    (∀ i x, l[i]? = some x → f (k + i) x = f' (k + i) x) → mapRes f k l = mapRes f' k l
  | [], _, _ => rfl
  | b :: t, k, h => by
    have h0 := h 0 b rfl
    have ht := mapRes_congr (f := f) (f' := f') t (k + 1) (fun i x hx => by
      have := h (i + 1) x hx
      rwa [show k + (i + 1) = k + 1 + i by omega] at this)
    rw [Nat.add_zero] at h0
    unfold mapRes
    rw [h0, ht]

theorem shapersOfM_eq (t : IndexType) (h : Redistribution bin bout w) (alg : Alg)
    (hin : ∀ r, r < bin.length → (boxAt bin r).count < 2 ^ 31)
    (hout : ∀ r, r < bin.length → (boxAt bout r).count < 2 ^ 31) :
    shapersOfM t alg bin bout = shapersOf alg bin bout := by
  unfold shapersOfM shapersOf
  apply mapRes_congr
  intro i x hx
  rw [Nat.zero_add]
  exact makeReshapeM_eq t h alg hin hout (List.getElem?_eq_some_iff.1 hx).1

/-! ## The jobs -/

/-- The sizes fit for a call: the batch of each box, and for `alltoall` the padded messages. -/
structure CallRoom (alg : Alg) (bin bout : List Box) (stride nb : Nat) : Prop where
  inOne : ∀ r, r < bin.length → (boxAt bin r).count < 2 ^ 31
  outOne : ∀ r, r < bin.length → (boxAt bout r).count < 2 ^ 31
  blocks : ∀ r, r < bin.length → (boxAt bout r).count + stride ≤ 2 ^ 31
  inBatch : ∀ r, r < bin.length → nb * (boxAt bin r).count < 2 ^ 31
  outBatch : ∀ r, r < bin.length → nb * (boxAt bout r).count < 2 ^ 31
  padded : alg = .alltoall → ∃ M : Int, (∀ a ∈ bin, ∀ b ∈ bout, (a.collide b).count ≤ M) ∧ 0 ≤ M ∧
    2 * M < 2 ^ 31 ∧ nb * M * bin.length < 2 ^ 31

theorem commJobM_eq (t : IndexType) (h : Redistribution bin bout w) {alg : Alg} {stride nb : Nat}
    (room : CallRoom alg bin bout stride nb) {g : Nat → List Nat} (hg : GroupFacts bin bout g) (done : List Nat) {r : Nat}
    (hr : r < bin.length) :
    Shaper.jobM t stride nb done (commShaper alg (directOf bin bout) bin bout g r) =
      .ok (Shaper.job stride nb done (commShaper alg (directOf bin bout) bin bout g r)) := by
  have hs := h.setup (direct := directOf bin bout) rfl
  have c1 := Box.count_nonneg (boxAt bin r)
  have c2 := Box.count_nonneg (boxAt bout r)
  have i1 := room.inOne r hr
  have i2 := room.outOne r hr
  have i3 := room.blocks r hr
  have i4 := room.inBatch r hr
  have i5 := room.outBatch r hr
  have hp2p : Shaper.jobM t stride nb done (some (.p2p (directOf bin bout) (objP (directOf bin bout) bin bout r))) =
      .ok (Shaper.job stride nb done (some (.p2p (directOf bin bout) (objP (directOf bin bout) bin bout r)))) :=
    PointToPoint.jobM_eq done rfl (send_sizes hs hr) (recv_sizes hs hr) (send_fits hs t hr i1) (recv_fits hs t hr i2 i3)
      c1 c2 i4 i5 (send_total hs hr) (recv_total hs hr)
  cases alg with
  | alltoallv =>
    unfold commShaper objV
    by_cases hgr : g r = []
    · simp only [if_pos hgr]; rfl
    · simp only [if_neg hgr]
      exact AllToAllv.jobM_eq rfl rfl (send_nodup hs.len hr) (recv_nodup hr) (send_sizes hs hr) (recv_sizes hs hr)
        (send_fits hs t hr i1) (recv_fits hs t hr i2 i3) c1 c2 i4 i5
        (send_sum hs hr (hg.nodup hr) (fun q hq => hg.lt hr hq)) (recv_sum hs hr (hg.nodup hr) (fun q hq => hg.lt hr hq))
  | alltoall =>
    obtain ⟨M, hM, hM0, hM2, hMp⟩ := room.padded rfl
    unfold commShaper objA
    by_cases hgr : g r = []
    · simp only [if_pos hgr]; rfl
    · simp only [if_neg hgr]
      have hE0 := getMaxSize_nonneg (g r) bin bout
      have hE := getMaxSize_le hM0 hM (g r)
      have hlen : (g r).length ≤ bin.length := by
        have hsub : (g r) ⊆ List.range bin.length := fun q hq => List.mem_range.2 (hg.lt hr hq)
        simpa using ((hg.nodup hr).subperm hsub).length_le
      have l1 : 1 ≤ (g r).length := List.length_pos_iff.2 hgr
      have e1 : (overlapMapAll2all false (g r) (boxAt bin r) bout).length = (g r).length := by
        rw [overlapA_send h.length (fun q hq => hg.lt hr hq), List.length_map]
      have e2 : (overlapMapAll2all (!directOf bin bout) (g r) (boxAt bout r) bin).length = (g r).length := by
        rw [overlapA_recv (fun q hq => hg.lt hr hq), List.length_map]
      have n1 : 0 ≤ (nb : Int) * getMaxSize (g r) bin bout := mul_nonneg (by omega) hE0
      have m1 : (nb : Int) * getMaxSize (g r) bin bout ≤ nb * M := mul_le_mul_of_nonneg_left hE (by omega)
      have m2 : (nb : Int) * getMaxSize (g r) bin bout * (g r).length ≤ nb * M * bin.length :=
        mul_le_mul m1 (by exact_mod_cast hlen) (by omega) (by omega)
      have m3 : (nb : Int) * getMaxSize (g r) bin bout * 1 ≤ nb * getMaxSize (g r) bin bout * (g r).length :=
        mul_le_mul_of_nonneg_left (by exact_mod_cast l1) n1
      rw [mul_one] at m3
      refine AllToAll.jobM_eq ?_ ?_ c1 c2 hE0 i4 i5 (by dsimp only; rw [e1, e2]) (by dsimp only; omega)
        (by dsimp only; rw [e1]; omega)
      · dsimp only
        rw [overlapA_send h.length (fun q hq => hg.lt hr hq)]
        intro e he hpos
        obtain ⟨q, hq, rfl⟩ := List.mem_map.1 he
        have hc := sendA_pos.1 hpos
        rw [sendA_eq hc]
        exact send_fits hs t hr i1 _ ((mem_sendEntries h.length hr).2 ⟨q, hg.lt hr hq, hc, rfl⟩)
      · dsimp only
        rw [overlapA_recv (fun q hq => hg.lt hr hq)]
        intro e he hpos
        obtain ⟨q, hq, rfl⟩ := List.mem_map.1 he
        have hc := recvA_pos.1 hpos
        rw [recvA_eq hc]
        exact recv_fits hs t hr i2 i3 _ ((mem_recvEntries h.length hr).2 ⟨q, hg.lt hr hq, hc, rfl⟩)
  | p2p => exact hp2p
  | p2pPlined => exact hp2p

variable {α : Type}

theorem transposeLocalM_eq (t : IndexType) {s b : Box} (ho : IsOrder s.order) (hb : IsOrder b.order)
    (h : (s.collide b).empty = false) {stride nb : Nat} (hn : s.count < 2 ^ 31) (hst : s.count + stride ≤ 2 ^ 31)
    (hnb : nb * s.count < 2 ^ 31) (inplace : Bool) (m : Arrays α) :
    transposeLocalM t stride nb (transposePlan s (s.collide b) b.order) inplace m =
      transposeLocal stride nb (transposePlan s (s.collide b) b.order) inplace m := by
  obtain ⟨e1, e2⟩ := planSizeM_eq t ho h hn
  have hf : unpackFits t false stride (transposePlan s (s.collide b) b.order) = true := Inside.transposeFits t ho hb h hn hst
  have hc := count_collide_le (s := s) (b := b)
  have c0 := Box.count_nonneg (s.collide b)
  have hcb : (nb : Int) * (s.collide b).count < 2 ^ 31 := by
    have : (nb : Int) * (s.collide b).count ≤ nb * s.count := mul_le_mul_of_nonneg_left hc (by omega)
    omega
  have hmv : mapRes (fun _ j => transposeBatchM t stride (transposePlan s (s.collide b) b.order) (s.collide b).count j) 0
      (List.range nb) = .ok ((List.range nb).map fun j : Nat =>
        unpackTranspose stride (transposePlan s (s.collide b) b.order) (j * (s.collide b).count) (j * (s.collide b).count)) := by
    apply mapRes_map
    intro _ j hj
    have := jmul_lt (List.mem_range.1 hj) c0 hcb
    unfold transposeBatchM
    rw [IndexType.arith_of this.1 this.2, res_bind, unpackM_ok hf]
    rfl
  unfold transposeLocalM transposeLocal
  have e3 : (transposePlan s (s.collide b) b.order).size 0 * (transposePlan s (s.collide b) b.order).size 1 *
      (transposePlan s (s.collide b) b.order).size 2 = (s.collide b).count := e2
  rw [e1, res_bind, e2, e3, hmv, res_bind, IndexType.arith_of (mul_nonneg (by omega) c0) hcb]
  cases inplace <;> simp [List.flatMap_def, res_bind]

theorem reshapeAllM_eq (t : IndexType) (h : Redistribution bin bout w) {alg : Alg} {stride nb : Nat}
    (room : CallRoom alg bin bout stride nb) {shs : List (Option Shaper)} (hshs : shapersOf alg bin bout = .ok shs)
    (done : Nat → List Nat) (inplace : Nat → Bool) (mems : List (Arrays α)) :
    reshapeAllM t stride nb done inplace shs mems = reshapeAll stride nb done inplace shs mems := by
  have hs := h.setup (direct := directOf bin bout) rfl
  have hjobs : mapRes (fun r sh => Shaper.jobM t stride nb (done r) sh) 0 shs =
      .ok (shs.zipIdx.map fun x => Shaper.job stride nb (done x.2) x.1) := by
    have key : ∀ (l : List (Option Shaper)) (k : Nat), (∀ i sh, l[i]? = some sh →
        Shaper.jobM t stride nb (done (k + i)) sh = .ok (Shaper.job stride nb (done (k + i)) sh)) →
        mapRes (fun r sh => Shaper.jobM t stride nb (done r) sh) k l =
          .ok ((l.zipIdx k).map fun x => Shaper.job stride nb (done x.2) x.1) := by
      intro l
      induction l with
      | nil => intro k _; rfl
      | cons a l ih =>
        intro k hk
        have h0 := hk 0 a rfl
        rw [Nat.add_zero] at h0
        have ht := ih (k + 1) (fun i sh hi => by
          have := hk (i + 1) sh hi
          rwa [show k + (i + 1) = k + 1 + i by omega] at this)
        simp only [mapRes, h0, ht, List.zipIdx_cons, List.map_cons]
    apply key
    intro i sh hi
    rw [Nat.zero_add]
    rcases shapersOf_cases h alg with ⟨-, hc⟩ | ⟨-, g, hg, hc⟩
    · rw [hc] at hshs
      cases hshs
      obtain ⟨hlt, rfl⟩ := range_map_get.1 hi
      unfold matchShaper
      split
      · rfl
      · split <;> rfl
    · rw [hc] at hshs
      cases hshs
      obtain ⟨hlt, rfl⟩ := range_map_get.1 hi
      exact commJobM_eq t h room hg _ hlt
  unfold reshapeAllM reshapeAll
  rw [hjobs, res_bind]
  congr 1
  funext moved
  apply mapRes_congr
  intro i x hx
  obtain ⟨⟨sh, m⟩, d⟩ := x
  dsimp only
  rcases sh with _ | sh
  · rfl
  · cases sh with
    | transpose plan =>
      dsimp only
      have hsh : shs[i]? = some (some (.transpose plan)) := by
        rw [List.getElem?_zip_eq_some, List.getElem?_zip_eq_some] at hx
        exact hx.1.1
      rcases shapersOf_cases h alg with ⟨-, hc⟩ | ⟨-, g, hg, hc⟩
      · rw [hc] at hshs
        cases hshs
        obtain ⟨hlt, he⟩ := range_map_get.1 hsh
        unfold matchShaper at he
        split at he
        · cases he
        · split at he
          · cases he
          · rename_i hne
            rw [Bool.not_eq_true] at hne
            cases he
            exact transposeLocalM_eq t (hs.ordO hlt) (hs.ordI hlt) hne (room.outOne i hlt) (room.blocks i hlt)
              (room.outBatch i hlt) _ _
      · rw [hc] at hshs
        cases hshs
        obtain ⟨hlt, he⟩ := range_map_get.1 hsh
        unfold commShaper at he
        cases alg <;> simp only at he
        · rcases ho : objV (directOf bin bout) bin bout g i with _ | o <;> rw [ho] at he <;> cases he
        · rcases ho : objA (directOf bin bout) bin bout g i with _ | o <;> rw [ho] at he <;> cases he
        · cases he
        · cases he
    | _ => rfl

/-- `size_workspace` is computed without overflow. -/
theorem sizeWorkspaceM_eq (t : IndexType) (h : Redistribution bin bout w) {alg : Alg} {stride nb : Nat}
    (room : CallRoom alg bin bout stride nb) (hlen : bin.length < 2 ^ 31)
    (both : ∀ r, r < bin.length → (boxAt bin r).count + (boxAt bout r).count < t.bound)
    {shs : List (Option Shaper)} (hshs : shapersOf alg bin bout = .ok shs) {r : Nat} {sh : Shaper}
    (hsh : shs[r]? = some (some sh)) : sh.sizeWorkspaceM t = .ok sh.sizeWorkspace := by
  have hs := h.setup (direct := directOf bin bout) rfl
  have hb := IndexType.bound_ge t
  have hb' : t.bound ≤ 2 ^ 63 := by cases t <;> decide
  have sum_ok : ∀ x : Int, 0 ≤ x → x < t.bound → (do
      let s ← t.arith x
      .ok (toSize s) : Res Int) = .ok x := by
    intro x h0 h1
    rw [show t.arith x = .ok x from by
      unfold IndexType.arith
      rw [if_pos (IndexType.fits_iff.2 ⟨by omega, h1⟩)], res_bind, toSize_of h0 (by omega)]
  rcases shapersOf_cases h alg with ⟨hm, hc⟩ | ⟨-, g, hg, hc⟩
  · rw [hc] at hshs
    cases hshs
    obtain ⟨hlt, he⟩ := range_map_get.1 hsh
    have bounds := boxesMatch_get hm hlt
    have hcnt : (boxAt bin r).count = (boxAt bout r).count := Box.count_congr fun p => mem_congr_bounds bounds.1 bounds.2 p
    unfold matchShaper at he
    split at he
    · cases he
    · split at he
      · cases he
      · rename_i hne
        rw [Bool.not_eq_true] at hne
        cases he
        obtain ⟨e1, e2⟩ := planSizeM_eq t (hs.ordO hlt) hne (room.outOne r hlt)
        have c1 := count_collide_le (s := boxAt bout r) (b := boxAt bin r)
        have c0 := Box.count_nonneg ((boxAt bout r).collide (boxAt bin r))
        have c2 := both r hlt
        have e3 : (transposePlan (boxAt bout r) ((boxAt bout r).collide (boxAt bin r)) (boxAt bin r).order).size 0 *
            (transposePlan (boxAt bout r) ((boxAt bout r).collide (boxAt bin r)) (boxAt bin r).order).size 1 *
            (transposePlan (boxAt bout r) ((boxAt bout r).collide (boxAt bin r)) (boxAt bin r).order).size 2 =
            ((boxAt bout r).collide (boxAt bin r)).count := e2
        unfold Shaper.sizeWorkspaceM Shaper.sizeWorkspace
        dsimp only
        rw [e1, res_bind, e2, e3, sum_ok _ (by omega) (by omega)]
  · rw [hc] at hshs
    cases hshs
    obtain ⟨hlt, he⟩ := range_map_get.1 hsh
    have c1 := Box.count_nonneg (boxAt bin r)
    have c2 := Box.count_nonneg (boxAt bout r)
    have c3 := both r hlt
    unfold commShaper at he
    cases alg with
    | alltoallv =>
      simp only [objV] at he
      split at he
      · cases he
      · cases he
        exact sum_ok ((boxAt bin r).count + (boxAt bout r).count) (by omega) c3
    | p2p => cases he; exact sum_ok ((boxAt bin r).count + (boxAt bout r).count) (by omega) c3
    | p2pPlined => cases he; exact sum_ok ((boxAt bin r).count + (boxAt bout r).count) (by omega) c3
    | alltoall =>
      obtain ⟨M, hM, hM0, hM2, -⟩ := room.padded rfl
      simp only [objA] at he
      split at he
      · cases he
      · cases he
        have hE0 := getMaxSize_nonneg (g r) bin bout
        have hE := getMaxSize_le hM0 hM (g r)
        have hl : (g r).length ≤ bin.length := by
          have hsub : (g r) ⊆ List.range bin.length := fun q hq => List.mem_range.2 (hg.lt hlt hq)
          simpa using ((hg.nodup hlt).subperm hsub).length_le
        have hl' : ((g r).length : Int) ≤ 2 ^ 31 := by
          have : (g r).length ≤ 2 ^ 31 := by omega
          exact_mod_cast this
        unfold Shaper.sizeWorkspaceM Shaper.sizeWorkspace AllToAll.sizeWorkspace
        dsimp only
        rw [overlapA_send h.length (fun q hq => hg.lt hlt hq), List.length_map]
        have p : 2 * getMaxSize (g r) bin bout * ((g r).length : Int) ≤ 2 ^ 31 * 2 ^ 31 :=
          mul_le_mul (by omega) hl' (by omega) (by norm_num)
        rw [intArith_of (by omega) (by omega), res_bind, toSize_of (x := 2 * getMaxSize (g r) bin bout) (by omega) (by omega),
          toSize_of (mul_nonneg (by omega) (by omega)) (by omega)]

end Verif
