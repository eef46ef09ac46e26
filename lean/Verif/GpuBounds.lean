import Verif.GpuMain

/-!
# Reshapes on devices: all accesses are inside the buffers
-/

namespace Verif
variable {α : Type}

/-- A cell of the memory of one of `n` ranks is inside its buffer. -/
def Loc.inside (n : Nat) (size : Nat → DevBuf → Int) : Loc → Prop
  | .mem r b a => r < n ∧ 0 ≤ a ∧ a < size r b
  | .net _ _ _ => True

/-- Both cells of a move are inside. -/
def InsideMove (n : Nat) (size : Nat → DevBuf → Int) (x : Loc × Loc) : Prop := x.1.inside n size ∧ x.2.inside n size

/-- The sizes of the buffers with the given workspaces and host buffers. -/
def bufSizes (nb : Nat) (I O : Nat → Box) (W H1 H2 : Nat → Int) (inplace : Nat → Bool) (r : Nat) : DevBuf → Int
  | .src => if inplace r then max (nb * (I r).count) (nb * (O r).count) else nb * (I r).count
  | .dst => nb * (O r).count
  | .ws => W r
  | .hs => H1 r
  | .hr => H2 r

theorem src_inside {n nb : Nat} {I O : Nat → Box} {W H1 H2 : Nat → Int} {inplace : Nat → Bool} {s : Nat} (hs : s < n)
    (ho : IsOrder (I s).order) {j : Nat} (hj : j < nb) {p : A3 Int} (hp : p ∈ I s) :
    (Loc.mem s .src (j * (I s).count + (I s).offset p)).inside n (bufSizes nb I O W H1 H2 inplace) := by
  have := mul_count_le hj (Box.offset_range ho hp)
  refine ⟨hs, this.1, ?_⟩
  unfold bufSizes
  dsimp only
  split
  · exact lt_of_lt_of_le this.2 (le_max_left _ _)
  · exact this.2

theorem out_inside {n nb : Nat} {I O : Nat → Box} {W H1 H2 : Nat → Int} {inplace : Nat → Bool} {r : Nat} (hr : r < n)
    (ho : IsOrder (O r).order) {j : Nat} (hj : j < nb) {p : A3 Int} (hp : p ∈ O r) :
    (Loc.mem r (if inplace r then .src else .dst) (j * (O r).count + (O r).offset p)).inside n
      (bufSizes nb I O W H1 H2 inplace) := by
  have := mul_count_le hj (Box.offset_range ho hp)
  refine ⟨hr, this.1, ?_⟩
  by_cases hi : inplace r = true
  · simp only [hi, if_true, bufSizes]
    exact lt_of_lt_of_le this.2 (le_max_right _ _)
  · simp only [hi, bufSizes]
    exact this.2

section
variable {n nb : Nat} {I O : Nat → Box} {W : Nat → Int} {link : Nat → Nat → Prop} {S R e : Nat → Nat → Int} {mid : Nat → Int}
  {c : Coll}

/-- The cells of a collective reshape. -/
theorem CollOk.inside (h : CollOk n nb I O W link S R e mid c) {o : CollOp} (ho : o ∈ collOps n) {x : Loc × Loc}
    (hx : x ∈ collMoves c o) :
    InsideMove n (bufSizes nb I O W (fun r => (c.staging r).sendLen) (fun r => (c.staging r).recvLen) c.inplace) x := by
  have hst : ∀ {r}, r < n → ∀ {w}, c.transport = .staged w → (c.staging r).sendLen ≤ W r ∧
      (c.active r = true → (c.staging r).base + (c.staging r).recvLen ≤ W r ∧ 0 ≤ (c.staging r).base) ∧
      (c.active r = false → (c.staging r).recvLen ≤ 0) := by
    intro r hr w hw
    have hm := h.good.midIn r hr
    cases ha : c.active r with
    | true =>
      rw [h.base r hr ha, h.sendLen r hr ha, h.recvLen r hr ha]
      exact ⟨hm.2, fun _ => ⟨by omega, hm.1⟩, by simp⟩
    | false =>
      have := h.idleLen r hr ha w hw
      exact ⟨by omega, by simp, fun _ => this.2⟩
  have hent : ∀ {s r j : Nat} {p : A3 Int}, link s r → j < nb → p ∈ I s → p ∈ O r →
      0 ≤ j * e s r + msgOff (I s) (O r) p ∧ j * e s r + msgOff (I s) (O r) p < nb * e s r := by
    intro s r j p hl hj hI hO
    exact entry_range (h.good.stride s r (.inl hl)) (msgOff_range (h.ordI s (h.good.linkLt s r hl).1) hI hO) hj
  have hin := mem_collOps ho
  cases o with
  | pre r => simp [collMoves] at hx
  | pk r =>
    have hr : r < n := by simpa [collOps] using ho
    obtain ⟨job, hj⟩ := h.good.job_exists hr
    simp only [collMoves] at hx
    rw [Coll.job_eq hj] at hx
    obtain ⟨u, v, hm, rfl⟩ := mem_onRank.1 hx
    obtain ⟨q, j, p, hl, hjn, hI, hO, h5⟩ := (h.good.packs r job hj _).1 hm
    simp only [Prod.mk.injEq] at h5
    obtain ⟨rfl, rfl⟩ := h5
    refine ⟨⟨hr, ?_⟩, src_inside hr (h.ordI r hr) hjn hI⟩
    have h1 := hent hl hjn hI hO
    have h2 := h.good.sendIn r q hl
    have h3 := h.good.midIn r hr
    unfold bufSizes
    dsimp only
    omega
  | ul r =>
    have hr : r < n := by simpa [collOps] using ho
    simp only [collMoves] at hx
    cases ht : c.transport with
    | aware => rw [ht] at hx; simp at hx
    | staged w =>
      rw [ht] at hx
      obtain ⟨t, h0, rfl⟩ := mem_transfer.1 hx
      have := hst hr ht
      refine ⟨⟨hr, ?_⟩, ⟨hr, ?_⟩⟩ <;> simp only [bufSizes] <;> omega
  | xf s r =>
    have hsr : s < n ∧ r < n := by simpa [collOps] using ho
    obtain ⟨hl, t, ht0, rfl⟩ := (h.xf hsr.2 x).1 hx
    have hS := h.good.sendIn s r hl
    have hR := h.good.recvIn s r (.inl hl)
    have hm := h.good.midIn s hsr.1
    have ha := h.active s r hl
    have e1 := h.base r hsr.2 ha.2
    have e2 := h.recvLen r hsr.2 ha.2
    have e3 := h.sendLen s hsr.1 ha.1
    have hm' := h.good.midIn r hsr.2
    unfold Coll.into Coll.from
    cases ht : c.transport with
    | aware =>
      refine ⟨⟨hsr.2, ?_⟩, ⟨hsr.1, ?_⟩⟩ <;> simp only [bufSizes] <;> omega
    | staged w =>
      refine ⟨⟨hsr.2, ?_⟩, ⟨hsr.1, ?_⟩⟩ <;> simp only [bufSizes] <;> omega
  | ld r =>
    have hr : r < n := by simpa [collOps] using ho
    simp only [collMoves] at hx
    cases ht : c.transport with
    | aware => rw [ht] at hx; simp at hx
    | staged w =>
      rw [ht] at hx
      obtain ⟨t, h0, rfl⟩ := mem_transfer.1 hx
      have := hst hr ht
      cases ha : c.active r with
      | true =>
        have := this.2.1 ha
        refine ⟨⟨hr, ?_⟩, ⟨hr, ?_⟩⟩ <;> simp only [bufSizes] <;> omega
      | false =>
        have := this.2.2 ha
        omega
  | un r =>
    have hr : r < n := by simpa [collOps] using ho
    obtain ⟨job, hj⟩ := h.good.job_exists hr
    simp only [collMoves] at hx
    rw [Coll.job_eq hj] at hx
    obtain ⟨u, v, hm, rfl⟩ := mem_onRank.1 hx
    obtain ⟨s, j, p, hs, hjn, hI, hO, h5⟩ := (h.good.unpacks r job hj _).1 hm
    simp only [Prod.mk.injEq] at h5
    obtain ⟨rfl, rfl⟩ := h5
    refine ⟨out_inside hr (h.ordO r hr) hjn hO, ⟨hr, ?_⟩⟩
    have hl : link s r := (h.good.cover s r hs hr (msgCount_pos hI hO)).resolve_right (fun x => x.2)
    have h1 := hent hl hjn hI hO
    have h2 := h.good.recvIn s r (.inl hl)
    have h3 := h.good.midIn r hr
    simp only [bufSizes]
    omega

end

section
variable {I O : Nat → Box} {W : Nat → Int} {jobs : List Job} {link : Nat → Nat → Prop} {own : Nat → Prop}
  {S R e : Nat → Nat → Int} {mid : Nat → Int} {c : P2p}

theorem sizes_le_foldl_max : ∀ (l : List Int) (a x : Int), x ≤ a ∨ x ∈ l → x ≤ l.foldl max a
  | [], a, x, h => by simpa using h
  | b :: t, a, x, h => by
    rw [List.foldl_cons]
    apply sizes_le_foldl_max
    rcases h with h | h
    · exact .inl (le_max_of_le_left h)
    · rcases List.mem_cons.1 h with rfl | h
      · exact .inl (le_max_right _ _)
      · exact .inr h

/-- The cells of a point-to-point reshape. -/
theorem P2pOk.inside (h : P2pOk I O W jobs link own S R e mid c) {o : P2pOp} (ho : o ∈ p2pOps c) {x : Loc × Loc}
    (hx : x ∈ p2pMoves c o) :
    InsideMove c.n (bufSizes c.nb I O W (fun r => c.nb * (c.objs r).maxSend c.plined) (fun r => W r - mid r) c.inplace) x := by
  have hsd : ∀ {s i : Nat} {a : Entry}, s < c.n → (c.sends s)[i]? = some a → c.transport ≠ .aware → ∀ {t : Int}, 0 ≤ t →
      t < c.nb * e s a.proc → 0 ≤ c.offset s i + t ∧ c.offset s i + t < c.nb * (c.objs s).maxSend c.plined := by
    intro s i a hs ha ht t h0 h1
    have hreg := h.sendRegion hs ha
    cases hp : c.plined with
    | true =>
      have hb := h.base s hs
      unfold PointToPoint.maxSend
      rw [if_pos rfl, hb]
      omega
    | false =>
      have hoff := h.offset hs ha
      have hre : c.reuses = true := by
        unfold P2p.reuses
        cases htt : c.transport with
        | aware => exact absurd htt ht
        | staged w => rw [hp]; rfl
      rw [hre, if_pos rfl] at hoff
      rw [hoff, zero_add]
      refine ⟨h0, lt_of_lt_of_le h1 ?_⟩
      apply mul_le_mul_of_nonneg_left _ (by positivity)
      rw [← (h.sendAt s hs i a ha).2.1]
      unfold PointToPoint.maxSend
      rw [if_neg (by simp)]
      apply sizes_le_foldl_max
      right
      exact List.mem_map_of_mem (List.mem_of_getElem? (dropSelf_prefix _ _ ha))
  have hin := mem_p2pOps ho
  cases o with
  | pre r => simp [p2pMoves] at hx
  | pk s i =>
    have hs : s < c.n := hin.1
    obtain ⟨a, ha, j, p, hj, hI, hO, rfl⟩ := (h.pk hs x).1 hx
    have h1 := h.entry (.inl (h.sendAt s hs i a ha).1) hj hI hO
    have h2 := h.sendRegion hs ha
    have h3 := h.good.midIn s hs
    refine ⟨⟨hs, ?_⟩, src_inside hs (h.ordI s hs) hj hI⟩
    simp only [bufSizes]
    omega
  | ul s i =>
    have hs : s < c.n := hin.1
    obtain ⟨ht, a, ha, t, ⟨h0, h1⟩, rfl⟩ := (h.ul hs x).1 hx
    have h2 := h.sendRegion hs ha
    have h3 := h.good.midIn s hs
    refine ⟨⟨hs, hsd hs ha ht h0 h1⟩, ⟨hs, ?_⟩⟩
    simp only [bufSizes]
    omega
  | sd s i =>
    have hs : s < c.n := hin.1
    obtain ⟨a, ha, t, ⟨h0, h1⟩, rfl⟩ := (h.sd hs x).1 hx
    have h2 := h.sendRegion hs ha
    have h3 := h.good.midIn s hs
    refine ⟨trivial, ?_⟩
    rcases c.from_cases with ⟨-, hf⟩ | ⟨ht, hf⟩
    · rw [hf]
      refine ⟨hs, ?_⟩
      simp only [bufSizes]
      omega
    · rw [hf]
      exact ⟨hs, hsd hs ha ht h0 h1⟩
  | rc r i =>
    have hr : r < c.n := hin.1
    obtain ⟨b, hb, t, ⟨h0, h1⟩, rfl⟩ := (h.rc hr x).1 hx
    have h2 := h.good.recvIn b.proc r (.inl (h.recvAt r hr i b hb).1)
    have h3 := h.good.midIn r hr
    refine ⟨?_, trivial⟩
    unfold P2p.cell
    cases c.transport <;> refine ⟨hr, ?_⟩ <;> simp only [bufSizes] <;> omega
  | sp r =>
    have hr : r < c.n := hin
    obtain ⟨j, p, ho, hj, hI, hO, rfl⟩ := (h.sp hr x).1 hx
    have h1 := h.entry (.inr ⟨rfl, ho⟩) hj hI hO
    have h2 := h.good.recvIn r r (.inr ⟨rfl, ho⟩)
    have h3 := h.good.midIn r hr
    refine ⟨⟨hr, ?_⟩, src_inside hr (h.ordI r hr) hj hI⟩
    simp only [bufSizes]
    omega
  | su r =>
    have hr : r < c.n := hin
    obtain ⟨j, p, ho, hj, hI, hO, rfl⟩ := (h.su hr x).1 hx
    have h1 := h.entry (.inr ⟨rfl, ho⟩) hj hI hO
    have h2 := h.good.recvIn r r (.inr ⟨rfl, ho⟩)
    have h3 := h.good.midIn r hr
    refine ⟨out_inside hr (h.ordO r hr) hj hO, ⟨hr, ?_⟩⟩
    simp only [bufSizes]
    omega
  | ld r i =>
    have hr : r < c.n := hin.1
    obtain ⟨-, b, hb, t, ⟨h0, h1⟩, rfl⟩ := (h.ld hr x).1 hx
    have h2 := h.good.recvIn b.proc r (.inl (h.recvAt r hr i b hb).1)
    have h3 := h.good.midIn r hr
    refine ⟨⟨hr, ?_⟩, ⟨hr, ?_⟩⟩ <;> simp only [bufSizes] <;> omega
  | un r i =>
    have hr : r < c.n := hin.1
    have hi : i < (c.recvs r).length := by
      have := (h.done r hr).subset hin.2
      simpa using this
    obtain ⟨b, hb, j, p, hj, hI, hO, rfl⟩ := (h.un hr hi x).1 hx
    have hl := (h.recvAt r hr i b hb).1
    have h1 := h.entry (.inl hl) hj hI hO
    have h2 := h.good.recvIn b.proc r (.inl hl)
    have h3 := h.good.midIn r hr
    refine ⟨out_inside hr (h.ordO r hr) hj hO, ⟨hr, ?_⟩⟩
    simp only [bufSizes]
    omega

end
end Verif
