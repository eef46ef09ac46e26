import Verif.GpuP2pOrder

/-!
# Point-to-point reshapes on devices: every execution has the same result
-/

namespace Verif
variable {α : Type} {I O : Nat → Box} {W : Nat → Int} {jobs : List Job} {link : Nat → Nat → Prop} {own : Nat → Prop}
  {S R e : Nat → Nat → Int} {mid : Nat → Int} {c : P2p}

/-- The rank of an operation of a stream. -/
def P2pOp.rank? : P2pOp → Option Nat
  | .pre r | .pk r _ | .ul r _ | .sp r | .su r | .ld r _ | .un r _ => some r
  | .sd _ _ | .rc _ _ => none

/-- The operations by rank. -/
def P2p.has (c : P2p) : P2pOp → Prop
  | .pre r | .sp r | .su r => r < c.n
  | .pk r i | .ul r i | .sd r i => r < c.n ∧ i < (c.sends r).length
  | .rc r k => r < c.n ∧ k < (c.recvs r).length
  | .ld r k | .un r k => r < c.n ∧ k ∈ c.done r

theorem mem_p2pOps {o : P2pOp} (h : o ∈ p2pOps c) : c.has o := by
  simp only [p2pOps, List.mem_append, List.mem_map, List.mem_flatMap, List.mem_range] at h
  rcases h with (((⟨r, hr, rfl⟩ | ⟨r, hr, i, hi, h⟩) | ⟨r, hr, i, hi, rfl⟩) | ⟨r, hr, h⟩) | ⟨r, hr, i, hi, h⟩
  · exact hr
  · simp at h
    rcases h with rfl | rfl | rfl <;> exact ⟨hr, hi⟩
  · exact ⟨hr, hi⟩
  · simp at h
    rcases h with rfl | rfl <;> exact hr
  · simp at h
    rcases h with rfl | rfl <;> exact ⟨hr, hi⟩

theorem p2pOps_sorted (hd : ∀ r, r < c.n → (c.done r).Nodup) :
    (p2pOps c).Pairwise fun o o' => c.rankOf o < c.rankOf o' := by
  have a0 : ∀ o ∈ (List.range c.n).map P2pOp.pre, ∃ r b, c.rankOf o = stamp 0 r b := by
    intro o ho
    obtain ⟨r, -, rfl⟩ := List.mem_map.1 ho
    exact ⟨r, 0, rfl⟩
  have a1 : ∀ r, ∀ o ∈ (List.range (c.sends r).length).flatMap (fun i => [P2pOp.pk r i, .ul r i, .sd r i]),
      ∃ b, c.rankOf o = stamp 1 r b := by
    intro r o ho
    obtain ⟨i, -, ho⟩ := List.mem_flatMap.1 ho
    simp at ho
    rcases ho with rfl | rfl | rfl <;> exact ⟨_, rfl⟩
  have a2 : ∀ r, ∀ o ∈ (List.range (c.recvs r).length).map (fun i => P2pOp.rc r i), ∃ b, c.rankOf o = stamp 2 r b := by
    intro r o ho
    obtain ⟨i, -, rfl⟩ := List.mem_map.1 ho
    exact ⟨_, rfl⟩
  have a3 : ∀ r, ∀ o ∈ [P2pOp.sp r, .su r], ∃ b, c.rankOf o = stamp 3 r b := by
    intro r o ho
    simp at ho
    rcases ho with rfl | rfl <;> exact ⟨_, rfl⟩
  have a4 : ∀ r, ∀ o ∈ (c.done r).flatMap (fun i => [P2pOp.ld r i, .un r i]), ∃ b, c.rankOf o = stamp 4 r b := by
    intro r o ho
    obtain ⟨i, -, ho⟩ := List.mem_flatMap.1 ho
    simp at ho
    rcases ho with rfl | rfl <;> exact ⟨_, rfl⟩
  have lift : ∀ (k : Nat) (f : Nat → List P2pOp), (∀ r, ∀ o ∈ f r, ∃ b, c.rankOf o = stamp k r b) →
      ∀ o ∈ (List.range c.n).flatMap f, ∃ r b, c.rankOf o = stamp k r b := by
    intro k f hf o ho
    obtain ⟨r, -, ho⟩ := List.mem_flatMap.1 ho
    obtain ⟨b, hb⟩ := hf r o ho
    exact ⟨r, b, hb⟩
  have inner : ∀ (k : Nat) (f : Nat → List P2pOp), (∀ r, ∀ o ∈ f r, ∃ b, c.rankOf o = stamp k r b) →
      (∀ r, r < c.n → (f r).Pairwise fun o o' => c.rankOf o < c.rankOf o') →
      ((List.range c.n).flatMap f).Pairwise fun o o' => c.rankOf o < c.rankOf o' := by
    intro k f hf hp
    rw [List.pairwise_flatMap]
    refine ⟨fun r hr => hp r (List.mem_range.1 hr), ?_⟩
    apply List.pairwise_lt_range.imp
    intro r r' hrr o ho o' ho'
    obtain ⟨b, hb⟩ := hf r o ho
    obtain ⟨b', hb'⟩ := hf r' o' ho'
    rw [hb, hb']
    exact lex_lt (by omega)
  have cross : ∀ (k k' : Nat) {o o' : P2pOp}, k < k' → (∃ r b, c.rankOf o = stamp k r b) → (∃ r b, c.rankOf o' = stamp k' r b) →
      c.rankOf o < c.rankOf o' := by
    rintro k k' o o' hk ⟨r, b, h⟩ ⟨r', b', h'⟩
    rw [h, h']
    exact lex_lt (by omega)
  unfold p2pOps
  rw [List.pairwise_append, List.pairwise_append, List.pairwise_append, List.pairwise_append]
  refine ⟨⟨⟨⟨?_, ?_, ?_⟩, ?_, ?_⟩, ?_, ?_⟩, ?_, ?_⟩
  · rw [List.pairwise_map]
    apply List.pairwise_lt_range.imp
    intro r r' h
    exact lex_lt (by omega)
  · refine inner 1 _ a1 ?_
    intro r _
    rw [List.pairwise_flatMap]
    constructor
    · intro i _
      have l1 : c.rankOf (.pk r i) < c.rankOf (.ul r i) := lex_lt (by omega)
      have l2 : c.rankOf (.pk r i) < c.rankOf (.sd r i) := lex_lt (by omega)
      have l3 : c.rankOf (.ul r i) < c.rankOf (.sd r i) := lex_lt (by omega)
      simp [l1, l2, l3]
    · apply List.pairwise_lt_range.imp
      intro i k hik o ho o' ho'
      simp at ho ho'
      rcases ho with rfl | rfl | rfl <;> rcases ho' with rfl | rfl | rfl <;> exact lex_lt (by omega)
  · intro o ho o' ho'
    exact cross 0 1 (by omega) (a0 o ho) (lift 1 _ a1 o' ho')
  · refine inner 2 _ a2 ?_
    intro r _
    rw [List.pairwise_map]
    apply List.pairwise_lt_range.imp
    intro i k h
    exact lex_lt (by omega)
  · intro o ho o' ho'
    rcases List.mem_append.1 ho with ho | ho
    · exact cross 0 2 (by omega) (a0 o ho) (lift 2 _ a2 o' ho')
    · exact cross 1 2 (by omega) (lift 1 _ a1 o ho) (lift 2 _ a2 o' ho')
  · refine inner 3 _ a3 ?_
    intro r _
    have : c.rankOf (.sp r) < c.rankOf (.su r) := lex_lt (by omega)
    simp [this]
  · intro o ho o' ho'
    rcases List.mem_append.1 ho with ho | ho
    · rcases List.mem_append.1 ho with ho | ho
      · exact cross 0 3 (by omega) (a0 o ho) (lift 3 _ a3 o' ho')
      · exact cross 1 3 (by omega) (lift 1 _ a1 o ho) (lift 3 _ a3 o' ho')
    · exact cross 2 3 (by omega) (lift 2 _ a2 o ho) (lift 3 _ a3 o' ho')
  · refine inner 4 _ a4 ?_
    intro r hr
    rw [List.pairwise_flatMap]
    constructor
    · intro i _
      have : c.rankOf (.ld r i) < c.rankOf (.un r i) := lex_lt (by omega)
      simp [this]
    · apply (idxOf_pairwise (hd r hr)).imp
      intro i k hik o ho o' ho'
      simp at ho ho'
      rcases ho with rfl | rfl <;> rcases ho' with rfl | rfl <;> exact lex_lt (by omega)
  · intro o ho o' ho'
    rcases List.mem_append.1 ho with ho | ho
    · rcases List.mem_append.1 ho with ho | ho
      · rcases List.mem_append.1 ho with ho | ho
        · exact cross 0 4 (by omega) (a0 o ho) (lift 4 _ a4 o' ho')
        · exact cross 1 4 (by omega) (lift 1 _ a1 o ho) (lift 4 _ a4 o' ho')
      · exact cross 2 4 (by omega) (lift 2 _ a2 o ho) (lift 4 _ a4 o' ho')
    · exact cross 3 4 (by omega) (lift 3 _ a3 o ho) (lift 4 _ a4 o' ho')

/-! ## Operations of streams -/

theorem p2pMoves_rank {o : P2pOp} {r : Nat} (ho : o.rank? = some r) {x : Loc × Loc} (hx : x ∈ p2pMoves c o) :
    ∃ b a b' a', x = (.mem r b a, .mem r b' a') := by
  cases o with
  | pre q => simp [p2pMoves] at hx
  | pk q i =>
    obtain rfl : q = r := by simpa [P2pOp.rank?] using ho
    simp only [p2pMoves] at hx
    split at hx
    · obtain ⟨a, b, -, rfl⟩ := mem_onRank.1 hx
      exact ⟨_, _, _, _, rfl⟩
    · simp at hx
  | ul q i =>
    obtain rfl : q = r := by simpa [P2pOp.rank?] using ho
    simp only [p2pMoves] at hx
    split at hx
    · obtain ⟨t, -, rfl⟩ := mem_transfer.1 hx
      exact ⟨_, _, _, _, rfl⟩
    · simp at hx
  | sd q i => simp [P2pOp.rank?] at ho
  | rc q i => simp [P2pOp.rank?] at ho
  | sp q =>
    obtain rfl : q = r := by simpa [P2pOp.rank?] using ho
    obtain ⟨a, b, -, rfl⟩ := mem_onRank.1 hx
    exact ⟨_, _, _, _, rfl⟩
  | su q =>
    obtain rfl : q = r := by simpa [P2pOp.rank?] using ho
    obtain ⟨a, b, -, rfl⟩ := mem_onRank.1 hx
    exact ⟨_, _, _, _, rfl⟩
  | ld q i =>
    obtain rfl : q = r := by simpa [P2pOp.rank?] using ho
    simp only [p2pMoves] at hx
    split at hx
    · obtain ⟨t, -, rfl⟩ := mem_transfer.1 hx
      exact ⟨_, _, _, _, rfl⟩
    · simp at hx
  | un q i =>
    obtain rfl : q = r := by simpa [P2pOp.rank?] using ho
    obtain ⟨a, b, -, rfl⟩ := mem_onRank.1 hx
    exact ⟨_, _, _, _, rfl⟩

theorem p2pAct_moves {pre : Nat → List (Atom α)} {o : P2pOp} (h : ∀ r, o ≠ .pre r) :
    p2pAct c pre o = (p2pMoves c o).map fun x => Atom.move x.1 x.2 := by
  cases o with
  | pre r => exact absurd rfl (h r)
  | _ => rfl

theorem p2pAct_rank {pre : Nat → List (Atom α)} (hpre : ∀ r, ∀ a ∈ pre r, a.onRank r) {o : P2pOp} {r : Nat}
    (ho : o.rank? = some r) {a : Atom α} (ha : a ∈ p2pAct c pre o) : a.onRank r := by
  by_cases hp : ∃ q, o = .pre q
  · obtain ⟨q, rfl⟩ := hp
    obtain rfl : q = r := by simpa [P2pOp.rank?] using ho
    exact hpre q a ha
  · rw [p2pAct_moves (fun r h => hp ⟨r, h⟩)] at ha
    obtain ⟨x, hx, rfl⟩ := List.mem_map.1 ha
    obtain ⟨b, a, b', a', rfl⟩ := p2pMoves_rank ho hx
    rintro l (h | h)
    · exact ⟨b', a', h⟩
    · exact ⟨b, a, h⟩

/-- An operation of the stream of a rank is in the program, or does nothing. -/
theorem P2pOk.stream_or_nil (h : P2pOk I O W jobs link own S R e mid c) {r : Nat} {o : P2pOp} (hr : o.rank? = some r)
    (ho : c.has o) : r < c.n ∧ (c.streamOp r o ∨ (∀ q, o ≠ .pre q) ∧ p2pMoves c o = []) := by
  cases o with
  | pre q =>
    obtain rfl : q = r := by simpa [P2pOp.rank?] using hr
    exact ⟨ho, Or.inl (Or.inl rfl)⟩
  | pk q i =>
    obtain rfl : q = r := by simpa [P2pOp.rank?] using hr
    exact ⟨ho.1, Or.inl (Or.inr (Or.inl ⟨i, ho.2, Or.inl rfl⟩))⟩
  | ul q i =>
    obtain rfl : q = r := by simpa [P2pOp.rank?] using hr
    refine ⟨ho.1, ?_⟩
    by_cases ht : c.transport = .aware
    · exact Or.inr ⟨by simp, by simp [p2pMoves, ht]⟩
    · exact Or.inl (Or.inr (Or.inl ⟨i, ho.2, Or.inr ⟨rfl, ht⟩⟩))
  | sd q i => simp [P2pOp.rank?] at hr
  | rc q i => simp [P2pOp.rank?] at hr
  | sp q =>
    obtain rfl : q = r := by simpa [P2pOp.rank?] using hr
    refine ⟨ho, ?_⟩
    by_cases hs : (c.objs q).selfToSelf = true
    · exact Or.inl (Or.inr (Or.inr (Or.inl ⟨hs, Or.inl rfl⟩)))
    · refine Or.inr ⟨by simp, ?_⟩
      rw [List.eq_nil_iff_forall_not_mem]
      intro x hx
      obtain ⟨j, p, hown, -⟩ := (h.sp ho x).1 hx
      exact hs ((h.self q ho).2 hown)
  | su q =>
    obtain rfl : q = r := by simpa [P2pOp.rank?] using hr
    refine ⟨ho, ?_⟩
    by_cases hs : (c.objs q).selfToSelf = true
    · exact Or.inl (Or.inr (Or.inr (Or.inl ⟨hs, Or.inr rfl⟩)))
    · refine Or.inr ⟨by simp, ?_⟩
      rw [List.eq_nil_iff_forall_not_mem]
      intro x hx
      obtain ⟨j, p, hown, -⟩ := (h.su ho x).1 hx
      exact hs ((h.self q ho).2 hown)
  | ld q i =>
    obtain rfl : q = r := by simpa [P2pOp.rank?] using hr
    refine ⟨ho.1, ?_⟩
    by_cases ht : c.transport = .aware
    · exact Or.inr ⟨by simp, by simp [p2pMoves, ht]⟩
    · exact Or.inl (Or.inr (Or.inr (Or.inr ⟨i, ho.2, Or.inr ⟨rfl, ht⟩⟩)))
  | un q i =>
    obtain rfl : q = r := by simpa [P2pOp.rank?] using hr
    exact ⟨ho.1, Or.inl (Or.inr (Or.inr (Or.inr ⟨i, ho.2, Or.inl rfl⟩)))⟩

/-! ## Sends and receives -/

theorem P2p.out_inner (c : P2p) (r : Nat) : c.out r = .src ∨ c.out r = .dst := by
  unfold P2p.out
  split <;> simp

theorem P2p.from_cases (c : P2p) : (c.transport = .aware ∧ c.from = .ws) ∨ c.transport ≠ .aware ∧ c.from = .hs := by
  unfold P2p.from
  cases c.transport <;> simp

theorem P2p.cell_cases (c : P2p) (mid : Nat → Int) (r : Nat) (a : Int) :
    (c.transport = .aware ∧ c.cell mid r a = .mem r .ws a) ∨ c.transport ≠ .aware ∧ c.cell mid r a = .mem r .hr (a - mid r) := by
  unfold P2p.cell
  cases c.transport <;> simp

/-- The part of the send buffer for a message. -/
theorem P2pOk.sendRegion (h : P2pOk I O W jobs link own S R e mid c) {s i : Nat} {a : Entry} (hs : s < c.n)
    (ha : (c.sends s)[i]? = some a) : 0 ≤ c.offset s i ∧ c.offset s i + c.nb * e s a.proc ≤ mid s := by
  have := h.good.sendIn s a.proc (h.sendAt s hs i a ha).1
  rw [h.offset hs ha]
  split <;> omega

/-- Two messages in different parts. -/
theorem P2pOk.sendDisjoint (h : P2pOk I O W jobs link own S R e mid c) (hu : c.reuses = false) {s i k : Nat} {a b : Entry}
    (hs : s < c.n) (ha : (c.sends s)[i]? = some a) (hb : (c.sends s)[k]? = some b) (hik : i ≠ k) :
    c.offset s i + c.nb * e s a.proc ≤ c.offset s k ∨ c.offset s k + c.nb * e s b.proc ≤ c.offset s i := by
  have hne : a.proc ≠ b.proc := fun hp => hik (procs_inj (h.sendNodup s hs) ha hb hp)
  have := h.good.sendApart s a.proc b.proc (h.sendAt s hs i a ha).1 (h.sendAt s hs k b hb).1 hne
  rw [h.offset hs ha, h.offset hs hb]
  simpa [hu] using this

/-- A send and the operations of the stream of its rank. -/
theorem P2pOk.sd_stream (h : P2pOk I O W jobs link own S R e mid c) (hsound : c.transport.sound = true) {s i : Nat}
    (hsd : c.has (.sd s i)) {o : P2pOp} (hr : o.rank? = some s) (ho : c.has o) :
    c.before o (.sd s i) ∨ c.before (.sd s i) o ∨
      (∀ q, o ≠ .pre q) ∧ MovesApart (p2pMoves c o) (p2pMoves c (.sd s i)) := by
  obtain ⟨hs, hi⟩ := hsd
  cases o with
  | pre q =>
    obtain rfl : q = s := by simpa [P2pOp.rank?] using hr
    exact Or.inl (before_send hsound hs hi (Or.inl rfl))
  | sd q k => simp [P2pOp.rank?] at hr
  | rc q k => simp [P2pOp.rank?] at hr
  | pk q k =>
    obtain rfl : q = s := by simpa [P2pOp.rank?] using hr
    rcases Nat.lt_or_ge i k with hik | hik
    swap
    · exact Or.inl (before_send hsound hs hi (Or.inr ⟨k, hik, Or.inl rfl⟩))
    cases hu : c.reuses with
    | true =>
      have hp : c.plined = false := by
        unfold P2p.reuses at hu
        split at hu <;> simpa using hu
      exact Or.inr (Or.inl (after_send hsound hp hs hik ho.2 (Or.inl rfl)))
    | false =>
      refine Or.inr (Or.inr ⟨by simp, ?_⟩)
      intro x hx y hy
      obtain ⟨b, hb, j, p, hj, hI, hO, rfl⟩ := (h.pk hs x).1 hx
      obtain ⟨a, ha, t, ht, rfl⟩ := (h.sd hs y).1 hy
      have h1 := h.sendDisjoint hu hs ha hb (by omega)
      have h2 := h.entry (.inl (h.sendAt q hs k b hb).1) hj hI hO
      refine ⟨by simp, ?_, by simp⟩
      simp only [ne_eq, Loc.mem.injEq, true_and]
      rintro ⟨-, h3⟩
      omega
  | ul q k =>
    obtain rfl : q = s := by simpa [P2pOp.rank?] using hr
    by_cases ht : c.transport = .aware
    · refine Or.inr (Or.inr ⟨by simp, ?_⟩)
      intro x hx
      exact absurd ht ((h.ul hs x).1 hx).1
    rcases Nat.lt_or_ge i k with hik | hik
    swap
    · exact Or.inl (before_send hsound hs hi (Or.inr ⟨k, hik, Or.inr ⟨rfl, ht⟩⟩))
    cases hu : c.reuses with
    | true =>
      have hp : c.plined = false := by
        unfold P2p.reuses at hu
        split at hu <;> simpa using hu
      exact Or.inr (Or.inl (after_send hsound hp hs hik ho.2 (Or.inr ⟨rfl, ht⟩)))
    | false =>
      refine Or.inr (Or.inr ⟨by simp, ?_⟩)
      intro x hx y hy
      obtain ⟨-, b, hb, t', ht', rfl⟩ := (h.ul hs x).1 hx
      obtain ⟨a, ha, t, ht, rfl⟩ := (h.sd hs y).1 hy
      have h1 := h.sendDisjoint hu hs ha hb (by omega)
      refine ⟨by simp, ?_, by simp⟩
      simp only [ne_eq, Loc.mem.injEq, true_and]
      rintro ⟨-, h3⟩
      omega
  | sp q =>
    obtain rfl : q = s := by simpa [P2pOp.rank?] using hr
    refine Or.inr (Or.inr ⟨by simp, ?_⟩)
    intro x hx y hy
    obtain ⟨j, p, hown, hj, hI, hO, rfl⟩ := (h.sp hs x).1 hx
    obtain ⟨a, ha, t, ht, rfl⟩ := (h.sd hs y).1 hy
    have h1 := h.sendRegion hs ha
    have h2 := h.entry (.inr ⟨rfl, hown⟩) hj hI hO
    have h3 := h.good.recvIn q q (.inr ⟨rfl, hown⟩)
    refine ⟨by simp, ?_, by simp⟩
    simp only [ne_eq, Loc.mem.injEq, true_and]
    rintro ⟨-, h4⟩
    omega
  | su q =>
    obtain rfl : q = s := by simpa [P2pOp.rank?] using hr
    refine Or.inr (Or.inr ⟨by simp, ?_⟩)
    intro x hx y hy
    obtain ⟨j, p, hown, hj, hI, hO, rfl⟩ := (h.su hs x).1 hx
    obtain ⟨a, ha, t, ht, rfl⟩ := (h.sd hs y).1 hy
    refine ⟨by simp, ?_, by simp⟩
    simp only [ne_eq, Loc.mem.injEq, true_and]
    rintro ⟨h4, -⟩
    rcases c.out_inner q with h5 | h5 <;> rcases c.from_cases with ⟨-, h6⟩ | ⟨-, h6⟩ <;> rw [h5, h6] at h4 <;> simp at h4
  | ld q k =>
    obtain rfl : q = s := by simpa [P2pOp.rank?] using hr
    refine Or.inr (Or.inr ⟨by simp, ?_⟩)
    intro x hx y hy
    obtain ⟨hst, b, hb, t', ht', rfl⟩ := (h.ld hs x).1 hx
    obtain ⟨a, ha, t, ht, rfl⟩ := (h.sd hs y).1 hy
    refine ⟨by simp, ?_, by simp⟩
    simp only [ne_eq, Loc.mem.injEq, true_and]
    rintro ⟨h4, -⟩
    rcases c.from_cases with ⟨h5, -⟩ | ⟨-, h6⟩
    · exact hst h5
    · rw [h6] at h4; simp at h4
  | un q k =>
    obtain rfl : q = s := by simpa [P2pOp.rank?] using hr
    refine Or.inr (Or.inr ⟨by simp, ?_⟩)
    intro x hx y hy
    have hk : k < (c.recvs q).length := List.mem_range.1 ((h.done q hs).subset ho.2)
    obtain ⟨b, hb, j, p, hj, hI, hO, rfl⟩ := (h.un hs hk x).1 hx
    obtain ⟨a, ha, t, ht, rfl⟩ := (h.sd hs y).1 hy
    refine ⟨by simp, ?_, by simp⟩
    simp only [ne_eq, Loc.mem.injEq, true_and]
    rintro ⟨h4, -⟩
    rcases c.out_inner q with h5 | h5 <;> rcases c.from_cases with ⟨-, h6⟩ | ⟨-, h6⟩ <;> rw [h5, h6] at h4 <;> simp at h4

/-- A receive and the operations of the stream of its rank. -/
theorem P2pOk.rc_stream (h : P2pOk I O W jobs link own S R e mid c) {r k : Nat}
    (hrc : c.has (.rc r k)) {o : P2pOp} (hro : o.rank? = some r) (ho : c.has o) :
    c.before o (.rc r k) ∨ c.before (.rc r k) o ∨
      (∀ q, o ≠ .pre q) ∧ MovesApart (p2pMoves c o) (p2pMoves c (.rc r k)) := by
  obtain ⟨hr, hk⟩ := hrc
  -- the cells of different messages of the workspace
  have far : ∀ {b : Entry} {s : Nat} {t u : Int}, (c.recvs r)[k]? = some b → (0 ≤ t ∧ t < c.nb * e b.proc r) →
      (link s r ∨ s = r ∧ own s) → s ≠ b.proc → (0 ≤ u ∧ u < c.nb * e s r) → R r s + u ≠ R r b.proc + t := by
    intro b s t u hb ht hs hne hu
    have := h.good.recvApart s b.proc r hs (.inl (h.recvAt r hr k b hb).1) hne
    omega
  cases o with
  | pre q =>
    obtain rfl : q = r := by simpa [P2pOp.rank?] using hro
    exact Or.inl (before_recv hr hk)
  | sd q k => simp [P2pOp.rank?] at hro
  | rc q k => simp [P2pOp.rank?] at hro
  | pk q i =>
    obtain rfl : q = r := by simpa [P2pOp.rank?] using hro
    refine Or.inr (Or.inr ⟨by simp, ?_⟩)
    intro x hx y hy
    obtain ⟨a, ha, j, p, hj, hI, hO, rfl⟩ := (h.pk hr x).1 hx
    obtain ⟨b, hb, t, ht, rfl⟩ := (h.rc hr y).1 hy
    have h1 := h.sendRegion hr ha
    have h2 := h.entry (.inl (h.sendAt q hr i a ha).1) hj hI hO
    have h3 := h.good.recvIn b.proc q (.inl (h.recvAt q hr k b hb).1)
    rcases c.cell_cases mid q (R q b.proc + t) with ⟨-, h4⟩ | ⟨-, h4⟩ <;> rw [h4]
    · refine ⟨?_, by simp, by simp⟩
      simp only [ne_eq, Loc.mem.injEq, true_and]
      omega
    · exact ⟨by simp, by simp, by simp⟩
  | ul q i =>
    obtain rfl : q = r := by simpa [P2pOp.rank?] using hro
    refine Or.inr (Or.inr ⟨by simp, ?_⟩)
    intro x hx y hy
    obtain ⟨hst, a, ha, t', ht', rfl⟩ := (h.ul hr x).1 hx
    obtain ⟨b, hb, t, ht, rfl⟩ := (h.rc hr y).1 hy
    rcases c.cell_cases mid q (R q b.proc + t) with ⟨h5, -⟩ | ⟨-, h4⟩
    · exact absurd h5 hst
    · rw [h4]
      exact ⟨by simp, by simp, by simp⟩
  | sp q =>
    obtain rfl : q = r := by simpa [P2pOp.rank?] using hro
    refine Or.inr (Or.inr ⟨by simp, ?_⟩)
    intro x hx y hy
    obtain ⟨j, p, hown, hj, hI, hO, rfl⟩ := (h.sp hr x).1 hx
    obtain ⟨b, hb, t, ht, rfl⟩ := (h.rc hr y).1 hy
    have h2 := h.entry (.inr ⟨rfl, hown⟩) hj hI hO
    have h3 := far hb ht (.inr ⟨rfl, hown⟩) (h.other _ _ (h.recvAt q hr k b hb).1).symm h2
    rcases c.cell_cases mid q (R q b.proc + t) with ⟨-, h4⟩ | ⟨-, h4⟩ <;> rw [h4]
    · refine ⟨?_, by simp, by simp⟩
      simp only [ne_eq, Loc.mem.injEq, true_and]
      omega
    · exact ⟨by simp, by simp, by simp⟩
  | su q =>
    obtain rfl : q = r := by simpa [P2pOp.rank?] using hro
    refine Or.inr (Or.inr ⟨by simp, ?_⟩)
    intro x hx y hy
    obtain ⟨j, p, hown, hj, hI, hO, rfl⟩ := (h.su hr x).1 hx
    obtain ⟨b, hb, t, ht, rfl⟩ := (h.rc hr y).1 hy
    have h2 := h.entry (.inr ⟨rfl, hown⟩) hj hI hO
    have h3 := far hb ht (.inr ⟨rfl, hown⟩) (h.other _ _ (h.recvAt q hr k b hb).1).symm h2
    have h5 := c.out_inner q
    rcases c.cell_cases mid q (R q b.proc + t) with ⟨-, h4⟩ | ⟨-, h4⟩ <;> rw [h4]
    · refine ⟨?_, by simp, ?_⟩
      · rcases h5 with h5 | h5 <;> simp [h5]
      · simp only [ne_eq, Loc.mem.injEq, true_and]
        omega
    · refine ⟨?_, by simp, by simp⟩
      rcases h5 with h5 | h5 <;> simp [h5]
  | ld q k' =>
    obtain rfl : q = r := by simpa [P2pOp.rank?] using hro
    by_cases hst : c.transport = .aware
    · refine Or.inr (Or.inr ⟨by simp, ?_⟩)
      intro x hx
      exact absurd hst ((h.ld hr x).1 hx).1
    by_cases hkk : k' = k
    · subst hkk
      exact Or.inr (Or.inl (after_recv hr ho.2 (Or.inr ⟨rfl, hst⟩)))
    refine Or.inr (Or.inr ⟨by simp, ?_⟩)
    intro x hx y hy
    obtain ⟨-, b', hb', t', ht', rfl⟩ := (h.ld hr x).1 hx
    obtain ⟨b, hb, t, ht, rfl⟩ := (h.rc hr y).1 hy
    have h3 := far hb ht (.inl (h.recvAt q hr k' b' hb').1) (fun hp => hkk (procs_inj (h.recvNodup q hr) hb' hb hp)) ht'
    rcases c.cell_cases mid q (R q b.proc + t) with ⟨h5, -⟩ | ⟨-, h4⟩
    · exact absurd h5 hst
    · rw [h4]
      refine ⟨by simp, by simp, ?_⟩
      simp only [ne_eq, Loc.mem.injEq, true_and]
      omega
  | un q k' =>
    obtain rfl : q = r := by simpa [P2pOp.rank?] using hro
    by_cases hkk : k' = k
    · subst hkk
      exact Or.inr (Or.inl (after_recv hr ho.2 (Or.inl rfl)))
    refine Or.inr (Or.inr ⟨by simp, ?_⟩)
    intro x hx y hy
    have hk' : k' < (c.recvs q).length := List.mem_range.1 ((h.done q hr).subset ho.2)
    obtain ⟨b', hb', j, p, hj, hI, hO, rfl⟩ := (h.un hr hk' x).1 hx
    obtain ⟨b, hb, t, ht, rfl⟩ := (h.rc hr y).1 hy
    have h2 := h.entry (.inl (h.recvAt q hr k' b' hb').1) hj hI hO
    have h3 := far hb ht (.inl (h.recvAt q hr k' b' hb').1) (fun hp => hkk (procs_inj (h.recvNodup q hr) hb' hb hp)) h2
    have h5 := c.out_inner q
    rcases c.cell_cases mid q (R q b.proc + t) with ⟨-, h4⟩ | ⟨-, h4⟩ <;> rw [h4]
    · refine ⟨?_, by simp, ?_⟩
      · rcases h5 with h5 | h5 <;> simp [h5]
      · simp only [ne_eq, Loc.mem.injEq, true_and]
        omega
    · refine ⟨?_, by simp, by simp⟩
      rcases h5 with h5 | h5 <;> simp [h5]

/-- The moves of MPI use the memory of the rank and messages. -/
theorem P2pOk.mpi_rank (h : P2pOk I O W jobs link own S R e mid c) {o : P2pOp} (ho : c.has o) (hn : o.rank? = none) {q : Nat}
    (hq : (∀ i, o ≠ .sd q i) ∧ ∀ k, o ≠ .rc q k) {x : Loc × Loc} (hx : x ∈ p2pMoves c o) :
    (∀ b a, x.1 ≠ .mem q b a) ∧ ∀ b a, x.2 ≠ .mem q b a := by
  cases o with
  | sd s i =>
    obtain ⟨a, ha, t, ht, rfl⟩ := (h.sd ho.1 x).1 hx
    have : s ≠ q := fun e => hq.1 i (by rw [e])
    simp [this]
  | rc r k =>
    obtain ⟨a, ha, t, ht, rfl⟩ := (h.rc ho.1 x).1 hx
    have : r ≠ q := fun e => hq.2 k (by rw [e])
    rcases c.cell_cases mid r (R r a.proc + t) with ⟨-, h4⟩ | ⟨-, h4⟩ <;> rw [h4] <;> simp [this]
  | _ => simp [P2pOp.rank?] at hn

/-- Two operations of MPI. -/
theorem P2pOk.mpi_mpi (h : P2pOk I O W jobs link own S R e mid c) {o o' : P2pOp} (ho : c.has o) (ho' : c.has o')
    (hn : o.rank? = none) (hn' : o'.rank? = none) (hne : o ≠ o') :
    c.before o o' ∨ c.before o' o ∨ MovesApart (p2pMoves c o) (p2pMoves c o') := by
  have key : ∀ {s i r k}, c.has (.sd s i) → c.has (.rc r k) →
      c.before (.sd s i) (.rc r k) ∨ MovesApart (p2pMoves c (.sd s i)) (p2pMoves c (.rc r k)) := by
    intro s i r k hs hr
    have hi : i < (c.sends s).length := hs.2
    have hk : k < (c.recvs r).length := hr.2
    have ha : (c.sends s)[i]? = some (c.sends s)[i] := List.getElem?_eq_getElem hs.2
    have hb : (c.recvs r)[k]? = some (c.recvs r)[k] := List.getElem?_eq_getElem hr.2
    by_cases hm : (c.sends s)[i].proc = r ∧ (c.recvs r)[k].proc = s
    · exact Or.inl (.message ⟨s, i, r, k, _, _, rfl, rfl, ha, hb, hm.1, hm.2⟩)
    · refine Or.inr ?_
      intro x hx y hy
      obtain ⟨a, ha', t, ht, rfl⟩ := (h.sd hs.1 x).1 hx
      obtain ⟨b, hb', t', ht', rfl⟩ := (h.rc hr.1 y).1 hy
      rw [ha] at ha'
      rw [hb] at hb'
      obtain rfl := Option.some.inj ha'
      obtain rfl := Option.some.inj hb'
      have h1 := h.sendRegion hs.1 ha
      have h3 := h.good.recvIn _ r (.inl (h.recvAt r hr.1 k _ hb).1)
      have h2 : Loc.net s (c.sends s)[i].proc t ≠ Loc.net (c.recvs r)[k].proc r t' := by
        simp only [ne_eq, Loc.net.injEq, not_and]
        intro e1 e2
        exact absurd ⟨e2, e1.symm⟩ hm
      rcases c.cell_cases mid r (R r (c.recvs r)[k].proc + t') with ⟨-, h4⟩ | ⟨h5, h4⟩ <;> rw [h4]
      · refine ⟨by simp, h2, ?_⟩
        simp only [ne_eq, Loc.mem.injEq]
        rintro ⟨rfl, -, h6⟩
        omega
      · refine ⟨by simp, h2, ?_⟩
        rcases c.from_cases with ⟨h6, -⟩ | ⟨-, h6⟩
        · exact absurd h6 h5
        · simp [h6]
  cases o with
  | sd s i =>
    cases o' with
    | sd s' i' =>
      refine Or.inr (Or.inr ?_)
      intro x hx y hy
      obtain ⟨a, ha, t, ht, rfl⟩ := (h.sd ho.1 x).1 hx
      obtain ⟨a', ha', t', ht', rfl⟩ := (h.sd ho'.1 y).1 hy
      refine ⟨?_, by simp, by simp⟩
      simp only [ne_eq, Loc.net.injEq]
      rintro ⟨rfl, h2, -⟩
      exact hne (by rw [procs_inj (h.sendNodup s ho.1) ha ha' h2])
    | rc r k =>
      rcases key ho ho' with h1 | h1
      · exact Or.inl h1
      · exact Or.inr (Or.inr h1)
    | _ => simp [P2pOp.rank?] at hn'
  | rc r k =>
    cases o' with
    | sd s i =>
      rcases key ho' ho with h1 | h1
      · exact Or.inr (Or.inl h1)
      · refine Or.inr (Or.inr ?_)
        intro x hx y hy
        obtain ⟨e1, e2, e3⟩ := h1 y hy x hx
        exact ⟨e1.symm, e3.symm, e2.symm⟩
    | rc r' k' =>
      refine Or.inr (Or.inr ?_)
      intro x hx y hy
      obtain ⟨b, hb, t, ht, rfl⟩ := (h.rc ho.1 x).1 hx
      obtain ⟨b', hb', t', ht', rfl⟩ := (h.rc ho'.1 y).1 hy
      have far : r = r' → R r b.proc + t ≠ R r' b'.proc + t' := by
        rintro rfl
        have hne' : b.proc ≠ b'.proc := fun hp => hne (by rw [procs_inj (h.recvNodup r ho.1) hb hb' hp])
        have := h.good.recvApart b.proc b'.proc r (.inl (h.recvAt r ho.1 k b hb).1) (.inl (h.recvAt r ho.1 k' b' hb').1) hne'
        omega
      rcases c.cell_cases mid r (R r b.proc + t) with ⟨h5, h4⟩ | ⟨h5, h4⟩ <;>
        rcases c.cell_cases mid r' (R r' b'.proc + t') with ⟨h5', h4'⟩ | ⟨h5', h4'⟩ <;> rw [h4, h4']
      · refine ⟨?_, by simp, by simp⟩
        simp only [ne_eq, Loc.mem.injEq, true_and]
        rintro ⟨h6, h7⟩
        exact far h6 h7
      · exact absurd h5 h5'
      · exact absurd h5' h5
      · refine ⟨?_, by simp, by simp⟩
        simp only [ne_eq, Loc.mem.injEq, true_and]
        rintro ⟨rfl, h7⟩
        exact far rfl (by omega)
    | _ => simp [P2pOp.rank?] at hn'
  | _ => simp [P2pOp.rank?] at hn

/-- An operation of MPI and one of a stream. -/
theorem P2pOk.mpi_stream (h : P2pOk I O W jobs link own S R e mid c) (hsound : c.transport.sound = true) {pre : Nat → List (Atom α)}
    (hpre : ∀ r, ∀ a ∈ pre r, a.onRank r) {o o' : P2pOp} (ho : c.has o) (ho' : c.has o') {q : Nat} (hq : o.rank? = some q)
    (hn : o'.rank? = none) : c.before o o' ∨ c.before o' o ∨ ∀ a ∈ p2pAct c pre o, ∀ b ∈ p2pAct c pre o', a.apart b := by
  have hnp : ∀ r, o' ≠ .pre r := by rintro r rfl; simp [P2pOp.rank?] at hn
  by_cases hown : (∀ i, o' ≠ .sd q i) ∧ ∀ k, o' ≠ .rc q k
  · refine Or.inr (Or.inr ?_)
    intro a ha b hb
    rw [p2pAct_moves hnp] at hb
    obtain ⟨x, hx, rfl⟩ := List.mem_map.1 hb
    obtain ⟨h1, h2⟩ := h.mpi_rank ho' hn hown hx
    have hon := p2pAct_rank hpre hq ha
    refine ⟨?_, ?_, ?_⟩
    · intro l hw (hw' : l = x.1)
      obtain ⟨b2, a2, rfl⟩ := hon l (.inr hw)
      exact h1 b2 a2 hw'.symm
    · intro l hw (hw' : l = x.2)
      obtain ⟨b2, a2, rfl⟩ := hon l (.inr hw)
      exact h2 b2 a2 hw'.symm
    · intro l hw (hw' : l = x.1)
      obtain ⟨b2, a2, rfl⟩ := hon l (.inl hw)
      exact h1 b2 a2 hw'.symm
  · have hkey : c.before o o' ∨ c.before o' o ∨ (∀ q, o ≠ .pre q) ∧ MovesApart (p2pMoves c o) (p2pMoves c o') := by
      cases o' with
      | sd s i =>
        obtain rfl : s = q := by
          by_contra hsq
          exact hown ⟨fun i' h' => hsq (by cases h'; rfl), by simp⟩
        exact h.sd_stream hsound ho' hq ho
      | rc r k =>
        obtain rfl : r = q := by
          by_contra hsq
          exact hown ⟨by simp, fun i' h' => hsq (by cases h'; rfl)⟩
        exact h.rc_stream ho' hq ho
      | _ => simp [P2pOp.rank?] at hn
    rcases hkey with h1 | h1 | ⟨h1, h2⟩
    · exact Or.inl h1
    · exact Or.inr (Or.inl h1)
    · rw [p2pAct_moves h1, p2pAct_moves hnp]
      exact Or.inr (Or.inr h2.atoms)

theorem P2pOk.raceFree (h : P2pOk I O W jobs link own S R e mid c) (hsound : c.transport.sound = true) {pre : Nat → List (Atom α)}
    (hpre : ∀ r, ∀ a ∈ pre r, a.onRank r) : RaceFree c.before (p2pAct c pre) (p2pOps c) := by
  intro o ho o' ho' hne
  have ho := mem_p2pOps ho
  have ho' := mem_p2pOps ho'
  cases hr : o.rank? with
  | none =>
    have hnp : ∀ r, o ≠ .pre r := by rintro r rfl; simp [P2pOp.rank?] at hr
    cases hr' : o'.rank? with
    | none =>
      have hnp' : ∀ r, o' ≠ .pre r := by rintro r rfl; simp [P2pOp.rank?] at hr'
      rcases h.mpi_mpi ho ho' hr hr' hne with h1 | h1 | h1
      · exact Or.inl (.single h1)
      · exact Or.inr (Or.inl (.single h1))
      · rw [p2pAct_moves hnp, p2pAct_moves hnp']
        exact Or.inr (Or.inr h1.atoms)
    | some q =>
      rcases h.mpi_stream hsound hpre ho' ho hr' hr with h1 | h1 | h1
      · exact Or.inr (Or.inl (.single h1))
      · exact Or.inl (.single h1)
      · exact Or.inr (Or.inr fun a ha b hb => (h1 b hb a ha).symm)
  | some q =>
    cases hr' : o'.rank? with
    | none =>
      rcases h.mpi_stream hsound hpre ho ho' hr hr' with h1 | h1 | h1
      · exact Or.inl (.single h1)
      · exact Or.inr (Or.inl (.single h1))
      · exact Or.inr (Or.inr h1)
    | some q' =>
      by_cases hqq : q = q'
      · subst hqq
        obtain ⟨hq, h1⟩ := h.stream_or_nil hr ho
        obtain ⟨-, h1'⟩ := h.stream_or_nil hr' ho'
        rcases h1 with h1 | ⟨h2, h1⟩
        · rcases h1' with h1' | ⟨h2, h1'⟩
          · rcases stream_pair hq hsound h1 h1' hne with h3 | h3
            · exact Or.inl (.single h3)
            · exact Or.inr (Or.inl (.single h3))
          · refine Or.inr (Or.inr ?_)
            rw [p2pAct_moves (o := o') h2, h1']
            simp
        · refine Or.inr (Or.inr ?_)
          rw [p2pAct_moves (o := o) h2, h1]
          simp
      · exact Or.inr (Or.inr fun a ha b hb => (p2pAct_rank hpre hr ha).apart (p2pAct_rank hpre hr' hb) hqq)

/-- The moves of one operation can be performed in any order. -/
theorem P2pOk.unmixed (h : P2pOk I O W jobs link own S R e mid c) {o : P2pOp} (ho : o ∈ p2pOps c) : Unmixed (p2pMoves c o) := by
  have ho' := mem_p2pOps ho
  have hout : ∀ r, c.out r ≠ .ws := by
    intro r
    unfold P2p.out
    split <;> simp
  have hpack : ∀ {s r : Nat} (A : Int), (link s r ∨ s = r ∧ own s) → ∀ {j j' : Nat} {p p' : A3 Int}, j < c.nb → j' < c.nb →
      p ∈ I s → p' ∈ I s → p ∈ O r → p' ∈ O r →
      A + j * e s r + msgOff (I s) (O r) p = A + j' * e s r + msgOff (I s) (O r) p' → j = j' ∧ p = p' := by
    intro s r A hl j j' p p' hj hj' hI hI' hO hO' heq
    have hs : s < c.n := by
      rcases hl with hl | ⟨rfl, hl⟩
      · exact (h.good.linkLt s r hl).1
      · exact h.good.selfLt s hl
    obtain ⟨hjj, hoff⟩ := entry_inj (h.good.stride s r hl) (msgOff_range (h.ordI s hs) hI hO)
      (msgOff_range (h.ordI s hs) hI' hO') heq hj
    exact ⟨hjj, msgOff_inj (h.ordI s hs) hI hO hI' hO' hoff⟩
  have hunpack : ∀ {r : Nat}, r < c.n → ∀ {j j' : Nat} {p p' : A3 Int}, j < c.nb → p ∈ O r → p' ∈ O r →
      j * (O r).count + (O r).offset p = j' * (O r).count + (O r).offset p' → j = j' ∧ p = p' := by
    intro r hr j j' p p' hj hO hO' heq
    obtain ⟨hjj, hoff⟩ := entry_inj (A := 0) (nb := c.nb) (e := (O r).count) le_rfl (Box.offset_range (h.ordO r hr) hO)
      (Box.offset_range (h.ordO r hr) hO') (by linarith) hj
    exact ⟨hjj, Box.offset_inj (h.ordO r hr) hO hO' hoff⟩
  cases o with
  | pre r => exact .nil
  | pk s i =>
    have hs : s < c.n := ho'.1
    intro x hx y hy
    obtain ⟨a, ha, j, p, hj, hI, hO, rfl⟩ := (h.pk hs x).1 hx
    obtain ⟨a', ha', j', p', hj', hI', hO', rfl⟩ := (h.pk hs y).1 hy
    obtain rfl : a = a' := Option.some.inj (ha.symm.trans ha')
    refine ⟨by simp, fun heq => ?_⟩
    simp only [Loc.mem.injEq, true_and] at heq
    obtain ⟨rfl, rfl⟩ := hpack _ (.inl (h.sendAt s hs i a ha).1) hj hj' hI hI' hO hO' heq
    rfl
  | ul s i =>
    simp only [p2pMoves]
    split
    · exact .transfer (by simp) _ _ _
    · exact .nil
  | sd s i =>
    have hs : s < c.n := ho'.1
    intro x hx y hy
    obtain ⟨a, ha, t, ht, rfl⟩ := (h.sd hs x).1 hx
    obtain ⟨a', ha', t', ht', rfl⟩ := (h.sd hs y).1 hy
    refine ⟨by simp, fun heq => ?_⟩
    simp only [Loc.net.injEq, true_and] at heq
    rw [heq.2]
  | rc r k =>
    have hr : r < c.n := ho'.1
    intro x hx y hy
    obtain ⟨b, hb, t, ht, rfl⟩ := (h.rc hr x).1 hx
    obtain ⟨b', hb', t', ht', rfl⟩ := (h.rc hr y).1 hy
    obtain rfl : b = b' := Option.some.inj (hb.symm.trans hb')
    constructor
    · unfold P2p.cell
      cases c.transport <;> simp
    · intro heq
      have : t = t' := by
        dsimp only at heq
        cases hc : c.transport <;> simp only [P2p.cell, hc, Loc.mem.injEq, true_and] at heq <;> omega
      rw [this]
  | sp r =>
    have hr : r < c.n := ho'
    intro x hx y hy
    obtain ⟨j, p, hw, hj, hI, hO, rfl⟩ := (h.sp hr x).1 hx
    obtain ⟨j', p', -, hj', hI', hO', rfl⟩ := (h.sp hr y).1 hy
    refine ⟨by simp, fun heq => ?_⟩
    simp only [Loc.mem.injEq, true_and] at heq
    obtain ⟨rfl, rfl⟩ := hpack _ (.inr ⟨rfl, hw⟩) hj hj' hI hI' hO hO' heq
    rfl
  | su r =>
    have hr : r < c.n := ho'
    intro x hx y hy
    obtain ⟨j, p, hw, hj, hI, hO, rfl⟩ := (h.su hr x).1 hx
    obtain ⟨j', p', -, hj', hI', hO', rfl⟩ := (h.su hr y).1 hy
    refine ⟨by simp [hout], fun heq => ?_⟩
    simp only [Loc.mem.injEq, true_and] at heq
    obtain ⟨rfl, rfl⟩ := hunpack hr hj hO hO' heq
    rfl
  | ld r k =>
    simp only [p2pMoves]
    split
    · exact .transfer (by simp) _ _ _
    · exact .nil
  | un r k =>
    have hr : r < c.n := ho'.1
    have hk : k < (c.recvs r).length := by
      have := (h.done r hr).subset ho'.2
      exact List.mem_range.1 this
    intro x hx y hy
    obtain ⟨b, hb, j, p, hj, hI, hO, rfl⟩ := (h.un hr hk x).1 hx
    obtain ⟨b', hb', j', p', hj', hI', hO', rfl⟩ := (h.un hr hk y).1 hy
    obtain rfl : b = b' := Option.some.inj (hb.symm.trans hb')
    refine ⟨by simp [hout], fun heq => ?_⟩
    simp only [Loc.mem.injEq, true_and] at heq
    obtain ⟨rfl, rfl⟩ := hunpack hr hj hO hO' heq
    rfl

theorem P2pOk.anyOrder (h : P2pOk I O W jobs link own S R e mid c) (pre : Nat → List (Atom α)) :
    AnyOrder P2pOp.inOrder (p2pAct c pre) (p2pOps c) := by
  intro o ho hq
  rw [p2pAct_moves (by rintro r rfl; simp [P2pOp.inOrder] at hq)]
  exact (h.unmixed ho).atoms

/-- Every execution has the result of the operations one after the other. -/
theorem P2pOk.any_schedule (h : P2pOk I O W jobs link own S R e mid c) (hsound : c.transport.sound = true)
    {pre : Nat → List (Atom α)} (hpre : ∀ r, ∀ a ∈ pre r, a.onRank r) {l : List (P2pOp × Nat)}
    (hl : Execution c.before P2pOp.inOrder (p2pAct c pre) (p2pOps c) l) (m : Store α) :
    runSteps (p2pAct c pre) l m = runAtoms ((p2pOps c).flatMap (p2pAct c pre)) m := by
  have hd : ∀ r, r < c.n → (c.done r).Nodup := fun r hr => (h.done r hr).nodup_iff.2 List.nodup_range
  have hsort := p2pOps_sorted hd
  apply schedule_eq _ _ _ (h.raceFree hsound hpre) (h.anyOrder pre) hl
  · apply hsort.imp
    rintro a b hab rfl
    exact lt_irrefl _ hab
  · apply hsort.imp
    intro a b hab hg
    exact lt_asymm hab (transGen_lt (p2p_order hd) hg)
  · intro a _ hg
    exact lt_irrefl _ (transGen_lt (p2p_order hd) hg)

/-- There is an execution. -/
theorem p2p_executes (hd : ∀ r, r < c.n → (c.done r).Nodup) (pre : Nat → List (Atom α)) :
    ∃ l, Execution c.before P2pOp.inOrder (p2pAct c pre) (p2pOps c) l := by
  have hsort := p2pOps_sorted hd
  refine ⟨_, schedule_refl _ _ ?_ ?_ ?_⟩
  · apply hsort.imp
    rintro a b hab rfl
    exact lt_irrefl _ hab
  · apply hsort.imp
    intro a b hab hg
    exact lt_asymm hab (transGen_lt (p2p_order hd) hg)
  · intro a _ hg
    exact lt_irrefl _ (transGen_lt (p2p_order hd) hg)

end Verif
