import Verif.GpuP2pRace
import Verif.GpuCollRun

/-!
# The result of a point-to-point reshape on devices
-/

namespace Verif
variable {α : Type} {I O : Nat → Box} {W : Nat → Int} {jobs : List Job} {link : Nat → Nat → Prop} {own : Nat → Prop}
  {S R e : Nat → Nat → Int} {mid : Nat → Int} {c : P2p}

/-- One block of a loop and the other ones. -/
theorem flatMap_split {β γ : Type} {l : List β} (hn : l.Nodup) {x : β} (hx : x ∈ l) (f : β → List γ) :
    ∃ A B, l.flatMap f = A ++ f x ++ B ∧ ∀ y, (y ∈ A ∨ y ∈ B) → ∃ z ∈ l, z ≠ x ∧ y ∈ f z := by
  obtain ⟨a, b, rfl⟩ := List.append_of_mem hx
  have hxa : x ∉ a ++ b := (List.nodup_middle.1 hn).notMem
  refine ⟨a.flatMap f, b.flatMap f, by simp, ?_⟩
  rintro y (hy | hy)
  · obtain ⟨z, hz, hy⟩ := List.mem_flatMap.1 hy
    exact ⟨z, by simp [hz], fun e => hxa (by rw [← e]; simp [hz]), hy⟩
  · obtain ⟨z, hz, hy⟩ := List.mem_flatMap.1 hy
    exact ⟨z, by simp [hz], fun e => hxa (by rw [← e]; simp [hz]), hy⟩

/-- One block of a double loop and the other ones. -/
theorem flatMap_split₂ {γ : Type} {n : Nat} {g : Nat → List Nat} (hg : ∀ r, r < n → (g r).Nodup) (f : Nat → Nat → List γ) {r i : Nat}
    (hr : r < n) (hi : i ∈ g r) : ∃ A B, (List.range n).flatMap (fun r => (g r).flatMap (f r)) = A ++ f r i ++ B ∧
      ∀ y, (y ∈ A ∨ y ∈ B) → ∃ r' i', r' < n ∧ i' ∈ g r' ∧ ¬ (r' = r ∧ i' = i) ∧ y ∈ f r' i' := by
  obtain ⟨A, B, h1, h2⟩ := flatMap_split List.nodup_range (List.mem_range.2 hr) (fun r => (g r).flatMap (f r))
  obtain ⟨A', B', h3, h4⟩ := flatMap_split (hg r hr) hi (f r)
  refine ⟨A ++ A', B' ++ B, by rw [h1, h3]; simp, ?_⟩
  have outer : ∀ y, (y ∈ A ∨ y ∈ B) → ∃ r' i', r' < n ∧ i' ∈ g r' ∧ ¬ (r' = r ∧ i' = i) ∧ y ∈ f r' i' := by
    intro y hy
    obtain ⟨r', hr', hne, hy⟩ := h2 y hy
    obtain ⟨i', hi', hy⟩ := List.mem_flatMap.1 hy
    exact ⟨r', i', List.mem_range.1 hr', hi', fun e => hne e.1, hy⟩
  have inner : ∀ y, (y ∈ A' ∨ y ∈ B') → ∃ r' i', r' < n ∧ i' ∈ g r' ∧ ¬ (r' = r ∧ i' = i) ∧ y ∈ f r' i' := by
    intro y hy
    obtain ⟨i', hi', hne, hy⟩ := h4 y hy
    exact ⟨r, i', hr, hi', fun e => hne e.2, hy⟩
  rintro y (hy | hy) <;> rcases List.mem_append.1 hy with hy | hy
  · exact outer y (.inl hy)
  · exact inner y (.inl hy)
  · exact inner y (.inr hy)
  · exact outer y (.inr hy)

/-! ## The stages -/

/-- Pack, copy and send one message. -/
def P2p.sendMoves (c : P2p) (r i : Nat) : List (Loc × Loc) := p2pMoves c (.pk r i) ++ p2pMoves c (.ul r i) ++ p2pMoves c (.sd r i)

/-- Copy and unpack one message. -/
def P2p.recvMoves (c : P2p) (r k : Nat) : List (Loc × Loc) := p2pMoves c (.ld r k) ++ p2pMoves c (.un r k)

/-- The own part. -/
def P2p.selfMoves (c : P2p) (r : Nat) : List (Loc × Loc) := p2pMoves c (.sp r) ++ p2pMoves c (.su r)

def P2p.stage1 (c : P2p) : List (Loc × Loc) :=
  (List.range c.n).flatMap fun r => (List.range (c.sends r).length).flatMap (c.sendMoves r)
def P2p.stage2 (c : P2p) : List (Loc × Loc) :=
  (List.range c.n).flatMap fun r => (List.range (c.recvs r).length).flatMap fun k => p2pMoves c (.rc r k)
def P2p.stage3 (c : P2p) : List (Loc × Loc) := (List.range c.n).flatMap c.selfMoves
def P2p.stage4 (c : P2p) : List (Loc × Loc) := (List.range c.n).flatMap fun r => (c.done r).flatMap (c.recvMoves r)

theorem runAtoms_p2pOps (c : P2p) (pre : Nat → List (Atom α)) (m : Store α) :
    runAtoms ((p2pOps c).flatMap (p2pAct c pre)) m =
      runMoves c.stage4 (runMoves c.stage3 (runMoves c.stage2 (runMoves c.stage1 (runAtoms ((List.range c.n).flatMap pre) m)))) := by
  unfold p2pOps
  simp only [List.flatMap_append, runAtoms_append]
  unfold runMoves P2p.stage1 P2p.stage2 P2p.stage3 P2p.stage4
  have h0 : ((List.range c.n).map P2pOp.pre).flatMap (p2pAct c pre) = (List.range c.n).flatMap pre := by
    rw [List.flatMap_map]
    rfl
  have h1 : ((List.range c.n).flatMap fun r => (List.range (c.sends r).length).flatMap fun i => [P2pOp.pk r i, .ul r i, .sd r i]).flatMap
      (p2pAct c pre) = ((List.range c.n).flatMap fun r => (List.range (c.sends r).length).flatMap (c.sendMoves r)).map
        fun x => Atom.move x.1 x.2 := by
    rw [List.flatMap_assoc, List.map_flatMap]
    congr 1; funext r
    rw [List.flatMap_assoc, List.map_flatMap]
    congr 1; funext i
    simp [P2p.sendMoves, p2pAct]
  have h2 : ((List.range c.n).flatMap fun r => (List.range (c.recvs r).length).map fun i => P2pOp.rc r i).flatMap
      (p2pAct c pre) = ((List.range c.n).flatMap fun r => (List.range (c.recvs r).length).flatMap fun k => p2pMoves c (.rc r k)).map
        fun x => Atom.move x.1 x.2 := by
    rw [List.flatMap_assoc, List.map_flatMap]
    congr 1; funext r
    rw [List.flatMap_map, List.map_flatMap]
    congr 1
  have h3 : ((List.range c.n).flatMap fun r => [P2pOp.sp r, .su r]).flatMap (p2pAct c pre) =
      ((List.range c.n).flatMap c.selfMoves).map fun x => Atom.move x.1 x.2 := by
    rw [List.flatMap_assoc, List.map_flatMap]
    congr 1; funext r
    simp [P2p.selfMoves, p2pAct]
  have h4 : ((List.range c.n).flatMap fun r => (c.done r).flatMap fun i => [P2pOp.ld r i, .un r i]).flatMap (p2pAct c pre) =
      ((List.range c.n).flatMap fun r => (c.done r).flatMap (c.recvMoves r)).map fun x => Atom.move x.1 x.2 := by
    rw [List.flatMap_assoc, List.map_flatMap]
    congr 1; funext r
    rw [List.flatMap_assoc, List.map_flatMap]
    congr 1; funext i
    simp [P2p.recvMoves, p2pAct]
  rw [h0, h1, h2, h3, h4]

/-! ## Sending -/

theorem P2pOk.sendMoves_writes (h : P2pOk I O W jobs link own S R e mid c) {s i : Nat} (hs : s < c.n) {x : Loc × Loc}
    (hx : x ∈ c.sendMoves s i) : (∃ a, x.1 = .mem s .ws a) ∨ (∃ a, x.1 = .mem s .hs a) ∨
      ∃ a t, (c.sends s)[i]? = some a ∧ x.1 = .net s a.proc t := by
  rcases List.mem_append.1 hx with hx | hx
  · rcases List.mem_append.1 hx with hx | hx
    · obtain ⟨a, ha, j, p, hj, hI, hO, rfl⟩ := (h.pk hs x).1 hx
      exact Or.inl ⟨_, rfl⟩
    · obtain ⟨-, a, ha, t, ht, rfl⟩ := (h.ul hs x).1 hx
      exact Or.inr (Or.inl ⟨_, rfl⟩)
  · obtain ⟨a, ha, t, ht, rfl⟩ := (h.sd hs x).1 hx
    exact Or.inr (Or.inr ⟨a, t, ha, rfl⟩)

theorem P2pOk.stage1_frame (h : P2pOk I O W jobs link own S R e mid c) (m : Store α) (r : Nat) (b : DevBuf) (a : Int) (hb : b = .src ∨ b = .dst) :
    runMoves c.stage1 m (.mem r b a) = m (.mem r b a) := by
  apply runMoves_frame
  intro x hx heq
  simp only [P2p.stage1, List.mem_flatMap, List.mem_range] at hx
  obtain ⟨s, hs, i, -, hx⟩ := hx
  rcases h.sendMoves_writes hs hx with ⟨y, h1⟩ | ⟨y, h1⟩ | ⟨y, t, -, h1⟩ <;> rw [h1] at heq <;> simp at heq <;>
    (obtain ⟨-, rfl, -⟩ := heq; simp at hb)

/-- The messages contain the entries. -/
theorem P2pOk.sent (h : P2pOk I O W jobs link own S R e mid c) (m : Store α) {s r j : Nat} {p : A3 Int} (hl : link s r)
    (hj : j < c.nb) (hI : p ∈ I s) (hO : p ∈ O r) :
    runMoves c.stage1 m (.net s r (j * e s r + msgOff (I s) (O r) p)) = m (.mem s .src (j * (I s).count + (I s).offset p)) := by
  obtain ⟨hs, hr⟩ := h.good.linkLt s r hl
  obtain ⟨i, a, ha, hap⟩ := h.sendHas s r hl
  have hi : i < (c.sends s).length := (List.getElem?_eq_some_iff.1 ha).1
  have hent := h.entry (.inl hl) hj hI hO
  obtain ⟨A, B, hAB, hoth⟩ := flatMap_split₂ (n := c.n) (g := fun r => List.range (c.sends r).length)
    (fun _ _ => List.nodup_range) c.sendMoves hs (List.mem_range.2 hi)
  have h1 : c.stage1 = A ++ c.sendMoves s i ++ B := hAB
  rw [h1, runMoves_append, runMoves_append]
  -- nothing later writes the message
  rw [runMoves_frame B]
  swap
  · intro x hx heq
    obtain ⟨s', i', hs', -, hne, hx⟩ := hoth x (.inr hx)
    rcases h.sendMoves_writes hs' hx with ⟨y, h1⟩ | ⟨y, h1⟩ | ⟨y, t, hy, h1⟩ <;> rw [h1] at heq
    · simp at heq
    · simp at heq
    · simp only [Loc.net.injEq] at heq
      obtain ⟨rfl, h2, -⟩ := heq
      exact hne ⟨rfl, procs_inj (h.sendNodup s' hs') hy ha (by rw [h2, hap])⟩
  -- nothing earlier writes the source
  have hsrc : runMoves A m (.mem s .src (j * (I s).count + (I s).offset p)) = m (.mem s .src (j * (I s).count + (I s).offset p)) := by
    apply runMoves_frame
    intro x hx heq
    obtain ⟨s', i', hs', -, hne, hx⟩ := hoth x (.inl hx)
    rcases h.sendMoves_writes hs' hx with ⟨y, h1⟩ | ⟨y, h1⟩ | ⟨y, t, hy, h1⟩ <;> rw [h1] at heq <;> simp at heq
  rw [← hsrc]
  generalize runMoves A m = m1
  unfold P2p.sendMoves
  rw [runMoves_append, runMoves_append]
  set q := j * e s r + msgOff (I s) (O r) p with hq
  -- the send
  have e1 : ∀ m2 : Store α, runMoves (p2pMoves c (.sd s i)) m2 (.net s r q) = m2 (.mem s c.from (c.offset s i + q)) := by
    intro m2
    have hmem : (Loc.net s r q, Loc.mem s c.from (c.offset s i + q)) ∈ p2pMoves c (.sd s i) :=
      (h.sd hs _).2 ⟨a, ha, q, by rw [hap]; exact hent, by rw [hap]⟩
    refine runMoves_ok _ m2 ?_ ?_ _ hmem
    · intro x hx y hy
      obtain ⟨_, _, t, -, rfl⟩ := (h.sd hs x).1 hx
      obtain ⟨_, _, t', -, rfl⟩ := (h.sd hs y).1 hy
      simp
    · intro x hx y hy heq
      obtain ⟨_, _, t, -, rfl⟩ := (h.sd hs x).1 hx
      obtain ⟨_, _, t', -, rfl⟩ := (h.sd hs y).1 hy
      simp only [Loc.net.injEq, true_and] at heq
      rw [heq.2]
  -- the copy
  have e2 : ∀ m2 : Store α, runMoves (p2pMoves c (.ul s i)) m2 (.mem s c.from (c.offset s i + q)) = m2 (.mem s .ws (c.offset s i + q)) := by
    intro m2
    rcases c.from_cases with ⟨ht, hf⟩ | ⟨ht, hf⟩
    · have : p2pMoves c (.ul s i) = [] := by simp [p2pMoves, ht]
      rw [this, hf]
      rfl
    · rw [hf]
      have hmem : (Loc.mem s .hs (c.offset s i + q), Loc.mem s .ws (c.offset s i + q)) ∈ p2pMoves c (.ul s i) :=
        (h.ul hs _).2 ⟨ht, a, ha, q, by rw [hap]; exact hent, rfl⟩
      refine runMoves_ok _ m2 ?_ ?_ _ hmem
      · intro x hx y hy
        obtain ⟨-, _, _, t, -, rfl⟩ := (h.ul hs x).1 hx
        obtain ⟨-, _, _, t', -, rfl⟩ := (h.ul hs y).1 hy
        simp
      · intro x hx y hy heq
        obtain ⟨-, _, _, t, -, rfl⟩ := (h.ul hs x).1 hx
        obtain ⟨-, _, _, t', -, rfl⟩ := (h.ul hs y).1 hy
        simp only [Loc.mem.injEq, true_and] at heq
        simp only [Loc.mem.injEq, true_and]
        exact heq
  -- the packing
  have e3 : ∀ m2 : Store α, runMoves (p2pMoves c (.pk s i)) m2 (.mem s .ws (c.offset s i + q)) =
      m2 (.mem s .src (j * (I s).count + (I s).offset p)) := by
    intro m2
    have hmem : (Loc.mem s .ws (c.offset s i + q), Loc.mem s .src (j * (I s).count + (I s).offset p)) ∈ p2pMoves c (.pk s i) := by
      refine (h.pk hs _).2 ⟨a, ha, j, p, hj, hI, by rw [hap]; exact hO, ?_⟩
      rw [hap, hq, add_assoc]
    refine runMoves_ok _ m2 ?_ ?_ _ hmem
    · intro x hx y hy
      obtain ⟨_, _, _, _, -, -, -, rfl⟩ := (h.pk hs x).1 hx
      obtain ⟨_, _, _, _, -, -, -, rfl⟩ := (h.pk hs y).1 hy
      simp
    · intro x hx y hy heq
      obtain ⟨b, hb, j', p', hj', hI', hO', rfl⟩ := (h.pk hs x).1 hx
      obtain ⟨b', hb', j'', p'', hj'', hI'', hO'', rfl⟩ := (h.pk hs y).1 hy
      rw [ha] at hb hb'
      obtain rfl := Option.some.inj hb
      obtain rfl := Option.some.inj hb'
      rw [hap] at *
      simp only [Loc.mem.injEq, true_and] at heq
      obtain ⟨h5, h6⟩ := entry_inj (h.good.stride s r (.inl hl)) (msgOff_range (h.ordI s hs) hI' hO') (msgOff_range (h.ordI s hs) hI'' hO'')
        heq hj'
      have := msgOff_inj (h.ordI s hs) hI' hO' hI'' hO'' h6
      rw [h5, this]
  rw [e1, e2, e3]

/-! ## Receiving -/

theorem P2pOk.mem_stage2 (h : P2pOk I O W jobs link own S R e mid c) {x : Loc × Loc} (hx : x ∈ c.stage2) :
    ∃ (r k : Nat) (b : Entry) (t : Int), r < c.n ∧ (c.recvs r)[k]? = some b ∧ (0 ≤ t ∧ t < c.nb * e b.proc r) ∧
      x = (c.cell mid r (R r b.proc + t), .net b.proc r t) := by
  simp only [P2p.stage2, List.mem_flatMap, List.mem_range] at hx
  obtain ⟨r, hr, k, -, hx⟩ := hx
  obtain ⟨b, hb, t, ht, rfl⟩ := (h.rc hr x).1 hx
  exact ⟨r, k, b, t, hr, hb, ht, rfl⟩

theorem P2pOk.stage2_frame (h : P2pOk I O W jobs link own S R e mid c) (m : Store α) (r : Nat) (b : DevBuf) (a : Int) (hb : b = .src ∨ b = .dst) :
    runMoves c.stage2 m (.mem r b a) = m (.mem r b a) := by
  apply runMoves_frame
  intro x hx heq
  obtain ⟨r', k, b', t, -, -, -, rfl⟩ := h.mem_stage2 hx
  rcases c.cell_cases mid r' (R r' b'.proc + t) with ⟨-, h4⟩ | ⟨-, h4⟩ <;> dsimp only at heq <;> rw [h4] at heq <;> simp at heq <;>
    (obtain ⟨-, rfl, -⟩ := heq; simp at hb)

/-- The receives fill the buffers. -/
theorem P2pOk.received (h : P2pOk I O W jobs link own S R e mid c) (m : Store α) {s r : Nat} (hl : link s r) {t : Int}
    (ht : 0 ≤ t ∧ t < c.nb * e s r) : runMoves c.stage2 m (c.cell mid r (R r s + t)) = m (.net s r t) := by
  obtain ⟨hs, hr⟩ := h.good.linkLt s r hl
  obtain ⟨k, b, hb, hbp⟩ := h.recvHas s r hl
  have hk : k < (c.recvs r).length := (List.getElem?_eq_some_iff.1 hb).1
  have hmem : (c.cell mid r (R r s + t), Loc.net s r t) ∈ c.stage2 := by
    simp only [P2p.stage2, List.mem_flatMap, List.mem_range]
    exact ⟨r, hr, k, hk, (h.rc hr _).2 ⟨b, hb, t, by rw [hbp]; exact ht, by rw [hbp]⟩⟩
  refine runMoves_ok _ m ?_ ?_ _ hmem
  · intro x hx y hy
    obtain ⟨r', k', b', t', -, -, -, rfl⟩ := h.mem_stage2 hx
    obtain ⟨r'', k'', b'', t'', -, -, -, rfl⟩ := h.mem_stage2 hy
    rcases c.cell_cases mid r' (R r' b'.proc + t') with ⟨-, h4⟩ | ⟨-, h4⟩ <;> rw [h4] <;> simp
  · intro x hx y hy heq
    obtain ⟨r', k', b', t', hr', hb', ht', rfl⟩ := h.mem_stage2 hx
    obtain ⟨r'', k'', b'', t'', hr'', hb'', ht'', rfl⟩ := h.mem_stage2 hy
    have h2 : r' = r'' ∧ R r' b'.proc + t' = R r'' b''.proc + t'' := by
      dsimp only at heq
      rcases c.cell_cases mid r' (R r' b'.proc + t') with ⟨h5, h4⟩ | ⟨h5, h4⟩ <;>
        rcases c.cell_cases mid r'' (R r'' b''.proc + t'') with ⟨h5', h4'⟩ | ⟨h5', h4'⟩ <;> rw [h4, h4'] at heq <;>
        simp only [Loc.mem.injEq, true_and, reduceCtorEq, false_and, and_false] at heq
      · exact heq
      · obtain ⟨rfl, h6⟩ := heq
        exact ⟨rfl, by omega⟩
    obtain ⟨rfl, h3⟩ := h2
    by_cases hp : b'.proc = b''.proc
    · rw [hp] at h3 ⊢
      have : t' = t'' := by omega
      rw [this]
    · have := h.good.recvApart b'.proc b''.proc r' (.inl (h.recvAt r' hr' k' b' hb').1) (.inl (h.recvAt r' hr' k'' b'' hb'').1) hp
      omega

/-! ## The own part -/

theorem P2pOk.selfMoves_writes (h : P2pOk I O W jobs link own S R e mid c) {r : Nat} (hr : r < c.n) {x : Loc × Loc}
    (hx : x ∈ c.selfMoves r) : own r ∧ ((∃ t, (0 ≤ t ∧ t < c.nb * e r r) ∧ x.1 = .mem r .ws (R r r + t)) ∨
      ∃ (j : Nat) (p : A3 Int), j < c.nb ∧ p ∈ I r ∧ p ∈ O r ∧ x.1 = .mem r (c.out r) (j * (O r).count + (O r).offset p)) := by
  rcases List.mem_append.1 hx with hx | hx
  · obtain ⟨j, p, ho, hj, hI, hO, rfl⟩ := (h.sp hr x).1 hx
    exact ⟨ho, Or.inl ⟨_, h.entry (.inr ⟨rfl, ho⟩) hj hI hO, by simp only [add_assoc]⟩⟩
  · obtain ⟨j, p, ho, hj, hI, hO, rfl⟩ := (h.su hr x).1 hx
    exact ⟨ho, Or.inr ⟨j, p, hj, hI, hO, rfl⟩⟩

/-- The own part of the result. -/
theorem P2pOk.selfDone (h : P2pOk I O W jobs link own S R e mid c) (m : Store α) {r j : Nat} {p : A3 Int} (ho : own r)
    (hj : j < c.nb) (hI : p ∈ I r) (hO : p ∈ O r) :
    runMoves c.stage3 m (.mem r (c.out r) (j * (O r).count + (O r).offset p)) = m (.mem r .src (j * (I r).count + (I r).offset p)) := by
  have hr := h.good.selfLt r ho
  obtain ⟨A, B, hAB, hoth⟩ := flatMap_split List.nodup_range (List.mem_range.2 hr) c.selfMoves
  have h1 : c.stage3 = A ++ c.selfMoves r ++ B := hAB
  have other : ∀ (L : List (Loc × Loc)), (∀ x ∈ L, x ∈ A ∨ x ∈ B) → ∀ (m : Store α) b a, runMoves L m (.mem r b a) = m (.mem r b a) := by
    intro L hL m b a
    apply runMoves_frame
    intro x hx heq
    obtain ⟨r', hr', hne, hx⟩ := hoth x (hL x hx)
    rcases (h.selfMoves_writes (List.mem_range.1 hr') hx).2 with ⟨t, -, h2⟩ | ⟨_, _, -, -, -, h2⟩ <;> rw [h2] at heq <;> simp at heq <;>
      exact hne heq.1
  rw [h1, runMoves_append, runMoves_append, other B (fun x hx => .inr hx), ← other A (fun x hx => .inl hx) m]
  generalize runMoves A m = m1
  unfold P2p.selfMoves
  rw [runMoves_append]
  have e1 : ∀ m2 : Store α, runMoves (p2pMoves c (.su r)) m2 (.mem r (c.out r) (j * (O r).count + (O r).offset p)) =
      m2 (.mem r .ws (R r r + j * e r r + msgOff (I r) (O r) p)) := by
    intro m2
    have hmem := (h.su hr _).2 ⟨j, p, ho, hj, hI, hO, rfl⟩
    refine runMoves_ok _ m2 ?_ ?_ _ hmem
    · intro x hx y hy
      obtain ⟨_, _, -, -, -, -, rfl⟩ := (h.su hr x).1 hx
      obtain ⟨_, _, -, -, -, -, rfl⟩ := (h.su hr y).1 hy
      rcases c.out_inner r with h5 | h5 <;> simp [h5]
    · intro x hx y hy heq
      obtain ⟨j', p', -, hj', hI', hO', rfl⟩ := (h.su hr x).1 hx
      obtain ⟨j'', p'', -, hj'', hI'', hO'', rfl⟩ := (h.su hr y).1 hy
      simp only [Loc.mem.injEq, true_and] at heq
      obtain ⟨hjj, hoff⟩ := entry_inj (A := 0) (nb := c.nb) (e := (O r).count) le_rfl (Box.offset_range (h.ordO r hr) hO')
        (Box.offset_range (h.ordO r hr) hO'') (by linarith) hj'
      have hpp := Box.offset_inj (h.ordO r hr) hO' hO'' hoff
      rw [hjj, hpp]
  have e2 : ∀ m2 : Store α, runMoves (p2pMoves c (.sp r)) m2 (.mem r .ws (R r r + j * e r r + msgOff (I r) (O r) p)) =
      m2 (.mem r .src (j * (I r).count + (I r).offset p)) := by
    intro m2
    have hmem := (h.sp hr _).2 ⟨j, p, ho, hj, hI, hO, rfl⟩
    refine runMoves_ok _ m2 ?_ ?_ _ hmem
    · intro x hx y hy
      obtain ⟨_, _, -, -, -, -, rfl⟩ := (h.sp hr x).1 hx
      obtain ⟨_, _, -, -, -, -, rfl⟩ := (h.sp hr y).1 hy
      simp
    · intro x hx y hy heq
      obtain ⟨j', p', -, hj', hI', hO', rfl⟩ := (h.sp hr x).1 hx
      obtain ⟨j'', p'', -, hj'', hI'', hO'', rfl⟩ := (h.sp hr y).1 hy
      simp only [Loc.mem.injEq, true_and] at heq
      obtain ⟨hjj, hoff⟩ := entry_inj (h.good.stride r r (.inr ⟨rfl, ho⟩)) (msgOff_range (h.ordI r hr) hI' hO')
        (msgOff_range (h.ordI r hr) hI'' hO'') heq hj'
      have hpp := msgOff_inj (h.ordI r hr) hI' hO' hI'' hO'' hoff
      rw [hjj, hpp]
  rw [e1, e2]

/-- The own part leaves the other messages alone. -/
theorem P2pOk.stage3_frame (h : P2pOk I O W jobs link own S R e mid c) (m : Store α) {s r : Nat} (hl : link s r) {t : Int}
    (ht : 0 ≤ t ∧ t < c.nb * e s r) : runMoves c.stage3 m (c.cell mid r (R r s + t)) = m (c.cell mid r (R r s + t)) := by
  apply runMoves_frame
  intro x hx heq
  simp only [P2p.stage3, List.mem_flatMap, List.mem_range] at hx
  obtain ⟨r', hr', hx⟩ := hx
  obtain ⟨ho, h1⟩ := h.selfMoves_writes hr' hx
  rcases h1 with ⟨u, hu, h2⟩ | ⟨_, _, -, -, -, h2⟩ <;> rw [h2] at heq <;>
    rcases c.cell_cases mid r (R r s + t) with ⟨-, h4⟩ | ⟨-, h4⟩ <;> rw [h4] at heq <;> simp only [Loc.mem.injEq, true_and, reduceCtorEq, false_and, and_false] at heq
  · obtain ⟨rfl, h5⟩ := heq
    have := h.good.recvApart s r' r' (.inl hl) (.inr ⟨rfl, ho⟩) (h.other _ _ hl)
    omega
  · rcases c.out_inner r' with h5 | h5 <;> rw [h5] at heq <;> simp at heq
  · rcases c.out_inner r' with h5 | h5 <;> rw [h5] at heq <;> simp at heq

/-! ## Unpacking -/

theorem P2pOk.recvMoves_writes (h : P2pOk I O W jobs link own S R e mid c) {r k : Nat} (hr : r < c.n) (hk : k ∈ c.done r) {x : Loc × Loc}
    (hx : x ∈ c.recvMoves r k) : ∃ b, (c.recvs r)[k]? = some b ∧
      ((c.transport ≠ .aware ∧ ∃ t, (0 ≤ t ∧ t < c.nb * e b.proc r) ∧ x.1 = .mem r .ws (R r b.proc + t)) ∨
      ∃ (j : Nat) (p : A3 Int), j < c.nb ∧ p ∈ I b.proc ∧ p ∈ O r ∧ x.1 = .mem r (c.out r) (j * (O r).count + (O r).offset p)) := by
  have hk' : k < (c.recvs r).length := List.mem_range.1 ((h.done r hr).subset hk)
  rcases List.mem_append.1 hx with hx | hx
  · obtain ⟨hst, b, hb, t, ht, rfl⟩ := (h.ld hr x).1 hx
    exact ⟨b, hb, Or.inl ⟨hst, t, ht, rfl⟩⟩
  · obtain ⟨b, hb, j, p, hj, hI, hO, rfl⟩ := (h.un hr hk' x).1 hx
    exact ⟨b, hb, Or.inr ⟨j, p, hj, hI, hO, rfl⟩⟩

theorem P2pOk.mem_stage4 {x : Loc × Loc} (hx : x ∈ c.stage4) : ∃ r k, r < c.n ∧ k ∈ c.done r ∧ x ∈ c.recvMoves r k := by
  simp only [P2p.stage4, List.mem_flatMap, List.mem_range] at hx
  obtain ⟨r, hr, k, hk, hx⟩ := hx
  exact ⟨r, k, hr, hk, hx⟩

/-- Entries of different messages go to different places. -/
theorem P2pOk.out_apart (h : P2pOk I O W jobs link own S R e mid c) {r s s' j j' : Nat} {p p' : A3 Int} (hr : r < c.n) (hs : s < c.n)
    (hs' : s' < c.n) (hne : s ≠ s') (hj : j < c.nb) (hI : p ∈ I s) (hI' : p' ∈ I s') (hO : p ∈ O r) (hO' : p' ∈ O r) :
    j * (O r).count + (O r).offset p ≠ j' * (O r).count + (O r).offset p' := by
  intro heq
  obtain ⟨hjj, hoff⟩ := entry_inj (A := 0) (nb := c.nb) (e := (O r).count) le_rfl (Box.offset_range (h.ordO r hr) hO)
    (Box.offset_range (h.ordO r hr) hO') (by linarith) hj
  have hpp := Box.offset_inj (h.ordO r hr) hO hO' hoff
  subst hpp
  exact hne (h.uniq s s' hs hs' p hI hI')

/-- The received part of the result. -/
theorem P2pOk.unpacked (h : P2pOk I O W jobs link own S R e mid c) (m : Store α) {s r j : Nat} {p : A3 Int} (hl : link s r)
    (hj : j < c.nb) (hI : p ∈ I s) (hO : p ∈ O r) :
    runMoves c.stage4 m (.mem r (c.out r) (j * (O r).count + (O r).offset p)) =
      m (c.cell mid r (R r s + (j * e s r + msgOff (I s) (O r) p))) := by
  obtain ⟨hs, hr⟩ := h.good.linkLt s r hl
  obtain ⟨k, b, hb, hbp⟩ := h.recvHas s r hl
  have hk : k < (c.recvs r).length := (List.getElem?_eq_some_iff.1 hb).1
  have hkd : k ∈ c.done r := (h.done r hr).symm.subset (List.mem_range.2 hk)
  have hent := h.entry (.inl hl) hj hI hO
  have hd : ∀ r, r < c.n → (c.done r).Nodup := fun r hr => (h.done r hr).nodup_iff.2 List.nodup_range
  obtain ⟨A, B, hAB, hoth⟩ := flatMap_split₂ hd c.recvMoves hr hkd
  have h1 : c.stage4 = A ++ c.recvMoves r k ++ B := hAB
  rw [h1, runMoves_append, runMoves_append]
  set q := j * e s r + msgOff (I s) (O r) p with hq
  -- nothing later writes the entry
  rw [runMoves_frame B]
  swap
  · intro x hx heq
    obtain ⟨r', k', hr', hk', hne, hx⟩ := hoth x (.inr hx)
    obtain ⟨b', hb', hw⟩ := h.recvMoves_writes hr' hk' hx
    rcases hw with ⟨-, t, -, h2⟩ | ⟨j', p', hj', hI', hO', h2⟩ <;> rw [h2] at heq <;> simp only [Loc.mem.injEq] at heq
    · rcases c.out_inner r with h5 | h5 <;> rw [h5] at heq <;> simp at heq
    · obtain ⟨rfl, -, h3⟩ := heq
      have hpr : b'.proc ≠ s := by
        intro hp
        exact hne ⟨rfl, procs_inj (h.recvNodup r' hr') hb' hb (by rw [hp, hbp])⟩
      exact h.out_apart hr (h.good.linkLt _ _ (h.recvAt r' hr' k' b' hb').1).1 hs hpr hj' hI' hI hO' hO h3
  -- nothing earlier writes the message
  have hcell : runMoves A m (c.cell mid r (R r s + q)) = m (c.cell mid r (R r s + q)) := by
    apply runMoves_frame
    intro x hx heq
    obtain ⟨r', k', hr', hk', hne, hx⟩ := hoth x (.inl hx)
    obtain ⟨b', hb', hw⟩ := h.recvMoves_writes hr' hk' hx
    rcases hw with ⟨hst, t, ht, h2⟩ | ⟨j', p', hj', hI', hO', h2⟩ <;> rw [h2] at heq <;>
      rcases c.cell_cases mid r (R r s + q) with ⟨h5, h4⟩ | ⟨h5, h4⟩ <;> rw [h4] at heq <;>
      simp only [Loc.mem.injEq, true_and, reduceCtorEq, false_and, and_false] at heq
    · exact hst h5
    · rcases c.out_inner r' with h5 | h5 <;> rw [h5] at heq <;> simp at heq
    · rcases c.out_inner r' with h5 | h5 <;> rw [h5] at heq <;> simp at heq
  rw [← hcell]
  generalize runMoves A m = m1
  unfold P2p.recvMoves
  rw [runMoves_append]
  have e1 : ∀ m2 : Store α, runMoves (p2pMoves c (.un r k)) m2 (.mem r (c.out r) (j * (O r).count + (O r).offset p)) =
      m2 (.mem r .ws (R r s + q)) := by
    intro m2
    have hmem : (Loc.mem r (c.out r) (j * (O r).count + (O r).offset p), Loc.mem r .ws (R r s + q)) ∈ p2pMoves c (.un r k) := by
      refine (h.un hr hk _).2 ⟨b, hb, j, p, hj, by rw [hbp]; exact hI, hO, ?_⟩
      rw [hbp, hq, add_assoc]
    refine runMoves_ok _ m2 ?_ ?_ _ hmem
    · intro x hx y hy
      obtain ⟨_, _, _, _, -, -, -, rfl⟩ := (h.un hr hk x).1 hx
      obtain ⟨_, _, _, _, -, -, -, rfl⟩ := (h.un hr hk y).1 hy
      rcases c.out_inner r with h5 | h5 <;> simp [h5]
    · intro x hx y hy heq
      obtain ⟨b', hb', j', p', hj', hI', hO', rfl⟩ := (h.un hr hk x).1 hx
      obtain ⟨b'', hb'', j'', p'', hj'', hI'', hO'', rfl⟩ := (h.un hr hk y).1 hy
      rw [hb] at hb' hb''
      obtain rfl := Option.some.inj hb'
      obtain rfl := Option.some.inj hb''
      simp only [Loc.mem.injEq, true_and] at heq
      obtain ⟨hjj, hoff⟩ := entry_inj (A := 0) (nb := c.nb) (e := (O r).count) le_rfl (Box.offset_range (h.ordO r hr) hO')
        (Box.offset_range (h.ordO r hr) hO'') (by linarith) hj'
      have hpp := Box.offset_inj (h.ordO r hr) hO' hO'' hoff
      rw [hjj, hpp]
  have e2 : ∀ m2 : Store α, runMoves (p2pMoves c (.ld r k)) m2 (.mem r .ws (R r s + q)) = m2 (c.cell mid r (R r s + q)) := by
    intro m2
    rcases c.cell_cases mid r (R r s + q) with ⟨h5, h4⟩ | ⟨h5, h4⟩ <;> rw [h4]
    · have : p2pMoves c (.ld r k) = [] := by simp [p2pMoves, h5]
      rw [this]
      rfl
    · have hmem : (Loc.mem r .ws (R r s + q), Loc.mem r .hr (R r s + q - mid r)) ∈ p2pMoves c (.ld r k) :=
        (h.ld hr _).2 ⟨h5, b, hb, q, by rw [hbp]; exact hent, by rw [hbp]⟩
      refine runMoves_ok _ m2 ?_ ?_ _ hmem
      · intro x hx y hy
        obtain ⟨-, _, _, t, -, rfl⟩ := (h.ld hr x).1 hx
        obtain ⟨-, _, _, t', -, rfl⟩ := (h.ld hr y).1 hy
        simp
      · intro x hx y hy heq
        obtain ⟨-, _, _, t, -, rfl⟩ := (h.ld hr x).1 hx
        obtain ⟨-, _, _, t', -, rfl⟩ := (h.ld hr y).1 hy
        simp only [Loc.mem.injEq, true_and] at heq
        simp only [Loc.mem.injEq, true_and]
        omega
  rw [e1, e2]

/-- The writes of the last two stages to the arrays of the user. -/
theorem P2pOk.out_writes (h : P2pOk I O W jobs link own S R e mid c) {x : Loc × Loc} (hx : x ∈ c.stage3 ∨ x ∈ c.stage4) {r : Nat} {b : DevBuf}
    {a : Int} (hb : b = .src ∨ b = .dst) (hxa : x.1 = .mem r b a) : r < c.n ∧ b = c.out r ∧ 0 ≤ a ∧ a < c.nb * (O r).count := by
  have fin : ∀ {r' j : Nat} {p : A3 Int}, r' < c.n → j < c.nb → p ∈ O r' →
      x.1 = .mem r' (c.out r') (j * (O r').count + (O r').offset p) → r < c.n ∧ b = c.out r ∧ 0 ≤ a ∧ a < c.nb * (O r).count := by
    intro r' j p hr' hj hO h2
    rw [hxa] at h2
    simp only [Loc.mem.injEq] at h2
    obtain ⟨rfl, h3, rfl⟩ := h2
    have := mul_count_le hj (Box.offset_range (h.ordO r hr') hO)
    exact ⟨hr', h3, by omega, by omega⟩
  have no : ∀ {r' t}, x.1 = .mem r' .ws t → False := by
    intro r' t h2
    rw [hxa] at h2
    simp only [Loc.mem.injEq] at h2
    obtain ⟨-, rfl, -⟩ := h2
    simp at hb
  rcases hx with hx | hx
  · simp only [P2p.stage3, List.mem_flatMap, List.mem_range] at hx
    obtain ⟨r', hr', hx⟩ := hx
    rcases (h.selfMoves_writes hr' hx).2 with ⟨t, -, h2⟩ | ⟨j, p, hj, -, hO, h2⟩
    · exact (no h2).elim
    · exact fin hr' hj hO h2
  · obtain ⟨r', k, hr', hk, hx⟩ := P2pOk.mem_stage4 hx
    obtain ⟨b', -, hw⟩ := h.recvMoves_writes hr' hk hx
    rcases hw with ⟨-, t, -, h2⟩ | ⟨j, p, hj, -, hO, h2⟩
    · exact (no h2).elim
    · exact fin hr' hj hO h2

theorem P2pOk.result (h : P2pOk I O W jobs link own S R e mid c) (m0 : Store α) :
    Moved c.n c.nb I O c.inplace m0 (runMoves c.stage4 (runMoves c.stage3 (runMoves c.stage2 (runMoves c.stage1 m0)))) := by
  have hkeep : ∀ r b a, (b = .src ∨ b = .dst) → (¬ (b = c.out r ∧ 0 ≤ a ∧ a < c.nb * (O r).count)) →
      runMoves c.stage4 (runMoves c.stage3 (runMoves c.stage2 (runMoves c.stage1 m0))) (.mem r b a) = m0 (.mem r b a) := by
    intro r b a hb hn
    rw [runMoves_frame c.stage4, runMoves_frame c.stage3, h.stage2_frame _ r b a hb, h.stage1_frame _ r b a hb]
    · intro x hx heq
      exact hn (h.out_writes (.inl hx) hb heq).2
    · intro x hx heq
      exact hn (h.out_writes (.inr hx) hb heq).2
  have hout : ∀ r, (if c.inplace r then DevBuf.src else DevBuf.dst) = c.out r := fun _ => rfl
  refine ⟨?_, ?_, ?_⟩
  · intro s r hs hr j p hj hI hO
    rw [hout]
    rcases h.good.cover s r hs hr (msgCount_pos hI hO) with hl | ⟨rfl, ho⟩
    · have hent := h.entry (.inl hl) hj hI hO
      rw [h.unpacked _ hl hj hI hO, h.stage3_frame _ hl hent, h.received _ hl hent, h.sent _ hl hj hI hO]
    · rw [runMoves_frame c.stage4, h.selfDone _ ho hj hI hO, h.stage2_frame _ _ _ _ (.inl rfl), h.stage1_frame _ _ _ _ (.inl rfl)]
      intro x hx heq
      obtain ⟨r', k, hr', hk, hx⟩ := P2pOk.mem_stage4 hx
      obtain ⟨b', hb', hw⟩ := h.recvMoves_writes hr' hk hx
      rcases hw with ⟨-, t, -, h2⟩ | ⟨j', p', hj', hI', hO', h2⟩ <;> rw [h2] at heq <;> simp only [Loc.mem.injEq] at heq
      · rcases c.out_inner s with h5 | h5 <;> rw [h5] at heq <;> simp at heq
      · obtain ⟨rfl, -, h3⟩ := heq
        have hl := (h.recvAt r' hr' k b' hb').1
        exact h.out_apart hr (h.good.linkLt _ _ hl).1 hs (h.other _ _ hl) hj' hI' hI hO' hO h3
  · intro r a ha
    rw [hout]
    refine hkeep r _ a (c.out_inner r) fun h2 => ha h2.2
  · intro r a ha
    refine hkeep r _ a (.inl rfl) fun h2 => ?_
    simp [P2p.out, ha] at h2

/-- Every execution moves every index. -/
theorem P2pOk.run (h : P2pOk I O W jobs link own S R e mid c) (hsound : c.transport.sound = true) {pre : Nat → List (Atom α)}
    (hpre : ∀ r, ∀ a ∈ pre r, a.onRank r) {l : List (P2pOp × Nat)}
    (hl : Execution c.before P2pOp.inOrder (p2pAct c pre) (p2pOps c) l) (m : Store α) :
    Moved c.n c.nb I O c.inplace (runAtoms ((List.range c.n).flatMap pre) m) (runSteps (p2pAct c pre) l m) := by
  rw [h.any_schedule hsound hpre hl m, runAtoms_p2pOps]
  exact h.result _

end Verif
