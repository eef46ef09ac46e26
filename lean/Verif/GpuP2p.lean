import Verif.GpuColl
import Mathlib.Data.Prod.Lex

/-!
# Point-to-point reshapes on devices: no races
-/

namespace Verif
variable {α : Type} {I O : Nat → Box} {W : Nat → Int} {jobs : List Job} {link : Nat → Nat → Prop} {own : Nat → Prop}
  {S R e : Nat → Nat → Int} {mid : Nat → Int} {c : P2p}

/-- A point-to-point reshape whose messages have a sound layout. -/
structure P2pOk (I O : Nat → Box) (W : Nat → Int) (jobs : List Job) (link : Nat → Nat → Prop) (own : Nat → Prop)
    (S R e : Nat → Nat → Int) (mid : Nat → Int) (c : P2p) : Prop where
  good : Good c.n c.nb I O W jobs link own S R e mid
  ordI : ∀ r, r < c.n → IsOrder (I r).order
  ordO : ∀ r, r < c.n → IsOrder (O r).order
  uniq : ∀ s s', s < c.n → s' < c.n → ∀ p : A3 Int, p ∈ I s → p ∈ I s' → s = s'
  other : ∀ s r, link s r → s ≠ r
  base : ∀ r, r < c.n → c.nb * (c.objs r).inSize = mid r
  self : ∀ r, r < c.n → ((c.objs r).selfToSelf = true ↔ own r)
  sendAt : ∀ s, s < c.n → ∀ (i : Nat) (a : Entry), (c.sends s)[i]? = some a → link s a.proc ∧ a.size = e s a.proc ∧
    (p2pSends c.nb (c.sends s) 0)[i]? = some ⟨a.proc, S s a.proc, c.nb * e s a.proc⟩ ∧
    ∀ (j : Nat) X m, m ∈ packMoves a.plan (j * (c.objs s).inSize + a.offset) X ↔ ∃ p : A3 Int, p ∈ I s ∧ p ∈ O a.proc ∧
      m = (X + msgOff (I s) (O a.proc) p, j * (I s).count + (I s).offset p)
  sendHas : ∀ s r, link s r → ∃ (i : Nat) (a : Entry), (c.sends s)[i]? = some a ∧ a.proc = r
  sendNodup : ∀ s, s < c.n → ((c.sends s).map Entry.proc).Nodup
  recvAt : ∀ r, r < c.n → ∀ (k : Nat) (b : Entry), (c.recvs r)[k]? = some b → link b.proc r ∧ b.size = e b.proc r ∧
    (∃ loc, (c.objs r).recvLoc[k]? = some loc ∧ mid r + c.nb * loc = R r b.proc) ∧
    ∀ m, m ∈ p2pUnpackOne c.direct c.stride c.nb (c.objs r) k ↔ ∃ (j : Nat) (p : A3 Int), j < c.nb ∧ p ∈ I b.proc ∧ p ∈ O r ∧
      m = (j * (O r).count + (O r).offset p, R r b.proc + j * e b.proc r + msgOff (I b.proc) (O r) p)
  recvHas : ∀ s r, link s r → ∃ (k : Nat) (b : Entry), (c.recvs r)[k]? = some b ∧ b.proc = s
  recvNodup : ∀ r, r < c.n → ((c.recvs r).map Entry.proc).Nodup
  done : ∀ r, r < c.n → (c.done r).Perm (List.range (c.recvs r).length)
  selfPack : ∀ r, r < c.n → ∀ m, m ∈ ((c.objs r).job c.direct c.stride c.nb []).selfPacks ↔ ∃ (j : Nat) (p : A3 Int), own r ∧
    j < c.nb ∧ p ∈ I r ∧ p ∈ O r ∧ m = (R r r + j * e r r + msgOff (I r) (O r) p, j * (I r).count + (I r).offset p)
  selfUnpack : ∀ r, r < c.n → ∀ m, m ∈ ((c.objs r).job c.direct c.stride c.nb []).unpacks ↔ ∃ (j : Nat) (p : A3 Int), own r ∧
    j < c.nb ∧ p ∈ I r ∧ p ∈ O r ∧ m = (j * (O r).count + (O r).offset p, R r r + j * e r r + msgOff (I r) (O r) p)

/-! ## The cells of the operations -/

theorem procs_inj {l : List Entry} (h : (l.map Entry.proc).Nodup) {i k : Nat} {a b : Entry} (ha : l[i]? = some a)
    (hb : l[k]? = some b) (hp : a.proc = b.proc) : i = k := by
  have h1 : (l.map Entry.proc)[i]? = some a.proc := by rw [List.getElem?_map, ha]; rfl
  have h2 : (l.map Entry.proc)[k]? = some b.proc := by rw [List.getElem?_map, hb]; rfl
  obtain ⟨hi, h3⟩ := List.getElem?_eq_some_iff.1 h1
  obtain ⟨hk, h4⟩ := List.getElem?_eq_some_iff.1 h2
  exact (List.Nodup.getElem_inj_iff h).1 (by rw [h3, h4, hp])

/-- The plain algorithm without GPU-aware MPI uses the start of the buffers for every message. -/
def P2p.reuses (c : P2p) : Bool := match c.transport with
  | .staged _ => !c.plined
  | .aware => false

theorem P2pOk.offset (h : P2pOk I O W jobs link own S R e mid c) {s i : Nat} {a : Entry} (hs : s < c.n)
    (ha : (c.sends s)[i]? = some a) : c.offset s i = if c.reuses then 0 else S s a.proc := by
  have h1 := (h.sendAt s hs i a ha).2.2.1
  unfold P2p.offset P2p.reuses
  cases c.transport <;> cases c.plined <;> simp [h1]

theorem P2pOk.pk (h : P2pOk I O W jobs link own S R e mid c) {s i : Nat} (hs : s < c.n) (x : Loc × Loc) :
    x ∈ p2pMoves c (.pk s i) ↔ ∃ a, (c.sends s)[i]? = some a ∧ ∃ (j : Nat) (p : A3 Int), j < c.nb ∧ p ∈ I s ∧ p ∈ O a.proc ∧
      x = (.mem s .ws (c.offset s i + j * e s a.proc + msgOff (I s) (O a.proc) p), .mem s .src (j * (I s).count + (I s).offset p)) := by
  simp only [p2pMoves]
  constructor
  · intro hx
    split at hx
    · rename_i a ha
      obtain ⟨u, v, hm, rfl⟩ := mem_onRank.1 hx
      simp only [List.mem_flatMap, List.mem_range] at hm
      obtain ⟨j, hj, hm⟩ := hm
      obtain ⟨-, h2, -, h4⟩ := h.sendAt s hs i a ha
      obtain ⟨p, hI, hO, h5⟩ := (h4 j _ _).1 hm
      simp only [Prod.mk.injEq] at h5
      exact ⟨a, ha, j, p, hj, hI, hO, by rw [h5.1, h5.2, h2]⟩
    · simp at hx
  · rintro ⟨a, ha, j, p, hj, hI, hO, rfl⟩
    rw [ha]
    obtain ⟨-, h2, -, h4⟩ := h.sendAt s hs i a ha
    refine mem_onRank.2 ⟨_, _, ?_, rfl⟩
    simp only [List.mem_flatMap, List.mem_range]
    exact ⟨j, hj, (h4 j _ _).2 ⟨p, hI, hO, by rw [h2]⟩⟩

theorem P2pOk.ul (h : P2pOk I O W jobs link own S R e mid c) {s i : Nat} (hs : s < c.n) (x : Loc × Loc) :
    x ∈ p2pMoves c (.ul s i) ↔ c.transport ≠ .aware ∧ ∃ a, (c.sends s)[i]? = some a ∧ ∃ t, (0 ≤ t ∧ t < c.nb * e s a.proc) ∧
      x = (.mem s .hs (c.offset s i + t), .mem s .ws (c.offset s i + t)) := by
  simp only [p2pMoves]
  cases hc : c.transport with
  | aware => simp
  | staged w =>
    cases ha : (c.sends s)[i]? with
    | none => simp
    | some a =>
      rw [mem_transfer, (h.sendAt s hs i a ha).2.1]
      simp

theorem P2pOk.sd (h : P2pOk I O W jobs link own S R e mid c) {s i : Nat} (hs : s < c.n) (x : Loc × Loc) :
    x ∈ p2pMoves c (.sd s i) ↔ ∃ a, (c.sends s)[i]? = some a ∧ ∃ t, (0 ≤ t ∧ t < c.nb * e s a.proc) ∧
      x = (.net s a.proc t, .mem s c.from (c.offset s i + t)) := by
  simp only [p2pMoves]
  cases ha : (c.sends s)[i]? with
  | none => simp
  | some a =>
    simp only [List.mem_map, mem_loop, (h.sendAt s hs i a ha).2.1, Option.some.injEq, exists_eq_left']
    constructor
    · rintro ⟨t, ht, rfl⟩; exact ⟨t, ht, rfl⟩
    · rintro ⟨t, ht, rfl⟩; exact ⟨t, ht, rfl⟩

/-- The cell of rank `r` that MPI writes for the entry `a` of the workspace. -/
def P2p.cell (c : P2p) (mid : Nat → Int) (r : Nat) (a : Int) : Loc := match c.transport with
  | .aware => .mem r .ws a
  | .staged _ => .mem r .hr (a - mid r)

theorem P2pOk.rc (h : P2pOk I O W jobs link own S R e mid c) {r k : Nat} (hr : r < c.n) (x : Loc × Loc) :
    x ∈ p2pMoves c (.rc r k) ↔ ∃ b, (c.recvs r)[k]? = some b ∧ ∃ t, (0 ≤ t ∧ t < c.nb * e b.proc r) ∧
      x = (c.cell mid r (R r b.proc + t), .net b.proc r t) := by
  simp only [p2pMoves]
  cases hb : (c.recvs r)[k]? with
  | none => simp
  | some b =>
    obtain ⟨-, h2, ⟨loc, h3, h4⟩, -⟩ := h.recvAt r hr k b hb
    have hcell : ∀ t, c.into r (c.nb * loc + t) = c.cell mid r (R r b.proc + t) := by
      intro t
      unfold P2p.into P2p.cell
      cases c.transport with
      | aware => simp only [Loc.mem.injEq, true_and]; rw [h.base r hr]; omega
      | staged w => simp only [Loc.mem.injEq, true_and]; omega
    simp only [h3, List.mem_map, mem_loop, h2, Option.some.injEq, exists_eq_left', hcell]
    constructor
    · rintro ⟨t, ht, rfl⟩; exact ⟨t, ht, rfl⟩
    · rintro ⟨t, ht, rfl⟩; exact ⟨t, ht, rfl⟩

theorem P2pOk.ld (h : P2pOk I O W jobs link own S R e mid c) {r k : Nat} (hr : r < c.n) (x : Loc × Loc) :
    x ∈ p2pMoves c (.ld r k) ↔ c.transport ≠ .aware ∧ ∃ b, (c.recvs r)[k]? = some b ∧ ∃ t, (0 ≤ t ∧ t < c.nb * e b.proc r) ∧
      x = (.mem r .ws (R r b.proc + t), .mem r .hr (R r b.proc + t - mid r)) := by
  simp only [p2pMoves]
  cases hc : c.transport with
  | aware => simp
  | staged w =>
    cases hb : (c.recvs r)[k]? with
    | none => simp
    | some b =>
      obtain ⟨-, h2, ⟨loc, h3, h4⟩, -⟩ := h.recvAt r hr k b hb
      simp only [h3, mem_transfer, h2, Option.some.injEq, exists_eq_left', ne_eq, reduceCtorEq, not_false_eq_true, true_and]
      apply exists_congr
      intro t
      rw [h.base r hr, h4, show (c.nb : Int) * loc + t = R r b.proc + t - mid r by omega]

theorem P2pOk.un (h : P2pOk I O W jobs link own S R e mid c) {r k : Nat} (hr : r < c.n) (hk : k < (c.recvs r).length) (x : Loc × Loc) :
    x ∈ p2pMoves c (.un r k) ↔ ∃ b, (c.recvs r)[k]? = some b ∧ ∃ (j : Nat) (p : A3 Int), j < c.nb ∧ p ∈ I b.proc ∧ p ∈ O r ∧
      x = (.mem r (c.out r) (j * (O r).count + (O r).offset p), .mem r .ws (R r b.proc + j * e b.proc r + msgOff (I b.proc) (O r) p)) := by
  simp only [p2pMoves]
  have hb : (c.recvs r)[k]? = some (c.recvs r)[k] := List.getElem?_eq_getElem hk
  obtain ⟨-, -, -, h4⟩ := h.recvAt r hr k _ hb
  constructor
  · intro hx
    obtain ⟨u, v, hm, rfl⟩ := mem_onRank.1 hx
    obtain ⟨j, p, hj, hI, hO, h5⟩ := (h4 _).1 hm
    simp only [Prod.mk.injEq] at h5
    exact ⟨_, hb, j, p, hj, hI, hO, by rw [h5.1, h5.2]⟩
  · rintro ⟨b, hb', j, p, hj, hI, hO, rfl⟩
    rw [hb] at hb'
    obtain rfl := Option.some.inj hb'
    exact mem_onRank.2 ⟨_, _, (h4 _).2 ⟨j, p, hj, hI, hO, rfl⟩, rfl⟩

theorem P2pOk.sp (h : P2pOk I O W jobs link own S R e mid c) {r : Nat} (hr : r < c.n) (x : Loc × Loc) :
    x ∈ p2pMoves c (.sp r) ↔ ∃ (j : Nat) (p : A3 Int), own r ∧ j < c.nb ∧ p ∈ I r ∧ p ∈ O r ∧
      x = (.mem r .ws (R r r + j * e r r + msgOff (I r) (O r) p), .mem r .src (j * (I r).count + (I r).offset p)) := by
  simp only [p2pMoves]
  constructor
  · intro hx
    obtain ⟨u, v, hm, rfl⟩ := mem_onRank.1 hx
    obtain ⟨j, p, ho, hj, hI, hO, h5⟩ := (h.selfPack r hr _).1 hm
    simp only [Prod.mk.injEq] at h5
    exact ⟨j, p, ho, hj, hI, hO, by rw [h5.1, h5.2]⟩
  · rintro ⟨j, p, ho, hj, hI, hO, rfl⟩
    exact mem_onRank.2 ⟨_, _, (h.selfPack r hr _).2 ⟨j, p, ho, hj, hI, hO, rfl⟩, rfl⟩

theorem P2pOk.su (h : P2pOk I O W jobs link own S R e mid c) {r : Nat} (hr : r < c.n) (x : Loc × Loc) :
    x ∈ p2pMoves c (.su r) ↔ ∃ (j : Nat) (p : A3 Int), own r ∧ j < c.nb ∧ p ∈ I r ∧ p ∈ O r ∧
      x = (.mem r (c.out r) (j * (O r).count + (O r).offset p), .mem r .ws (R r r + j * e r r + msgOff (I r) (O r) p)) := by
  simp only [p2pMoves]
  constructor
  · intro hx
    obtain ⟨u, v, hm, rfl⟩ := mem_onRank.1 hx
    obtain ⟨j, p, ho, hj, hI, hO, h5⟩ := (h.selfUnpack r hr _).1 hm
    simp only [Prod.mk.injEq] at h5
    exact ⟨j, p, ho, hj, hI, hO, by rw [h5.1, h5.2]⟩
  · rintro ⟨j, p, ho, hj, hI, hO, rfl⟩
    exact mem_onRank.2 ⟨_, _, (h.selfUnpack r hr _).2 ⟨j, p, ho, hj, hI, hO, rfl⟩, rfl⟩

/-- The addresses of the entries of a message lie in its part of the workspace. -/
theorem P2pOk.entry (h : P2pOk I O W jobs link own S R e mid c) {s r : Nat} (hsr : link s r ∨ s = r ∧ own s) {j : Nat} {p : A3 Int}
    (hj : j < c.nb) (hI : p ∈ I s) (hO : p ∈ O r) :
    0 ≤ j * e s r + msgOff (I s) (O r) p ∧ j * e s r + msgOff (I s) (O r) p < c.nb * e s r := by
  have hs : s < c.n := by
    rcases hsr with hl | ⟨rfl, ho⟩
    · exact (h.good.linkLt s r hl).1
    · exact h.good.selfLt s ho
  exact entry_range (h.good.stride s r hsr) (msgOff_range (h.ordI s hs) hI hO) hj

end Verif
