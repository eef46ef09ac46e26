import Verif.MoveLemmas

/-!
# Properties of packing and unpacking (C20, C21)

The plan of a sub-box is the one that the reshapes make; the specification only talks about index triples and their
positions `Box.offset` in the arrays.
-/

namespace Verif
variable {α : Type}

/-- The index `p` of the box `a` and the index `q` of the box `b` have the same coordinates relative to the corner of
their box, direction by direction in the storage orders of the boxes. -/
def SamePlace (a b : Box) (p q : A3 Int) : Prop :=
  ∀ k : Fin 3, p.get (a.order.get k) - a.low.get (a.order.get k) = q.get (b.order.get k) - b.low.get (b.order.get k)

/-- Same number of indexes in each direction of the storage orders. -/
def SameShape (a b : Box) : Prop :=
  ∀ k : Fin 3, a.high.get (a.order.get k) - a.low.get (a.order.get k) = b.high.get (b.order.get k) - b.low.get (b.order.get k)

theorem SameShape.osize {a b : Box} (h : SameShape a b) (k : Fin 3) : a.osize k = b.osize k := by
  have := h k
  simp only [Box.osize, Box.size_get]
  omega

theorem mem_packSub {s a : Box} (hs : IsOrder s.order) (ha : a.order = s.order) (m : Int × Int) :
    m ∈ packMoves (directPlan s a) (overlapOffset s a) 0 ↔ ∃ p : A3 Int, p ∈ a ∧ m = (a.offset p, s.offset p) := by
  have ho : IsOrder a.order := by rw [ha]; exact hs
  rw [mem_packMoves, overlapOffset_eq]
  simp only [directPlan, A3.get_zero, A3.get_one, A3.get_two, Int.zero_add]
  constructor
  · rintro ⟨i, j, k, hi, hj, hk, rfl⟩
    refine ⟨_, (Box.mem_at ho).2 ⟨i, j, k, hi, hj, hk, rfl⟩, ?_⟩
    rw [Box.offset_at_self ho, Box.offset_at ho ha.symm]
  · rintro ⟨p, hp, rfl⟩
    obtain ⟨i, j, k, hi, hj, hk, rfl⟩ := (Box.mem_at ho).1 hp
    refine ⟨i, j, k, hi, hj, hk, ?_⟩
    rw [Box.offset_at_self ho, Box.offset_at ho ha.symm]

theorem mem_unpackSub {t b : Box} (ht : IsOrder t.order) (hb : b.order = t.order) (m : Int × Int) :
    m ∈ unpackDirect (directPlan t b) 0 (overlapOffset t b) ↔ ∃ p : A3 Int, p ∈ b ∧ m = (t.offset p, b.offset p) := by
  have ho : IsOrder b.order := by rw [hb]; exact ht
  rw [mem_unpackDirect, overlapOffset_eq]
  simp only [directPlan, A3.get_zero, A3.get_one, A3.get_two, Int.zero_add]
  constructor
  · rintro ⟨i, j, k, hi, hj, hk, rfl⟩
    refine ⟨_, (Box.mem_at ho).2 ⟨i, j, k, hi, hj, hk, rfl⟩, ?_⟩
    rw [Box.offset_at_self ho, Box.offset_at ho hb.symm]
  · rintro ⟨p, hp, rfl⟩
    obtain ⟨i, j, k, hi, hj, hk, rfl⟩ := (Box.mem_at ho).1 hp
    refine ⟨i, j, k, hi, hj, hk, ?_⟩
    rw [Box.offset_at_self ho, Box.offset_at ho hb.symm]

theorem mem_unpackSubT {stride : Nat} (hstr : 0 < stride) {t c : Box} (ht : IsOrder t.order) (hc : IsOrder c.order)
    (m : Int × Int) :
    m ∈ unpackTranspose stride (transposePlan t ⟨c.low, c.high, t.order⟩ c.order) 0
        (overlapOffset t ⟨c.low, c.high, t.order⟩) ↔ ∃ p : A3 Int, p ∈ c ∧ m = (t.offset p, c.offset p) := by
  have hm : ∀ p : A3 Int, p ∈ c ↔ p ∈ (⟨c.low, c.high, t.order⟩ : Box) := fun p => Iff.rfl
  have ho : IsOrder (⟨c.low, c.high, t.order⟩ : Box).order := ht
  have hbuf := bufIndex_eq (t := t) (ov := ⟨c.low, c.high, t.order⟩) hc ht rfl
  rw [mem_unpackTranspose hstr, overlapOffset_eq]
  simp only [hm, hbuf]
  simp only [transposePlan, A3.get_zero, A3.get_one, A3.get_two, Int.zero_add]
  constructor
  · rintro ⟨i, j, k, hi, hj, hk, rfl⟩
    refine ⟨_, (Box.mem_at ho).2 ⟨i, j, k, hi, hj, hk, rfl⟩, ?_⟩
    rw [Box.offset_at (b := t) ho rfl]
  · rintro ⟨p, hp, rfl⟩
    obtain ⟨i, j, k, hi, hj, hk, rfl⟩ := (Box.mem_at ho).1 hp
    refine ⟨i, j, k, hi, hj, hk, ?_⟩
    rw [Box.offset_at (b := t) ho rfl]

/-- The position in the message does not depend on where the box is. -/
theorem SamePlace.offset {a b : Box} (hsh : SameShape a b) {p q : A3 Int} (h : SamePlace a b p q) :
    a.offset p = b.offset q := by
  have h0 := h 0
  have h1 := h 1
  have h2 := h 2
  simp only [A3.get_zero, A3.get_one, A3.get_two] at h0 h1 h2
  rw [Box.offset_eq, Box.offset_eq, hsh.osize, hsh.osize, h0, h1, h2]

/-- The index of `a` at the same place as an index of `b`. -/
theorem SamePlace.exists {a b : Box} (ha : IsOrder a.order) (hb : IsOrder b.order) (hsh : SameShape a b) {q : A3 Int}
    (hq : q ∈ b) : ∃ p : A3 Int, p ∈ a ∧ SamePlace a b p q := by
  obtain ⟨i, j, k, hi, hj, hk, rfl⟩ := (Box.mem_at hb).1 hq
  rw [← hsh.osize] at hi hj hk
  refine ⟨_, (Box.mem_at ha).2 ⟨i, j, k, hi, hj, hk, rfl⟩, ?_⟩
  intro d
  match d with
  | 0 => show (a.at i j k).get a.order.x - _ = (b.at i j k).get b.order.x - _
         rw [a.at_x ha, b.at_x hb]; simp only [A3.get_zero]; omega
  | 1 => show (a.at i j k).get a.order.y - _ = (b.at i j k).get b.order.y - _
         rw [a.at_y ha, b.at_y hb]; simp only [A3.get_one]; omega
  | 2 => show (a.at i j k).get a.order.z - _ = (b.at i j k).get b.order.z - _
         rw [a.at_z, b.at_z]; simp only [A3.get_two]; omega

theorem offset_in {s : Box} (hs : IsOrder s.order) {n : Nat} (hn : s.points.card ≤ n) {p : A3 Int} (hp : p ∈ s) :
    0 ≤ s.offset p ∧ s.offset p < n := by
  have h1 := Box.offset_range hs hp
  rw [Box.count_eq_card] at h1
  omega

/-- **C20.** Packing the sub-box `a` of an array with box `s` and unpacking into the sub-box `b` of an array with box
`t`, of the same shape: no access is out of bounds, the message consists of the values of `a` in their order, every
entry of `b` gets the value of the entry of `a` at the same place, and no other entry of the message buffer or of the
destination changes. -/
theorem C20_pack_unpack {s t a b : Box} (hs : IsOrder s.order) (ht : IsOrder t.order) (ha : a.order = s.order)
    (hb : b.order = t.order) (hsub : ∀ p : A3 Int, p ∈ a → p ∈ s) (hsub' : ∀ q : A3 Int, q ∈ b → q ∈ t)
    (hsh : SameShape a b) {src buf dst : List α} (hsrc : s.points.card ≤ src.length)
    (hbuf : a.points.card ≤ buf.length) (hdst : t.points.card ≤ dst.length) :
    ∃ msg out, copyMoves (packMoves (directPlan s a) (overlapOffset s a) 0) src buf = .ok msg ∧
      copyMoves (unpackDirect (directPlan t b) 0 (overlapOffset t b)) msg dst = .ok out ∧
      msg.length = buf.length ∧ out.length = dst.length ∧
      (∀ p : A3 Int, p ∈ a → rd msg (a.offset p) = rd src (s.offset p)) ∧
      (∀ x, (a.points.card : Int) ≤ x → rd msg x = rd buf x) ∧
      (∀ p q : A3 Int, p ∈ a → q ∈ b → SamePlace a b p q → rd out (t.offset q) = rd src (s.offset p)) ∧
      ∀ x, (∀ q : A3 Int, q ∈ b → t.offset q ≠ x) → rd out x = rd dst x := by
  have hao : IsOrder a.order := by rw [ha]; exact hs
  have hbo : IsOrder b.order := by rw [hb]; exact ht
  obtain ⟨msg, h1, h2, h3, h4⟩ := copyMoves_ok (moves := packMoves (directPlan s a) (overlapOffset s a) 0)
    (src := src) (dst := buf) (by
    intro m hm
    obtain ⟨p, hp, rfl⟩ := (mem_packSub hs ha m).1 hm
    exact ⟨offset_in hs hsrc (hsub p hp), offset_in hao hbuf hp⟩) (by
    intro m hm u hu h
    obtain ⟨p, hp, rfl⟩ := (mem_packSub hs ha m).1 hm
    obtain ⟨q, hq, rfl⟩ := (mem_packSub hs ha u).1 hu
    rw [Box.offset_inj hao hp hq h])
  obtain ⟨out, g1, g2, g3, g4⟩ := copyMoves_ok (moves := unpackDirect (directPlan t b) 0 (overlapOffset t b))
    (src := msg) (dst := dst) (by
    intro m hm
    obtain ⟨q, hq, rfl⟩ := (mem_unpackSub ht hb m).1 hm
    obtain ⟨p, hp, hpq⟩ := SamePlace.exists hao hbo hsh hq
    refine ⟨?_, offset_in ht hdst (hsub' q hq)⟩
    rw [h2]
    dsimp only
    rw [← hpq.offset hsh]
    exact offset_in hao hbuf hp) (by
    intro m hm u hu h
    obtain ⟨p, hp, rfl⟩ := (mem_unpackSub ht hb m).1 hm
    obtain ⟨q, hq, rfl⟩ := (mem_unpackSub ht hb u).1 hu
    rw [Box.offset_inj ht (hsub' p hp) (hsub' q hq) h])
  have hmsg : ∀ p : A3 Int, p ∈ a → rd msg (a.offset p) = rd src (s.offset p) := fun p hp =>
    h3 _ ((mem_packSub hs ha _).2 ⟨p, hp, rfl⟩)
  refine ⟨msg, out, h1, g1, h2, g2, hmsg, ?_, ?_, ?_⟩
  · intro x hx
    apply h4
    intro m hm
    obtain ⟨p, hp, rfl⟩ := (mem_packSub hs ha m).1 hm
    have := offset_in hao le_rfl hp
    dsimp only; omega
  · intro p q hp hq hpq
    rw [g3 _ ((mem_unpackSub ht hb _).2 ⟨q, hq, rfl⟩), ← hpq.offset hsh]
    exact hmsg p hp
  · intro x hx
    apply g4
    intro m hm
    obtain ⟨q, hq, rfl⟩ := (mem_unpackSub ht hb m).1 hm
    exact hx q hq

/-- Packing out of a too small array is detected: the code would read out of bounds. -/
theorem C20_small_source_ub {s a : Box} (hs : IsOrder s.order) (ha : a.order = s.order) {p : A3 Int} (hp : p ∈ a)
    {src buf : List α} (h : (src.length : Int) ≤ s.offset p) :
    copyMoves (packMoves (directPlan s a) (overlapOffset s a) 0) src buf = .error .ub := by
  unfold copyMoves
  apply writeAll_ub (w := (a.offset p, rd src (s.offset p)))
  · rw [List.mem_map]
    exact ⟨(a.offset p, s.offset p), (mem_packSub hs ha _).2 ⟨p, hp, rfl⟩, rfl⟩
  · left
    exact rd_eq_none (by omega)

/-- A sub-box of 2 x 1 x 2 indexes in a 3 x 2 x 2 array, moved into an array stored in another order. -/
example :
    let s : Box := ⟨⟨0, 0, 0⟩, ⟨2, 1, 1⟩, ⟨0, 1, 2⟩⟩
    let t : Box := ⟨⟨5, 0, 0⟩, ⟨6, 1, 2⟩, ⟨2, 0, 1⟩⟩
    let a : Box := ⟨⟨1, 0, 0⟩, ⟨2, 0, 1⟩, ⟨0, 1, 2⟩⟩
    let b : Box := ⟨⟨6, 0, 1⟩, ⟨6, 1, 2⟩, ⟨2, 0, 1⟩⟩
    IsOrder s.order ∧ IsOrder t.order ∧ (∀ p : A3 Int, p ∈ a → p ∈ s) ∧ (∀ p : A3 Int, p ∈ b → p ∈ t) ∧ SameShape a b ∧
    a.count = 4 ∧
    copyMoves (packMoves (directPlan s a) (overlapOffset s a) 0) (List.range 12) [0, 0, 0, 0, 9] = .ok [1, 2, 7, 8, 9] ∧
    copyMoves (unpackDirect (directPlan t b) 0 (overlapOffset t b)) [1, 2, 7, 8, 9] (List.replicate 12 0) =
      .ok [0, 0, 0, 0, 1, 2, 0, 0, 0, 0, 7, 8] := by
  refine ⟨by decide, by decide, ?_, ?_, by unfold SameShape; decide, by decide, by rfl, by rfl⟩
  · intro p hp d
    have h0 := hp 0
    have h1 := hp 1
    have h2 := hp 2
    match d with
    | 0 => exact ⟨by have := h0.1; simp [A3.get] at this ⊢; omega, by have := h0.2; simp [A3.get] at this ⊢; omega⟩
    | 1 => exact ⟨by have := h1.1; simp [A3.get] at this ⊢; omega, by have := h1.2; simp [A3.get] at this ⊢; omega⟩
    | 2 => exact ⟨by have := h2.1; simp [A3.get] at this ⊢; omega, by have := h2.2; simp [A3.get] at this ⊢; omega⟩
  · intro p hp d
    have h0 := hp 0
    have h1 := hp 1
    have h2 := hp 2
    match d with
    | 0 => exact ⟨by have := h0.1; simp [A3.get] at this ⊢; omega, by have := h0.2; simp [A3.get] at this ⊢; omega⟩
    | 1 => exact ⟨by have := h1.1; simp [A3.get] at this ⊢; omega, by have := h1.2; simp [A3.get] at this ⊢; omega⟩
    | 2 => exact ⟨by have := h2.1; simp [A3.get] at this ⊢; omega, by have := h2.2; simp [A3.get] at this ⊢; omega⟩

/-- **C21.** Unpacking a message with the values of the sub-box `c` of `t`, packed in the storage order of `c`, into an
array stored in the order of `t`: no access is out of bounds, each index of `c` gets its value at its place in `t` and
no other entry changes, for every block size. -/
theorem C21_unpack_transpose {stride : Nat} (hstr : 0 < stride) {t c : Box} (ht : IsOrder t.order) (hc : IsOrder c.order)
    (hsub : ∀ p : A3 Int, p ∈ c → p ∈ t) {msg dst : List α} (hdst : t.points.card ≤ dst.length) {G : A3 Int → α}
    (hmsg : Holds c msg 0 G) :
    ∃ out, copyMoves (unpackTranspose stride (transposePlan t ⟨c.low, c.high, t.order⟩ c.order) 0
        (overlapOffset t ⟨c.low, c.high, t.order⟩)) msg dst = .ok out ∧ out.length = dst.length ∧
      (∀ p : A3 Int, p ∈ c → rd out (t.offset p) = some (G p)) ∧
      ∀ x, (∀ p : A3 Int, p ∈ c → t.offset p ≠ x) → rd out x = rd dst x := by
  have hm : ∀ p : A3 Int, p ∈ c → rd msg (c.offset p) = some (G p) := fun p hp => by
    have := hmsg p hp
    rwa [Int.zero_add] at this
  obtain ⟨out, g1, g2, g3, g4⟩ := copyMoves_ok
    (moves := unpackTranspose stride (transposePlan t ⟨c.low, c.high, t.order⟩ c.order) 0
        (overlapOffset t ⟨c.low, c.high, t.order⟩))
    (src := msg) (dst := dst) (by
    intro m hm'
    obtain ⟨p, hp, rfl⟩ := (mem_unpackSubT hstr ht hc m).1 hm'
    exact ⟨rd_some_iff.1 ⟨_, hm p hp⟩, offset_in ht hdst (hsub p hp)⟩) (by
    intro m hm' u hu h
    obtain ⟨p, hp, rfl⟩ := (mem_unpackSubT hstr ht hc m).1 hm'
    obtain ⟨q, hq, rfl⟩ := (mem_unpackSubT hstr ht hc u).1 hu
    rw [Box.offset_inj ht (hsub p hp) (hsub q hq) h])
  refine ⟨out, g1, g2, ?_, ?_⟩
  · intro p hp
    rw [g3 _ ((mem_unpackSubT hstr ht hc _).2 ⟨p, hp, rfl⟩), hm p hp]
  · intro x hx
    apply g4
    intro m hm'
    obtain ⟨p, hp, rfl⟩ := (mem_unpackSubT hstr ht hc m).1 hm'
    exact hx p hp

/-- A message of a 2 x 3 x 2 box in the order (0, 1, 2) unpacked into an array in the order (2, 0, 1) with blocks of two
entries. -/
example :
    let c : Box := ⟨⟨0, 0, 0⟩, ⟨1, 2, 1⟩, ⟨0, 1, 2⟩⟩
    let t : Box := ⟨⟨0, 0, 0⟩, ⟨1, 2, 1⟩, ⟨2, 0, 1⟩⟩
    IsOrder t.order ∧ IsOrder c.order ∧ t.points.card = 12 ∧ Holds c (List.range 12) 0 (fun p => (p.x + 2 * p.y + 6 * p.z).toNat) ∧
    copyMoves (unpackTranspose 2 (transposePlan t ⟨c.low, c.high, t.order⟩ c.order) 0
      (overlapOffset t ⟨c.low, c.high, t.order⟩)) (List.range 12) (List.replicate 12 0) =
        .ok [0, 6, 1, 7, 2, 8, 3, 9, 4, 10, 5, 11] := by
  refine ⟨by decide, by decide, ?_, ?_, ?_⟩
  · have := Box.count_eq_card ⟨⟨0, 0, 0⟩, ⟨1, 2, 1⟩, ⟨2, 0, 1⟩⟩
    have h2 : Box.count ⟨⟨0, 0, 0⟩, ⟨1, 2, 1⟩, ⟨2, 0, 1⟩⟩ = 12 := by decide
    rw [h2] at this
    exact_mod_cast this.symm
  · intro p hp
    have h0 := hp 0
    have h1 := hp 1
    have h2 := hp 2
    obtain ⟨x, y, z⟩ := p
    simp only [A3.get] at h0 h1 h2
    have e : (Box.offset ⟨⟨0, 0, 0⟩, ⟨1, 2, 1⟩, ⟨0, 1, 2⟩⟩ ⟨x, y, z⟩) = x + 2 * y + 6 * z := by
      simp [Box.offset, A3.get]; ring
    rw [e, rd, if_pos (by omega), Int.zero_add, List.getElem?_range (by omega)]
  · simp [unpackTranspose, transposePlan, orderMap, loopBy, loopFrom, loop, Box.osize, Box.size, A3.get, A3.of, dims,
      bufIndex, overlapOffset, copyMoves, writeAll, rd, wr, List.range_succ]

/-- **C21** together with the packing: moving a common sub-box from an array in the order of `s` to an array in the
order of `t`. -/
theorem C21_pack_unpack_transpose {stride : Nat} (hstr : 0 < stride) {s t c : Box} (hs : IsOrder s.order)
    (ht : IsOrder t.order) (hc : c.order = s.order) (hcs : ∀ p : A3 Int, p ∈ c → p ∈ s)
    (hct : ∀ p : A3 Int, p ∈ c → p ∈ t) {src buf dst : List α} (hbuf : c.points.card ≤ buf.length)
    (hsrcl : s.points.card ≤ src.length) (hdst : t.points.card ≤ dst.length) :
    ∃ msg out, copyMoves (packMoves (directPlan s c) (overlapOffset s c) 0) src buf = .ok msg ∧
      copyMoves (unpackTranspose stride (transposePlan t ⟨c.low, c.high, t.order⟩ c.order) 0
        (overlapOffset t ⟨c.low, c.high, t.order⟩)) msg dst = .ok out ∧ out.length = dst.length ∧
      (∀ p : A3 Int, p ∈ c → rd out (t.offset p) = rd src (s.offset p)) ∧
      ∀ x, (∀ p : A3 Int, p ∈ c → t.offset p ≠ x) → rd out x = rd dst x := by
  obtain ⟨msg, -, h1, -, -, -, h5, -⟩ := C20_pack_unpack (t := s) (b := c) hs hs hc hc hcs hcs (fun _ => rfl) hsrcl hbuf
    (dst := src) hsrcl
  by_cases hne : Nonempty α
  · obtain ⟨v⟩ := hne
    have key : ∀ p : A3 Int, p ∈ c → rd src (s.offset p) = some ((rd src (s.offset p)).getD v) := by
      intro p hp
      obtain ⟨x, hx⟩ := rd_some_iff.2 (offset_in hs hsrcl (hcs p hp))
      rw [hx]; rfl
    obtain ⟨out, g1, g2, g3, g4⟩ := C21_unpack_transpose hstr ht (by rw [hc]; exact hs) hct hdst
      (msg := msg) (G := fun p => (rd src (s.offset p)).getD v) (fun p hp => by
        rw [Int.zero_add, h5 p hp]; exact key p hp)
    exact ⟨msg, out, h1, g1, g2, fun p hp => by rw [g3 p hp, ← key p hp], g4⟩
  · have hl : src.length = 0 := by
      cases src with
      | nil => rfl
      | cons v _ => exact absurd ⟨v⟩ hne
    have hno : ∀ p : A3 Int, p ∉ c := by
      intro p hp
      have := offset_in hs hsrcl (hcs p hp)
      omega
    have hmv : unpackTranspose stride (transposePlan t ⟨c.low, c.high, t.order⟩ c.order) 0
        (overlapOffset t ⟨c.low, c.high, t.order⟩) = [] := by
      rw [List.eq_nil_iff_forall_not_mem]
      intro m hm
      obtain ⟨p, hp, -⟩ := (mem_unpackSubT hstr ht (by rw [hc]; exact hs) m).1 hm
      exact hno p hp
    exact ⟨msg, dst, h1, by rw [hmv]; rfl, rfl, fun p hp => absurd hp (hno p), fun _ _ => rfl⟩

end Verif
