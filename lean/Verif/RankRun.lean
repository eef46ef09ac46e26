import Verif.TransformLemmas

/-!
# One rank between two reshapes

If the operations of a rank pass the replay `flow`, they move the data along.
-/

namespace Verif
variable {α β : Type}

/-- What a rank should have before (`A i`) and after (`B i`) reshape `i`; executor `k` goes from `B k` to `A (k + 1)`. -/
structure Track (α β : Type) where
  A : Fin 4 → Box
  B : Fin 4 → Box
  F : Fin 4 → Field α β

/-- The executor transforms the values in the layout of `a` into the values in the layout of `b`, for every entry of the batch and every
position, and changes nothing else. -/
def GoodExec (K : Kernel α β) (E : Env) (k : Fin 3) (e : Executor) (a b : Box) (F F' : Field α β) : Prop :=
  match F, F' with
  | .inl g, .inl g' => ∀ j, j < E.nb → ∀ (base : Int) (l : List α), 0 ≤ base → base + a.points.card ≤ l.length → Holds a l base (g j) →
    ∃ l', runC2C K ⟨E.rank, k, j⟩ E.fwd e base l = .ok l' ∧ l'.length = l.length ∧ Holds b l' base (g' j) ∧
      ∀ x, (x < base ∨ base + a.points.card ≤ x) → rd l' x = rd l x
  | .inr g, .inl g' => ∀ j, j < E.nb → ∀ (rb cb : Int) (src : List β) (dst : List α), 0 ≤ rb → 0 ≤ cb →
    rb + a.points.card ≤ src.length → cb + b.points.card ≤ dst.length → Holds a src rb (g j) →
    ∃ d, runR2C K ⟨E.rank, k, j⟩ e rb cb src dst = .ok d ∧ d.length = dst.length ∧ Holds b d cb (g' j) ∧
      ∀ x, (x < cb ∨ cb + b.points.card ≤ x) → rd d x = rd dst x
  | .inl g, .inr g' => ∀ j, j < E.nb → ∀ (cb rb : Int) (src : List α) (dst : List β), 0 ≤ cb → 0 ≤ rb →
    cb + a.points.card ≤ src.length → rb + b.points.card ≤ dst.length → Holds a src cb (g j) →
    ∃ s d, runC2R K ⟨E.rank, k, j⟩ e cb rb src dst = .ok (s, d) ∧ s.length = src.length ∧ d.length = dst.length ∧
      Holds b d rb (g' j) ∧ (∀ x, (x < cb ∨ cb + a.points.card ≤ x) → rd s x = rd src x) ∧
      ∀ x, (x < rb ∨ rb + b.points.card ≤ x) → rd d x = rd dst x
  | .inr _, .inr _ => False

/-- The situation of a rank in a call.  `m0` are the arrays at the start. -/
structure RankOk (K : Kernel α β) (E : Env) (c : Case) (T : Track α β) (m0 : Mem α β) : Prop where
  law : ∀ a b, K.parts (K.join a b) = (a, b)
  inplace : E.inplace = c.inplace
  inplaceSame : c.inplace = true → c.mode = .same
  pos : 0 < E.nb
  many : c.many = false → E.nb ≤ 1
  orderA : ∀ i, IsOrder (T.A i).order
  orderB : ∀ i, IsOrder (T.B i).order
  types : ∀ i, (T.F i).isReal = c.realAt i
  input : m0.input.isReal = c.isReal .input
  output : m0.output.isReal = c.isReal .output
  quiet : ∀ i : Fin 4, c.s i = false → SameLayout (T.A i) (T.B i)
  run : ∀ k : Fin 3, c.kind k = .run → ∃ e, E.execs k = some e ∧ GoodExec K E k e (T.B k.castSucc) (T.A k.succ) (T.F k.castSucc) (T.F k.succ) ∧
    e.boxSize = (if c.realAt (k + 1) then (T.A k.succ).points.card else (T.B k.castSucc).points.card) ∧
    e.complexSize = if c.realAt k then (T.A k.succ).points.card else (T.B k.castSucc).points.card
  empty : ∀ k : Fin 3, c.kind k = .empty → (∀ p : A3 Int, p ∉ T.B k.castSucc) ∧ ∀ p : A3 Int, p ∉ T.A k.succ
  merged : ∀ k : Fin 3, c.kind k = .merged → c.realAt k = c.realAt (k + 1) ∧ SameLayout (T.B k.castSucc) (T.A k.succ) ∧
    ∀ j p, p ∈ T.B k.castSucc → (T.F k.castSucc).val j p = (T.F k.succ).val j p
  cards : ∀ k : Fin 3, (c.halved = false ∨ c.realAt k = c.realAt (k + 1)) → (T.A k.succ).points.card = (T.B k.castSucc).points.card
  inputSize : c.inplace = false → E.nb * (T.A 0).points.card ≤ m0.input.size
  inplaceSize : c.inplace = true → E.nb * (T.A 0).points.card ≤ m0.output.size
  outputSize : E.nb * (T.B 3).points.card ≤ m0.output.size
  tempB : ∀ k : Fin 3, c.realAt k = false → E.tempOff + E.nb * (T.B k.castSucc).points.card ≤ m0.work.length
  tempA : ∀ k : Fin 3, c.realAt k = true → E.tempOff + E.nb * (T.A k.succ).points.card ≤ m0.work.length
  realB : c.mode = .r2c → c.s0 = true → E.nb * (T.B 0).points.card ≤ 2 * E.tempOff
  realA : c.mode = .c2r → c.s3 = true → E.nb * (T.A 3).points.card ≤ 2 * E.tempOff

/-- The data of the whole batch are in the array `loc`; without a location there are no data. -/
def Located (K : Kernel α β) (E : Env) (c : Case) (b : Box) (F : Field α β) (loc : Option Buf) (m : Mem α β) : Prop :=
  match loc with
  | none => ∀ p : A3 Int, p ∉ b
  | some x => c.isReal x = F.isReal ∧ E.nb * b.points.card ≤ (m.get K E x).size ∧ ∀ j, j < E.nb → HoldsSlot b j (m.get K E x) F

/-- One entry of the batch. -/
def SlotAt (K : Kernel α β) (E : Env) (c : Case) (b : Box) (F : Field α β) (loc : Option Buf) (j : Nat) (m : Mem α β) : Prop :=
  match loc with
  | none => ∀ p : A3 Int, p ∉ b
  | some x => c.isReal x = F.isReal ∧ E.nb * b.points.card ≤ (m.get K E x).size ∧ HoldsSlot b j (m.get K E x) F

/-- Only the entry `j` of the batch changes; entries have size `R` in arrays of reals, `C` in arrays of complex numbers. -/
def Keeps (K : Kernel α β) (E : Env) (c : Case) (R C : Nat) (j : Nat) (m m' : Mem α β) : Prop :=
  ∀ (b : Buf) (a : Int), (a < j * (if c.isReal b then R else C : Nat) ∨ (j + 1) * (if c.isReal b then R else C : Nat) ≤ a) →
    (m'.get K E b).rd a = (m.get K E b).rd a

section
variable {K : Kernel α β} {E : Env} {c : Case} {T : Track α β} {m0 : Mem α β}

theorem Keeps.refl (R C j : Nat) (m : Mem α β) : Keeps K E c R C j m m := fun _ _ _ => rfl

theorem Keeps.trans {R C j : Nat} {m m' m'' : Mem α β} (h : Keeps K E c R C j m m') (h' : Keeps K E c R C j m' m'') :
    Keeps K E c R C j m m'' := fun b a ha => (h' b a ha).trans (h b a ha)

theorem card_empty {b : Box} (h : ∀ p : A3 Int, p ∉ b) : b.points.card = 0 := by
  rw [Finset.card_eq_zero]
  exact Finset.eq_empty_of_forall_notMem fun p hp => h p (Box.mem_points.1 hp)

theorem slot_range {b : Box} (ho : IsOrder b.order) {p : A3 Int} (hp : p ∈ b) (j : Nat) :
    (j : Int) * b.points.card ≤ j * b.points.card + b.offset p ∧ (j : Int) * b.points.card + b.offset p < (j + 1) * b.points.card := by
  have := Box.offset_range ho hp
  rw [Box.count_eq_card] at this
  constructor
  · omega
  · rw [add_mul]; omega

theorem Keeps.slot {R C j i : Nat} {m m' : Mem α β} (h : Keeps K E c R C j m m') {b : Box} (ho : IsOrder b.order) {x : Buf}
    (hc : b.points.card = if c.isReal x then R else C) (hij : i ≠ j) {F : Field α β} (hs : HoldsSlot b i (m.get K E x) F) :
    HoldsSlot b i (m'.get K E x) F := by
  intro p hp
  rw [h x _ ?_]
  · exact hs p hp
  · rw [← hc]
    obtain ⟨h1, h2⟩ := slot_range ho hp i
    rcases Nat.lt_or_gt_of_ne hij with h | h
    · left
      refine lt_of_lt_of_le h2 ?_
      exact mul_le_mul_of_nonneg_right (by omega) (Int.natCast_nonneg _)
    · right
      refine le_trans ?_ h1
      exact mul_le_mul_of_nonneg_right (by omega) (Int.natCast_nonneg _)

theorem pointer_eq (h : RankOk K E c T m0) (b : Buf) : E.pointer b = c.pointer b := by
  unfold Env.pointer Case.pointer; rw [h.inplace]

theorem get_pointer (h : RankOk K E c T m0) (m : Mem α β) (b : Buf) : m.get K E (c.pointer b) = m.get K E b := by
  rw [← pointer_eq h, Mem.get_pointer]

/-- The type of an array. -/
theorem buf_type (h : RankOk K E c T m0) {m : Mem α β} (hs : Stays m0 m) {b : Buf} (hb : b = .temp ∨ b = .real → c.isReal b = decide (b = .real)) :
    (m.get K E b).isReal = c.isReal b := by
  rw [(hs.get K E b).1]
  cases b with
  | input =>
    unfold Mem.get
    by_cases hi : E.inplace = true
    · rw [if_pos hi, h.output]
      have := h.inplaceSame (by rw [← h.inplace]; exact hi)
      unfold Case.isReal; rw [this]
    · rw [if_neg hi, h.input]
  | output => exact h.output
  | temp => rw [hb (Or.inl rfl)]; rfl
  | real => rw [hb (Or.inr rfl)]; rfl

theorem Located.found (h : RankOk K E c T m0) {b : Box} {F : Field α β} {loc : Option Buf} {m : Mem α β} {x : Buf}
    (hl : Located K E c b F loc m) (hf : c.found loc x = true) (hty : c.isReal x = F.isReal) : Located K E c b F (some x) m := by
  unfold Case.found at hf
  rcases of_decide_eq_true hf with rfl | rfl
  · refine ⟨hty, by rw [card_empty hl]; omega, fun j _ p hp => absurd hp (hl p)⟩
  · have hl : _ ∧ E.nb * b.points.card ≤ (m.get K E (c.pointer x)).size ∧ ∀ j, j < E.nb → HoldsSlot b j (m.get K E (c.pointer x)) F := hl
    rw [get_pointer h] at hl
    exact ⟨hty, hl.2⟩

theorem SlotAt.found (h : RankOk K E c T m0) {b : Box} {F : Field α β} {loc : Option Buf} {j : Nat} {m : Mem α β} {x : Buf}
    (hl : SlotAt K E c b F loc j m) (hf : c.found loc x = true) (hty : c.isReal x = F.isReal) : SlotAt K E c b F (some x) j m := by
  unfold Case.found at hf
  rcases of_decide_eq_true hf with rfl | rfl
  · refine ⟨hty, by rw [card_empty hl]; omega, fun p hp => absurd hp (hl p)⟩
  · have hl : _ ∧ E.nb * b.points.card ≤ (m.get K E (c.pointer x)).size ∧ HoldsSlot b j (m.get K E (c.pointer x)) F := hl
    rw [get_pointer h] at hl
    exact ⟨hty, hl.2⟩

theorem quiet_at {a b i : Nat} (hq : c.quiet a b = true) (ha : a ≤ i) (hb : i < b) : c.s i = false := by
  unfold Case.quiet at hq
  have := List.all_eq_true.1 hq i (by rw [List.mem_range'_1]; omega)
  simpa using this

/-- The number of entries does not change without reshapes and without halving. -/
theorem card_chain (h : RankOk K E c T m0) (hh : c.halved = false) {k : Nat} (hk : k < 3) (hq : c.quiet 1 (k + 1) = true) :
    (T.B (⟨k, by omega⟩ : Fin 4)).points.card = (T.B 0).points.card := by
  induction k with
  | zero => rfl
  | succ k ih =>
    have h1 := ih (by omega) (by
      unfold Case.quiet at hq ⊢
      rw [List.all_eq_true] at hq ⊢
      intro i hi
      exact hq i (by rw [List.mem_range'_1] at hi ⊢; omega))
    have h2 := h.cards ⟨k, by omega⟩ (Or.inl hh)
    have h3 := h.quiet ⟨k + 1, by omega⟩ (quiet_at (i := k + 1) hq (by omega) (by omega))
    have e : (T.A (⟨k + 1, by omega⟩ : Fin 4)).points = (T.B (⟨k + 1, by omega⟩ : Fin 4)).points := h3.points
    rw [← e]
    exact h2.trans h1

/-- The number of entries that a size should be. -/
def wantCard (c : Case) (T : Track α β) : Sz → Nat
  | .box k => if c.realAt (k + 1) then (T.A k.succ).points.card else (T.B k.castSucc).points.card
  | .cplx k => if c.realAt k then (T.A k.succ).points.card else (T.B k.castSucc).points.card

theorem size_run (h : RankOk K E c T m0) {z : Sz} (hk : c.kind z.k = .run) : E.size z = .ok (wantCard c T z : Int) := by
  obtain ⟨e, he, -, h1, h2⟩ := h.run _ hk
  cases z with
  | box k =>
    simp only [Sz.k] at he h1
    simp only [Env.size, he, wantCard]
    rw [h1]; split_ifs <;> simp_all
  | cplx k =>
    simp only [Sz.k] at he h2
    simp only [Env.size, he, wantCard]
    rw [h2]; split_ifs <;> simp_all

/-- A step of the batch that passed the check. -/
theorem step_ok (h : RankOk K E c T m0) {want step : Sz} (hs : c.stepOk want step = true) :
    ∃ v : Int, E.size step = .ok v ∧ ∀ j, j < E.nb → (j : Int) * v = j * wantCard c T want := by
  unfold Case.stepOk at hs
  rw [Bool.and_eq_true, decide_eq_true_iff] at hs
  obtain ⟨hk, hs⟩ := hs
  refine ⟨_, size_run h hk, ?_⟩
  rw [Bool.or_eq_true, Bool.or_eq_true] at hs
  rcases hs with (hm | he) | hw
  · intro j hj
    have := h.many (by simpa using hm)
    obtain rfl : j = 0 := by omega
    simp
  · rw [of_decide_eq_true he]; exact fun _ _ => rfl
  · cases want with
    | cplx k => simp at hw
    | box k =>
      simp only [Bool.and_eq_true, decide_eq_true_iff, Bool.not_eq_true'] at hw
      obtain ⟨⟨hh, rfl⟩, hq⟩ := hw
      intro j _
      congr 2
      have e0 : wantCard c T (.box 0) = (T.B 0).points.card := by
        have : c.realAt (((0 : Fin 3) : Nat) + 1) = false := by
          unfold Case.realAt; cases c.mode <;> simp
        show (if c.realAt (((0 : Fin 3) : Nat) + 1) then _ else _) = _
        rw [if_neg (by rw [this]; simp)]; rfl
      have e1 : wantCard c T (.box k) = (T.B k.castSucc).points.card := by
        show (if c.realAt ((k : Nat) + 1) then _ else _) = _
        split
        · exact h.cards k (Or.inl hh)
        · rfl
      rw [e0, e1]
      exact (card_chain h hh k.2 hq).symm

theorem isReal_pointer (h : RankOk K E c T m0) {b b' : Buf} (hb : E.pointer b = E.pointer b') : c.isReal b = c.isReal b' := by
  have key : ∀ b, c.isReal (E.pointer b) = c.isReal b := by
    intro b
    unfold Env.pointer
    split
    · rename_i hi
      have := h.inplaceSame (by rw [← h.inplace]; exact hi.1)
      unfold Case.isReal; rw [this]
    · rfl
  rw [← key b, ← key b', hb]

theorem get_congr {m : Mem α β} {b b' : Buf} (hb : E.pointer b = E.pointer b') : m.get K E b = m.get K E b' := by
  rw [← Mem.get_pointer K E m b, hb, Mem.get_pointer]

/-- The size of the data at position `i` if no reshape and no change of the size follows. -/
theorem card_out (h : RankOk K E c T m0) {i : Nat} (hi : i < 4) (hq : c.quiet i 4 = true)
    (hh : ∀ k : Nat, i ≤ k → k < 3 → c.realAt k = c.realAt (k + 1) ∨ c.halved = false) :
    (T.A ⟨i, hi⟩).points.card = (T.B 3).points.card := by
  have key : ∀ d i : Nat, (hd : i + d = 3) → c.quiet i 4 = true →
      (∀ k : Nat, i ≤ k → k < 3 → c.realAt k = c.realAt (k + 1) ∨ c.halved = false) →
      (T.A ⟨i, by omega⟩).points.card = (T.B 3).points.card := by
    intro d
    induction d with
    | zero =>
      intro i hd hq _
      obtain rfl : i = 3 := by omega
      have := (h.quiet 3 (quiet_at hq (by omega) (by omega))).points
      exact congrArg Finset.card this
    | succ d ih =>
      intro i hd hq hh
      have h1 := (h.quiet ⟨i, by omega⟩ (quiet_at (i := i) hq (by omega) (by omega))).points
      rw [h1]
      have h2 := h.cards ⟨i, by omega⟩ (hh i (by omega) (by omega)).symm
      have h3 := ih (i + 1) (by omega) (by
        unfold Case.quiet at hq ⊢
        rw [List.all_eq_true] at hq ⊢
        intro x hx
        exact hq x (by rw [List.mem_range'_1] at hx ⊢; omega)) (fun k hk => hh k (by omega))
      exact h2.symm.trans h3
  exact key (3 - i) i (by omega) hq hh

theorem rd_inl (l : List α) (a : Int) : Data.rd (β := β) (.inl l) a = (rd l a).map .inl := rfl
theorem rd_inr (l : List β) (a : Int) : Data.rd (α := α) (.inr l) a = (rd l a).map .inr := rfl

theorem exists_inl {x : Data α β} (h : x.isReal = false) : ∃ l, x = .inl l := by
  cases x with
  | inl l => exact ⟨l, rfl⟩
  | inr l => cases h

theorem exists_inr {x : Data α β} (h : x.isReal = true) : ∃ l, x = .inr l := by
  cases x with
  | inl l => cases h
  | inr l => exact ⟨l, rfl⟩

theorem field_inl {x : Field α β} (h : x.isReal = false) : ∃ l, x = .inl l := by
  cases x with
  | inl l => exact ⟨l, rfl⟩
  | inr l => cases h

theorem field_inr {x : Field α β} (h : x.isReal = true) : ∃ l, x = .inr l := by
  cases x with
  | inl l => cases h
  | inr l => exact ⟨l, rfl⟩

theorem slot_bound {j nb n : Nat} {s : Nat} (hj : j < nb) (hs : nb * n ≤ s) : (j : Int) * n + n ≤ s := by
  have h1 : (j + 1) * n ≤ nb * n := Nat.mul_le_mul_right _ hj
  have h2 : (j + 1) * n ≤ s := h1.trans hs
  have h3 : ((j + 1 : Nat) : Int) * n ≤ s := by exact_mod_cast h2
  push_cast at h3
  rw [add_mul, one_mul] at h3
  exact h3

/-- One call of an executor. -/
theorem call_ok (h : RankOk K E c T m0) {m : Mem α β} (hst : Stays m0 m) {k : Fin 3} (hk : c.kind k = .run) {loc : Option Buf} {x : Call}
    (hx : c.callOk k loc x = true) {j : Nat} (hj : j < E.nb) (hl : SlotAt K E c (T.B k.castSucc) (T.F k.castSucc) loc j m) {R C : Nat}
    (hB : (T.B k.castSucc).points.card = if c.realAt k then R else C)
    (hA : (T.A k.succ).points.card = if c.realAt (k + 1) then R else C) :
    ∃ m', runCall K E j m x = .ok m' ∧ Stays m m' ∧ Keeps K E c R C j m m' ∧
      SlotAt K E c (T.A k.succ) (T.F k.succ) (some x.dst) j m' := by
  obtain ⟨xk, src, sstep, dst, dstep⟩ := x
  unfold Case.callOk at hx
  simp only [Bool.and_eq_true, decide_eq_true_eq] at hx
  obtain ⟨⟨⟨⟨rfl, hf⟩, hrs⟩, hrd⟩, hx⟩ := hx
  obtain ⟨e, he, hge, -, -⟩ := h.run _ hk
  have hl : E.nb * (T.B xk.castSucc).points.card ≤ (m.get K E src).size ∧ HoldsSlot (T.B xk.castSucc) j (m.get K E src) (T.F xk.castSucc) :=
    (SlotAt.found h hl hf (hrs.trans (h.types xk.castSucc).symm)).2
  have hFB : (T.F xk.castSucc).isReal = c.realAt xk := h.types xk.castSucc
  have hFA : (T.F xk.succ).isReal = c.realAt (xk + 1) := h.types xk.succ
  by_cases hsame : c.realAt xk = c.realAt (xk + 1)
  · -- the same type, in place
    rw [if_pos hsame] at hx
    simp only [Bool.and_eq_true, decide_eq_true_eq, Bool.or_eq_true] at hx
    obtain ⟨⟨⟨hds, rfl⟩, hbuf⟩, hstep⟩ := hx
    subst hds
    have hreal : c.realAt xk = false := by
      unfold Case.realAt at hsame ⊢
      cases hm : c.mode
      · rfl
      · rw [hm] at hsame; fin_cases xk <;> simp_all
      · rw [hm] at hsame; fin_cases xk <;> simp_all
    have hcard : (T.A xk.succ).points.card = (T.B xk.castSucc).points.card := h.cards xk (Or.inr hsame)
    have htype : (m.get K E dst).isReal = false := by
      rw [buf_type h hst, hrs, hreal]
      rintro (rfl | rfl)
      · rw [hrs, hreal]; rfl
      · simp at hbuf
    obtain ⟨l, hgl⟩ := exists_inl htype
    obtain ⟨g, hg⟩ := field_inl (hFB.trans hreal)
    obtain ⟨g', hg'⟩ := field_inl (hFA.trans (hsame ▸ hreal))
    obtain ⟨v, hv, hjv⟩ := step_ok h hstep
    have hw : wantCard c T (.box xk) = (T.B xk.castSucc).points.card := by
      show (if c.realAt ((xk : Nat) + 1) then _ else _) = _
      rw [← hsame, hreal]; rfl
    rw [hw] at hjv
    rw [hg, hg'] at hge
    rw [hgl, hg] at hl
    obtain ⟨l', hrun, hlen, hhold, hfr⟩ := hge j hj (j * (T.B xk.castSucc).points.card) l
      (by exact_mod_cast Nat.zero_le _) (slot_bound hj hl.1) (holdsSlot_inl.1 hl.2)
    have hp : E.pointer dst ≠ .input := by
      rcases hbuf with rfl | rfl <;> simp [Env.pointer]
    obtain ⟨m', hput, hst', hget, hoth⟩ := Mem.put_ok K E h.law m hp (x := .inl l') (by rw [hgl]; exact ⟨rfl, hlen⟩)
    refine ⟨m', ?_, hst', ?_, hrd.trans hFA.symm, ?_, ?_⟩
    · simp only [runCall, he, hv, hgl, bind, Except.bind, and_self, if_true, hjv j hj, hrun, hput]
    · intro b a ha
      by_cases hb : E.pointer b = E.pointer dst
      · rw [get_congr hb, get_congr hb, hget, hgl, rd_inl, rd_inl, hfr]
        rw [isReal_pointer h hb, hrs, ← hB, add_mul, one_mul] at ha
        exact ha
      · rw [hoth b hb]
    · rw [hget]
      show E.nb * (T.A xk.succ).points.card ≤ l'.length
      rw [hcard, hlen]; exact hl.1
    · rw [hget, hg']
      refine holdsSlot_inl.2 ?_
      rw [hcard]; exact hhold
  · rw [if_neg hsame] at hx
    have hmode : c.mode ≠ .same := by
      intro hm; apply hsame; unfold Case.realAt; rw [hm]
    have hin : E.inplace = false := by
      rw [h.inplace]
      by_contra hc
      exact hmode (h.inplaceSame (by simpa using hc))
    have hptr : ∀ b, E.pointer b = b := fun b => by unfold Env.pointer; rw [hin]; simp
    have htp : ∀ b, (m.get K E b).isReal = c.isReal b := by
      intro b
      refine buf_type h hst ?_
      rintro (rfl | rfl)
      · unfold Case.isReal; cases c.mode <;> rfl
      · unfold Case.isReal; cases hm : c.mode
        · exact absurd hm hmode
        · rfl
        · rfl
    have hwork : E.tempOff ≤ m.work.length := by
      rw [hst.work]
      by_cases hr : c.realAt xk = true
      · have := h.tempA xk hr; omega
      · have := h.tempB xk (by simpa using hr); omega
    by_cases hr : c.realAt xk = true
    · -- from real to complex
      rw [if_pos hr] at hx
      have hr' : c.realAt (xk + 1) = false := by
        by_contra hc; exact hsame (by rw [hr]; simpa using (by simpa using hc : c.realAt (xk + 1) = true).symm)
      simp only [Bool.and_eq_true, decide_eq_true_eq, Bool.or_eq_true] at hx
      obtain ⟨⟨hbuf, hs1⟩, hs2⟩ := hx
      obtain ⟨l, hgl⟩ := exists_inr ((htp src).trans (hrs.trans hr))
      obtain ⟨d, hgd⟩ := exists_inl ((htp dst).trans (hrd.trans hr'))
      obtain ⟨g, hg⟩ := field_inr (hFB.trans hr)
      obtain ⟨g', hg'⟩ := field_inl (hFA.trans hr')
      obtain ⟨v, hv, hjv⟩ := step_ok h hs1
      obtain ⟨w, hw, hjw⟩ := step_ok h hs2
      have e1 : wantCard c T (.box xk) = (T.B xk.castSucc).points.card := by
        show (if c.realAt ((xk : Nat) + 1) then _ else _) = _
        rw [hr']; rfl
      have e2 : wantCard c T (.cplx xk) = (T.A xk.succ).points.card := by
        show (if c.realAt (xk : Nat) then _ else _) = _
        rw [hr]; rfl
      rw [e1] at hjv
      rw [e2] at hjw
      rw [hg, hg'] at hge
      rw [hgl, hg] at hl
      have hcap : E.nb * (T.A xk.succ).points.card ≤ d.length := by
        have e : d.length = (m.get K E dst).size := by rw [hgd]; rfl
        rw [e]
        rcases hbuf with rfl | ⟨rfl, hq⟩
        · have := h.tempA xk hr
          simp only [Mem.get, Data.size, List.length_drop, hst.work]; omega
        · rw [(hst.get K E .output).2]
          have := card_out h (i := xk + 1) (by omega) hq (by
            intro i hi hi3
            left
            unfold Case.realAt at hr ⊢
            cases hm : c.mode
            · rfl
            · simp; omega
            · rw [hm] at hr; simp at hr; omega)
          have e : (T.A xk.succ).points.card = (T.B 3).points.card := this
          rw [e]; exact h.outputSize
      obtain ⟨d', hrun, hlen, hhold, hfr⟩ := hge j hj (j * (T.B xk.castSucc).points.card) (j * (T.A xk.succ).points.card) l d
        (by exact_mod_cast Nat.zero_le _) (by exact_mod_cast Nat.zero_le _) (slot_bound hj hl.1) (slot_bound hj hcap) (holdsSlot_inr.1 hl.2)
      have hp : E.pointer dst ≠ .input := by
        rw [hptr]
        rcases hbuf with rfl | ⟨rfl, -⟩ <;> simp
      obtain ⟨m', hput, hst', hget, hoth⟩ := Mem.put_ok K E h.law m hp (x := .inl d') (by rw [hgd]; exact ⟨rfl, hlen⟩)
      refine ⟨m', ?_, hst', ?_, hrd.trans hFA.symm, ?_, ?_⟩
      · simp only [runCall, he, hv, hw, hgl, hgd, bind, Except.bind, hjv j hj, hjw j hj, hrun, hput]
      · intro b a ha
        by_cases hb : E.pointer b = E.pointer dst
        · rw [get_congr hb, get_congr hb, hget, hgd, rd_inl, rd_inl, hfr]
          rw [isReal_pointer h hb, hrd, ← hA, add_mul, one_mul] at ha
          exact ha
        · rw [hoth b hb]
      · rw [hget]
        show E.nb * (T.A xk.succ).points.card ≤ d'.length
        rw [hlen]; exact hcap
      · rw [hget, hg']
        exact holdsSlot_inl.2 hhold
    · -- from complex to real
      rw [if_neg hr] at hx
      rw [Bool.not_eq_true] at hr
      have hr' : c.realAt (xk + 1) = true := by
        by_contra hc; exact hsame (by rw [hr]; simpa using (by simpa using hc : c.realAt (xk + 1) = false).symm)
      have hc2r : c.mode = .c2r ∧ (xk : Nat) = 2 := by
        unfold Case.realAt at hr'
        cases hm : c.mode
        · exact absurd hm hmode
        · rw [hm] at hr'; simp at hr'
        · rw [hm] at hr'; simp at hr'; exact ⟨rfl, by omega⟩
      simp only [Bool.and_eq_true, decide_eq_true_eq, Bool.or_eq_true] at hx
      obtain ⟨⟨⟨rfl, hbuf⟩, hs1⟩, hs2⟩ := hx
      obtain ⟨l, hgl⟩ := exists_inl ((htp .temp).trans (hrs.trans hr))
      obtain ⟨d, hgd⟩ := exists_inr ((htp dst).trans (hrd.trans hr'))
      obtain ⟨g, hg⟩ := field_inl (hFB.trans hr)
      obtain ⟨g', hg'⟩ := field_inr (hFA.trans hr')
      obtain ⟨v, hv, hjv⟩ := step_ok h hs1
      obtain ⟨w, hw, hjw⟩ := step_ok h hs2
      have e1 : wantCard c T (.cplx xk) = (T.B xk.castSucc).points.card := by
        show (if c.realAt (xk : Nat) then _ else _) = _
        rw [hr]; rfl
      have e2 : wantCard c T (.box xk) = (T.A xk.succ).points.card := by
        show (if c.realAt ((xk : Nat) + 1) then _ else _) = _
        rw [hr']; rfl
      rw [e1] at hjv
      rw [e2] at hjw
      rw [hg, hg'] at hge
      rw [hgl, hg] at hl
      obtain rfl : xk = 2 := Fin.ext hc2r.2
      have hcap : E.nb * (T.A (2 : Fin 3).succ).points.card ≤ d.length := by
        have e : d.length = (m.get K E dst).size := by rw [hgd]; rfl
        rw [e]
        rcases hbuf with ⟨rfl, hs3⟩ | ⟨rfl, hq⟩
        · have := h.realA hc2r.1 hs3
          simp only [Mem.get, Data.size, toReals_length, List.length_take, min_eq_left hwork]
          exact this
        · rw [(hst.get K E .output).2]
          have := card_out h (i := 3) (by omega) hq (by intro i hi hi3; omega)
          have e : (T.A (2 : Fin 3).succ).points.card = (T.B 3).points.card := this
          rw [e]; exact h.outputSize
      obtain ⟨s', d', hrun, hlens, hlen, hhold, hfrs, hfr⟩ := hge j hj (j * (T.B (2 : Fin 3).castSucc).points.card)
        (j * (T.A (2 : Fin 3).succ).points.card) l d
        (by exact_mod_cast Nat.zero_le _) (by exact_mod_cast Nat.zero_le _) (slot_bound hj hl.1) (slot_bound hj hcap) (holdsSlot_inl.1 hl.2)
      obtain ⟨m1, hput1, hst1, hget1, hoth1⟩ := Mem.put_ok K E h.law m (b := .temp) (by rw [hptr]; simp) (x := .inl s')
        (by rw [hgl]; exact ⟨rfl, hlens⟩)
      have hdt : dst ≠ .temp := by rcases hbuf with ⟨rfl, -⟩ | ⟨rfl, -⟩ <;> simp
      have hgd1 : m1.get K E dst = .inr d := by rw [hoth1 dst (by rw [hptr, hptr]; exact hdt), hgd]
      have hp : E.pointer dst ≠ .input := by
        rw [hptr]
        rcases hbuf with ⟨rfl, -⟩ | ⟨rfl, -⟩ <;> simp
      obtain ⟨m', hput, hst', hget, hoth⟩ := Mem.put_ok K E h.law m1 hp (x := .inr d') (by rw [hgd1]; exact ⟨rfl, hlen⟩)
      refine ⟨m', ?_, hst1.trans hst', ?_, hrd.trans hFA.symm, ?_, ?_⟩
      · simp only [runCall, he, hv, hw, hgl, hgd, bind, Except.bind, hjv j hj, hjw j hj, hrun, hput1, hput]
      · intro b a ha
        by_cases hb : E.pointer b = E.pointer dst
        · rw [get_congr hb, get_congr hb, hget, hgd, rd_inr, rd_inr, hfr]
          rw [isReal_pointer h hb, hrd, ← hA, add_mul, one_mul] at ha
          exact ha
        · rw [hoth b hb]
          by_cases hb2 : E.pointer b = E.pointer .temp
          · rw [get_congr hb2, get_congr hb2, hget1, hgl, rd_inl, rd_inl, hfrs]
            rw [isReal_pointer h hb2, hrs, ← hB, add_mul, one_mul] at ha
            exact ha
          · rw [hoth1 b hb2]
      · rw [hget]
        show E.nb * (T.A (2 : Fin 3).succ).points.card ≤ d'.length
        rw [hlen]; exact hcap
      · rw [hget, hg']
        exact holdsSlot_inr.2 hhold

end
end Verif
