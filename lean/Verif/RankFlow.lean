import Verif.RankRun

/-!
# The operations of one rank follow the schedule
-/

namespace Verif
variable {α β : Type}

section
variable {K : Kernel α β} {E : Env} {c : Case} {T : Track α β} {m0 : Mem α β}

/-! ## Loops over the batch -/

theorem SlotAt.keeps {R C i j : Nat} {m m' : Mem α β} (h : Keeps K E c R C j m m') (hst : Stays m m') {b : Box} (ho : IsOrder b.order)
    {F : Field α β} (hc : b.points.card = if F.isReal then R else C) (hij : i ≠ j) {loc : Option Buf}
    (hs : SlotAt K E c b F loc i m) : SlotAt K E c b F loc i m' := by
  cases loc with
  | none => exact hs
  | some x =>
    have hs : c.isReal x = F.isReal ∧ E.nb * b.points.card ≤ (m.get K E x).size ∧ HoldsSlot b i (m.get K E x) F := hs
    refine ⟨hs.1, ?_, h.slot ho (by rw [hs.1]; exact hc) hij hs.2.2⟩
    rw [(hst.get K E x).2]; exact hs.2.1

theorem located_slots (hp : 0 < E.nb) {b : Box} {F : Field α β} {loc : Option Buf} {m : Mem α β} :
    Located K E c b F loc m ↔ ∀ j, j < E.nb → SlotAt K E c b F loc j m := by
  cases loc with
  | none => exact ⟨fun h _ _ => h, fun h => h 0 hp⟩
  | some x =>
    constructor
    · rintro ⟨h1, h2, h3⟩ j hj; exact ⟨h1, h2, h3 j hj⟩
    · intro h; exact ⟨(h 0 hp).1, (h 0 hp).2.1, fun j hj => (h j hj).2.2⟩

/-- The same values in the same layout. -/
theorem SlotAt.move {a b : Box} {F F' : Field α β} (hlay : SameLayout a b) (hval : ∀ j p, p ∈ a → F.val j p = F'.val j p)
    (hty : F.isReal = F'.isReal) {loc : Option Buf} {j : Nat} {m : Mem α β} (hs : SlotAt K E c a F loc j m) :
    SlotAt K E c b F' loc j m := by
  cases loc with
  | none => exact fun p hp => hs p ((hlay.1 p).2 hp)
  | some x =>
    have hs : c.isReal x = F.isReal ∧ E.nb * a.points.card ≤ (m.get K E x).size ∧ HoldsSlot a j (m.get K E x) F := hs
    refine ⟨hs.1.trans hty, by rw [← hlay.points]; exact hs.2.1, fun p hp => ?_⟩
    rw [hlay.holds hs.2.2 p hp, hval j p ((hlay.1 p).2 hp)]

theorem Located.move (hp : 0 < E.nb) {a b : Box} {F F' : Field α β} (hlay : SameLayout a b) (hval : ∀ j p, p ∈ a → F.val j p = F'.val j p)
    (hty : F.isReal = F'.isReal) {loc : Option Buf} {m : Mem α β} (hs : Located K E c a F loc m) : Located K E c b F' loc m :=
  (located_slots hp).2 fun j hj => ((located_slots hp).1 hs j hj).move hlay hval hty

/-- A body that treats one entry of the batch treats the whole batch in a loop. -/
theorem loop_ok (hp : 0 < E.nb) {f : Mem α β → Nat → Res (Mem α β)} {X Y : Box} {FX FY : Field α β} {loc loc' : Option Buf} {R C : Nat}
    (hX : X.points.card = if FX.isReal then R else C) (hY : Y.points.card = if FY.isReal then R else C)
    (oX : IsOrder X.order) (oY : IsOrder Y.order)
    (hf : ∀ j m, j < E.nb → Stays m0 m → SlotAt K E c X FX loc j m →
      ∃ m', f m j = .ok m' ∧ Stays m m' ∧ Keeps K E c R C j m m' ∧ SlotAt K E c Y FY loc' j m')
    {m : Mem α β} (hst : Stays m0 m) (hl : Located K E c X FX loc m) :
    ∃ m', (List.range E.nb).foldlM f m = .ok m' ∧ Stays m m' ∧ Located K E c Y FY loc' m' := by
  have key : ∀ n, n ≤ E.nb → ∃ m', (List.range n).foldlM f m = .ok m' ∧ Stays m m' ∧
      (∀ j, j < n → SlotAt K E c Y FY loc' j m') ∧ ∀ j, n ≤ j → j < E.nb → SlotAt K E c X FX loc j m' := by
    intro n
    induction n with
    | zero =>
      intro _
      exact ⟨m, rfl, Stays.refl m, fun j hj => absurd hj (by omega), fun j _ hj => (located_slots hp).1 hl j hj⟩
    | succ n ih =>
      intro hn
      obtain ⟨m1, hr, hs1, hpost, hpre⟩ := ih (by omega)
      obtain ⟨m2, hr2, hs2, hk, hslot⟩ := hf n m1 (by omega) (hst.trans hs1) (hpre n (le_refl _) (by omega))
      refine ⟨m2, ?_, hs1.trans hs2, ?_, ?_⟩
      · rw [List.range_succ, List.foldlM_append, hr]
        simp only [bind, Except.bind, List.foldlM_cons, List.foldlM_nil, hr2]
        rfl
      · intro j hj
        by_cases hjn : j = n
        · subst hjn; exact hslot
        · exact (hpost j (by omega)).keeps hk hs2 oY hY hjn
      · intro j hj hj'
        exact (hpre j (by omega) hj').keeps hk hs2 oX hX (by omega)
  obtain ⟨m', h1, h2, h3, -⟩ := key E.nb (le_refl _)
  exact ⟨m', h1, h2, (located_slots hp).2 h3⟩

/-- The part of a body for one executor. -/
theorem calls_step (h : RankOk K E c T m0) {m : Mem α β} (hst : Stays m0 m) {k : Fin 3} {ks : List (Fin 3)} {loc : Option Buf}
    {xs : List Call} {r : Option Buf} (hx : c.calls (k :: ks) loc xs = some r) {j : Nat} (hj : j < E.nb)
    (hl : SlotAt K E c (T.B k.castSucc) (T.F k.castSucc) loc j m) {R C : Nat}
    (hB : (T.B k.castSucc).points.card = if c.realAt k then R else C)
    (hA : (T.A k.succ).points.card = if c.realAt (k + 1) then R else C) :
    ∃ xs1 xs2 loc1 m', xs = xs1 ++ xs2 ∧ c.calls ks loc1 xs2 = some r ∧ xs1.foldlM (runCall K E j) m = .ok m' ∧ Stays m m' ∧
      Keeps K E c R C j m m' ∧ SlotAt K E c (T.A k.succ) (T.F k.succ) loc1 j m' := by
  unfold Case.calls at hx
  cases hk : c.kind k with
  | empty =>
    rw [hk] at hx
    exact ⟨[], xs, none, m, rfl, hx, rfl, Stays.refl m, Keeps.refl _ _ _ _, (h.empty k hk).2⟩
  | merged =>
    rw [hk] at hx
    obtain ⟨hty, hlay, hval⟩ := h.merged k hk
    refine ⟨[], xs, loc, m, rfl, hx, rfl, Stays.refl m, Keeps.refl _ _ _ _, ?_⟩
    exact hl.move hlay hval ((h.types k.castSucc).trans (hty.trans (h.types k.succ).symm))
  | run =>
    rw [hk] at hx
    cases xs with
    | nil => simp at hx
    | cons x xs =>
      simp only at hx
      by_cases hc : c.callOk k loc x = true
      · rw [if_pos hc] at hx
        obtain ⟨m', h1, h2, h3, h4⟩ := call_ok h hst hk hc hj hl hB hA
        refine ⟨[x], xs, some x.dst, m', rfl, hx, ?_, h2, h3, h4⟩
        simp only [List.foldlM_cons, List.foldlM_nil, h1, bind, Except.bind]; rfl
      · rw [if_neg hc] at hx; simp at hx

theorem quiet_sub {a b a' b' : Nat} (hq : c.quiet a b = true) (ha : a ≤ a') (hb : b' ≤ b) : c.quiet a' b' = true := by
  unfold Case.quiet at hq ⊢
  rw [List.all_eq_true] at hq ⊢
  intro x hx
  exact hq x (by rw [List.mem_range'_1] at hx ⊢; omega)

/-- A loop over the batch with one call. -/
theorem single_ok (h : RankOk K E c T m0) {m : Mem α β} (hst : Stays m0 m) {k : Fin 3} (hk : c.kind k = .run) {loc : Option Buf} {x : Call}
    (hx : c.callOk k loc x = true) (hl : Located K E c (T.B k.castSucc) (T.F k.castSucc) loc m) :
    ∃ m', runInstr K E (.batch [x]) m = .ok m' ∧ Stays m m' ∧ Located K E c (T.A k.succ) (T.F k.succ) (some x.dst) m' := by
  have hFB : (T.F k.castSucc).isReal = c.realAt k := h.types k.castSucc
  have hFA : (T.F k.succ).isReal = c.realAt (k + 1) := h.types k.succ
  obtain ⟨R, C, hB, hA⟩ : ∃ R C, ((T.B k.castSucc).points.card = if c.realAt k then R else C) ∧
      (T.A k.succ).points.card = if c.realAt (k + 1) then R else C := by
    by_cases hr : c.realAt k = true
    · by_cases hr' : c.realAt (k + 1) = true
      · refine ⟨(T.B k.castSucc).points.card, 0, by rw [if_pos hr], ?_⟩
        rw [if_pos hr']; exact h.cards k (Or.inr (hr.trans hr'.symm))
      · exact ⟨(T.B k.castSucc).points.card, (T.A k.succ).points.card, by rw [if_pos hr], by rw [if_neg hr']⟩
    · by_cases hr' : c.realAt (k + 1) = true
      · exact ⟨(T.A k.succ).points.card, (T.B k.castSucc).points.card, by rw [if_neg hr], by rw [if_pos hr']⟩
      · refine ⟨0, (T.B k.castSucc).points.card, by rw [if_neg hr], ?_⟩
        rw [if_neg hr']; exact h.cards k (Or.inr (by simp_all))
  refine loop_ok (m0 := m0) h.pos (R := R) (C := C) (by rw [hFB]; exact hB) (by rw [hFA]; exact hA) (h.orderB _) (h.orderA _) ?_ hst hl
  intro j m hj hst hs
  obtain ⟨m', h1, h2⟩ := call_ok h hst hk hx hj hs hB hA
  refine ⟨m', ?_, h2⟩
  simp only [List.foldlM_cons, List.foldlM_nil, h1, bind, Except.bind]; rfl

/-- A loop over the batch with the calls of all the executors. -/
theorem triple_ok (h : RankOk K E c T m0) {m : Mem α β} (hst : Stays m0 m) {loc loc' : Option Buf} {xs : List Call}
    (hq : c.quiet 1 3 = true) (hx : c.calls [0, 1, 2] loc xs = some loc') (hl : Located K E c (T.B 0) (T.F 0) loc m) :
    ∃ m', runInstr K E (.batch xs) m = .ok m' ∧ Stays m m' ∧ Located K E c (T.A 3) (T.F 3) loc' m' := by
  have q1 := h.quiet 1 (quiet_at hq (i := 1) (by omega) (by omega))
  have q2 := h.quiet 2 (quiet_at hq (i := 2) (by omega) (by omega))
  have p1 := congrArg Finset.card q1.points
  have p2 := congrArg Finset.card q2.points
  obtain ⟨R, C, hB0, hA1, hB1, hA2, hB2, hA3⟩ : ∃ R C, ((T.B 0).points.card = if c.realAt 0 then R else C) ∧
      ((T.A 1).points.card = if c.realAt 1 then R else C) ∧ ((T.B 1).points.card = if c.realAt 1 then R else C) ∧
      ((T.A 2).points.card = if c.realAt 2 then R else C) ∧ ((T.B 2).points.card = if c.realAt 2 then R else C) ∧
      (T.A 3).points.card = if c.realAt 3 then R else C := by
    have r1 : c.realAt 1 = false := by unfold Case.realAt; cases c.mode <;> simp
    have r2 : c.realAt 2 = false := by unfold Case.realAt; cases c.mode <;> simp
    have c1 : (T.A 2).points.card = (T.B 1).points.card := h.cards 1 (Or.inr (by
      show c.realAt 1 = c.realAt 2
      rw [r1, r2]))
    rw [r1, r2]
    simp only [Bool.false_eq_true, if_false]
    cases hm : c.mode with
    | same =>
      have c0 : (T.A 1).points.card = (T.B 0).points.card := h.cards 0 (Or.inr (by unfold Case.realAt; rw [hm]))
      have c2 : (T.A 3).points.card = (T.B 2).points.card := h.cards 2 (Or.inr (by unfold Case.realAt; rw [hm]))
      have r0 : c.realAt 0 = false := by unfold Case.realAt; rw [hm]
      have r3 : c.realAt 3 = false := by unfold Case.realAt; rw [hm]
      rw [r0, r3]
      simp only [Bool.false_eq_true, if_false]
      exact ⟨0, (T.B 0).points.card, rfl, by omega, by omega, by omega, by omega, by omega⟩
    | r2c =>
      have c2 : (T.A 3).points.card = (T.B 2).points.card := h.cards 2 (Or.inr (by unfold Case.realAt; rw [hm]; simp))
      have r0 : c.realAt 0 = true := by unfold Case.realAt; rw [hm]; simp
      have r3 : c.realAt 3 = false := by unfold Case.realAt; rw [hm]; simp
      rw [r0, r3]
      simp only [Bool.false_eq_true, if_false, if_true]
      exact ⟨(T.B 0).points.card, (T.A 1).points.card, rfl, by omega, by omega, by omega, by omega, by omega⟩
    | c2r =>
      have c0 : (T.A 1).points.card = (T.B 0).points.card := h.cards 0 (Or.inr (by unfold Case.realAt; rw [hm]; simp))
      have r0 : c.realAt 0 = false := by unfold Case.realAt; rw [hm]; simp
      have r3 : c.realAt 3 = true := by unfold Case.realAt; rw [hm]; simp
      rw [r0, r3]
      simp only [Bool.false_eq_true, if_false, if_true]
      exact ⟨(T.A 3).points.card, (T.B 0).points.card, rfl, by omega, by omega, by omega, by omega, by omega⟩
  refine loop_ok (m0 := m0) h.pos (R := R) (C := C) (by rw [h.types 0]; exact hB0) (by rw [h.types 3]; exact hA3) (h.orderB _) (h.orderA _) ?_ hst hl
  intro j m hj hst hs
  obtain ⟨xs1, xs', loc1, m1, rfl, hx, hr1, hs1, hk1, hl1⟩ := calls_step h hst hx hj hs hB0 hA1
  have hl1 : SlotAt K E c (T.B 1) (T.F 1) loc1 j m1 := SlotAt.move q1 (fun _ _ _ => rfl) rfl hl1
  obtain ⟨xs2, xs'', loc2, m2, rfl, hx, hr2, hs2, hk2, hl2⟩ := calls_step h (hst.trans hs1) hx hj hl1 hB1 hA2
  have hl2 : SlotAt K E c (T.B 2) (T.F 2) loc2 j m2 := SlotAt.move q2 (fun _ _ _ => rfl) rfl hl2
  obtain ⟨xs3, xs4, loc3, m3, rfl, hx, hr3, hs3, hk3, hl3⟩ := calls_step h ((hst.trans hs1).trans hs2) hx hj hl2 hB2 hA3
  obtain ⟨rfl, rfl⟩ : xs4 = [] ∧ loc3 = loc' := by
    cases xs4 with
    | nil => exact ⟨rfl, by simpa [Case.calls] using hx⟩
    | cons a t => simp [Case.calls] at hx
  refine ⟨m3, ?_, (hs1.trans hs2).trans hs3, (hk1.trans hk2).trans hk3, hl3⟩
  rw [List.append_nil, List.foldlM_append, hr1]
  simp only [bind, Except.bind, List.foldlM_append, hr2, hr3]

/-- The copy of the input. -/
theorem copy_ok (h : RankOk K E c T m0) {m : Mem α β} (hst : Stays m0 m) {k : Fin 3} {loc : Option Buf} {src dst : Buf}
    (hc : c.copyOk k loc src dst = true) (hl : Located K E c (T.A 0) (T.F 0) loc m) :
    ∃ m', runInstr K E (.copy k src dst) m = .ok m' ∧ Stays m m' ∧ Located K E c (T.A 0) (T.F 0) (some dst) m' := by
  unfold Case.copyOk at hc
  simp only [Bool.and_eq_true, decide_eq_true_eq, Bool.or_eq_true, Bool.not_eq_true'] at hc
  obtain ⟨⟨⟨⟨⟨⟨hk, rfl⟩, rfl⟩, hty⟩, hq⟩, hh⟩, hd⟩ := hc
  obtain ⟨l1, l2, l3⟩ := hl
  have hmode : c.mode ≠ .r2c := by
    intro hm
    unfold Case.isReal at hty
    rw [hm] at hty
    rcases hd with rfl | ⟨rfl, -⟩ <;> simp at hty
  have hre : c.isReal .input = false := by
    unfold Case.isReal
    cases hm : c.mode
    · rfl
    · exact absurd hm hmode
    · simp
  have hrA : ∀ i : Nat, i < 3 → c.realAt i = false := by
    intro i hi
    unfold Case.realAt
    cases hm : c.mode
    · rfl
    · exact absurd hm hmode
    · simp; omega
  -- the number of copied entries
  have hchain : ∀ n, (hn : n ≤ k.val) → (T.B (⟨n, by omega⟩ : Fin 4)).points.card = (T.A 0).points.card := by
    intro n
    induction n with
    | zero =>
      intro hn
      have := (h.quiet 0 (quiet_at hq (i := 0) (by omega) (by omega))).points
      exact congrArg Finset.card this.symm
    | succ n ih =>
      intro hn
      have h1 := ih (by omega)
      have h2 := h.cards ⟨n, by omega⟩ (Or.inr ((hrA n (by omega)).trans (hrA (n + 1) (by omega)).symm))
      have h3 := (h.quiet ⟨n + 1, by omega⟩ (quiet_at (i := n + 1) hq (by omega) (by omega))).points
      rw [← h3]
      exact h2.trans h1
  have hsize : wantCard c T (.box k) = (T.A 0).points.card := by
    rw [← hchain k (le_refl _)]
    show (if c.realAt ((k : Nat) + 1) then _ else _) = _
    split
    · rename_i hr
      refine h.cards k (Or.inl ?_)
      rcases hh with hh | hh
      · exact hh
      · rw [hrA (k + 1) (by omega)] at hr; cases hr
    · rfl
  have hsz := size_run h (z := .box k) hk
  rw [hsize] at hsz
  -- the capacity of the destination
  have hcap : E.nb * (T.A 0).points.card ≤ (m.get K E dst).size := by
    rcases hd with rfl | ⟨rfl, hq4⟩
    · have h1 := h.tempB 0 (hrA 0 (by omega))
      have h2 : (T.B (0 : Fin 3).castSucc).points.card = (T.A 0).points.card := hchain 0 (by omega)
      rw [h2] at h1
      simp only [Mem.get, Data.size, List.length_drop, hst.work]; omega
    · rw [(hst.get K E .output).2]
      have hm : c.mode = .same := by
        cases hm : c.mode
        · rfl
        · exact absurd hm hmode
        · unfold Case.isReal at hty; rw [hm] at hty; simp at hty
      have := card_out h (i := 0) (by omega) hq4 (by
        intro i _ _; left; unfold Case.realAt; rw [hm])
      have e : (T.A 0).points.card = (T.B 3).points.card := this
      rw [e]; exact h.outputSize
  have htp : ∀ b, b ≠ .real → (m.get K E b).isReal = c.isReal b := by
    intro b hb
    refine buf_type h hst ?_
    rintro (rfl | rfl)
    · unfold Case.isReal; cases c.mode <;> rfl
    · exact absurd rfl hb
  obtain ⟨s, hs⟩ := exists_inl ((htp .input (by simp)).trans hre)
  obtain ⟨d, hdd⟩ := exists_inl ((htp dst (by rcases hd with rfl | ⟨rfl, -⟩ <;> simp)).trans (hty.symm.trans hre))
  obtain ⟨g, hg⟩ := field_inl (l1.symm.trans hre)
  rw [hs] at l2 l3
  rw [hdd] at hcap
  simp only [Data.size] at l2 hcap
  have hn : ((E.nb : Int) * ((T.A 0).points.card : Int)) = ((E.nb * (T.A 0).points.card : Nat) : Int) := by push_cast; rfl
  obtain ⟨r, hr, hlen, hval, -⟩ := copyMoves_ok (moves := (loop (E.nb * (T.A 0).points.card)).map fun i => (i, i)) (src := s) (dst := d)
    (by
      simp only [List.mem_map, mem_loop]
      rintro _ ⟨i, hi, rfl⟩
      dsimp only
      rw [hn] at hi
      omega)
    (by
      simp only [List.mem_map, mem_loop]
      rintro _ ⟨i, hi, rfl⟩ _ ⟨i', hi', rfl⟩ h
      exact h)
  have hp : E.pointer dst ≠ .input := by
    rcases hd with rfl | ⟨rfl, -⟩ <;> simp [Env.pointer]
  obtain ⟨m', hput, hst', hget, -⟩ := Mem.put_ok K E h.law m hp (x := .inl r) (by rw [hdd]; exact ⟨rfl, hlen⟩)
  refine ⟨m', ?_, hst', ?_, ?_, ?_⟩
  · simp only [runInstr, hsz, hs, hdd, copyData, bind, Except.bind, hr, hput]
  · exact hty.symm.trans l1
  · rw [hget]; show _ ≤ r.length; omega
  · intro j hj p hp
    rw [hget, ← l3 j hj p hp, rd_inl, rd_inl]
    congr 1
    have hrg := slot_range (h.orderA 0) hp j
    have h3 : ((j : Int) + 1) * (T.A 0).points.card ≤ E.nb * (T.A 0).points.card :=
      mul_le_mul_of_nonneg_right (by omega) (Int.natCast_nonneg _)
    refine hval (_, _) (List.mem_map.2 ⟨_, mem_loop.2 ⟨?_, lt_of_lt_of_le hrg.2 h3⟩, rfl⟩)
    refine le_trans ?_ hrg.1
    exact_mod_cast Nat.zero_le _

/-! ## Following the schedule -/

/-- The box of the data in front of item `n` of the schedule. -/
def posBox (T : Track α β) : Nat → Box
  | 0 => T.A 0
  | 1 => T.A 0
  | 2 => T.B 0
  | 3 => T.A 1
  | 4 => T.B 1
  | 5 => T.A 2
  | 6 => T.B 2
  | 7 => T.A 3
  | _ => T.B 3

/-- The values in front of item `n` of the schedule. -/
def posField (T : Track α β) : Nat → Field α β
  | 0 => T.F 0
  | 1 => T.F 0
  | 2 => T.F 0
  | 3 => T.F 1
  | 4 => T.F 1
  | 5 => T.F 2
  | 6 => T.F 2
  | _ => T.F 3

theorem advance_append {pre t : List Instr} {m m' : Mem α β} {i : Fin 4} (hp : ∀ x ∈ pre, ∀ a s d, x ≠ .reshape a s d)
    (hf : finish K E pre m = .ok m') : advance K E i (pre ++ t) m = advance K E i t m' := by
  induction pre generalizing m with
  | nil => simp only [finish, Except.ok.injEq] at hf; subst hf; rfl
  | cons x pre ih =>
    simp only [finish, bind, Except.bind] at hf
    cases hr : runInstr K E x m with
    | error e => rw [hr] at hf; cases hf
    | ok m1 =>
      rw [hr] at hf
      have h1 := ih (fun y hy => hp y (List.mem_cons_of_mem _ hy)) hf
      cases x with
      | reshape a s d => exact absurd rfl (hp _ List.mem_cons_self a s d)
      | copy k s d => rw [List.cons_append, ← h1]; simp only [advance, bind, Except.bind, hr]
      | batch cs => rw [List.cons_append, ← h1]; simp only [advance, bind, Except.bind, hr]

theorem finish_append {pre t : List Instr} {m m' : Mem α β} (hf : finish K E pre m = .ok m') :
    finish K E (pre ++ t) m = finish K E t m' := by
  induction pre generalizing m with
  | nil => simp only [finish, Except.ok.injEq] at hf; subst hf; rfl
  | cons x pre ih =>
    simp only [finish, bind, Except.bind] at hf
    cases hr : runInstr K E x m with
    | error e => rw [hr] at hf; cases hf
    | ok m1 =>
      rw [hr] at hf
      rw [List.cons_append, ← ih hf]
      simp only [finish, bind, Except.bind, hr]

/-- What one item of the schedule does, except for a reshape that exists. -/
def ItemDone (K : Kernel α β) (E : Env) (c : Case) (T : Track α β) (n : Nat) (prog : List Instr) (m : Mem α β) : Prop :=
  ∃ pre t m' n' loc', prog = pre ++ t ∧ (∀ x ∈ pre, ∀ a s d, x ≠ Instr.reshape a s d) ∧ finish K E pre m = .ok m' ∧ Stays m m' ∧
    n < n' ∧ n' ≤ 8 ∧ (∀ i : Nat, n ≤ 2 * i + 1 → 2 * i + 1 < n' → c.s i = false) ∧
    Located K E c (posBox T n') (posField T n') loc' m' ∧ flow c (schedule.drop n') loc' t = true

theorem finish_one {x : Instr} {m m' : Mem α β} (h : runInstr K E x m = .ok m') : finish K E [x] m = .ok m' := by
  simp only [finish, bind, Except.bind, h]

theorem start_item (h : RankOk K E c T m0) {m : Mem α β} (hst : Stays m0 m) {loc : Option Buf} {prog : List Instr}
    (hf : flow c schedule loc prog = true) (hl : Located K E c (T.A 0) (T.F 0) loc m) : ItemDone K E c T 0 prog m := by
  have skip : flow c (schedule.drop 1) loc prog = true → ItemDone K E c T 0 prog m := fun hf =>
    ⟨[], prog, m, 1, loc, rfl, by simp, rfl, Stays.refl m, by omega, by omega, fun i h1 h2 => by omega, hl, hf⟩
  cases prog with
  | nil => exact skip hf
  | cons x t =>
    cases x with
    | batch cs => exact skip hf
    | reshape a s d => exact skip hf
    | copy k src dst =>
      have hf : (c.copyOk k loc src dst && flow c (schedule.drop 1) (some dst) t) = true := hf
      rw [Bool.and_eq_true] at hf
      obtain ⟨m', h1, h2, h3⟩ := copy_ok h hst hf.1 hl
      exact ⟨[.copy k src dst], t, m', 1, some dst, rfl, by simp, finish_one h1, h2, by omega, by omega, fun i h1 h2 => by omega, h3, hf.2⟩

theorem resh_item (h : RankOk K E c T m0) {m : Mem α β} {loc : Option Buf} {prog : List Instr} {i : Fin 4} (hs : c.s i = false)
    (hf : flow c (schedule.drop (2 * i + 1)) loc prog = true) (hl : Located K E c (T.A i) (T.F i) loc m) :
    ItemDone K E c T (2 * i + 1) prog m := by
  have hq : Located K E c (T.B i) (T.F i) loc m := hl.move h.pos (h.quiet i hs) (fun _ _ _ => rfl) rfl
  refine ⟨[], prog, m, 2 * i + 2, loc, rfl, by simp, rfl, Stays.refl m, by omega, by omega, fun a h1 h2 => ?_, ?_, ?_⟩
  · obtain rfl : a = i := by omega
    exact hs
  · fin_cases i <;> exact hq
  · fin_cases i <;> simpa [schedule, flow, hs] using hf

theorem exec_item (h : RankOk K E c T m0) {m : Mem α β} (hst : Stays m0 m) {loc : Option Buf} {prog : List Instr} {k : Fin 3}
    (hf : flow c (schedule.drop (2 * k + 2)) loc prog = true) (hl : Located K E c (T.B k.castSucc) (T.F k.castSucc) loc m) :
    ItemDone K E c T (2 * k + 2) prog m := by
  have hbox : posBox T (2 * k + 3) = T.A k.succ := by fin_cases k <;> rfl
  have hfld : posField T (2 * k + 3) = T.F k.succ := by fin_cases k <;> rfl
  have next : ∀ pre t m' loc', prog = pre ++ t → (∀ x ∈ pre, ∀ a s d, x ≠ Instr.reshape a s d) → finish K E pre m = .ok m' → Stays m m' →
      Located K E c (T.A k.succ) (T.F k.succ) loc' m' → flow c (schedule.drop (2 * k + 3)) loc' t = true →
      ItemDone K E c T (2 * k + 2) prog m := by
    intro pre t m' loc' h1 h2 h3 h4 h5 h6
    exact ⟨pre, t, m', 2 * k + 3, loc', h1, h2, h3, h4, by omega, by omega, fun i h1 h2 => by omega, by rw [hbox, hfld]; exact h5, h6⟩
  have hdrop : schedule.drop (2 * k + 2) = .exec k :: schedule.drop (2 * k + 3) := by fin_cases k <;> rfl
  rw [hdrop] at hf
  unfold flow at hf
  cases hk : c.kind k with
  | empty =>
    rw [hk] at hf
    exact next [] prog m none rfl (by simp) rfl (Stays.refl m) (h.empty k hk).2 hf
  | merged =>
    rw [hk] at hf
    obtain ⟨hty, hlay, hval⟩ := h.merged k hk
    exact next [] prog m loc rfl (by simp) rfl (Stays.refl m)
      (hl.move h.pos hlay hval ((h.types k.castSucc).trans (hty.trans (h.types k.succ).symm))) hf
  | run =>
    rw [hk] at hf
    cases prog with
    | nil => simp at hf
    | cons x t =>
      cases x with
      | copy a s d => simp at hf
      | reshape a s d => simp at hf
      | batch xs =>
        by_cases hone : ∃ x, xs = [x]
        · obtain ⟨x, rfl⟩ := hone
          simp only [Bool.and_eq_true] at hf
          obtain ⟨m', h1, h2, h3⟩ := single_ok h hst hk hf.1 hl
          exact next [.batch [x]] t m' (some x.dst) rfl (by simp) (finish_one h1) h2 h3 hf.2
        · have hall : k = 0 ∧ c.quiet 1 3 = true ∧ ∃ loc', c.calls [0, 1, 2] loc xs = some loc' ∧ flow c [.resh 3] loc' t = true := by
            fin_cases k
            · refine ⟨rfl, ?_⟩
              rcases xs with _ | ⟨x, _ | ⟨y, ys⟩⟩
              · simp [schedule, Case.calls, show c.kind 0 = Kind.run from hk] at hf
              · exact absurd ⟨x, rfl⟩ hone
              · simp only [schedule, List.drop] at hf
                simp only [Bool.and_eq_true] at hf
                refine ⟨hf.1.2, ?_⟩
                cases hc : c.calls [0, 1, 2] loc (x :: y :: ys) with
                | none => rw [hc] at hf; simp at hf
                | some loc' => rw [hc] at hf; exact ⟨loc', rfl, hf.2⟩
            · rcases xs with _ | ⟨x, _ | ⟨y, ys⟩⟩
              · simp [schedule] at hf
              · exact absurd ⟨x, rfl⟩ hone
              · simp [schedule] at hf
            · rcases xs with _ | ⟨x, _ | ⟨y, ys⟩⟩
              · simp [schedule] at hf
              · exact absurd ⟨x, rfl⟩ hone
              · simp [schedule] at hf
          obtain ⟨rfl, hq, loc', hcalls, hf'⟩ := hall
          obtain ⟨m', h1, h2, h3⟩ := triple_ok h hst hq hcalls hl
          refine ⟨[.batch xs], t, m', 7, loc', rfl, by simp, finish_one h1, h2, by simp, by omega, fun i h1 h2 => ?_, h3, hf'⟩
          exact quiet_at hq (by simp at h1; omega) (by omega)

theorem item_ok (h : RankOk K E c T m0) {m : Mem α β} (hst : Stays m0 m) {loc : Option Buf} {prog : List Instr} {n : Nat} (hn : n < 8)
    (hs : ∀ i : Fin 4, n = 2 * i + 1 → c.s i = false) (hf : flow c (schedule.drop n) loc prog = true)
    (hl : Located K E c (posBox T n) (posField T n) loc m) : ItemDone K E c T n prog m := by
  rcases n with _ | _ | _ | _ | _ | _ | _ | _ | n
  · exact start_item h hst hf hl
  · exact resh_item h (i := 0) (hs 0 rfl) hf hl
  · exact exec_item h hst (k := 0) hf hl
  · exact resh_item h (i := 1) (hs 1 rfl) hf hl
  · exact exec_item h hst (k := 1) hf hl
  · exact resh_item h (i := 2) (hs 2 rfl) hf hl
  · exact exec_item h hst (k := 2) hf hl
  · exact resh_item h (i := 3) (hs 3 rfl) hf hl
  · omega

/-- The operations up to the reshape number `i`. -/
theorem advance_ok (h : RankOk K E c T m0) {i : Fin 4} (hi : c.s i = true) :
    ∀ (d n : Nat), n + d = 2 * i + 1 → (∀ a : Nat, n ≤ 2 * a + 1 → a < i → c.s a = false) →
    ∀ {m : Mem α β} {loc : Option Buf} {prog : List Instr}, Stays m0 m → flow c (schedule.drop n) loc prog = true →
    Located K E c (posBox T n) (posField T n) loc m →
    ∃ t src dst m' loc', advance K E i prog m = .ok (t, (src, dst), m') ∧ Stays m m' ∧ Located K E c (T.A i) (T.F i) loc' m' ∧
      c.reshapeOk i loc' src dst = true ∧ flow c (schedule.drop (2 * i + 2)) (some dst) t = true := by
  intro d
  induction d using Nat.strong_induction_on with
  | _ d ih =>
    intro n hd hq m loc prog hst hf hl
    by_cases hz : d = 0
    · have hn : n = 2 * i + 1 := by omega
      subst hn
      have hdrop : schedule.drop (2 * i + 1) = .resh i :: schedule.drop (2 * i + 2) := by fin_cases i <;> rfl
      rw [hdrop] at hf
      unfold flow at hf
      rw [if_pos hi] at hf
      cases prog with
      | nil => simp at hf
      | cons x t =>
        cases x with
        | copy a s d => simp at hf
        | batch xs => simp at hf
        | reshape j s d =>
          simp only [Bool.and_eq_true, decide_eq_true_eq] at hf
          obtain ⟨⟨rfl, h1⟩, h2⟩ := hf
          refine ⟨t, s, d, m, loc, by simp [advance], Stays.refl m, ?_, h1, h2⟩
          have hb : posBox T (2 * j + 1) = T.A j := by fin_cases j <;> rfl
          have hb' : posField T (2 * j + 1) = T.F j := by fin_cases j <;> rfl
          rw [hb, hb'] at hl; exact hl
    · obtain ⟨pre, t, m', n', loc', rfl, hpre, hfin, hst', hn1, hn2, hq', hl', hf'⟩ := item_ok h hst (n := n) (by omega)
        (fun a ha => hq a (by omega) (by omega)) hf hl
      have hle : n' ≤ 2 * i + 1 := by
        by_contra hc
        have := hq' i (by omega) (by omega)
        rw [hi] at this; cases this
      obtain ⟨t', src, dst, m2, loc2, ha, hst2, hl2, hr, hf2⟩ := ih (2 * i + 1 - n') (by omega) n' (by omega)
        (fun a h1 h2 => hq a (by omega) h2) (hst.trans hst') hf' hl'
      exact ⟨t', src, dst, m2, loc2, by rw [advance_append hpre hfin]; exact ha, hst'.trans hst2, hl2, hr, hf2⟩

/-- The operations behind the last reshape. -/
theorem finish_ok (h : RankOk K E c T m0) :
    ∀ (d n : Nat), n + d = 8 → (∀ a : Nat, n ≤ 2 * a + 1 → c.s a = false) →
    ∀ {m : Mem α β} {loc : Option Buf} {prog : List Instr}, Stays m0 m → flow c (schedule.drop n) loc prog = true →
    Located K E c (posBox T n) (posField T n) loc m →
    ∃ m', finish K E prog m = .ok m' ∧ Stays m m' ∧ ∀ j, j < E.nb → HoldsSlot (T.B 3) j m'.output (T.F 3) := by
  intro d
  induction d using Nat.strong_induction_on with
  | _ d ih =>
    intro n hd hq m loc prog hst hf hl
    by_cases hz : d = 0
    · obtain rfl : n = 8 := by omega
      have hf : (decide (prog = []) && (decide (loc = none) || decide (loc = some .output))) = true := hf
      obtain ⟨h1, h2⟩ := (Bool.and_eq_true _ _ ▸ hf : _ ∧ _)
      obtain rfl := of_decide_eq_true h1
      refine ⟨m, rfl, Stays.refl m, fun j hj => ?_⟩
      have h3 : loc = none ∨ loc = some .output := by
        rcases Bool.or_eq_true_iff.1 h2 with h | h
        · exact Or.inl (of_decide_eq_true h)
        · exact Or.inr (of_decide_eq_true h)
      rcases h3 with rfl | rfl
      · exact fun p hp => absurd hp (hl p)
      · exact hl.2.2 j hj
    · obtain ⟨pre, t, m', n', loc', rfl, hpre, hfin, hst', hn1, hn2, hq', hl', hf'⟩ := item_ok h hst (n := n) (by omega)
        (fun a ha => hq a (by omega)) hf hl
      obtain ⟨m2, ha, hst2, hl2⟩ := ih (8 - n') (by omega) n' (by omega)
        (fun a h1 => hq a (by omega)) (hst.trans hst') hf' hl'
      exact ⟨m2, by rw [finish_append hfin]; exact ha, hst'.trans hst2, hl2⟩

end
end Verif
