import Verif.StageRun

/-!
# The arrays passed to the reshapes
-/

namespace Verif
variable {α β : Type}

section
variable {K : Kernel α β} {E : Env} {c : Case} {T : Track α β} {m0 : Mem α β}

theorem work_long (h : RankOk K E c T m0) : E.tempOff ≤ m0.work.length := by
  by_cases hr : c.realAt (0 : Fin 3) = true
  · have := h.tempA 0 hr; omega
  · have := h.tempB 0 (by simpa using hr); omega

/-- The size of the data behind reshape `i` if no reshape and no change of the size follows. -/
theorem card_outB (h : RankOk K E c T m0) {i : Nat} (hi : i < 4) (hq : c.quiet (i + 1) 4 = true)
    (hh : ∀ k : Nat, i ≤ k → k < 3 → c.realAt k = c.realAt (k + 1) ∨ c.halved = false) :
    (T.B ⟨i, hi⟩).points.card = (T.B 3).points.card := by
  by_cases h3 : i = 3
  · subst h3; rfl
  · have h1 := h.cards ⟨i, by omega⟩ (hh i (le_refl _) (by omega)).symm
    have h2 := card_out h (i := i + 1) (by omega) hq (fun k hk => hh k (by omega))
    exact h1.symm.trans h2

theorem get_type (h : RankOk K E c T m0) {m : Mem α β} (hst : Stays m0 m) {b : Buf} (hb : b = .real → c.mode ≠ .same) :
    (m.get K E b).isReal = c.isReal b := by
  refine buf_type h hst ?_
  rintro (rfl | rfl)
  · unfold Case.isReal; cases c.mode <;> rfl
  · unfold Case.isReal; cases hm : c.mode
    · exact absurd hm (hb rfl)
    · rfl
    · rfl

/-- A reshape of complex data. -/
theorem complexPort_fine (h : RankOk K E c T m0) {i : Fin 4} (hr : c.realAt i = false) {G : Nat → A3 Int → α} (hG : T.F i = .inl G)
    {junk : List α → List α} (hj : ∀ l, (junk l).length = l.length) {sh : Shaper} (hws : E.nb * sh.sizeWorkspace ≤ E.tempOff) :
    PortFine K (complexPort K E junk) E c T i m0 G sh := by
  intro m src dst hst ⟨loc, hl, hok⟩
  unfold Case.reshapeOk at hok
  rw [hr] at hok
  simp only [Bool.and_eq_true, decide_eq_true_eq, Bool.or_eq_true, Bool.false_eq_true, if_false, ne_eq] at hok
  obtain ⟨⟨⟨hf, h1⟩, h2⟩, hsr, hd⟩ := hok
  have hlong : E.tempOff ≤ m.work.length := by rw [hst.work]; exact work_long h
  have hl : c.isReal src = (T.F i).isReal ∧ E.nb * (T.A i).points.card ≤ (m.get K E src).size ∧
      ∀ j, j < E.nb → HoldsSlot (T.A i) j (m.get K E src) (T.F i) := Located.found h hl hf (h1.trans ((h.types i).trans hr).symm)
  obtain ⟨-, l2, l3⟩ := hl
  obtain ⟨s, hs⟩ := exists_inl ((get_type h hst (b := src) (fun e => absurd e (by simpa using hsr))).trans h1)
  have hdr : dst ≠ .real := by rcases hd with ⟨rfl, -⟩ | ⟨rfl, -⟩ <;> simp
  obtain ⟨d, hdd⟩ := exists_inl ((get_type h hst (b := dst) (fun e => absurd e hdr)).trans h2)
  have hcap : E.nb * (T.B i).points.card ≤ d.length := by
    have e : d.length = (m.get K E dst).size := by rw [hdd]; rfl
    rw [e]
    rcases hd with ⟨rfl, hi⟩ | ⟨rfl, hq⟩
    · have := h.tempB ⟨i, hi⟩ hr
      have e2 : (⟨i, hi⟩ : Fin 3).castSucc = i := rfl
      rw [e2] at this
      simp only [Mem.get, Data.size, List.length_drop, hst.work]; omega
    · rw [(hst.get K E .output).2]
      have hm : c.mode ≠ .c2r := by
        intro hm; unfold Case.isReal at h2; rw [hm] at h2; simp at h2
      have := card_outB h (i := i) i.2 hq (by
        intro k hk _
        left
        unfold Case.realAt at hr ⊢
        cases hm' : c.mode
        · rfl
        · rw [hm'] at hr; simp at hr
          simp; omega
        · exact absurd hm' hm)
      have e : (T.B i).points.card = (T.B 3).points.card := this
      rw [e]; exact h.outputSize
  refine ⟨⟨s, d, m.work.take E.tempOff⟩, ?_, ?_, hcap, ?_, ?_, ?_⟩
  · simp only [complexPort, hs, hdd]
  · rw [hs] at l2; exact l2
  · intro j hj
    have := l3 j hj
    rw [hs, hG] at this
    exact holdsSlot_inl.1 this
  · simp only [List.length_take, min_eq_left hlong]; exact hws
  · intro d' hlen hhold
    have hp : E.pointer dst ≠ .input := by
      rcases hd with ⟨rfl, -⟩ | ⟨rfl, -⟩ <;> simp [Env.pointer]
    obtain ⟨m1, hput, hst1, hget, -⟩ := Mem.put_ok K E h.law m hp (x := .inl d') (by rw [hdd]; exact ⟨rfl, hlen⟩)
    have hlong1 : E.tempOff ≤ m1.work.length := by rw [hst1.work]; exact hlong
    have hjl : (junk (m1.work.take E.tempOff)).length = E.tempOff := by rw [hj, List.length_take, min_eq_left hlong1]
    refine ⟨{ m1 with work := junk (m1.work.take E.tempOff) ++ m1.work.drop E.tempOff }, ?_, ?_, ?_⟩
    · simp only [complexPort, hput, bind, Except.bind]
    · refine ⟨hst1.input, hst1.output, ?_⟩
      simp only [List.length_append, hjl, List.length_drop]
      rw [← hst1.work]; omega
    · have hsame : Mem.get K E { m1 with work := junk (m1.work.take E.tempOff) ++ m1.work.drop E.tempOff } dst = m1.get K E dst := by
        rcases hd with ⟨rfl, -⟩ | ⟨rfl, -⟩
        · simp only [Mem.get]
          rw [List.drop_append_of_le_length (by omega), List.drop_of_length_le (by omega), List.nil_append]
        · rfl
      refine ⟨h2.trans ((h.types i).trans hr).symm, ?_, fun j hj => ?_⟩
      · rw [hsame, hget]; show _ ≤ d'.length; rw [hlen]; exact hcap
      · rw [hsame, hget, hG]; exact holdsSlot_inl.2 (hhold j hj)

/-- The first reshape of a transform from real to complex. -/
theorem realPort_r2c (h : RankOk K E c T m0) (hm : c.mode = .r2c) (hs0 : c.s0 = true) {G : Nat → A3 Int → β} (hG : T.F 0 = .inr G)
    {junk : List β → List β} (hj : ∀ l, (junk l).length = l.length) {q : Int} {sh : Shaper}
    (hq : E.nb * (T.B 0).points.card ≤ 2 * (E.nb * q).toNat) (hcut : (E.nb * q).toNat ≤ m0.work.length)
    (hws : E.nb * sh.sizeWorkspace ≤ 2 * (m0.work.length - (E.nb * q).toNat : Nat)) :
    PortFine K (realPort K E q junk) E c T 0 m0 G sh := by
  intro m src dst hst ⟨loc, hl, hok⟩
  have hr : c.realAt 0 = true := by unfold Case.realAt; rw [hm]; rfl
  have hout : c.isReal .output = false := by unfold Case.isReal; rw [hm]; rfl
  unfold Case.reshapeOk at hok
  simp only [Fin.val_zero, hr, Bool.and_eq_true, decide_eq_true_eq, Bool.or_eq_true, if_true] at hok
  obtain ⟨⟨⟨hf, h1⟩, h2⟩, hd⟩ := hok
  obtain ⟨rfl, rfl⟩ : src = .input ∧ dst = .real := by
    rcases hd with hd | ⟨⟨-, rfl⟩, -⟩
    · exact hd
    · rw [hout] at h2; cases h2
  have hin : E.inplace = false := by
    rw [h.inplace]
    by_contra hc
    have := h.inplaceSame (by simpa using hc)
    rw [hm] at this; cases this
  have hty : c.isReal .input = (T.F 0).isReal := h1.trans ((h.types 0).trans hr).symm
  obtain ⟨-, l2, l3⟩ : c.isReal .input = (T.F 0).isReal ∧ E.nb * (T.A 0).points.card ≤ (m.get K E .input).size ∧
      ∀ j, j < E.nb → HoldsSlot (T.A 0) j (m.get K E .input) (T.F 0) := Located.found h hl hf hty
  obtain ⟨s, hs⟩ := exists_inr ((get_type h hst (b := .input) (by simp)).trans h1)
  have hw : m.work.length = m0.work.length := hst.work
  generalize hc : (E.nb * q).toNat = cut at hq hcut hws
  have hclen : (K.toReals (m.work.take cut)).length = 2 * cut := by
    rw [toReals_length, List.length_take, min_eq_left (by omega)]
  have hwlen : (K.toReals (m.work.drop cut)).length = 2 * (m0.work.length - cut) := by
    rw [toReals_length, List.length_drop, hw]
  have hjl : (K.toComplex (junk (K.toReals (m.work.drop cut)))).length = m0.work.length - cut :=
    toComplex_length K _ _ (by rw [hj, hwlen])
  refine ⟨⟨s, K.toReals (m.work.take cut), K.toReals (m.work.drop cut)⟩, ?_, ?_, ?_, ?_, ?_, ?_⟩
  · simp only [realPort, hc, hs, if_true, reduceCtorEq, if_false]
  · rw [hs] at l2; exact l2
  · rw [hclen]; exact hq
  · intro j hj
    have := l3 j hj
    rw [hs, hG] at this
    exact holdsSlot_inr.1 this
  · rw [hwlen]; exact_mod_cast hws
  · intro d' hlen hhold
    dsimp only at hlen
    rw [hclen] at hlen
    have hdl : (K.toComplex d').length = cut := toComplex_length K _ _ hlen
    refine ⟨{ m with work := K.toComplex d' ++ K.toComplex (junk (K.toReals (m.work.drop cut))) }, ?_, ⟨rfl, Alike.refl _, ?_⟩, ?_⟩
    · simp only [realPort, hc, if_true]
    · simp only [List.length_append, hdl, hjl]; omega
    · have hrB := h.realB hm hs0
      have hlong := work_long h
      refine ⟨h2.trans ((h.types 0).trans hr).symm, ?_, fun j hj p hp => ?_⟩
      · simp only [Mem.get, Data.size, toReals_length, List.length_take, List.length_append, hdl, hjl]
        omega
      · rw [hG]
        have hv := hhold j hj p hp
        have hrg := slot_range (h.orderB 0) hp j
        have h3 : ((j : Int) + 1) * (T.B 0).points.card ≤ E.nb * (T.B 0).points.card :=
          mul_le_mul_of_nonneg_right (by omega) (Int.natCast_nonneg _)
        have h4 : (j : Int) * (T.B 0).points.card + (T.B 0).offset p < (E.nb * (T.B 0).points.card : Nat) := by
          push_cast; exact lt_of_lt_of_le hrg.2 h3
        show Data.rd (.inr (K.toReals ((K.toComplex d' ++ _).take E.tempOff))) _ = _
        rw [toReals_take, rd_inr, rd_take (by omega), toReals_append, toReals_toComplex K h.law _ _ hlen, rd_append_left (by omega), hv]
        rfl

/-- The last reshape of a transform from complex to real. -/
theorem realPort_c2r (h : RankOk K E c T m0) (hm : c.mode = .c2r) (hs3 : c.s3 = true) {G : Nat → A3 Int → β} (hG : T.F 3 = .inr G)
    {junk : List β → List β} (hj : ∀ l, (junk l).length = l.length) {q : Int} {sh : Shaper}
    (hq : E.nb * (T.A 3).points.card ≤ 2 * (E.nb * q).toNat) (hcut : (E.nb * q).toNat ≤ m0.work.length)
    (hws : E.nb * sh.sizeWorkspace ≤ 2 * (m0.work.length - (E.nb * q).toNat : Nat)) :
    PortFine K (realPort K E q junk) E c T 3 m0 G sh := by
  intro m src dst hst ⟨loc, hl, hok⟩
  have hr : c.realAt 3 = true := by unfold Case.realAt; rw [hm]; rfl
  have hinp : c.isReal .input = false := by unfold Case.isReal; rw [hm]; rfl
  unfold Case.reshapeOk at hok
  have e3 : ((3 : Fin 4) : Nat) = 3 := rfl
  simp only [e3, hr, Bool.and_eq_true, decide_eq_true_eq, Bool.or_eq_true, if_true] at hok
  obtain ⟨⟨⟨hf, h1⟩, h2⟩, hd⟩ := hok
  obtain ⟨rfl, rfl⟩ : src = .real ∧ dst = .output := by
    rcases hd with ⟨rfl, -⟩ | ⟨hd, -⟩
    · rw [hinp] at h1; cases h1
    · exact hd
  have hty : c.isReal .real = (T.F 3).isReal := h1.trans ((h.types 3).trans hr).symm
  obtain ⟨-, l2, l3⟩ : c.isReal .real = (T.F 3).isReal ∧ E.nb * (T.A 3).points.card ≤ (m.get K E .real).size ∧
      ∀ j, j < E.nb → HoldsSlot (T.A 3) j (m.get K E .real) (T.F 3) := Located.found h hl hf hty
  obtain ⟨d, hdd⟩ := exists_inr ((get_type h hst (b := .output) (by simp)).trans h2)
  have hw : m.work.length = m0.work.length := hst.work
  generalize hc : (E.nb * q).toNat = cut at hq hcut hws
  have hclen : (K.toReals (m.work.take cut)).length = 2 * cut := by
    rw [toReals_length, List.length_take, min_eq_left (by omega)]
  have hwlen : (K.toReals (m.work.drop cut)).length = 2 * (m0.work.length - cut) := by
    rw [toReals_length, List.length_drop, hw]
  have hjl : (K.toComplex (junk (K.toReals (m.work.drop cut)))).length = m0.work.length - cut :=
    toComplex_length K _ _ (by rw [hj, hwlen])
  have hcap : E.nb * (T.B 3).points.card ≤ d.length := by
    have e : d.length = (m.get K E .output).size := by rw [hdd]; rfl
    rw [e, (hst.get K E .output).2]; exact h.outputSize
  refine ⟨⟨K.toReals (m.work.take cut), d, K.toReals (m.work.drop cut)⟩, ?_, ?_, hcap, ?_, ?_, ?_⟩
  · simp only [realPort, hc, hdd, if_true, reduceCtorEq, if_false]
  · rw [hclen]; exact hq
  · intro j hj p hp
    have hv := l3 j hj p hp
    rw [hG] at hv
    have hrg := slot_range (h.orderA 3) hp j
    have h3 : ((j : Int) + 1) * (T.A 3).points.card ≤ E.nb * (T.A 3).points.card :=
      mul_le_mul_of_nonneg_right (by omega) (Int.natCast_nonneg _)
    have h4 : (j : Int) * (T.A 3).points.card + (T.A 3).offset p < (E.nb * (T.A 3).points.card : Nat) := by
      push_cast; exact lt_of_lt_of_le hrg.2 h3
    have hv : Data.rd (.inr (K.toReals (m.work.take E.tempOff))) (j * (T.A 3).points.card + (T.A 3).offset p) = some (.inr (G j p)) := hv
    have hsz : E.nb * (T.A 3).points.card ≤ 2 * min E.tempOff m.work.length := by
      simpa only [Mem.get, Data.size, toReals_length, List.length_take] using l2
    rw [toReals_take, rd_inr, rd_take (by omega)] at hv
    show rd (K.toReals (m.work.take cut)) _ = _
    rw [toReals_take, rd_take (by omega)]
    cases hx : rd (K.toReals m.work) (j * (T.A 3).points.card + (T.A 3).offset p) with
    | none => rw [hx] at hv; cases hv
    | some v =>
      rw [hx] at hv
      have := Option.some.inj hv
      rw [Sum.inr.inj this]
  · rw [hwlen]; exact_mod_cast hws
  · intro d' hlen hhold
    dsimp only at hlen
    obtain ⟨m1, hput, hst1, hget, -⟩ := Mem.put_ok K E h.law m (b := .output) (by simp [Env.pointer]) (x := .inr d')
      (by rw [hdd]; exact ⟨rfl, hlen⟩)
    refine ⟨{ m1 with work := m1.work.take cut ++ K.toComplex (junk (K.toReals (m.work.drop cut))) }, ?_, ?_, ?_⟩
    · simp only [realPort, hc, reduceCtorEq, if_false, hput, bind, Except.bind]
    · refine ⟨hst1.input, hst1.output, ?_⟩
      simp only [List.length_append, hjl, List.length_take]
      have := hst1.work; omega
    · have hsame : Mem.get K E { m1 with work := m1.work.take cut ++ K.toComplex (junk (K.toReals (m.work.drop cut))) } .output =
          m1.get K E .output := rfl
      refine ⟨h2.trans ((h.types 3).trans hr).symm, ?_, fun j hj => ?_⟩
      · rw [hsame, hget]; show _ ≤ d'.length; rw [hlen]; exact hcap
      · rw [hsame, hget, hG]; exact holdsSlot_inr.2 (hhold j hj)

end
end Verif
