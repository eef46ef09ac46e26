import Verif.WorkLemmas

/-!
# A transform on all the ranks
-/

namespace Verif
variable {α β : Type}

/-- All that is needed to run a call: the boxes `ins i`, `outs i` before and after reshape `i`, the values `F i` at this point, and
the situation of every rank. -/
structure CallOk (K : Kernel α β) (W : World α β) (mode : Mode) (alg : Alg) (o : Fft) (fwd : Bool) (nb : Nat) (inplace : Nat → Bool)
    (m0s : List (Mem α β)) (cs : Nat → Case) (ins outs : Fin 4 → List Box) (w : Fin 4 → Box) (F : Fin 4 → Field α β) : Prop where
  redistribution : ∀ i, Redistribution (ins i) (outs i) (w i)
  shapers : ∀ i, shapersOf alg (ins i) (outs i) = .ok (o.shapers fwd i)
  ranks : ∀ i, m0s.length = (ins i).length
  modes : ∀ r, (cs r).mode = mode
  pattern : ∀ r, (cs r).pattern = patternOf (shaperAt (o.shapers fwd) r) (o.executors fwd r) (inplace r)
  rank : ∀ (r : Nat) m0, m0s[r]? = some m0 → RankOk K (o.env fwd nb inplace r) (cs r) (trackOf ins outs F r) m0
  runs : ∀ (r : Nat), r < m0s.length → Runs (cs r)
  start : ∀ (r : Nat) m0, m0s[r]? = some m0 →
    ∀ j, j < nb → HoldsSlot (boxAt (ins 0) r) j (if inplace r then m0.output else m0.input) (F 0)
  stride : 0 < W.stride
  done : ∀ i, ArrivalOrder (ins i) (outs i) (W.done i)
  junk : ∀ i r l, (W.junk i r l).length = l.length
  junkReal : ∀ i r l, (W.junkReal i r l).length = l.length
  realFirst : mode = .r2c → ∀ (r : Nat) m0 sh, m0s[r]? = some m0 → shaperAt (o.shapers fwd) r 0 = some sh →
    let q := realCut mode (o.executors fwd r)
    nb * (boxAt (outs 0) r).points.card ≤ 2 * (nb * q).toNat ∧ (nb * q).toNat ≤ m0.work.length ∧
      nb * sh.sizeWorkspace ≤ 2 * (m0.work.length - (nb * q).toNat : Nat)
  realLast : mode = .c2r → ∀ (r : Nat) m0 sh, m0s[r]? = some m0 → shaperAt (o.shapers fwd) r 3 = some sh →
    let q := realCut mode (o.executors fwd r)
    nb * (boxAt (ins 3) r).points.card ≤ 2 * (nb * q).toNat ∧ (nb * q).toNat ≤ m0.work.length ∧
      nb * sh.sizeWorkspace ≤ 2 * (m0.work.length - (nb * q).toNat : Nat)

theorem shaperAt_get {l : Fin 4 → List (Option Shaper)} {r : Nat} {i : Fin 4} {x : Option Shaper} (h : (l i)[r]? = some x) :
    shaperAt l r i = x := by unfold shaperAt; rw [h]; rfl

section
variable {K : Kernel α β} {W : World α β} {mode : Mode} {alg : Alg} {o : Fft} {fwd : Bool} {nb : Nat} {inplace : Nat → Bool}
  {m0s : List (Mem α β)} {cs : Nat → Case} {ins outs : Fin 4 → List Box} {w : Fin 4 → Box} {F : Fin 4 → Field α β}

theorem CallOk.s (h : CallOk K W mode alg o fwd nb inplace m0s cs ins outs w F) (r : Nat) (i : Fin 4) :
    (cs r).s i = (shaperAt (o.shapers fwd) r i).isSome := by
  have := h.pattern r
  simp only [Case.pattern, patternOf, Pattern.mk.injEq] at this
  fin_cases i
  · exact this.1
  · exact this.2.1
  · exact this.2.2.1
  · exact this.2.2.2.1

theorem CallOk.comm (_ : CallOk K W mode alg o fwd nb inplace m0s cs ins outs w F) {r : Nat} {i : Fin 4} {sh : Shaper}
    (hsh : shaperAt (o.shapers fwd) r i = some sh) :
    (o.env fwd nb inplace r).nb * sh.sizeWorkspace ≤ (o.env fwd nb inplace r).tempOff := by
  have h1 : sh.sizeWorkspace ≤ commSize (shaperAt o.fwd r) (shaperAt o.bwd r) := by
    cases fwd with
    | true => exact le_commSize_fwd hsh
    | false => exact le_commSize_bwd hsh
  have h0 := commSize_nonneg (shaperAt o.fwd r) (shaperAt o.bwd r)
  have e : ((o.env fwd nb inplace r).tempOff : Int) = nb * commSize (shaperAt o.fwd r) (shaperAt o.bwd r) := by
    unfold Env.tempOff
    exact Int.toNat_of_nonneg (mul_nonneg (Int.natCast_nonneg _) h0)
  rw [e]
  exact mul_le_mul_of_nonneg_left h1 (Int.natCast_nonneg _)

/-- One reshape of complex data. -/
theorem CallOk.complexStage (h : CallOk K W mode alg o fwd nb inplace m0s cs ins outs w F) {i : Fin 4} {G : Nat → A3 Int → α}
    (hG : F i = .inl G) {sts : State α β} (hw : Inv K (o.env fwd nb inplace) cs (trackOf ins outs F) m0s i sts) :
    ∃ sts', runStage K (o.env fwd nb inplace) (fun r => complexPort K (o.env fwd nb inplace r) (W.junk i r)) i W.stride nb (W.done i)
      (o.shapers fwd i) sts = .ok sts' ∧ Inv K (o.env fwd nb inplace) cs (trackOf ins outs F) m0s (i + 1) sts' := by
  refine stage_ok (h.redistribution i) (h.shapers i) (h.ranks i) h.rank (fun _ => rfl) ?_ ?_ h.stride (h.done i) hw (G := G)
  · intro r sh hsh; rw [h.s, shaperAt_get hsh]
  · intro r m0 sh hm hsh
    have hr : (cs r).realAt i = false := by
      rw [← (h.rank r m0 hm).types i]
      show (F i).isReal = false
      rw [hG]; rfl
    exact complexPort_fine (h.rank r m0 hm) hr hG (h.junk i r) (h.comm (shaperAt_get hsh))

theorem CallOk.first (h : CallOk K W .r2c alg o fwd nb inplace m0s cs ins outs w F) {G : Nat → A3 Int → β}
    (hG : F 0 = .inr G) {sts : State α β} (hw : Inv K (o.env fwd nb inplace) cs (trackOf ins outs F) m0s 0 sts) :
    ∃ sts', runStage K (o.env fwd nb inplace) (fun r => realPort K (o.env fwd nb inplace r) (realCut .r2c (o.env fwd nb inplace r).execs)
      (W.junkReal 0 r)) 0 W.stride nb (W.done 0)
      (o.shapers fwd 0) sts = .ok sts' ∧ Inv K (o.env fwd nb inplace) cs (trackOf ins outs F) m0s 1 sts' := by
  refine stage_ok (i := 0) (h.redistribution 0) (h.shapers 0) (h.ranks 0) h.rank (fun _ => rfl) ?_ ?_ h.stride (h.done 0) hw (G := G)
  · intro r sh hsh; rw [h.s, shaperAt_get hsh]
  · intro r m0 sh hm hsh
    obtain ⟨h1, h2, h3⟩ := h.realFirst rfl r m0 sh hm (shaperAt_get hsh)
    have hs : (cs r).s0 = true := by
      have := h.s r 0
      rw [shaperAt_get hsh] at this; exact this
    exact realPort_r2c (h.rank r m0 hm) (h.modes r) hs hG (h.junkReal 0 r) h1 h2 h3

theorem CallOk.last (h : CallOk K W .c2r alg o fwd nb inplace m0s cs ins outs w F) {G : Nat → A3 Int → β}
    (hG : F 3 = .inr G) {sts : State α β} (hw : Inv K (o.env fwd nb inplace) cs (trackOf ins outs F) m0s 3 sts) :
    ∃ sts', runStage K (o.env fwd nb inplace) (fun r => realPort K (o.env fwd nb inplace r) (realCut .c2r (o.env fwd nb inplace r).execs)
      (W.junkReal 3 r)) 3 W.stride nb (W.done 3)
      (o.shapers fwd 3) sts = .ok sts' ∧ Inv K (o.env fwd nb inplace) cs (trackOf ins outs F) m0s 4 sts' := by
  refine stage_ok (i := 3) (h.redistribution 3) (h.shapers 3) (h.ranks 3) h.rank (fun _ => rfl) ?_ ?_ h.stride (h.done 3) hw (G := G)
  · intro r sh hsh; rw [h.s, shaperAt_get hsh]
  · intro r m0 sh hm hsh
    obtain ⟨h1, h2, h3⟩ := h.realLast rfl r m0 sh hm (shaperAt_get hsh)
    have hs : (cs r).s3 = true := by
      have := h.s r 3
      rw [shaperAt_get hsh] at this; exact this
    exact realPort_c2r (h.rank r m0 hm) (h.modes r) hs hG (h.junkReal 3 r) h1 h2 h3

theorem CallOk.begin (h : CallOk K W mode alg o fwd nb inplace m0s cs ins outs w F) :
    ∃ s, mapRes (fun r (m : Mem α β) => do
      .ok (← program mode (patternOf (shaperAt (o.shapers fwd) r) (o.env fwd nb inplace r).execs (inplace r)), m)) 0 m0s = .ok s ∧
      Inv K (o.env fwd nb inplace) cs (trackOf ins outs F) m0s 0 s := by
  obtain ⟨s, h1, h2, h3⟩ := mapRes_ok (f := fun r (m : Mem α β) => do
      .ok (← program mode (patternOf (shaperAt (o.shapers fwd) r) (o.env fwd nb inplace r).execs (inplace r)), m))
    (P := fun r m0 x => Waiting K (o.env fwd nb inplace r) (cs r) (trackOf ins outs F r) m0 0 x.1 x.2) m0s 0 (by
      intro r m0 hm
      rw [Nat.zero_add]
      have hrk := h.rank r m0 hm
      obtain ⟨prog, hp, hf⟩ := h.runs r (List.getElem?_eq_some_iff.1 hm).1
      have hpat : (cs r).pattern = patternOf (shaperAt (o.shapers fwd) r) (o.env fwd nb inplace r).execs (inplace r) := h.pattern r
      rw [h.modes r, hpat] at hp
      refine ⟨(prog, m0), by rw [hp]; rfl, 0, _, by omega, by omega, Stays.refl m0, hf, ?_⟩
      have hin : (cs r).inplace = inplace r := by
        have := h.pattern r
        simp only [Case.pattern, patternOf, Pattern.mk.injEq] at this
        exact this.2.2.2.2.2.2.2
      have hpos : posBox (trackOf ins outs F r) 0 = boxAt (ins 0) r := rfl
      have hposF : posField (trackOf ins outs F r) 0 = F 0 := rfl
      rw [hpos, hposF]
      have hE : (o.env fwd nb inplace r).inplace = inplace r := rfl
      have hnb : (o.env fwd nb inplace r).nb = nb := rfl
      have hst := h.start r m0 hm
      have hty : (F 0).isReal = (cs r).realAt 0 := hrk.types 0
      cases hi : inplace r with
      | true =>
        rw [hin, hi, if_pos rfl]
        rw [hi] at hin hst
        have hmode := hrk.inplaceSame hin
        refine ⟨?_, ?_, ?_⟩
        · rw [hty]
          unfold Case.isReal Case.realAt; rw [hmode]
        · exact hrk.inplaceSize hin
        · exact hst
      | false =>
        rw [hin, hi, if_neg (by simp)]
        rw [hi] at hin hst
        have hget : m0.get K (o.env fwd nb inplace r) .input = m0.input := by
          simp only [Mem.get]; rw [hE, hi]; rfl
        refine ⟨?_, ?_, ?_⟩
        · rw [hty]
          unfold Case.isReal Case.realAt; cases (cs r).mode <;> rfl
        · rw [hget]; exact hrk.inputSize hin
        · rw [hget]; exact hst)
  refine ⟨s, h1, h2, fun r m0 x hm hx => ?_⟩
  obtain ⟨c, hc, hw⟩ := h3 r m0 hm
  rw [hx] at hc
  obtain rfl := Option.some.inj hc
  rw [Nat.zero_add] at hw
  exact hw

theorem CallOk.end (h : CallOk K W mode alg o fwd nb inplace m0s cs ins outs w F) {s : State α β}
    (hw : Inv K (o.env fwd nb inplace) cs (trackOf ins outs F) m0s 4 s) :
    ∃ ms, mapRes (fun r (x : List Instr × Mem α β) => finish K (o.env fwd nb inplace r) x.1 x.2) 0 s = .ok ms ∧ ms.length = m0s.length ∧
      ∀ (r : Nat) m0 m, m0s[r]? = some m0 → ms[r]? = some m → Stays m0 m ∧
        ∀ j, j < nb → HoldsSlot (boxAt (outs 3) r) j m.output (F 3) := by
  obtain ⟨ms, h1, h2, h3⟩ := mapRes_ok (f := fun r (x : List Instr × Mem α β) => finish K (o.env fwd nb inplace r) x.1 x.2)
    (P := fun r _ m => ∀ m0, m0s[r]? = some m0 → Stays m0 m ∧
        ∀ j, j < nb → HoldsSlot (boxAt (outs 3) r) j m.output (F 3)) s 0 (by
      intro r x hx
      rw [Nat.zero_add]
      have hr : r < m0s.length := by rw [← hw.1]; exact (List.getElem?_eq_some_iff.1 hx).1
      have hm := List.getElem?_eq_getElem hr
      obtain ⟨n, loc, hle, hq, hst, hf, hl⟩ := hw.2 r _ x hm hx
      have hn8 : n ≤ 8 ∨ n = 9 := by omega
      rcases hn8 with hn8 | rfl
      · obtain ⟨m', f1, f2, f3⟩ := finish_ok (h.rank r _ hm) (8 - n) n (by omega) (fun a ha => by
          by_cases ha4 : a < 4
          · exact hq a ha ha4
          · unfold Case.s
            match a, ha4 with
            | 0, h => omega
            | 1, h => omega
            | 2, h => omega
            | 3, h => omega
            | a + 4, _ => rfl) hst hf hl
        refine ⟨m', f1, fun m0 hm0 => ?_⟩
        rw [hm] at hm0
        obtain rfl := Option.some.inj hm0
        exact ⟨hst.trans f2, f3⟩
      · obtain ⟨m', f1, f2, f3⟩ := finish_ok (h.rank r _ hm) 0 8 rfl (fun a ha => by
          unfold Case.s
          match a, ha with
          | a + 4, _ => rfl) hst (by simpa [schedule] using hf) hl
        refine ⟨m', f1, fun m0 hm0 => ?_⟩
        rw [hm] at hm0
        obtain rfl := Option.some.inj hm0
        exact ⟨hst.trans f2, f3⟩)
  refine ⟨ms, h1, h2.trans hw.1, fun r m0 m hm hms => ?_⟩
  have hr : r < s.length := by rw [hw.1]; exact (List.getElem?_eq_some_iff.1 hm).1
  obtain ⟨c, hc, hp⟩ := h3 r _ (List.getElem?_eq_getElem hr)
  rw [hms] at hc
  obtain rfl := Option.some.inj hc
  rw [Nat.zero_add] at hp
  exact hp m0 hm

/-- The call returns and the output of every rank has the values `F 3` in the layout of its last box; the input and the sizes are as
before. -/
theorem transform_core (h : CallOk K W mode alg o fwd nb inplace m0s cs ins outs w F)
    (htypes : ∀ i : Fin 4, (F i).isReal = match mode with
      | .same => false
      | .r2c => decide (i = 0)
      | .c2r => decide (i = 3)) :
    ∃ ms, transform K W mode o fwd nb inplace m0s = .ok ms ∧ ms.length = m0s.length ∧
      ∀ (r : Nat) m0 m, m0s[r]? = some m0 → ms[r]? = some m → Stays m0 m ∧
        ∀ j, j < nb → HoldsSlot (boxAt (outs 3) r) j m.output (F 3) := by
  obtain ⟨s0, e0, i0⟩ := h.begin
  have c1 : (F 1).isReal = false := by rw [htypes 1]; cases mode <;> rfl
  have c2 : (F 2).isReal = false := by rw [htypes 2]; cases mode <;> rfl
  obtain ⟨G1, hG1⟩ := field_inl c1
  obtain ⟨G2, hG2⟩ := field_inl c2
  have st0 : ∃ s1, (if mode = .r2c then runStage K (o.env fwd nb inplace)
      (fun r => realPort K (o.env fwd nb inplace r) (realCut mode (o.env fwd nb inplace r).execs) (W.junkReal 0 r)) 0 W.stride nb (W.done 0) (o.shapers fwd 0) s0
      else runStage K (o.env fwd nb inplace) (fun r => complexPort K (o.env fwd nb inplace r) (W.junk 0 r)) 0 W.stride nb (W.done 0) (o.shapers fwd 0) s0) = .ok s1 ∧
      Inv K (o.env fwd nb inplace) cs (trackOf ins outs F) m0s 1 s1 := by
    by_cases hm : mode = .r2c
    · subst hm
      rw [if_pos rfl]
      obtain ⟨G, hG⟩ := field_inr (htypes 0)
      exact h.first hG i0
    · rw [if_neg hm]
      obtain ⟨G, hG⟩ := field_inl (x := F 0) (by rw [htypes 0]; cases mode <;> simp_all)
      exact h.complexStage (i := 0) hG i0
  obtain ⟨s1, e1, i1⟩ := st0
  obtain ⟨s2, e2, i2⟩ := h.complexStage (i := 1) hG1 i1
  obtain ⟨s3, e3, i3⟩ := h.complexStage (i := 2) hG2 i2
  have st3 : ∃ s4, (if mode = .c2r then runStage K (o.env fwd nb inplace)
      (fun r => realPort K (o.env fwd nb inplace r) (realCut mode (o.env fwd nb inplace r).execs) (W.junkReal 3 r)) 3 W.stride nb (W.done 3) (o.shapers fwd 3) s3
      else runStage K (o.env fwd nb inplace) (fun r => complexPort K (o.env fwd nb inplace r) (W.junk 3 r)) 3 W.stride nb (W.done 3) (o.shapers fwd 3) s3) = .ok s4 ∧
      Inv K (o.env fwd nb inplace) cs (trackOf ins outs F) m0s 4 s4 := by
    by_cases hm : mode = .c2r
    · subst hm
      rw [if_pos rfl]
      obtain ⟨G, hG⟩ := field_inr (htypes 3)
      exact h.last hG i3
    · rw [if_neg hm]
      obtain ⟨G, hG⟩ := field_inl (x := F 3) (by rw [htypes 3]; cases mode <;> simp_all)
      exact h.complexStage (i := 3) hG i3
  obtain ⟨s4, e4, i4⟩ := st3
  obtain ⟨ms, e5, r1, r2⟩ := h.end i4
  refine ⟨ms, ?_, r1, r2⟩
  unfold transform
  simp only
  rw [e0]
  cases mode
  all_goals
    simp only [reduceCtorEq, if_true, if_false, bind, Except.bind] at e1 e4 ⊢
    rw [e1]
    simp only
    rw [e2]
    simp only
    rw [e3]
    simp only
    rw [e4]
    exact e5

end
end Verif
