import Verif.FloatTrig
import Verif.Props.FloatCalls

/-!
# Property C86: the rounding errors of the distributed sine and cosine transforms
-/

namespace Verif
open Stock Finset

section
variable {A : Arith} {q nb : Nat} {z : Trig} {W : World ℝ Unit} {fwd : Bool} {inplace : Nat → Bool} {s : Scaling} {ob : Object}
  {bin bout : List Box} {wi wo : Box} {m0s : List (Mem ℝ Unit)} {opts : Opts} {ws : Tag → List ℝ}
  {junk : Tag → Int × Int → Arr (Flt A) × (Nat → Arr (Flt A))} {inp : Tag → Int × Int → Arr (Flt A)}

/-- The sizes of the plan. -/
theorem trig_sizes (S : TrigObject z bin bout wi wo opts ob) :
    (∀ d, ob.plan.fftSizes.get d = wi.extent d) ∧ (ob.plan.indexCount : ℝ) = wi.extent 0 * wi.extent 1 * wi.extent 2 ∧ ob.plan.indexCount = wi.count := by
  obtain ⟨hplan, -, -, -, -, -, hc, -⟩ := makeFft3d_ok S.geo S.made
  obtain ⟨r, -, ok⟩ := planOperations_ok S.geo hplan
  have hs : ∀ d, ob.plan.fftSizes.get d = wi.extent d := by
    intro d
    rw [ok.sizes, extent_eq]
    have h1 := extent_pos S.geo d
    rw [extent_eq] at h1
    change 1 ≤ (wi.size.get d).toNat at h1
    change _ = ((wi.size.get d).toNat : Int)
    omega
  refine ⟨hs, ?_, hc⟩
  have hne : wi.empty = false := by
    obtain ⟨q, hq⟩ := S.geo.nonempty
    exact Box.empty_false_of_mem hq
  have h : ∀ d, wi.size.get d = (wi.extent d : Int) := fun d => by rw [← hs d, ok.sizes]
  rw [hc]
  unfold Box.count
  rw [if_neg (by simp [hne])]
  rw [show wi.size 0 = _ from h 0, show wi.size 1 = _ from h 1, show wi.size 2 = _ from h 2]
  push_cast; rfl

/-- The calls on data that are near to `G`. -/
theorem float_trig_near (S : TrigObject z bin bout wi wo opts ob) (h : ∀ d, Smooth q (z.gain (wi.extent d))) (hW : WorldOk W ob.plan fwd) (hnb : 0 < nb)
    (hws : EnoughWork ob ws) {g G B : Nat → A3 Int → ℝ} {τ : ℝ} (hτ : 0 ≤ τ) (hg : ∀ j, ∀ p ∈ wi, Close A (B j p) τ (g j p) (G j p))
    (ha : CallArrays (srcBoxes fwd bin bout) (dstBoxes fwd bin bout) false false (ob.sizeWorkspace trigWork) nb inplace m0s (.inl g))
    (hs : SourceHolds (srcBoxes fwd bin bout) inplace) :
    ∃ ms F, floatTrig A z ob junk inp ws W fwd nb inplace s m0s = .ok ms ∧ Outcome (dstBoxes fwd bin bout) nb m0s ms (.inl F) ∧
      ∀ j, ∀ p ∈ wi, Close A (s.factor (z.gain3 wi) * (ampl fwd ^ 3 * ∑ x ∈ wi.points, B j x)) (τ + trigRoundings q z wi + 18) (F j p)
        (s.factor (z.gain3 wi) * trig3 z fwd wi (G j) p) := by
  obtain ⟨hplan, hfam, hp, e1, e2, -, hc, hset⟩ := makeFft3d_ok S.geo S.made
  obtain ⟨hsz, hcnt, -⟩ := trig_sizes S
  set c := A.trigFactor s z ob.plan.indexCount ob.plan.fftSizes with hcd
  obtain ⟨ms, h1, h2⟩ := call_one (K := trigKernel ((stockNumbers A).kernel junk inp) ws) (bk := .stockTrig z) (t := floatLine A junk inp z) (mode := .same)
    (W := W) (m0s := m0s) (ws := trigWork) ⟨rfl, rfl⟩ (fun _ _ => rfl) S.geo S.made ⟨by simp, by simp, fun _ => rfl⟩
    (fun r hr x hb => trig_does_any S (good := fun n => 1 ≤ n ∧ GoodLength n) ((stockNumbers A).kernel_ok junk inp) (fun d => ⟨(h d).pos, (h d).good⟩) hws hr x hb)
    (G := .inl g) rfl trigWork_nonneg ha hW hnb (fun _ _ _ => rfl) (.inr fun r hr => source_empty hs (by rw [src_length S.geo]; exact hr))
  have e : fieldC2C (trigKernel ((stockNumbers A).kernel junk inp) ws) wi (floatLine A junk inp z) (fun x => [ob.plan.dirs x]) .same fwd (.inl g) 3 =
      .inl (chain wi (floatLine A junk inp z fwd) (fun x => [ob.plan.dirs x]) fwd g 3) := by
    unfold fieldC2C
    simp only [reduceCtorEq, false_and, if_false]
  rw [e] at h2
  obtain ⟨ms', c1, c2⟩ := call_scaled (ob := ob) (fun _ => A.times c) (fun _ u => u) fwd s h2 (by rw [e1, e2])
    (by rw [ha.ranks, src_length S.geo, dst_length S.geo]) ha.outputSize (dst_order S.geo fwd)
  refine ⟨ms', fun j p => endT A s z ob.plan.indexCount ob.plan.fftSizes (chain wi (floatLine A junk inp z fwd) (fun x => [ob.plan.dirs x]) fwd g 3 j p), ?_, ?_,
    fun j p hp' => close_end S.defined hsz hcnt s (close_trig_chain z S.defined h hp.dirs hτ (hg j) hp')⟩
  · unfold floatTrig Object.call
    rw [h1]
    exact c1
  · unfold endT
    by_cases hsc : s = .none
    · rw [if_pos hsc] at c2
      simp only [if_pos hsc]
      exact c2
    · rw [if_neg hsc] at c2
      simp only [if_neg hsc]
      exact c2

/-- **C86.**  The calls of the sine and cosine transforms of the stock backend in floating point arithmetic.  For all the boxes, options, message
orders and contents of the work memory, every output differs from the scaled exact transform of the input by at most the error of
`60 q Σ (4 N - 1) + 18` roundings, relative to the largest value that the scaled transform of data of these sizes can have. -/
theorem C86_calls (S : TrigObject z bin bout wi wo opts ob) (h : ∀ d, Smooth q (z.gain (wi.extent d))) (hW : WorldOk W ob.plan fwd) (hnb : 0 < nb)
    (hws : EnoughWork ob ws) {g : Nat → A3 Int → ℝ}
    (ha : CallArrays (srcBoxes fwd bin bout) (dstBoxes fwd bin bout) false false (ob.sizeWorkspace trigWork) nb inplace m0s (.inl g))
    (hs : SourceHolds (srcBoxes fwd bin bout) inplace) :
    ∃ ms F, floatTrig A z ob junk inp ws W fwd nb inplace s m0s = .ok ms ∧ Outcome (dstBoxes fwd bin bout) nb m0s ms (.inl F) ∧
      ∀ j, ∀ p ∈ wi, |F j p - s.factor (z.gain3 wi) * trig3 z fwd wi (g j) p| ≤
        (Real.exp ((trigRoundings q z wi + 18) * A.u) - 1) * (s.factor (z.gain3 wi) * ((if fwd then 2 else 4) ^ 3 * ∑ x ∈ wi.points, |g j x|)) := by
  obtain ⟨ms, F, h1, h2, h3⟩ := float_trig_near (junk := junk) (inp := inp) (s := s) S h hW hnb hws le_rfl (fun j p _ => Close.self (g j p)) ha hs
  refine ⟨ms, F, h1, h2, fun j p hp => ?_⟩
  have := (h3 j p hp).2.2
  rwa [zero_add] at this

/-- A forward and a backward transform enlarge by at least eight for every index. -/
theorem gain3_ge (S : TrigObject z bin bout wi wo opts ob) : 8 * (wi.count : ℝ) ≤ z.gain3 wi := by
  obtain ⟨-, hcnt, hc⟩ := trig_sizes S
  rw [← hc, hcnt]
  have hg : ∀ d, 2 * wi.extent d ≤ z.gain (wi.extent d) := by
    intro d
    have := S.defined d
    cases z <;> simp only [Trig.gain, Trig.least] at this ⊢ <;> omega
  have h := Nat.mul_le_mul (Nat.mul_le_mul (hg 0) (hg 1)) (hg 2)
  have h' : ((2 * wi.extent 0 * (2 * wi.extent 1) * (2 * wi.extent 2) : Nat) : ℝ) ≤ ((z.gain3 wi : Nat) : ℝ) := by exact_mod_cast h
  push_cast at h'
  linarith

/-- **C86**: a forward and a backward call on its output, with scalings that fit, give the data back up to the roundings of both calls, relative to
sixty-four times the sum of the sizes of the data. -/
theorem C86_round_trip (S : TrigObject z bin bout wi wo opts ob) (h : ∀ d, Smooth q (z.gain (wi.extent d))) {W' : World ℝ Unit} (hW : WorldOk W ob.plan true)
    (hW' : WorldOk W' ob.plan false) (hnb : 0 < nb) {ws' : Tag → List ℝ} (hws : EnoughWork ob ws) (hws' : EnoughWork ob ws') {g : Nat → A3 Int → ℝ}
    {inplace' : Nat → Bool} {s' : Scaling} (hinv : Inverse s s')
    (ha : CallArrays bin bout false false (ob.sizeWorkspace trigWork) nb inplace m0s (.inl g)) (hs : SourceHolds bin inplace) (hs' : SourceHolds bout inplace') :
    ∃ ms, floatTrig A z ob junk inp ws W true nb inplace s m0s = .ok ms ∧
      ∀ m1s, HasArrays bout bin false false (ob.sizeWorkspace trigWork) nb inplace' m1s → Continues inplace' ms m1s →
        ∃ ms' F, floatTrig A z ob junk inp ws' W' false nb inplace' s' m1s = .ok ms' ∧ Outcome bin nb m1s ms' (.inl F) ∧
          ∀ j, ∀ p ∈ wi, |F j p - g j p| ≤ (Real.exp (2 * (trigRoundings q z wi + 18) * A.u) - 1) * (64 * ∑ x ∈ wi.points, |g j x|) := by
  obtain ⟨ms, F, h1, h2, h3⟩ := float_trig_near (junk := junk) (inp := inp) (s := s) (fwd := true) S h hW hnb hws le_rfl (fun j p _ => Close.self (g j p)) ha hs
  refine ⟨ms, h1, fun m1s hm1 hcont => ?_⟩
  have hR := trigRoundings_nonneg (z := z) (w := wi) h
  have hca := continue_arrays hm1 h2 (by rw [ha.ranks]; exact S.geo.length.symm) hcont
  obtain ⟨ms', F', h4, h5, h6⟩ := float_trig_near (junk := junk) (inp := inp) (s := s') (fwd := false) S h hW' hnb hws' (by linarith) h3 hca hs'
  refine ⟨ms', F', h4, h5, fun j p hp => ?_⟩
  have h7 := (h6 j p hp).2.2
  have hf := inverse_factor hinv (gain3_pos S)
  rw [trig3_mul, trig3_inv z wi S.defined (g j) hp, sum_const_points] at h7
  set b := ∑ x ∈ wi.points, |g j x| with hb
  have hb0 : 0 ≤ b := sum_nonneg fun _ _ => abs_nonneg _
  rw [show ((z.gain3 wi : Nat) : ℝ) = (((z.gain3 wi : Nat) : Int) : ℝ) by push_cast; rfl] at h7
  have e1 : s'.factor (z.gain3 wi) * (s.factor (z.gain3 wi) * (((z.gain3 wi : Nat) : Int) * g j p)) = g j p := by
    rw [← mul_assoc, ← mul_assoc, hf, one_mul]
  rw [e1, show 0 + trigRoundings q z wi + 18 + trigRoundings q z wi + 18 = 2 * (trigRoundings q z wi + 18) by ring] at h7
  refine h7.trans (mul_le_mul_of_nonneg_left ?_ (A.exp_ge (by linarith)))
  have f1 := factor_nonneg s (gain3_pos S).le
  have f2 := factor_nonneg s' (gain3_pos S).le
  have hge := gain3_ge S
  have hge' : 8 * (wi.count : ℝ) ≤ (((z.gain3 wi : Nat) : Int) : ℝ) := by push_cast; exact hge
  calc s'.factor (z.gain3 wi) * (ampl false ^ 3 * (wi.count * (s.factor (z.gain3 wi) * (ampl true ^ 3 * b))))
      = s'.factor (z.gain3 wi) * s.factor (z.gain3 wi) * (8 * wi.count) * (64 * b) := by
        unfold ampl
        simp only [Bool.false_eq_true, if_false, if_true]
        ring
    _ ≤ s'.factor (z.gain3 wi) * s.factor (z.gain3 wi) * (((z.gain3 wi : Nat) : Int) : ℝ) * (64 * b) :=
        mul_le_mul_of_nonneg_right (mul_le_mul_of_nonneg_left hge' (mul_nonneg f2 f1)) (by positivity)
    _ = 64 * b := by rw [hf, one_mul]

end

/-! ## Example: four ranks, 4 x 6 x 8 indexes, `double` -/

theorem exSmoothTrig (z : Trig) {bout : List Box} {wi wo : Box} (geo : Geometry exIn bout none wi wo) (d : Fin 3) : Smooth 7 (z.gain (wi.extent d)) := by
  rw [exWorld geo]
  have key : ∀ n ∈ [16, 24, 32, 12, 20, 28], Smooth 7 n := by
    intro n hn
    have hn0 : 1 ≤ n ∧ n ≤ 32 := by revert n; decide
    refine ⟨hn0.1, by decide, by decide, fun p hp hd => ?_, fun p hp hl hd => ?_⟩
    · have hle := Nat.le_of_dvd hn0.1 hd
      have hp' : p < 33 := by omega
      clear hle
      have : ∀ p < 33, ∀ n ∈ [16, 24, 32, 12, 20, 28], p ∣ n → p ≤ 7 ∨ ¬ (2 ∣ p → p = 2) ∨ p = 1 := by decide
      rcases this p hp' n hn hd with h | h | h
      · exact h
      · exact absurd (fun h2 => ((Nat.prime_dvd_prime_iff_eq Nat.prime_two hp).1 h2).symm) h
      · exact absurd hp (by rw [h]; decide)
    · have := Nat.le_of_dvd hn0.1 hd
      nlinarith
  refine key _ ?_
  cases z <;> revert d <;> decide

/-- The bound of the example: below `2 ^ (-35)`. -/
theorem exTrigBound (z : Trig) {bout : List Box} {wi wo : Box} (geo : Geometry exIn bout none wi wo) :
    Real.exp (2 * (trigRoundings 7 z wi + 18) * exDouble.u) - 1 ≤ (1 / 2) ^ 35 := by
  have e : trigRoundings 7 z wi ≤ 30000 := by
    rw [exWorld geo]
    unfold trigRoundings
    rw [Fin.sum_univ_three]
    have h : ∀ d : Fin 3, z.gain (Box.extent ⟨⟨0, 0, 0⟩, ⟨3, 5, 7⟩, ⟨0, 1, 2⟩⟩ d) ≤ 32 - 8 * (2 - d.val) := by cases z <;> decide
    have h0 : (z.gain (Box.extent ⟨⟨0, 0, 0⟩, ⟨3, 5, 7⟩, ⟨0, 1, 2⟩⟩ 0) : ℝ) ≤ 16 := by exact_mod_cast h 0
    have h1 : (z.gain (Box.extent ⟨⟨0, 0, 0⟩, ⟨3, 5, 7⟩, ⟨0, 1, 2⟩⟩ 1) : ℝ) ≤ 24 := by exact_mod_cast h 1
    have h2 : (z.gain (Box.extent ⟨⟨0, 0, 0⟩, ⟨3, 5, 7⟩, ⟨0, 1, 2⟩⟩ 2) : ℝ) ≤ 32 := by exact_mod_cast h 2
    push_cast
    linarith
  rw [show exDouble.u = (1 / 2) ^ 53 from rfl]
  have h1 : Real.exp (2 * (trigRoundings 7 z wi + 18) * (1 / 2) ^ 53) ≤ Real.exp (2 * (30000 + 18) * (1 / 2) ^ 53) :=
    Real.exp_le_exp.2 (mul_le_mul_of_nonneg_right (by linarith) (by positivity))
  have := Real.abs_exp_sub_one_le (x := 2 * (30000 + 18) * (1 / 2) ^ 53) (by rw [abs_of_pos (by positivity)]; norm_num)
  rw [abs_of_pos (a := (2 * (30000 + 18) * (1 / 2) ^ 53 : ℝ)) (by positivity)] at this
  have h2 := (le_abs_self _).trans (this.trans (show (2 * (2 * (30000 + 18) * (1 / 2) ^ 53) : ℝ) ≤ (1 / 2) ^ 35 by norm_num))
  linarith

/-- C86: a forward and a backward call; for the three transforms, any options and any values the result is the input up to `2 ^ (-29)` of the sum of
the sizes. -/
example (z : Trig) (opts : Opts) (g : Nat → A3 Int → ℝ) :
    ∃ wi wo ob, ∃ (ws : Tag → List ℝ) (W W' : World ℝ Unit) (m0s ms m1s ms' : List (Mem ℝ Unit)) (F : Nat → A3 Int → ℝ),
      TrigObject z exIn exOut wi wo opts ob ∧ EnoughWork ob ws ∧ Continues (fun _ => false) ms m1s ∧
      floatTrig exDouble z ob (fun _ _ => (fun _ => 0, fun _ _ => 0)) (fun _ _ _ => 0) ws W true 2 (fun _ => false) .none m0s = .ok ms ∧
      floatTrig exDouble z ob (fun _ _ => (fun _ => 0, fun _ _ => 0)) (fun _ _ _ => 0) ws W' false 2 (fun _ => false) .full m1s = .ok ms' ∧
      Outcome exIn 2 m1s ms' (.inl F) ∧ ∀ j, ∀ p ∈ wi, |F j p - g j p| ≤ (1 / 2) ^ 29 * ∑ x ∈ wi.points, |g j x| := by
  obtain ⟨wi, wo, ob, S⟩ := exObjectR2R z opts
  obtain ⟨W, hW⟩ := world_exists (α := ℝ) (β := Unit) ob.plan true
  obtain ⟨W', hW'⟩ := world_exists (α := ℝ) (β := Unit) ob.plan false
  obtain ⟨ws, hws⟩ := work_exists ob
  obtain ⟨m0s, h⟩ := arrays_exist exIn exOut false (ob.sizeWorkspace trigWork) 2 (.inl g : Field ℝ Unit) (src_order S.geo true)
  have hs : SourceHolds exIn fun _ => false := exSource _ (by simp)
  have hs' : SourceHolds exOut fun _ => false := exSource _ (by simp)
  obtain ⟨ms, F, h1, h2, -⟩ := C86_calls (A := exDouble) (fwd := true) (junk := fun _ _ => (fun _ => 0, fun _ _ => 0)) (inp := fun _ _ _ => 0) (s := .none)
    S.object (exSmoothTrig z S.geo) hW (by decide : 0 < 2) hws h hs
  obtain ⟨m1s, h3, h4⟩ := swap_arrays (src := exIn) (dst := exOut) rfl h.has h2
  obtain ⟨ms2, h5, h6⟩ := C86_round_trip (A := exDouble) (junk := fun _ _ => (fun _ => 0, fun _ _ => 0)) (inp := fun _ _ _ => 0) (s := .none) (s' := .full)
    S.object (exSmoothTrig z S.geo) hW hW' (by decide : 0 < 2) hws hws (.inr (.inl ⟨rfl, rfl⟩)) h hs hs'
  obtain rfl := Except.ok.inj (h1.symm.trans h5)
  obtain ⟨ms', F', h7, h8, h9⟩ := h6 m1s h3 h4
  refine ⟨wi, wo, ob, ws, W, W', m0s, ms, m1s, ms', F', S.object, hws, h4, h1, h7, h8, fun j p hp => (h9 j p hp).trans ?_⟩
  have h10 := mul_le_mul_of_nonneg_right (exTrigBound z S.geo) (show 0 ≤ 64 * ∑ x ∈ wi.points, |g j x| from
    mul_nonneg (by norm_num) (Finset.sum_nonneg fun _ _ => abs_nonneg _))
  refine h10.trans (le_of_eq ?_)
  ring

end Verif
