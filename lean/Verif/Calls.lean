import Verif.Api
import Verif.ExecFields

/-!
# Calls of the objects on all the ranks
-/

namespace Verif
variable {α β : Type}

/-- The arrays of a call: what a user has to provide.  `src` and `dst` are the boxes of the input and of the output, `need` is the size of
the workspace for one entry of the batch. -/
structure CallArrays (src dst : List Box) (realIn realOut : Bool) (need : Nat → Int) (nb : Nat) (inplace : Nat → Bool)
    (m0s : List (Mem α β)) (G : Field α β) : Prop where
  ranks : m0s.length = src.length
  input : ∀ (r : Nat) m0, m0s[r]? = some m0 → m0.input.isReal = realIn
  output : ∀ (r : Nat) m0, m0s[r]? = some m0 → m0.output.isReal = realOut
  inputSize : ∀ (r : Nat) m0, m0s[r]? = some m0 →
    nb * (boxAt src r).points.card ≤ (if inplace r then m0.output else m0.input).size
  outputSize : ∀ (r : Nat) m0, m0s[r]? = some m0 → nb * (boxAt dst r).points.card ≤ m0.output.size
  start : ∀ (r : Nat) m0, m0s[r]? = some m0 → ∀ j, j < nb → HoldsSlot (boxAt src r) j (if inplace r then m0.output else m0.input) G
  work : ∀ (r : Nat) m0, m0s[r]? = some m0 → nb * need r ≤ m0.work.length

/-- The arrays after a call: every rank has its part of the values `F`; the input and the sizes of the arrays are as before. -/
structure Outcome (dst : List Box) (nb : Nat) (m0s ms : List (Mem α β)) (F : Field α β) : Prop where
  ranks : ms.length = m0s.length
  same : ∀ (r : Nat) m0 m, m0s[r]? = some m0 → ms[r]? = some m → Stays m0 m
  values : ∀ (r : Nat) m, ms[r]? = some m → ∀ j, j < nb → HoldsSlot (boxAt dst r) j m.output F

theorem sizeOr0_nonneg {f : Executor → Int} (hf : ∀ e, 0 ≤ f e) (e : Option Executor) : 0 ≤ sizeOr0 f e := by
  cases e with
  | none => exact le_rfl
  | some e => exact hf e

theorem Executor.boxSize_nonneg (e : Executor) : 0 ≤ e.boxSize := by
  cases e <;> exact Box.count_nonneg _

theorem Executor.complexSize_nonneg (e : Executor) : 0 ≤ e.complexSize := by
  cases e <;> exact Box.count_nonneg _

section
variable {ws : Executor → Int} {f b : Fin 4 → Option Shaper} {e : A3 (Option Executor)}

theorem maxWorkSize_nonneg (hws : ∀ e, 0 ≤ ws e) (e : A3 (Option Executor)) : 0 ≤ maxWorkSize ws e := by
  unfold maxWorkSize
  exact le_trans (sizeOr0_nonneg hws e.z) (le_max_right _ _)

theorem sizeWorkC2C_ge (hws : ∀ e, 0 ≤ ws e) : commSize f b + maxBoxSize e + maxWorkSize ws e ≤ sizeWorkC2C ws f b e := by
  unfold sizeWorkC2C
  simp only
  split
  · omega
  · rename_i x _
    have := x.boxSize_nonneg
    split <;> omega

theorem sizeWorkR2C_ge : commSize f b + maxBoxSizeR2C e + maxWorkSize ws e ≤ sizeWorkR2C ws f b e := by
  unfold sizeWorkR2C; omega

end

/-- No executor is merged. -/
theorem mergeOk_of {c : Case} (h : ∀ k, c.kind k ≠ .merged) : c.mergeOk = true := by
  have h0 := h 0
  have h1 := h 1
  have h2 := h 2
  simp only [Case.kind] at h0 h1 h2
  unfold Case.mergeOk
  simp [h0, h1, h2]

theorem makeExecutor_none {b : Box} {e : Executor} (h : makeExecutor b e = none) : b.empty = true := by
  unfold makeExecutor at h
  split at h
  · assumption
  · cases h

theorem makeExecutor_some {b : Box} {e e' : Executor} (h : makeExecutor b e = some e') : b.empty = false ∧ e' = e := by
  unfold makeExecutor at h
  split at h
  · cases h
  · rename_i hb
    exact ⟨by simpa using hb, (Option.some.inj h).symm⟩

section
variable {p : Plan} {r2c : Option (Fin 3)} {wi wo : Box} {n : Nat} {alg : Alg} {o : Fft} {ex : Nat → A3 (Option Executor)}
  {mode : Mode} {fwd : Bool} {nb : Nat} {inplace : Nat → Bool}

/-- The situations of a rank that does not start from an empty box. -/
theorem not_bad (hp : PlanFacts p r2c wi wo n) (hs : SetupOk alg p o n ex) (hm : ModeOk mode fwd r2c) {r : Nat} (hr : r < n)
    (hmerge : ∀ k, (ex r).get k = none → (p.box r k).empty = true)
    (hin : inplace r = true → mode = .same)
    (hfirst : mode = .r2c ∨ inplace r = true ∨ (boxAt (p.before fwd 0) r).empty = false)
    (hhalf : mode = .r2c → r2c ≠ none → nb ≤ 1 ∨ ∃ i : Fin 4, i ≠ 0 ∧ (shaperAt o.fwd r i).isSome = true) :
    (p.case mode r2c o fwd nb inplace r).bad = false ∧ ∀ k, (p.case mode r2c o fwd nb inplace r).kind k ≠ .merged := by
  have hmer : ∀ k, (p.case mode r2c o fwd nb inplace r).kind k ≠ .merged := by
    intro k h
    rw [case_kind, kindOf_merged, hs.executors fwd hr] at h
    rw [hmerge _ h.1] at h
    exact absurd h.2 (by simp)
  refine ⟨?_, hmer⟩
  have hk0 : (boxAt (p.before fwd 0) r).empty = false → (p.case mode r2c o fwd nb inplace r).s0 = false →
      (p.case mode r2c o fwd nb inplace r).k0 ≠ .empty := by
    intro hb hs0 hk
    have h0 : shaperAt (o.shapers fwd) r 0 = none := by
      have := case_s (p := p) (mode := mode) (r2c := r2c) (o := o) (fwd := fwd) (nb := nb) (inplace := inplace) r 0
      rw [show (p.case mode r2c o fwd nb inplace r).s ((0 : Fin 4) : Nat) = (p.case mode r2c o fwd nb inplace r).s0 from rfl, hs0] at this
      simpa using this.symm
    have hq := (hs.quiet hp hr h0).empty
    have ha := after_box p fwd 0 r
    have hk : kindOf (o.executors fwd r 0) (p.box r (execNo fwd 0)) = .empty := hk
    have he : (p.box r (execNo fwd 0)).empty = true := by
      unfold kindOf at hk
      split at hk
      · cases hk
      · split at hk
        · assumption
        · cases hk
    have he2 : (boxAt (p.after fwd 0) r).empty = true := by
      rw [show (0 : Fin 4) = Fin.castSucc 0 from rfl, ha]
      split
      · exact he
      · rw [hp.cbox_empty hr]; exact he
    rw [hb, he2] at hq
    cases hq
  have hm0 : (p.case mode r2c o fwd nb inplace r).k0 ≠ .merged := hmer 0
  unfold Case.bad
  cases mode with
  | same =>
    show (!(inplace r) && _ && _) = false
    rcases hfirst with h | h | h
    · cases h
    · rw [h]; rfl
    · cases hs0 : (p.case .same r2c o fwd nb inplace r).s0 with
      | true => simp
      | false =>
        have h1 := hk0 h hs0
        simp [h1, hm0]
  | r2c =>
    obtain rfl := hm.forward rfl
    show (r2c.isSome && decide (1 < nb) && _ && _ && _ && _) = false
    cases r2c with
    | none => rfl
    | some d =>
      rcases hhalf rfl (by simp) with h | ⟨i, hi, h⟩
      · rw [decide_eq_false (by omega)]; rfl
      · have h' := case_s (p := p) (mode := .r2c) (r2c := some d) (o := o) (fwd := true) (nb := nb) (inplace := inplace) r i
        rw [show shaperAt (o.shapers true) r i = shaperAt o.fwd r i from rfl, h] at h'
        match i, hi with
        | 1, _ =>
          have h' : (p.case .r2c (some d) o true nb inplace r).s1 = true := h'
          simp [h']
        | 2, _ =>
          have h' : (p.case .r2c (some d) o true nb inplace r).s2 = true := h'
          simp [h']
        | 3, _ =>
          have h' : (p.case .r2c (some d) o true nb inplace r).s3 = true := h'
          simp [h']
  | c2r =>
    show (!_ && _) = false
    cases hs0 : (p.case .c2r r2c o fwd nb inplace r).s0 with
    | true => simp
    | false =>
      have hb : (boxAt (p.before fwd 0) r).empty = false := by
        rcases hfirst with h | h | h
        · cases h
        · cases hin h
        · exact h
      have h1 := hk0 hb hs0
      simp [h1]

variable {K : Kernel α β} {W : World α β} {F : Fin 4 → Field α β} {m0s : List (Mem α β)} {M need : Nat → Int}

/-- The boxes of the input of a call. -/
def srcBoxes (fwd : Bool) (bin bout : List Box) : List Box := if fwd then bin else bout

/-- The boxes of the output of a call. -/
def dstBoxes (fwd : Bool) (bin bout : List Box) : List Box := if fwd then bout else bin

theorem before_src (p : Plan) (fwd : Bool) : p.before fwd 0 = srcBoxes fwd p.in0 p.out3 := by cases fwd <;> rfl
theorem after_dst (p : Plan) (fwd : Bool) : p.after fwd 3 = dstBoxes fwd p.in0 p.out3 := by cases fwd <;> rfl

theorem call_run (hp : PlanFacts p r2c wi wo n) (hs : SetupOk alg p o n ex) (hm : ModeOk mode fwd r2c)
    (hx : ExecsOk K mode r2c p o n fwd nb inplace ex F)
    (ha : CallArrays (srcBoxes fwd p.in0 p.out3) (dstBoxes fwd p.in0 p.out3) (decide (mode = .r2c)) (decide (mode = .c2r)) need nb inplace m0s (F 0))
    (hW : WorldOk W p fwd) (hK : ∀ a b, K.parts (K.join a b) = (a, b)) (hnb : 0 < nb) (hin : ∀ r, r < n → inplace r = true → mode = .same)
    (hM : ∀ r, r < n → ∀ x, (p.cbox r x).count ≤ M r)
    (hneed : ∀ r, r < n → commSize (shaperAt o.fwd r) (shaperAt o.bwd r) + M r ≤ need r)
    (hmerge : ∀ r, r < n → (p.case mode r2c o fwd nb inplace r).mergeOk = true)
    (hbad : ∀ r, r < n → (p.case mode r2c o fwd nb inplace r).bad = false) :
    ∃ ms, transform K W mode o fwd nb inplace m0s = .ok ms ∧ Outcome (dstBoxes fwd p.in0 p.out3) nb m0s ms (F 3) := by
  rw [← before_src, ← after_dst] at ha
  rw [← after_dst]
  have hlen : m0s.length = n := by rw [ha.ranks, hp.lenBefore]
  have hA : ArraysOk K mode p o n fwd nb inplace M m0s (F 0) := by
    refine ⟨hlen, ha.input, ha.output, ha.inputSize, ha.outputSize, ha.start, fun r m0 hr => ?_⟩
    have hrn : r < n := by rw [← hlen]; exact (List.getElem?_eq_some_iff.1 hr).1
    exact le_trans (mul_le_mul_of_nonneg_left (hneed r hrn) (Int.natCast_nonneg _)) (ha.work r m0 hr)
  obtain ⟨ms, h1, h2, h3⟩ := transform_core (plan_call hp hs hm hx hA hW hK hnb hin hM hmerge hbad) (fun i => by rw [hx.types i]; cases mode <;> rfl)
  refine ⟨ms, h1, h2, fun r m0 m e1 e2 => (h3 r m0 m e1 e2).1, fun r m e2 j hj => ?_⟩
  have hr : r < m0s.length := by rw [← h2]; exact (List.getElem?_eq_some_iff.1 e2).1
  exact (h3 r _ m (List.getElem?_eq_getElem hr) e2).2 j hj

end

/-- The world of the messages of a call: the environment may deliver them in any order. -/
abbrev Object.World (o : Object) (W : World α β) (fwd : Bool) : Prop := WorldOk W o.plan fwd

section
variable {bin bout : List Box} {wi wo : Box} {opts : Opts} {ob : Object} {K : Kernel α β} {good : Nat → Prop} {t : Bool → List α → Nat → α}
  {tr : List β → Nat → α} {tc : Nat → List α → Nat → β} {mode : Mode} {fwd : Bool} {nb : Nat} {inplace : Nat → Bool} {W : World α β}
  {m0s : List (Mem α β)} {G : Field α β} {ws : Executor → Int}

theorem makeFft3d_ok {bk : Backend} (geo : Geometry bin bout none wi wo) (h : makeFft3d bk bin bout opts = .ok ob) :
    planOperations bin bout none (bk.setOptions opts) = .ok ob.plan ∧ ob.family = bk.family ∧ PlanFacts ob.plan none wi wo bin.length ∧ ob.plan.in0 = bin ∧ ob.plan.out3 = bout ∧ ob.halved = false ∧ ob.plan.indexCount = wi.count ∧
    SetupOk opts.algorithm ob.plan ob.fft bin.length fun r =>
      executorsC2C bk ob.plan.dirs (ob.plan.box r 0) (ob.plan.box r 1) (ob.plan.box r 2) (shaperAt ob.fft.fwd r 1).isSome (shaperAt ob.fft.fwd r 2).isSome := by
  unfold makeFft3d at h
  cases hp : planOperations bin bout none (bk.setOptions opts) with
  | error e => rw [hp] at h; cases h
  | ok p =>
    rw [hp] at h
    have hf := planFacts geo (fun h => absurd rfl h) hp
    obtain ⟨o, h1, h2⟩ := setupC2C_ok hf bk opts.algorithm
    simp only [bind, Except.bind] at h
    rw [h1] at h
    simp only at h
    split at h
    · cases h
    obtain rfl := Except.ok.inj h
    obtain ⟨r, -, ok⟩ := planOperations_ok geo hp
    exact ⟨rfl, rfl, hf, ok.in0, ok.out3, rfl, ok.count, h2⟩

theorem makeFft3dR2C_ok {d : Fin 3} (geo : Geometry bin bout (some d) wi wo) (hz : RankZeroHolds bin) (hc : ∀ b ∈ bin, b.count < 2 ^ 31)
    (h : makeFft3dR2C bin bout d opts = .ok ob) :
    PlanFacts ob.plan (some d) wi wo bin.length ∧ ob.plan.in0 = bin ∧ ob.plan.out3 = bout ∧ ob.halved = true ∧ ob.family = .fourier ∧ ob.plan.indexCount = wi.count ∧
    SetupOk opts.algorithm ob.plan ob.fft bin.length fun r =>
      executorsR2C ob.plan.dirs (ob.plan.box r 0) (ob.plan.box r 1) (ob.plan.box r 2) := by
  unfold makeFft3dR2C at h
  cases hp : planOperations bin bout (some d) opts with
  | error e => rw [hp] at h; cases h
  | ok p =>
    rw [hp] at h
    have hf := planFacts geo (fun _ => ⟨hz, hc⟩) hp
    obtain ⟨o, h1, h2⟩ := setupR2C_ok hf opts.algorithm
    simp only [bind, Except.bind] at h
    rw [h1] at h
    obtain rfl := Except.ok.inj h
    obtain ⟨r, -, ok⟩ := planOperations_ok geo hp
    exact ⟨hf, ok.in0, ok.out3, rfl, rfl, ok.count, h2⟩

theorem setOptions_same {bk : Backend} (h : ∀ z, bk.family ≠ .stock z) (opts : Opts) : bk.setOptions opts = opts := by
  unfold Backend.setOptions
  split
  · rename_i z hz; exact absurd hz (h z)
  · rfl

theorem one_same {bk : Backend} (h : ∀ z, bk.family ≠ .stock z) (b : Box) (d : Fin 3) : bk.one b d = .one b d := by
  unfold Backend.one
  split
  · rename_i z hz; exact absurd hz (h z)
  · rfl

theorem workOf_make {b : Box} {e : Executor} (h : ∀ z b d, e ≠ .trig z b d) : workOf (makeExecutor b e) = .ok 0 := by
  unfold makeExecutor
  split
  · rfl
  · unfold workOf
    split
    · rename_i z b d h'
      exact absurd (Option.some.inj h') (h _ _ _)
    · rfl

/-- The executors of the Fourier transforms need no workspace. -/
theorem workOfRank_same {bk : Backend} (h : ∀ z, bk.family ≠ .stock z) (dirs : A3 (Fin 3)) (b0 b1 b2 : Box) (s1 s2 : Bool) :
    workOfRank (executorsC2C bk dirs b0 b1 b2 s1 s2) = .ok 0 := by
  have h1 : ∀ b b' d, workOf (makeExecutor b (bk.one b' d)) = .ok 0 := by
    intro b b' d
    rw [one_same h]
    exact workOf_make fun _ _ _ h => Executor.noConfusion h
  have h2 : ∀ b b' d d', workOf (makeExecutor b (.two b' d d')) = .ok 0 := fun b b' d d' => workOf_make fun _ _ _ h => Executor.noConfusion h
  have h3 : ∀ b b', workOf (makeExecutor b (.three b')) = .ok 0 := fun b b' => workOf_make fun _ _ _ h => Executor.noConfusion h
  have h0 : workOf none = .ok 0 := rfl
  unfold executorsC2C workOfRank
  split
  · simp only [h3, h0]; rfl
  · split
    · split
      · simp only [h1, h2, h0]; rfl
      · simp only [h1, h2, h0]; rfl
    · simp only [h1]; rfl

/-- The backend has one dimensional executors only. -/
def Backend.OneDim (bk : Backend) : Prop := bk.hasTwo = false ∧ bk.hasThree = false

theorem one_executors {bk : Backend} (h : bk.OneDim) (dirs : A3 (Fin 3)) (b0 b1 b2 : Box) (s1 s2 : Bool) : executorsC2C bk dirs b0 b1 b2 s1 s2 =
    ⟨makeExecutor b0 (bk.one b0 dirs.x), makeExecutor b1 (bk.one b1 dirs.y), makeExecutor b2 (bk.one b2 dirs.z)⟩ := by
  unfold executorsC2C
  rw [h.1, h.2]
  rfl

theorem one_boxSize (bk : Backend) (b : Box) (d : Fin 3) : (bk.one b d).boxSize = b.count := by
  unfold Backend.one
  split <;> rfl

theorem sizeOr0_make {f : Executor → Int} {b : Box} {e : Executor} {c : Box} (hf : f e = c.count) (hc : c.empty = b.empty) :
    sizeOr0 f (makeExecutor b e) = c.count := by
  unfold makeExecutor
  split
  · rename_i h
    rw [h] at hc
    rw [Box.count_eq_card, card_of_empty hc]; rfl
  · exact hf

/-- A call of an `fft3d` with one dimensional executors. -/
theorem call_one {bk : Backend} (hbk : bk.OneDim) (law : ∀ a b, K.parts (K.join a b) = (a, b)) (geo : Geometry bin bout none wi wo)
    (ho : makeFft3d bk bin bout opts = .ok ob) (hm : ModeOk mode fwd none)
    (hdo : ∀ r, r < bin.length → ∀ x, (ob.plan.box r x).empty = false →
      Does K r wi t (bk.one (ob.plan.box r x) (ob.plan.dirs x)) (ob.plan.box r x) [ob.plan.dirs x]) (hG : G.isReal = decide (mode = .r2c)) (hws : ∀ e, 0 ≤ ws e)
    (ha : CallArrays (srcBoxes fwd bin bout) (dstBoxes fwd bin bout) (decide (mode = .r2c)) (decide (mode = .c2r)) (ob.sizeWorkspace ws) nb inplace m0s G)
    (hW : WorldOk W ob.plan fwd) (hnb : 0 < nb) (hin : ∀ r, r < bin.length → inplace r = true → mode = .same)
    (hfirst : mode = .r2c ∨ ∀ r, r < bin.length → inplace r = true ∨ (boxAt (srcBoxes fwd bin bout) r).empty = false) :
    ∃ ms, transform K W mode ob.fft fwd nb inplace m0s = .ok ms ∧
      Outcome (dstBoxes fwd bin bout) nb m0s ms (fieldC2C K wi t (fun x => [ob.plan.dirs x]) mode fwd G 3) := by
  obtain ⟨-, -, hp, e1, e2, eh, -, hs⟩ := makeFft3d_ok geo ho
  have hsome : ∀ r, r < bin.length → ∀ x e, (executorsC2C bk ob.plan.dirs (ob.plan.box r 0) (ob.plan.box r 1) (ob.plan.box r 2)
      (shaperAt ob.fft.fwd r 1).isSome (shaperAt ob.fft.fwd r 2).isSome).get x = some e →
      (ob.plan.box r x).empty = false ∧ e = bk.one (ob.plan.box r x) (ob.plan.dirs x) := by
    intro r hr x e he
    rw [one_executors hbk] at he
    match x with
    | 0 => exact makeExecutor_some he
    | 1 => exact makeExecutor_some he
    | 2 => exact makeExecutor_some he
  have hnone : ∀ r, r < bin.length → ∀ x, (executorsC2C bk ob.plan.dirs (ob.plan.box r 0) (ob.plan.box r 1) (ob.plan.box r 2)
      (shaperAt ob.fft.fwd r 1).isSome (shaperAt ob.fft.fwd r 2).isSome).get x = none → (ob.plan.box r x).empty = true := by
    intro r hr x he
    rw [one_executors hbk] at he
    match x with
    | 0 => exact makeExecutor_none he
    | 1 => exact makeExecutor_none he
    | 2 => exact makeExecutor_none he
  have hx := execsOk_c2c (K := K) (o := ob.fft) (nb := nb) (inplace := inplace) (t := t) (ds := fun x => [ob.plan.dirs x]) hp hm G hG
    (fun r hr x e he => by
      obtain ⟨h1, rfl⟩ := hsome r hr x e he
      exact ⟨h1, hdo r hr x h1⟩)
    (fun r hr x he hb => by rw [hnone r hr x he] at hb; cases hb)
  have hF0 : fieldC2C K wi t (fun x => [ob.plan.dirs x]) mode fwd G 0 = G := by
    unfold fieldC2C
    by_cases h : mode = .r2c
    · rw [if_pos ⟨h, rfl⟩]
    · rw [if_neg (fun h' => h h'.1), if_neg (fun h' => absurd h'.2 (by decide))]
      obtain ⟨g, rfl⟩ := field_inl (x := G) (by rw [hG]; simp [h])
      rfl
  have hb : ∀ r, r < bin.length → _ := fun r hr => not_bad (inplace := inplace) (nb := nb) hp hs hm hr (hnone r hr) (hin r hr)
    (by rcases hfirst with h | h
        · exact .inl h
        · rw [before_src, e1, e2]
          exact .inr (h r hr)) (fun _ h => absurd rfl h)
  rw [← e1, ← e2] at ha ⊢
  refine call_run (M := fun r => maxBoxSize (executorsC2C bk ob.plan.dirs (ob.plan.box r 0) (ob.plan.box r 1) (ob.plan.box r 2)
      (shaperAt ob.fft.fwd r 1).isSome (shaperAt ob.fft.fwd r 2).isSome)) hp hs hm hx (by rw [hF0]; exact ha) hW law hnb hin ?_ ?_
    (fun r hr => mergeOk_of (hb r hr).2) (fun r hr => (hb r hr).1)
  · intro r hr x
    rw [hp.cbox_same hr (.inl rfl), one_executors hbk]
    have h : ∀ y, sizeOr0 Executor.boxSize (makeExecutor (ob.plan.box r y) (bk.one (ob.plan.box r y) (ob.plan.dirs y))) = (ob.plan.box r y).count :=
      fun y => sizeOr0_make (one_boxSize bk _ _) rfl
    have h0 := h 0
    have h1 := h 1
    have h2 := h 2
    unfold maxBoxSize
    change sizeOr0 Executor.boxSize (makeExecutor (ob.plan.box r 0) (bk.one (ob.plan.box r 0) ob.plan.dirs.x)) = _ at h0
    change sizeOr0 Executor.boxSize (makeExecutor (ob.plan.box r 1) (bk.one (ob.plan.box r 1) ob.plan.dirs.y)) = _ at h1
    change sizeOr0 Executor.boxSize (makeExecutor (ob.plan.box r 2) (bk.one (ob.plan.box r 2) ob.plan.dirs.z)) = _ at h2
    simp only [h0, h1, h2]
    match x with
    | 0 => omega
    | 1 => omega
    | 2 => omega
  · intro r hr
    unfold Object.sizeWorkspace
    rw [eh, hs.execs r hr]
    have h1 := maxWorkSize_nonneg hws (executorsC2C bk ob.plan.dirs (ob.plan.box r 0) (ob.plan.box r 1) (ob.plan.box r 2)
      (shaperAt ob.fft.fwd r 1).isSome (shaperAt ob.fft.fwd r 2).isSome)
    refine le_trans ?_ (sizeWorkC2C_ge hws)
    simp only [Option.getD_some]
    omega

/-- A call of an `fft3d` of the stock backend. -/
theorem call_stock (hK : KernelOk K good t tr tc) (geo : Geometry bin bout none wi wo) (ho : makeFft3d .stock bin bout opts = .ok ob)
    (hm : ModeOk mode fwd none) (hg : ∀ d, good (wi.size d).toNat) (hG : G.isReal = decide (mode = .r2c)) (hws : ∀ e, 0 ≤ ws e)
    (ha : CallArrays (srcBoxes fwd bin bout) (dstBoxes fwd bin bout) (decide (mode = .r2c)) (decide (mode = .c2r)) (ob.sizeWorkspace ws) nb inplace m0s G)
    (hW : WorldOk W ob.plan fwd) (hnb : 0 < nb) (hin : ∀ r, r < bin.length → inplace r = true → mode = .same)
    (hfirst : mode = .r2c ∨ ∀ r, r < bin.length → inplace r = true ∨ (boxAt (srcBoxes fwd bin bout) r).empty = false) :
    ∃ ms, transform K W mode ob.fft fwd nb inplace m0s = .ok ms ∧
      Outcome (dstBoxes fwd bin bout) nb m0s ms (fieldC2C K wi t (fun x => [ob.plan.dirs x]) mode fwd G 3) := by
  obtain ⟨-, -, hp, -⟩ := makeFft3d_ok geo ho
  exact call_one ⟨rfl, rfl⟩ hK.law geo ho hm (fun r hr x hb => does_all hK hp hg hr x hb) hG hws ha hW hnb hin hfirst

/-- A call of an `fft3d_r2c`. -/
theorem call_r2c {d : Fin 3} (hK : KernelOk K good t tr tc) (geo : Geometry bin bout (some d) wi wo) (hz : RankZeroHolds bin)
    (hc : ∀ b ∈ bin, b.count < 2 ^ 31) (ho : makeFft3dR2C bin bout d opts = .ok ob)
    (hm : ModeOk mode fwd (some d)) (hg0 : good (wi.size d).toNat) (hg : ∀ e, e ≠ d → good (wo.size e).toNat)
    (hG : G.isReal = decide (mode = .r2c)) (hws : ∀ e, 0 ≤ ws e)
    (ha : CallArrays (srcBoxes fwd bin bout) (dstBoxes fwd bin bout) (decide (mode = .r2c)) (decide (mode = .c2r)) (ob.sizeWorkspace ws) nb inplace m0s G)
    (hW : WorldOk W ob.plan fwd) (hnb : 0 < nb) (hin : ∀ r, r < bin.length → inplace r = false)
    (hfirst : mode = .r2c ∨ ∀ r, r < bin.length → (boxAt (srcBoxes fwd bin bout) r).empty = false)
    (hhalf : mode = .r2c → nb = 1 ∨ ∀ r, r < bin.length → ∃ i : Fin 4, i ≠ 0 ∧ (shaperAt ob.fft.fwd r i).isSome = true) :
    ∃ ms, transform K W mode ob.fft fwd nb inplace m0s = .ok ms ∧
      Outcome (dstBoxes fwd bin bout) nb m0s ms (fieldR2C wi wo t tr tc ob.plan.dirs G 3) := by
  obtain ⟨hp, e1, e2, eh, -, -, hs⟩ := makeFft3dR2C_ok geo hz hc ho
  have hin' : ∀ r, r < bin.length → inplace r = true → mode = .same := by
    intro r hr h; rw [hin r hr] at h; cases h
  have hnone : ∀ r, r < bin.length → ∀ x, (executorsR2C ob.plan.dirs (ob.plan.box r 0) (ob.plan.box r 1) (ob.plan.box r 2)).get x = none →
      (ob.plan.box r x).empty = true := by
    intro r hr x he
    match x with
    | 0 => exact makeExecutor_none he
    | 1 => exact makeExecutor_none he
    | 2 => exact makeExecutor_none he
  have hx := execsOk_r2c (o := ob.fft) (nb := nb) (inplace := inplace) hK hp hm G hG hg0 hg (fun r _ => rfl)
  have hF0 : fieldR2C wi wo t tr tc ob.plan.dirs G 0 = G := by
    unfold fieldR2C
    cases G <;> rfl
  have hb : ∀ r, r < bin.length → _ := fun r hr => not_bad (inplace := inplace) (nb := nb) hp hs hm hr (hnone r hr) (hin' r hr)
    (by rcases hfirst with h | h
        · exact .inl h
        · rw [before_src, e1, e2]
          exact .inr (.inr (h r hr)))
    (fun h _ => by
      rcases hhalf h with h | h
      · exact .inl (by omega)
      · exact .inr (h r hr))
  rw [← e1, ← e2] at ha ⊢
  refine call_run (M := fun r => maxBoxSizeR2C (executorsR2C ob.plan.dirs (ob.plan.box r 0) (ob.plan.box r 1) (ob.plan.box r 2))) hp hs hm hx
    (by rw [hF0]; exact ha) hW hK.law hnb hin' ?_ ?_
    (fun r hr => mergeOk_of (hb r hr).2) (fun r hr => (hb r hr).1)
  · intro r hr x
    have hd0 : ob.plan.dirs.x = d := hp.dir0 d rfl
    have hcb0 : ob.plan.cbox r 0 = (ob.plan.box r 0).r2c d := hp.cbox_zero hr
    have h0 : sizeOr0 Executor.complexSize (makeExecutor (ob.plan.box r 0) (.r2c (ob.plan.box r 0) ob.plan.dirs.x)) = (ob.plan.cbox r 0).count := by
      rw [hcb0, hd0]; exact sizeOr0_make rfl (r2c_empty d)
    have h1 : sizeOr0 Executor.boxSize (makeExecutor (ob.plan.box r 1) (.one (ob.plan.box r 1) ob.plan.dirs.y)) = (ob.plan.cbox r 1).count := by
      rw [hp.cbox_one]; exact sizeOr0_make rfl rfl
    have h2 : sizeOr0 Executor.boxSize (makeExecutor (ob.plan.box r 2) (.one (ob.plan.box r 2) ob.plan.dirs.z)) = (ob.plan.cbox r 2).count := by
      rw [hp.cbox_two]; exact sizeOr0_make rfl rfl
    unfold maxBoxSizeR2C executorsR2C
    simp only [h0, h1, h2]
    match x with
    | 0 => omega
    | 1 => omega
    | 2 => omega
  · intro r hr
    unfold Object.sizeWorkspace
    rw [eh, hs.execs r hr]
    have h1 := maxWorkSize_nonneg hws (executorsR2C ob.plan.dirs (ob.plan.box r 0) (ob.plan.box r 1) (ob.plan.box r 2))
    refine le_trans ?_ (sizeWorkR2C_ge (ws := ws))
    simp only [Option.getD_some]
    omega

end
end Verif
