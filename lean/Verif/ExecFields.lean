import Verif.PlanCall
import Verif.Props.Exec

/-!
# The executors of a plan transform the lines of the world
-/

namespace Verif
variable {α β : Type}

/-- What is assumed about the one dimensional transforms of the lengths `good`. -/
structure KernelOk (K : Kernel α β) (good : Nat → Prop) (t : Bool → List α → Nat → α) (tr : List β → Nat → α) (tc : Nat → List α → Nat → β) : Prop where
  lanes : 0 < K.lanes
  law : ∀ a b, K.parts (K.join a b) = (a, b)
  line : ∀ tag fwd n s v, good n → v.length = n → K.line tag fwd n s v = .ok ((List.range n).map (t fwd v))
  fromReal : ∀ tag n s v, good n → v.length = n → K.fromReal tag n s v = .ok ((List.range (n / 2 + 1)).map (tr v))
  toReal : ∀ tag n s v, good n → v.length = n / 2 + 1 → K.toReal tag n s v = .ok ((List.range n).map (tc n v))

/-- What is assumed about the one dimensional transforms of data of one type. -/
structure LinesOk (K : Kernel α β) (good : Nat → Prop) (t : Bool → List α → Nat → α) : Prop where
  lanes : 0 < K.lanes
  law : ∀ a b, K.parts (K.join a b) = (a, b)
  line : ∀ tag fwd n s v, good n → v.length = n → K.line tag fwd n s v = .ok ((List.range n).map (t fwd v))

theorem KernelOk.lines {K : Kernel α β} {good : Nat → Prop} {t : Bool → List α → Nat → α} {tr : List β → Nat → α} {tc : Nat → List α → Nat → β}
    (h : KernelOk K good t tr tc) : LinesOk K good t := ⟨h.lanes, h.law, h.line⟩

theorem along_world {b w : Box} {d : Fin 3} (h : Spans b w d) (t : List α → Nat → β) (G : A3 Int → α) : along b d t G = along w d t G := by
  funext p
  have h1 : b.low d = w.low d := h.1
  have h2 : b.high d = w.high d := h.2
  unfold along lineOf
  rw [h1, h2]

/-- Transform the lines in several directions, one after the other. -/
def alongAll (w : Box) (t : List α → Nat → α) (ds : List (Fin 3)) (G : A3 Int → α) : A3 Int → α :=
  ds.foldl (fun g d => along w d t g) G

/-- The complex method of the executor of rank `rk` transforms the lines of the directions `ds`. -/
structure Does (K : Kernel α β) (rk : Nat) (w : Box) (t : Bool → List α → Nat → α) (e : Executor) (b : Box) (ds : List (Fin 3)) : Prop where
  size : e.boxSize = b.count
  csize : e.complexSize = b.count
  real : ∀ tag rb cb src dst, runR2C K tag e rb cb src dst = execFromReal K.cast (runC2C K tag true e cb) e.boxSize rb cb src dst
  complex : ∀ tag cb rb src dst, runC2R K tag e cb rb src dst = execToReal K.re (runC2C K tag false e cb) e.boxSize cb rb src dst
  run : ∀ (tag : Tag) fwd (base : Int) (l : List α) (G : A3 Int → α), tag.rank = rk → 0 ≤ base → base + b.count ≤ l.length → Holds b l base G →
    ∃ l', runC2C K tag fwd e base l = .ok l' ∧ l'.length = l.length ∧ Holds b l' base (alongAll w (t fwd) ds G) ∧
      ∀ x, (x < base ∨ base + b.count ≤ x) → rd l' x = rd l x

section
variable {K : Kernel α β} {good : Nat → Prop} {t : Bool → List α → Nat → α} {tr : List β → Nat → α} {tc : Nat → List α → Nat → β}
  {w b : Box} {rk : Nat} {E : Env} {k : Fin 3} {e : Executor} {ds : List (Fin 3)}

theorem does_one (hK : LinesOk K good t) (ho : IsOrder b.order) (hb : b.empty = false) {d : Fin 3} (hs : Spans b w d)
    (hg : good (b.size d).toNat) : Does K rk w t (.one b d) b [d] := by
  refine ⟨rfl, rfl, fun _ _ _ _ _ => rfl, fun _ _ _ _ _ => rfl, fun tag fwd base l G _ h0 hlen hG => ?_⟩
  obtain ⟨r, r1, r2, r3, r4⟩ := C31_lines hK.lanes ho hb d (fun s v hv => hK.line tag fwd _ s v hg hv) hG h0 hlen
  refine ⟨r, r1, r2, ?_, r4⟩
  rw [along_world hs] at r3
  exact r3

theorem Does.complexComplex (h : Does K rk w t e b ds) (hrk : E.rank = rk) (g : Nat → A3 Int → α) :
    GoodExec K E k e b b (.inl g) (.inl fun j => alongAll w (t E.fwd) ds (g j)) := by
  intro j hj base l h0 hlen hG
  rw [← Box.count_eq_card] at hlen ⊢
  exact h.run _ _ base l _ hrk h0 hlen hG

theorem Does.realComplex (h : Does K rk w t e b ds) (hrk : E.rank = rk) (ho : IsOrder b.order) (hf : E.fwd = true) (g : Nat → A3 Int → β) :
    GoodExec K E k e b b (.inr g) (.inl fun j => alongAll w (t E.fwd) ds fun p => K.cast (g j p)) := by
  intro j hj rb cb src dst h0 h0' hlen hlen' hG
  rw [← Box.count_eq_card] at hlen hlen' ⊢
  obtain ⟨m, m1, m2, m3, m4⟩ := holds_cast (f := K.cast) ho hG h0' hlen'
  obtain ⟨r, r1, r2, r3, r4⟩ := h.run ⟨E.rank, k, j⟩ true cb m _ hrk h0' (by omega) m3
  refine ⟨r, ?_, r2.trans m2, by rw [hf]; exact r3, fun a ha => (r4 a ha).trans (m4 a ha)⟩
  rw [h.real, h.size]
  unfold execFromReal
  rw [m1]
  exact r1

theorem Does.complexReal (h : Does K rk w t e b ds) (hrk : E.rank = rk) (ho : IsOrder b.order) (hf : E.fwd = false) (g : Nat → A3 Int → α) :
    GoodExec K E k e b b (.inl g) (.inr fun j p => K.re (alongAll w (t E.fwd) ds (g j) p)) := by
  intro j hj cb rb src dst h0 h0' hlen hlen' hG
  rw [← Box.count_eq_card] at hlen hlen' ⊢
  obtain ⟨c, c1, c2, c3, c4⟩ := h.run ⟨E.rank, k, j⟩ false cb src _ hrk h0 hlen hG
  obtain ⟨r, r1, r2, r3, r4⟩ := holds_cast (f := K.re) ho c3 h0' hlen'
  refine ⟨c, r, ?_, c2, r2, by rw [hf]; exact r3, c4, r4⟩
  rw [h.complex, h.size]
  unfold execToReal
  rw [c1]
  simp only [bind, Except.bind, pure, Except.pure]
  rw [r1]

theorem halved_forward (hK : KernelOk K good t tr tc) (ho : IsOrder b.order) (hb : b.empty = false) {d : Fin 3} (hs : Spans b w d)
    (hg : good (b.size d).toNat) (g : Nat → A3 Int → β) :
    GoodExec K E k (.r2c b d) b (b.r2c d) (.inr g) (.inl fun j => along w d tr (g j)) := by
  intro j hj rb cb src dst h0 h0' hlen hlen' hG
  rw [← Box.count_eq_card] at hlen hlen' ⊢
  obtain ⟨r, r1, r2, r3, r4⟩ := C32_r2c hK.lanes ho hb d (fun s v hv => hK.fromReal ⟨E.rank, k, j⟩ _ s v hg hv) hG h0' hlen'
  refine ⟨r, r1, r2, ?_, r4⟩
  rw [along_world hs] at r3
  exact r3

theorem halved_backward (hK : KernelOk K good t tr tc) (ho : IsOrder b.order) (hb : b.empty = false) {d : Fin 3} {wc : Box} (hs : Spans (b.r2c d) wc d)
    (hg : good (b.size d).toNat) (g : Nat → A3 Int → α) :
    GoodExec K E k (.r2c b d) (b.r2c d) b (.inl g) (.inr fun j => along wc d (tc (b.size d).toNat) (g j)) := by
  intro j hj cb rb src dst h0 h0' hlen hlen' hG
  rw [← Box.count_eq_card] at hlen hlen' ⊢
  obtain ⟨r, r1, r2, r3, r4⟩ := C32_c2r hK.lanes ho hb d (fun s v hv => hK.toReal ⟨E.rank, k, j⟩ _ s v hg hv) hG h0' hlen'
  refine ⟨src, r, ?_, rfl, r2, ?_, fun _ _ => rfl, by rw [← Box.count_eq_card]; exact r4⟩
  · show (do Except.ok (src, ← execC2R K.lanes _ b d cb rb src dst)) = _
    rw [r1]; rfl
  · rw [along_world hs] at r3
    exact r3

end

/-! ## The values at the reshapes of a call -/

/-- The complex values after `k` executors; `ds x` are the directions of executor `x` in forward order. -/
def chain (w : Box) (t : List α → Nat → α) (ds : Fin 3 → List (Fin 3)) (fwd : Bool) (G : Nat → A3 Int → α) : Fin 4 → Nat → A3 Int → α
  | 0 => G
  | 1 => fun j => alongAll w t (ds (execNo fwd 0)) (G j)
  | 2 => fun j => alongAll w t (ds (execNo fwd 0) ++ ds (execNo fwd 1)) (G j)
  | 3 => fun j => alongAll w t (ds (execNo fwd 0) ++ ds (execNo fwd 1) ++ ds (execNo fwd 2)) (G j)

theorem chain_succ (w : Box) (t : List α → Nat → α) (ds : Fin 3 → List (Fin 3)) (fwd : Bool) (G : Nat → A3 Int → α) (k : Fin 3) :
    chain w t ds fwd G k.succ = fun j => alongAll w t (ds (execNo fwd k)) (chain w t ds fwd G k.castSucc j) := by
  funext j
  match k with
  | 0 => rfl
  | 1 => simp only [chain, alongAll, List.foldl_append]; rfl
  | 2 => simp only [chain, alongAll, List.foldl_append]; rfl

theorem castSucc_ne_three : ∀ k : Fin 3, ¬ k.castSucc = 3 := by decide
theorem succ_three : ∀ k : Fin 3, k.succ = 3 → k = 2 := by decide

/-- The values at reshape `i` of a call of an `fft3d`, started with `G` on the input side. -/
def fieldC2C (K : Kernel α β) (w : Box) (t : Bool → List α → Nat → α) (ds : Fin 3 → List (Fin 3)) (mode : Mode) (fwd : Bool)
    (G : Field α β) (i : Fin 4) : Field α β :=
  let c : Nat → A3 Int → α := match G with
    | .inl g => g
    | .inr g => fun j p => K.cast (g j p)
  if mode = .r2c ∧ i = 0 then G
  else if mode = .c2r ∧ i = 3 then .inr fun j p => K.re (chain w (t fwd) ds fwd c 3 j p)
  else .inl (chain w (t fwd) ds fwd c i)

section
variable {p : Plan} {wi wo : Box} {n : Nat} {alg : Alg} {o : Fft} {ex : Nat → A3 (Option Executor)}
  {mode : Mode} {fwd : Bool} {nb : Nat} {inplace : Nat → Bool} {K : Kernel α β} {t : Bool → List α → Nat → α} {ds : Fin 3 → List (Fin 3)}

theorem execsOk_c2c (hp : PlanFacts p none wi wo n) (hm : ModeOk mode fwd none) (G : Field α β)
    (hG : G.isReal = decide (mode = .r2c))
    (hsome : ∀ r, r < n → ∀ x e, (ex r).get x = some e → (p.box r x).empty = false ∧ Does K r wi t e (p.box r x) (ds x))
    (hnone : ∀ r, r < n → ∀ x, (ex r).get x = none → (p.box r x).empty = false → ds x = [] ∧ x ≠ 0) :
    ExecsOk K mode none p o n fwd nb inplace ex (fieldC2C K wi t ds mode fwd G) := by
  have hord : ∀ r, r < n → ∀ x, IsOrder (p.box r x).order := by
    intro r hr x
    exact (hp.redis x.castSucc).validOut _ (boxAt_mem (by rw [hp.lenOut]; exact hr))
  refine ⟨?_, ?_, ?_⟩
  · intro i
    unfold fieldC2C realStage
    cases mode
    · simp [Field.isReal]
    · by_cases hi : i = 0
      · subst hi; simpa using hG
      · simp [hi, Field.isReal]
    · by_cases hi : i = 3
      · subst hi; simp [Field.isReal]
      · simp [hi, Field.isReal]
  · intro r hr k e he
    obtain ⟨h1, h2⟩ := hsome r hr _ e he
    have hcb := hp.cbox_same hr (x := execNo fwd k) (.inl rfl)
    refine ⟨h1, ?_, h2.size, by rw [hcb]; exact h2.csize⟩
    have hB : boxAt (p.after fwd k.castSucc) r = p.box r (execNo fwd k) := by rw [after_box, hcb]; simp
    have hA : boxAt (p.before fwd k.succ) r = p.box r (execNo fwd k) := by rw [before_box, hcb]; simp
    rw [hA, hB]
    have hEf : (o.env fwd nb inplace r).fwd = fwd := rfl
    cases mode with
    | same =>
      obtain ⟨g, rfl⟩ := field_inl hG
      simp only [fieldC2C, reduceCtorEq, false_and, if_false]
      rw [chain_succ]
      exact h2.complexComplex rfl _
    | r2c =>
      obtain ⟨g, rfl⟩ := field_inr hG
      have hs : ¬ k.succ = 0 := Fin.succ_ne_zero k
      by_cases hk : k = 0
      · subst hk
        simp only [fieldC2C, reduceCtorEq, false_and, true_and, if_false, Fin.castSucc_zero, if_true, hs]
        exact h2.realComplex rfl (hord r hr _) (by rw [hEf]; exact hm.forward rfl) g
      · have hs' : ¬ k.castSucc = 0 := by simpa using hk
        simp only [fieldC2C, reduceCtorEq, false_and, true_and, if_false, hs, hs']
        rw [chain_succ]
        exact h2.complexComplex rfl _
    | c2r =>
      obtain ⟨g, rfl⟩ := field_inl hG
      have hs := castSucc_ne_three k
      by_cases hk : k = 2
      · subst hk
        have h3 : (2 : Fin 3).succ = 3 := rfl
        simp only [fieldC2C, reduceCtorEq, false_and, true_and, if_false, h3, if_true, hs]
        rw [← h3, chain_succ]
        exact h2.complexReal rfl (hord r hr _) (by rw [hEf]; exact hm.backward rfl) _
      · have hs' : ¬ k.succ = 3 := fun h => hk (succ_three k h)
        simp only [fieldC2C, reduceCtorEq, false_and, true_and, if_false, hs, hs']
        rw [chain_succ]
        exact h2.complexComplex rfl _
  · intro r hr k he hb
    obtain ⟨h1, h2⟩ := hnone r hr _ he hb
    refine ⟨rfl, ?_⟩
    have hs : ¬ k.succ = 0 := Fin.succ_ne_zero k
    have hs' := castSucc_ne_three k
    have h3 : mode = .r2c → ¬ k.castSucc = 0 := by
      intro h
      rw [hm.forward h] at h2
      intro hk
      exact h2 (by simpa [execNo] using hk)
    have h4 : mode = .c2r → ¬ k.succ = 3 := by
      intro h
      rw [hm.backward h] at h2
      intro hk
      rw [succ_three k hk] at h2
      exact h2 rfl
    unfold fieldC2C
    simp only
    rw [if_neg (fun h => h3 h.1 h.2), if_neg (fun h => hs' h.2), if_neg (fun h => hs h.2), if_neg (fun h => h4 h.1 h.2), chain_succ, h1]
    rfl

/-- One dimensional executors. -/
theorem does_all {good : Nat → Prop} {tr : List β → Nat → α} {tc : Nat → List α → Nat → β} (hK : KernelOk K good t tr tc)
    (hp : PlanFacts p none wi wo n) (hg : ∀ d, good (wi.size d).toNat) {r : Nat} (hr : r < n) (x : Fin 3)
    (hb : (p.box r x).empty = false) : Does K r wi t (.one (p.box r x) (p.dirs x)) (p.box r x) [p.dirs x] := by
  have hmem := boxAt_mem (l := p.outAt x.castSucc) (r := r) (by rw [hp.lenOut]; exact hr)
  have hs := hp.spans x _ hmem hb
  have hs : Spans (p.box r x) wi (p.dirs x) := by
    have := hp.complex.congr (p.dirs x)
    unfold worldAt at hs
    split at hs
    · exact hs
    · exact ⟨hs.1.trans this.1, hs.2.trans this.2⟩
  refine does_one hK.lines ((hp.redis x.castSucc).validOut _ hmem) hb hs ?_
  have : (p.box r x).size (p.dirs x) = wi.size (p.dirs x) := by
    show (p.box r x).size.get (p.dirs x) = wi.size.get (p.dirs x)
    rw [Box.size_get, Box.size_get, hs.1, hs.2]
  change good ((p.box r x).size (p.dirs x)).toNat
  rw [this]
  exact hg _

end

/-! ## Real-to-complex objects -/

/-- The values at reshape `i` of a call of an `fft3d_r2c`. -/
def fieldR2C (wi wo : Box) (t : Bool → List α → Nat → α) (tr : List β → Nat → α) (tc : Nat → List α → Nat → β) (dirs : A3 (Fin 3))
    (G : Field α β) : Fin 4 → Field α β :=
  match G with
  | .inr g =>
    let c1 : Nat → A3 Int → α := fun j => along wi dirs.x tr (g j)
    let c2 := fun j => along wo dirs.y (t true) (c1 j)
    let c3 := fun j => along wo dirs.z (t true) (c2 j)
    fun i => match i with
      | 0 => .inr g
      | 1 => .inl c1
      | 2 => .inl c2
      | 3 => .inl c3
  | .inl g =>
    let c1 := fun j => along wo dirs.z (t false) (g j)
    let c2 := fun j => along wo dirs.y (t false) (c1 j)
    fun i => match i with
      | 0 => .inl g
      | 1 => .inl c1
      | 2 => .inl c2
      | 3 => .inr fun j => along wo dirs.x (tc (wi.size dirs.x).toNat) (c2 j)

section
variable {p : Plan} {d0 : Fin 3} {wi wo : Box} {n : Nat} {o : Fft} {ex : Nat → A3 (Option Executor)}
  {mode : Mode} {fwd : Bool} {nb : Nat} {inplace : Nat → Bool} {K : Kernel α β} {t : Bool → List α → Nat → α} {good : Nat → Prop}
  {tr : List β → Nat → α} {tc : Nat → List α → Nat → β}

theorem spans_r2c {b : Box} (hp : ComplexWorld wi wo (some d0)) (hb : b.empty = false) (hs : Spans b wi d0) : Spans (b.r2c d0) wo d0 := by
  obtain ⟨q1, q2, q3⟩ := r2c_fields hb d0
  have h1 := hp d0
  rw [if_pos rfl] at h1
  have h2 := q3 d0
  rw [if_pos rfl, Box.size_get, Box.size_get] at h2
  refine ⟨by rw [q1, h1.1]; exact hs.1, ?_⟩
  rw [h1.2, ← hs.1, ← hs.2]
  have : (b.r2c d0).low.get d0 = b.low.get d0 := by rw [q1]
  omega

theorem execsOk_r2c (hK : KernelOk K good t tr tc) (hp : PlanFacts p (some d0) wi wo n) (hm : ModeOk mode fwd (some d0)) (G : Field α β)
    (hG : G.isReal = decide (mode = .r2c)) (hg0 : good (wi.size d0).toNat) (hg : ∀ d, d ≠ d0 → good (wo.size d).toNat)
    (hex : ∀ r, r < n → ex r = executorsR2C p.dirs (p.box r 0) (p.box r 1) (p.box r 2)) :
    ExecsOk K mode (some d0) p o n fwd nb inplace ex (fieldR2C wi wo t tr tc p.dirs G) := by
  have hd0 : p.dirs.x = d0 := hp.dir0 d0 rfl
  have hord : ∀ r, r < n → ∀ x, IsOrder (p.box r x).order := by
    intro r hr x
    exact (hp.redis x.castSucc).validOut _ (boxAt_mem (by rw [hp.lenOut]; exact hr))
  have hsp : ∀ r, r < n → ∀ x, (p.box r x).empty = false → Spans (p.box r x) (worldAt wi wo x) (p.dirs x) := by
    intro r hr x hb
    exact hp.spans x _ (boxAt_mem (by rw [hp.lenOut]; exact hr)) hb
  have hone : ∀ r, r < n → ∀ x, x ≠ 0 → (p.box r x).empty = false → Does K r wo t (.one (p.box r x) (p.dirs x)) (p.box r x) [p.dirs x] := by
    intro r hr x hx hb
    have hs := hsp r hr x hb
    have hx' : ¬ (x : Nat) = 0 := fun h => hx (Fin.ext h)
    unfold worldAt at hs
    rw [if_neg hx'] at hs
    refine does_one hK.lines (hord r hr x) hb hs ?_
    have : (p.box r x).size (p.dirs x) = wo.size (p.dirs x) := by
      show (p.box r x).size.get (p.dirs x) = wo.size.get (p.dirs x)
      rw [Box.size_get, Box.size_get, hs.1, hs.2]
    rw [this]
    refine hg _ ?_
    rw [← hd0]
    obtain ⟨h1, h2, h3⟩ := hp.dirs
    match x, hx with
    | 1, _ => exact fun h => h1 h.symm
    | 2, _ => first | exact fun h => h2 h.symm | exact fun h => h3 h.symm
  have hbox0 : ∀ r, r < n → (p.box r 0).empty = false → Spans (p.box r 0) wi d0 ∧ (p.box r 0).size d0 = wi.size d0 := by
    intro r hr hb
    have hs := hsp r hr 0 hb
    have hs : Spans (p.box r 0) wi p.dirs.x := hs
    rw [hd0] at hs
    refine ⟨hs, ?_⟩
    show (p.box r 0).size.get d0 = wi.size.get d0
    rw [Box.size_get, Box.size_get, hs.1, hs.2]
  have hpres : ∀ r, r < n → ∀ x e, (ex r).get x = some e → (p.box r x).empty = false ∧
      e = if x = 0 then .r2c (p.box r 0) d0 else .one (p.box r x) (p.dirs x) := by
    intro r hr x e he
    rw [hex r hr] at he
    have key : ∀ b e', makeExecutor b e' = some e → b.empty = false ∧ e = e' := by
      intro b e' h
      unfold makeExecutor at h
      split at h
      · cases h
      · rename_i hb
        exact ⟨by simpa using hb, (Option.some.inj h).symm⟩
    match x with
    | 0 =>
      have := key _ _ he
      rw [hd0] at this; exact this
    | 1 => exact key _ _ he
    | 2 => exact key _ _ he
  refine ⟨?_, ?_, ?_⟩
  · intro i
    cases mode
    · exact absurd (hm.same rfl) (by simp)
    · obtain ⟨g, rfl⟩ := field_inr hG
      match i with
      | 0 => rfl
      | 1 => rfl
      | 2 => rfl
      | 3 => rfl
    · obtain ⟨g, rfl⟩ := field_inl hG
      match i with
      | 0 => rfl
      | 1 => rfl
      | 2 => rfl
      | 3 => rfl
  · intro r hr k e he
    obtain ⟨h1, h2⟩ := hpres r hr _ e he
    have hcb0 : p.cbox r 0 = (p.box r 0).r2c d0 := hp.cbox_zero hr
    refine ⟨h1, ?_, ?_, ?_⟩
    · rw [after_box, before_box]
      cases mode with
      | same => exact absurd (hm.same rfl) (by simp)
      | r2c =>
        obtain ⟨g, rfl⟩ := field_inr hG
        obtain rfl := hm.forward rfl
        match k with
        | 0 =>
          have h1 : (p.box r 0).empty = false := h1
          have h2 : e = .r2c (p.box r 0) d0 := h2
          obtain ⟨q1, q2⟩ := hbox0 r hr h1
          show GoodExec _ _ _ e (p.box r 0) (p.cbox r 0) _ _
          rw [hcb0, h2]
          have := halved_forward (E := o.env true nb inplace r) (k := 0) hK (hord r hr 0) h1 q1 (by rw [q2]; exact hg0) g
          rw [← hd0] at this ⊢
          exact this
        | 1 =>
          have h2 : e = .one (p.box r 1) (p.dirs 1) := h2
          show GoodExec _ _ _ e (p.box r 1) (p.cbox r 1) _ _
          rw [hp.cbox_one, h2]
          exact (hone r hr 1 (by decide) h1).complexComplex rfl _
        | 2 =>
          have h2 : e = .one (p.box r 2) (p.dirs 2) := h2
          show GoodExec _ _ _ e (p.box r 2) (p.cbox r 2) _ _
          rw [hp.cbox_two, h2]
          exact (hone r hr 2 (by decide) h1).complexComplex rfl _
      | c2r =>
        obtain ⟨g, rfl⟩ := field_inl hG
        obtain rfl := hm.backward rfl
        match k with
        | 0 =>
          have h2 : e = .one (p.box r 2) (p.dirs 2) := h2
          show GoodExec _ _ _ e (p.cbox r 2) (p.box r 2) _ _
          rw [hp.cbox_two, h2]
          exact (hone r hr 2 (by decide) h1).complexComplex rfl _
        | 1 =>
          have h2 : e = .one (p.box r 1) (p.dirs 1) := h2
          show GoodExec _ _ _ e (p.cbox r 1) (p.box r 1) _ _
          rw [hp.cbox_one, h2]
          exact (hone r hr 1 (by decide) h1).complexComplex rfl _
        | 2 =>
          have h1 : (p.box r 0).empty = false := h1
          have h2 : e = .r2c (p.box r 0) d0 := h2
          obtain ⟨q1, q2⟩ := hbox0 r hr h1
          show GoodExec _ _ _ e (p.cbox r 0) (p.box r 0) _ _
          rw [hcb0, h2]
          have := halved_backward (E := o.env false nb inplace r) (k := 2) hK (hord r hr 0) h1 (spans_r2c hp.complex h1 q1) (by rw [q2]; exact hg0)
            (fun j => along wo p.dirs.y (t false) (along wo p.dirs.z (t false) (g j)))
          rw [q2, ← hd0] at this
          rw [← hd0]
          exact this
    · rw [h2]
      split
      · rename_i h; rw [h]; rfl
      · rfl
    · rw [h2]
      split
      · rename_i h; rw [h, hcb0]; rfl
      · rename_i h; rw [hp.cbox_same hr (.inr h)]; rfl
  · intro r hr k he hb
    exfalso
    rw [hex r hr] at he
    have key : ∀ b e', makeExecutor b e' = none → b.empty = true := by
      intro b e' h
      unfold makeExecutor at h
      split at h
      · assumption
      · cases h
    revert he hb
    generalize execNo fwd k = x
    intro he hb
    have : (p.box r x).empty = true := by
      match x with
      | 0 => exact key _ _ he
      | 1 => exact key _ _ he
      | 2 => exact key _ _ he
    rw [hb] at this
    cases this

end
end Verif
