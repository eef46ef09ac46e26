import Verif.LibPlan
import Verif.StockCalls

/-!
# Calls of the backends with executors for two and three directions
-/

namespace Verif
variable {α β : Type}

/-! ## The executors -/

section
variable {K : Kernel α β} {good : Nat → Prop} {t : Bool → List α → Nat → α}
  {w b : Box} {rk : Nat}

theorem spans_size {d : Fin 3} (hs : Spans b w d) : (b.size.get d).toNat = (w.size d).toNat := by
  show _ = (w.size.get d).toNat
  rw [Box.size_get, Box.size_get, hs.1, hs.2]

theorem does_two (hK : LinesOk K good t) (ho : b.order = ⟨0, 1, 2⟩) (hb : b.empty = false) {d1 d2 : Fin 3} (hd : d1 ≠ d2)
    (h1 : Spans b w d1) (h2 : Spans b w d2) (hg : ∀ d, good (w.size d).toNat) : Does K rk w t (.two b d1 d2) b [min d1 d2, max d1 d2] := by
  have hmin : Spans b w (min d1 d2) := by rcases min_choice d1 d2 with h | h <;> rw [h] <;> assumption
  have hmax : Spans b w (max d1 d2) := by rcases max_choice d1 d2 with h | h <;> rw [h] <;> assumption
  refine ⟨rfl, rfl, fun _ _ _ _ _ => rfl, fun _ _ _ _ _ => rfl, fun tag fwd base l G _ h0 hlen hG => ?_⟩
  obtain ⟨r, r1, r2, r3, r4⟩ := fftwExec2_ok (TT := K.line tag fwd) (tt := fun _ => t fwd) ho hb hd
    (fun d hd s v hv => hK.line tag fwd _ s v (by
      rcases hd with rfl | rfl
      · rw [spans_size h1]; exact hg _
      · rw [spans_size h2]; exact hg _) hv) hG h0 hlen
  refine ⟨r, r1, r2, ?_, r4⟩
  rw [along_world hmin, along_world hmax] at r3
  exact r3

theorem does_three (hK : LinesOk K good t) (ho : b.order = ⟨0, 1, 2⟩) (hb : b.empty = false) (hs : ∀ d, Spans b w d)
    (hg : ∀ d, good (w.size d).toNat) : Does K rk w t (.three b) b [0, 1, 2] := by
  refine ⟨rfl, rfl, fun _ _ _ _ _ => rfl, fun _ _ _ _ _ => rfl, fun tag fwd base l G _ h0 hlen hG => ?_⟩
  obtain ⟨r, r1, r2, r3, r4⟩ := fftwExec3_ok (TT := K.line tag fwd) (tt := fun _ => t fwd) ho hb
    (fun d s v hv => hK.line tag fwd _ s v (by rw [spans_size (hs d)]; exact hg d) hv) hG h0 hlen
  refine ⟨r, r1, r2, ?_, r4⟩
  rw [along_world (hs 0), along_world (hs 1), along_world (hs 2)] at r3
  exact r3

end

/-- The backends with executors for two and three directions. -/
structure Backend.Joins (bk : Backend) : Prop where
  two : bk.hasTwo = true
  three : bk.hasThree = true
  one : ∀ b d, bk.one b d = .one b d
  options : ∀ opts, bk.setOptions opts = opts

/-- The executors of a rank when the stages before and behind the middle one are joined or not. -/
def joinedExecs (m1 m2 : Bool) (dirs : A3 (Fin 3)) (b0 b1 b2 : Box) : A3 (Option Executor) :=
  match m1, m2 with
  | true, true => ⟨makeExecutor b0 (.three b0), none, none⟩
  | true, false => ⟨makeExecutor b0 (.two b0 dirs.x dirs.y), none, makeExecutor b2 (.one b2 dirs.z)⟩
  | false, true => ⟨makeExecutor b0 (.one b0 dirs.x), none, makeExecutor b2 (.two b2 dirs.y dirs.z)⟩
  | false, false => ⟨makeExecutor b0 (.one b0 dirs.x), makeExecutor b1 (.one b1 dirs.y), makeExecutor b2 (.one b2 dirs.z)⟩

/-- The directions of the executors. -/
def joinedDirs (m1 m2 : Bool) (dirs : A3 (Fin 3)) (x : Fin 3) : List (Fin 3) :=
  match m1, m2, x with
  | true, true, 0 => [0, 1, 2]
  | true, true, _ => []
  | true, false, 0 => [min dirs.x dirs.y, max dirs.x dirs.y]
  | true, false, 1 => []
  | true, false, 2 => [dirs.z]
  | false, true, 0 => [dirs.x]
  | false, true, 1 => []
  | false, true, 2 => [min dirs.y dirs.z, max dirs.y dirs.z]
  | false, false, x => [dirs x]

theorem makeExecutor_empty {b : Box} (h : b.empty = true) (e : Executor) : makeExecutor b e = none := by
  unfold makeExecutor; rw [if_pos h]

section
variable {p : Plan} {wi wo : Box} {n : Nat} {alg : Alg} {o : Fft} {ex : Nat → A3 (Option Executor)} {m1 m2 : Bool} {r : Nat}

/-- Without a reshape the boxes of a rank with indexes have the same bounds. -/
theorem joint_bounds (hp : PlanFacts p none wi wo n) (hs : SetupOk alg p o n ex) {i : Fin 4} {m : Bool} (hj : Joint p o n i m) (hm : m = true)
    (hr : r < n) (hb : (boxAt (p.inAt i) r).empty = false ∨ (boxAt (p.outAt i) r).empty = false) :
    (boxAt (p.inAt i) r).low = (boxAt (p.outAt i) r).low ∧ (boxAt (p.inAt i) r).high = (boxAt (p.outAt i) r).high := by
  have g1 := hs.get hp true hr i
  rw [show shaperAt (o.shapers true) r i = none from hj.joined hm r hr] at g1
  exact boxesMatch_get (null_match (hp.redis i) (hs.fwd i) g1 hb).1 (by rw [hp.lenIn]; exact hr)

theorem joint_empty (hp : PlanFacts p none wi wo n) (hs : SetupOk alg p o n ex) {i : Fin 4} {m : Bool} (hj : Joint p o n i m) (hm : m = true)
    (hr : r < n) : (boxAt (p.inAt i) r).empty = (boxAt (p.outAt i) r).empty :=
  (hs.quiet (fwd := true) hp hr (i := i) (hj.joined hm r hr)).empty

theorem in1_box (hp : PlanFacts p none wi wo n) (r : Nat) : boxAt (p.inAt 1) r = p.box r 0 := by
  show boxAt p.in1 r = boxAt p.out0 r
  rw [hp.in1]; rfl

theorem in2_box (hp : PlanFacts p none wi wo n) (r : Nat) : boxAt (p.inAt 2) r = p.box r 1 := hp.cbox_one r

/-- What the constructor makes. -/
theorem lib_execs {bk : Backend} (hbk : bk.Joins) (hp : PlanFacts p none wi wo n) (hs : SetupOk alg p o n ex) (j1 : Joint p o n 1 m1) (j2 : Joint p o n 2 m2) (hr : r < n) :
    executorsC2C bk p.dirs (p.box r 0) (p.box r 1) (p.box r 2) (shaperAt o.fwd r 1).isSome (shaperAt o.fwd r 2).isSome =
      joinedExecs m1 m2 p.dirs (p.box r 0) (p.box r 1) (p.box r 2) := by
  have q1 : m1 = true → (p.box r 0).empty = (p.box r 1).empty := fun h => by
    have := joint_empty hp hs j1 h hr; rwa [in1_box hp] at this
  have q2 : m2 = true → (p.box r 1).empty = (p.box r 2).empty := fun h => by
    have := joint_empty hp hs j2 h hr; rwa [in2_box hp] at this
  have a1 : m1 = false → shaperAt o.fwd r 1 = none → (p.box r 0).empty = true ∧ (p.box r 1).empty = true := fun h h' => by
    have := j1.apart h r hr h'; rwa [in1_box hp] at this
  have a2 : m2 = false → shaperAt o.fwd r 2 = none → (p.box r 1).empty = true ∧ (p.box r 2).empty = true := fun h h' => by
    have := j2.apart h r hr h'; rwa [in2_box hp] at this
  have f2 := hbk.two
  have f3 := hbk.three
  have f1 := hbk.one
  unfold executorsC2C
  simp only [f1, f2, f3, Bool.true_and]
  cases m1 with
  | true =>
    have h1 := j1.joined rfl r hr
    rw [h1]
    cases m2 with
    | true => rw [j2.joined rfl r hr]; rfl
    | false =>
      cases h2 : shaperAt o.fwd r 2 with
      | some sh => rfl
      | none =>
        obtain ⟨e1, e2⟩ := a2 rfl h2
        have e0 := (q1 rfl).trans e1
        simp only [joinedExecs, makeExecutor_empty e0, makeExecutor_empty e2, Option.isSome_none, Bool.not_false, Bool.and_self, if_true]
  | false =>
    cases m2 with
    | true =>
      have h2 := j2.joined rfl r hr
      rw [h2]
      cases h1 : shaperAt o.fwd r 1 with
      | some sh => rfl
      | none =>
        obtain ⟨e0, e1⟩ := a1 rfl h1
        have e2 := (q2 rfl).symm.trans e1
        simp only [joinedExecs, makeExecutor_empty e0, makeExecutor_empty e2, Option.isSome_none, Bool.not_false, Bool.and_self, if_true]
    | false =>
      cases h1 : shaperAt o.fwd r 1 with
      | some sh =>
        cases h2 : shaperAt o.fwd r 2 with
        | some sh => rfl
        | none =>
          obtain ⟨e1, e2⟩ := a2 rfl h2
          simp [joinedExecs, makeExecutor_empty e1, makeExecutor_empty e2]
      | none =>
        obtain ⟨e0, e1⟩ := a1 rfl h1
        cases h2 : shaperAt o.fwd r 2 with
        | some sh => simp [joinedExecs, makeExecutor_empty e0, makeExecutor_empty e1]
        | none =>
          obtain ⟨-, e2⟩ := a2 rfl h2
          simp [joinedExecs, makeExecutor_empty e0, makeExecutor_empty e1, makeExecutor_empty e2]

variable {K : Kernel α β} {good : Nat → Prop} {t : Bool → List α → Nat → α}

theorem box_spans (hp : PlanFacts p none wi wo n) (hr : r < n) (x : Fin 3) (hb : (p.box r x).empty = false) : Spans (p.box r x) wi (p.dirs x) := by
  have hs := hp.spans x _ (boxAt_mem (l := p.outAt x.castSucc) (r := r) (by rw [hp.lenOut]; exact hr)) hb
  have := hp.complex.congr (p.dirs x)
  unfold worldAt at hs
  split at hs
  · exact hs
  · exact ⟨hs.1.trans this.1, hs.2.trans this.2⟩

theorem Spans.of_bounds {a b w : Box} {d : Fin 3} (h : Spans a w d) (hl : a.low = b.low) (hh : a.high = b.high) : Spans b w d :=
  ⟨hl ▸ h.1, hh ▸ h.2⟩

/-- The bounds of the boxes of joined stages. -/
theorem box_bounds1 (hp : PlanFacts p none wi wo n) (hs : SetupOk alg p o n ex) (j1 : Joint p o n 1 m1) (hm : m1 = true) (hr : r < n)
    (hb : (p.box r 0).empty = false ∨ (p.box r 1).empty = false) :
    (p.box r 0).low = (p.box r 1).low ∧ (p.box r 0).high = (p.box r 1).high := by
  have := joint_bounds hp hs j1 hm hr (by rw [in1_box hp]; exact hb)
  rwa [in1_box hp] at this

theorem box_bounds2 (hp : PlanFacts p none wi wo n) (hs : SetupOk alg p o n ex) (j2 : Joint p o n 2 m2) (hm : m2 = true) (hr : r < n)
    (hb : (p.box r 1).empty = false ∨ (p.box r 2).empty = false) :
    (p.box r 1).low = (p.box r 2).low ∧ (p.box r 1).high = (p.box r 2).high := by
  have := joint_bounds hp hs j2 hm hr (by rw [in2_box hp]; exact hb)
  rwa [in2_box hp] at this

theorem box_std (hp : PlanFacts p none wi wo n) {x : Fin 3} (h : Standard (p.outAt x.castSucc)) (hr : r < n) : (p.box r x).order = ⟨0, 1, 2⟩ :=
  h _ (boxAt_mem (by rw [hp.lenOut]; exact hr))

theorem empty_bounds {a b : Box} (hl : a.low = b.low) (hh : a.high = b.high) : a.empty = b.empty := by
  cases a; cases b; simp only at hl hh; subst hl hh; rfl

/-- With all three stages joined the box is the world. -/
theorem joined_world (hp : PlanFacts p none wi wo n) (hs : SetupOk alg p o n ex) (j1 : Joint p o n 1 true) (j2 : Joint p o n 2 true) (hr : r < n)
    (hb : (p.box r 0).empty = false) (x d : Fin 3) : Spans (p.box r x) wi d := by
  obtain ⟨l1, u1⟩ := box_bounds1 hp hs j1 rfl hr (.inl hb)
  have hb1 : (p.box r 1).empty = false := by rw [← empty_bounds l1 u1]; exact hb
  obtain ⟨l2, u2⟩ := box_bounds2 hp hs j2 rfl hr (.inl hb1)
  have hb2 : (p.box r 2).empty = false := by rw [← empty_bounds l2 u2]; exact hb1
  have s0 := box_spans hp hr 0 hb
  have s1 := box_spans hp hr 1 hb1
  have s2 := box_spans hp hr 2 hb2
  have : Spans (p.box r 0) wi d := by
    rcases hp.dirs.cases d with rfl | rfl | rfl
    · exact s0
    · exact Spans.of_bounds s1 l1.symm u1.symm
    · exact Spans.of_bounds s2 (l1.trans l2).symm (u1.trans u2).symm
  match x with
  | 0 => exact this
  | 1 => exact this.of_bounds l1 u1
  | 2 => exact this.of_bounds (l1.trans l2) (u1.trans u2)

theorem joined_does (hK : LinesOk K good t) (hg : ∀ d, good (wi.size d).toNat) (hp : PlanFacts p none wi wo n) (hs : SetupOk alg p o n ex)
    (j1 : Joint p o n 1 m1) (j2 : Joint p o n 2 m2) (hr : r < n) (x : Fin 3) (e : Executor)
    (he : (joinedExecs m1 m2 p.dirs (p.box r 0) (p.box r 1) (p.box r 2)).get x = some e) :
    (p.box r x).empty = false ∧ Does K r wi t e (p.box r x) (joinedDirs m1 m2 p.dirs x) := by
  have hord : ∀ x, IsOrder (p.box r x).order := fun x => (hp.redis x.castSucc).validOut _ (boxAt_mem (by rw [hp.lenOut]; exact hr))
  have one : ∀ x, makeExecutor (p.box r x) (.one (p.box r x) (p.dirs x)) = some e →
      (p.box r x).empty = false ∧ Does K r wi t e (p.box r x) [p.dirs x] := by
    intro x h
    obtain ⟨hb, rfl⟩ := makeExecutor_some h
    exact ⟨hb, does_one hK (hord x) hb (box_spans hp hr x hb) (by
      change good ((p.box r x).size.get (p.dirs x)).toNat
      rw [spans_size (box_spans hp hr x hb)]; exact hg _)⟩
  have std0 : m1 = true → (p.box r 0).order = ⟨0, 1, 2⟩ := fun h => by
    rw [← in1_box hp]
    exact (j1.std h).1 _ (boxAt_mem (by rw [hp.lenIn]; exact hr))
  have std2 : m2 = true → (p.box r 2).order = ⟨0, 1, 2⟩ := fun h => box_std hp (x := 2) (j2.std h).2 hr
  cases m1 with
  | true =>
    cases m2 with
    | true =>
      match x with
      | 0 =>
        obtain ⟨hb, rfl⟩ := makeExecutor_some he
        exact ⟨hb, does_three hK (std0 rfl) hb (joined_world hp hs j1 j2 hr hb 0) hg⟩
      | 1 => cases he
      | 2 => cases he
    | false =>
      match x with
      | 0 =>
        obtain ⟨hb, rfl⟩ := makeExecutor_some he
        obtain ⟨l1, u1⟩ := box_bounds1 hp hs j1 rfl hr (.inl hb)
        have hb1 : (p.box r 1).empty = false := by rw [← empty_bounds l1 u1]; exact hb
        exact ⟨hb, does_two hK (std0 rfl) hb hp.dirs.1 (box_spans hp hr 0 hb) ((box_spans hp hr 1 hb1).of_bounds l1.symm u1.symm) hg⟩
      | 1 => cases he
      | 2 => exact one 2 he
  | false =>
    cases m2 with
    | true =>
      match x with
      | 0 => exact one 0 he
      | 1 => cases he
      | 2 =>
        obtain ⟨hb, rfl⟩ := makeExecutor_some he
        obtain ⟨l2, u2⟩ := box_bounds2 hp hs j2 rfl hr (.inr hb)
        have hb1 : (p.box r 1).empty = false := by rw [empty_bounds l2 u2]; exact hb
        exact ⟨hb, does_two hK (std2 rfl) hb hp.dirs.2.2 ((box_spans hp hr 1 hb1).of_bounds l2 u2) (box_spans hp hr 2 hb) hg⟩
    | false =>
      match x with
      | 0 => exact one 0 he
      | 1 => exact one 1 he
      | 2 => exact one 2 he

theorem joined_none (x : Fin 3) (he : (joinedExecs m1 m2 p.dirs (p.box r 0) (p.box r 1) (p.box r 2)).get x = none)
    (hb : (p.box r x).empty = false) : joinedDirs m1 m2 p.dirs x = [] ∧ x ≠ 0 := by
  have no : ∀ {b : Box} {e}, b.empty = false → makeExecutor b e = none → False := fun h h' => by
    rw [makeExecutor_none h'] at h; cases h
  cases m1 <;> cases m2 <;> match x with
    | 0 => exact (no hb he).elim
    | 1 => first | exact (no hb he).elim | exact ⟨rfl, by decide⟩
    | 2 => first | exact (no hb he).elim | exact ⟨rfl, by decide⟩

end

/-! ## The situations -/

section
variable {p : Plan} {wi wo : Box} {n : Nat} {alg : Alg} {o : Fft} {ex : Nat → A3 (Option Executor)} {m1 m2 : Bool} {r : Nat}
  {mode : Mode} {fwd : Bool} {nb : Nat} {inplace : Nat → Bool}

theorem kindOf_make {b : Box} {e : Executor} : kindOf (makeExecutor b e) b = if b.empty then .empty else .run := by
  unfold kindOf makeExecutor; split <;> simp_all

theorem kindOf_none (b : Box) : kindOf none b = if b.empty then .empty else .merged := rfl

/-- The kind of the executor number `x` in forward order. -/
theorem joined_kind (m1 m2 : Bool) (x : Fin 3) :
    kindOf ((joinedExecs m1 m2 p.dirs (p.box r 0) (p.box r 1) (p.box r 2)).get x) (p.box r x) =
      if (p.box r x).empty then .empty else if (x = 1 ∧ (m1 || m2) = true) ∨ (x = 2 ∧ (m1 && m2) = true) then .merged else .run := by
  cases m1 <;> cases m2 <;> match x with
    | 0 => first | exact kindOf_make | exact kindOf_none _
    | 1 => first | exact kindOf_make | exact kindOf_none _
    | 2 => first | exact kindOf_make | exact kindOf_none _

/-- A reshape that is absent in one direction is absent in the other. -/
theorem other_null (hp : PlanFacts p none wi wo n) (hs : SetupOk alg p o n ex) (hr : r < n) (i : Fin 4) (h : shaperAt o.fwd r i = none)
    (hb : (boxAt (p.inAt i) r).empty = false) : shaperAt o.bwd r i.rev = none := by
  have g1 := hs.get hp true hr i
  rw [show shaperAt (o.shapers true) r i = none from h] at g1
  have hrev : i.rev.rev = i := Fin.rev_rev i
  have e := hs.bwd i.rev
  rw [hrev] at e
  exact shaperAt_get (null_symm (hp.redis i) (hs.fwd i) e (by rw [hp.lenIn]; exact hr) g1 (.inl hb))

theorem lib_merge (hp : PlanFacts p none wi wo n) (hs : SetupOk alg p o n ex) (j1 : Joint p o n 1 m1) (j2 : Joint p o n 2 m2) (hr : r < n)
    (hex : ex r = joinedExecs m1 m2 p.dirs (p.box r 0) (p.box r 1) (p.box r 2)) :
    (p.case mode none o fwd nb inplace r).mergeOk = true := by
  have q1 : m1 = true → (p.box r 0).empty = (p.box r 1).empty := fun h => by
    have := joint_empty hp hs j1 h hr; rwa [in1_box hp] at this
  have q2 : m2 = true → (p.box r 1).empty = (p.box r 2).empty := fun h => by
    have := joint_empty hp hs j2 h hr; rwa [in2_box hp] at this
  have hk : ∀ k : Fin 3, (p.case mode none o fwd nb inplace r).kind k = _ := fun k => by
    rw [case_kind, hs.executors fwd hr, hex, joined_kind]
  have k0 := hk 0
  have k1 := hk 1
  have k2 := hk 2
  have s1 : m1 = true → (p.box r 0).empty = false → (if fwd then (p.case mode none o fwd nb inplace r).s1 else (p.case mode none o fwd nb inplace r).s2) = false := by
    intro h hb
    cases fwd with
    | true =>
      show (shaperAt o.fwd r 1).isSome = false
      rw [j1.joined h r hr]; rfl
    | false =>
      show (shaperAt o.bwd r 2).isSome = false
      have := other_null hp hs hr 1 (j1.joined h r hr) (by rw [in1_box hp]; exact hb)
      rw [show (1 : Fin 4).rev = 2 from rfl] at this
      rw [this]; rfl
  have s2 : m2 = true → (p.box r 1).empty = false → (if fwd then (p.case mode none o fwd nb inplace r).s2 else (p.case mode none o fwd nb inplace r).s1) = false := by
    intro h hb
    cases fwd with
    | true =>
      show (shaperAt o.fwd r 2).isSome = false
      rw [j2.joined h r hr]; rfl
    | false =>
      show (shaperAt o.bwd r 1).isSome = false
      have := other_null hp hs hr 2 (j2.joined h r hr) (by rw [in2_box hp]; exact hb)
      rw [show (2 : Fin 4).rev = 1 from rfl] at this
      rw [this]; rfl
  change (p.case mode none o fwd nb inplace r).k0 = _ at k0
  change (p.case mode none o fwd nb inplace r).k1 = _ at k1
  change (p.case mode none o fwd nb inplace r).k2 = _ at k2
  generalize p.case mode none o fwd nb inplace r = c at s1 s2 k0 k1 k2 ⊢
  unfold Case.mergeOk
  rw [k0, k1, k2]
  obtain ⟨E, e⟩ : ∃ E : Fin 3 → Bool, ∀ x, (p.box r x).empty = E x := ⟨_, fun _ => rfl⟩
  simp only [e] at q1 q2 s1 s2 ⊢
  clear k0 k1 k2 hk e hex j1 j2
  cases fwd
  · rw [show execNo false 0 = 2 from rfl, show execNo false 1 = 1 from rfl, show execNo false 2 = 0 from rfl]
    simp only [Bool.false_eq_true, if_false] at s1 s2
    generalize E 0 = E0 at q1 q2 s1 s2 ⊢
    generalize E 1 = E1 at q1 q2 s1 s2 ⊢
    generalize E 2 = E2 at q1 q2 s1 s2 ⊢
    generalize c.s1 = S1 at s1 s2 ⊢
    generalize c.s2 = S2 at s1 s2 ⊢
    revert m1 m2 E0 E1 E2 S1 S2
    decide
  · rw [show execNo true 0 = 0 from rfl, show execNo true 1 = 1 from rfl, show execNo true 2 = 2 from rfl]
    simp only [if_true] at s1 s2
    generalize E 0 = E0 at q1 q2 s1 s2 ⊢
    generalize E 1 = E1 at q1 q2 s1 s2 ⊢
    generalize E 2 = E2 at q1 q2 s1 s2 ⊢
    generalize c.s1 = S1 at s1 s2 ⊢
    generalize c.s2 = S2 at s1 s2 ⊢
    revert m1 m2 E0 E1 E2 S1 S2
    decide

/-- Without a first reshape and with indexes on the input side there is a first executor. -/
theorem first_nonempty (hp : PlanFacts p none wi wo n) (hs : SetupOk alg p o n ex) (hr : r < n)
    (hb : (boxAt (p.before fwd 0) r).empty = false) (h0 : shaperAt (o.shapers fwd) r 0 = none) : (p.box r (execNo fwd 0)).empty = false := by
  have hq := (hs.quiet hp hr h0).empty
  have ha := after_box p fwd 0 r
  rw [hb] at hq
  rw [show (0 : Fin 4) = Fin.castSucc 0 from rfl, ha, hp.cbox_same hr (.inl rfl)] at hq
  simpa using hq.symm

/-- A box with the indexes of the world leaves nothing for the others. -/
theorem one_rank {l : List Box} {w : Box} (ht : Tiles l w) (hr : r < l.length) (hs : ∀ d, Spans (boxAt l r) w d)
    (hall : ∀ q, q < l.length → (boxAt l q).empty = false) : l.length = 1 := by
  by_contra hne
  obtain ⟨q, hq, hqr⟩ : ∃ q, q < l.length ∧ q ≠ r := by
    rcases Nat.eq_zero_or_pos r with h | h
    · exact ⟨1, by omega, by omega⟩
    · exact ⟨0, by omega, by omega⟩
  obtain ⟨x, hx⟩ := Box.empty_false_iff_mem.1 (hall q hq)
  have hw := ht.mem_world (boxAt_mem hq) hx
  have hx' : x ∈ boxAt l r := fun d => by
    have := hw d
    rw [(hs d).1, (hs d).2]
    exact this
  exact hqr (ht.boxAt_unique hq hr hx hx')

theorem single_spans {b w : Box} (h : findWorld [b] = .ok w) (d : Fin 3) : Spans b w d := by
  have h1 := findWorld_encloses h b (by simp) d
  have h2 := findWorld_tightest h (v := b) (by
    intro z hz
    simp only [List.mem_singleton] at hz
    subst hz; exact fun d => ⟨le_refl _, le_refl _⟩) d
  exact ⟨by omega, by omega⟩

variable {bin bout : List Box}

/-- The last reshape of a backward call in which all the stages are joined. -/
theorem last_null (geo : Geometry bin bout none wi wo) (hp : PlanFacts p none wi wo bin.length) (hs : SetupOk alg p o bin.length ex)
    (e1 : p.in0 = bin) (e2 : p.out3 = bout)
    (j1 : Joint p o bin.length 1 true) (j2 : Joint p o bin.length 2 true) (hi : Standard bin)
    (hr : r < bin.length) (hb : (p.box r 2).empty = false) (h0 : shaperAt o.bwd r 0 = none)
    (hall : ∀ q, q < bin.length → (boxAt bout q).empty = false) : shaperAt o.bwd r 3 = none := by
  have hb0 : (p.box r 0).empty = false := by
    have b2 := box_bounds2 hp hs j2 rfl hr (.inr hb)
    have h1 : (p.box r 1).empty = false := by rw [empty_bounds b2.1 b2.2]; exact hb
    have b1 := box_bounds1 hp hs j1 rfl hr (.inr h1)
    rw [empty_bounds b1.1 b1.2]; exact h1
  have hw := joined_world hp hs j1 j2 hr hb0
  have hlb : bout.length = bin.length := geo.length
  -- the output box is the world
  have g := hs.get hp false hr 0
  rw [show shaperAt (o.shapers false) r 0 = none from h0] at g
  have hbefore : p.before false 0 = bout := e2
  have hout : ∀ d, Spans (boxAt bout r) wo d := by
    intro d
    have hm := (null_match (hp.call false 0) (hs.shapers false 0) g (.inl (by rw [hbefore]; exact hall r hr))).1
    have hbd := boxesMatch_get hm (r := r) (by rw [hp.lenBefore]; exact hr)
    rw [hbefore, show boxAt (p.after false 0) r = p.box r 2 from hp.cbox_two r] at hbd
    have h := (hw 2 d).of_bounds hbd.1.symm hbd.2.symm
    have hc := hp.complex.congr d
    exact ⟨h.1.trans hc.1.symm, h.2.trans hc.2.symm⟩
  have h1 := one_rank geo.tilesOut (by omega) hout (fun q hq => hall q (by omega))
  obtain ⟨b, hbin⟩ := List.length_eq_one_iff.1 (by omega : bin.length = 1)
  have hr0 : r = 0 := by omega
  subst hr0
  have hso : ∀ d, Spans b wi d := single_spans (by rw [← hbin]; exact geo.worldIn)
  have ho0 : p.out0.length = 1 := by rw [show p.out0.length = bin.length from hp.lenOut 0]; omega
  obtain ⟨c, hc⟩ := List.length_eq_one_iff.1 ho0
  have hbc : p.box 0 0 = c := by show boxAt p.out0 0 = c; rw [hc]; rfl
  have hbb : boxAt bin 0 = b := by rw [hbin]; rfl
  have g3 := hs.bwd 3
  rw [show (3 : Fin 4).rev = 0 from rfl] at g3
  refine shaperAt_get (null_of_match (hp.redis 0).symm g3 (by rw [hp.lenOut]; exact hr) ?_ ?_)
  · show boxesMatch p.out0 p.in0 = true
    rw [hc, e1, hbin]
    simp only [boxesMatch, Bool.and_true, Box.sameBounds, List.all_eq_true, Bool.and_eq_true, beq_iff_eq]
    intro d _
    have s := hw 0 d
    rw [hbc] at s
    exact ⟨s.1.trans (hso d).1.symm, s.2.trans (hso d).2.symm⟩
  · show directOf p.out0 p.in0 = true
    have o1 : (boxAt p.out0 0).order = ⟨0, 1, 2⟩ := by
      have : boxAt p.out0 0 = boxAt (p.inAt 1) 0 := (in1_box hp 0).symm
      rw [this]
      exact (j1.std rfl).1 _ (boxAt_mem (by rw [hp.lenIn]; exact hr))
    have o2 : (boxAt p.in0 0).order = ⟨0, 1, 2⟩ := by
      rw [e1]; exact hi _ (boxAt_mem hr)
    unfold directOf Box.orderedSameAs
    rw [o1, o2]
    rfl

/-- The situations of the calls. -/
theorem lib_bad (geo : Geometry bin bout none wi wo) (hp : PlanFacts p none wi wo bin.length) (hs : SetupOk alg p o bin.length ex)
    (e1 : p.in0 = bin) (e2 : p.out3 = bout) (hm : ModeOk mode fwd none)
    (j1 : Joint p o bin.length 1 m1) (j2 : Joint p o bin.length 2 m2) (hstd : m1 = true ∨ m2 = true → Standard bin ∧ Standard bout)
    (hr : r < bin.length) (hex : ex r = joinedExecs m1 m2 p.dirs (p.box r 0) (p.box r 1) (p.box r 2))
    (hin : ∀ r, r < bin.length → inplace r = true → mode = .same)
    (hfirst : mode = .r2c ∨ (∀ r, r < bin.length → inplace r = true) ∨
      ∀ r, r < bin.length → (boxAt (srcBoxes fwd bin bout) r).empty = false) :
    (p.case mode none o fwd nb inplace r).bad = false := by
  have hk0 := case_kind (p := p) (mode := mode) (r2c := none) (o := o) (fwd := fwd) (nb := nb) (inplace := inplace) r 0
  rw [hs.executors fwd hr, hex, joined_kind] at hk0
  change (p.case mode none o fwd nb inplace r).k0 = _ at hk0
  have hs0 : (p.case mode none o fwd nb inplace r).s0 = false → shaperAt (o.shapers fwd) r 0 = none := fun h => by
    have := case_s (p := p) (mode := mode) (r2c := none) (o := o) (fwd := fwd) (nb := nb) (inplace := inplace) r 0
    rw [show (p.case mode none o fwd nb inplace r).s ((0 : Fin 4) : Nat) = (p.case mode none o fwd nb inplace r).s0 from rfl, h] at this
    simpa using this.symm
  unfold Case.bad
  cases mode with
  | r2c => rfl
  | same =>
    show (!(inplace r) && _ && _) = false
    rcases hfirst with h | h | h
    · cases h
    · rw [h r hr]; rfl
    · cases hh : (p.case .same none o fwd nb inplace r).s0 with
      | true => simp
      | false =>
        have hne := first_nonempty hp hs hr (by rw [before_src, e1, e2]; exact h r hr) (hs0 hh)
        rw [hk0, hne]
        cases fwd with
        | true =>
          simp [show execNo true 0 = 0 from rfl]
        | false =>
          rw [show execNo false 0 = 2 from rfl] at *
          by_cases hmm : (m1 && m2) = true
          · rw [Bool.and_eq_true] at hmm
            obtain ⟨rfl, rfl⟩ := hmm
            have h3 := last_null geo hp hs e1 e2 j1 j2 (hstd (.inl rfl)).1 hr hne (hs0 hh) h
            have : (p.case .same none o false nb inplace r).s3 = false := by
              show (shaperAt o.bwd r 3).isSome = false
              rw [h3]; rfl
            rw [this]
            simp
          · simp [hmm]
  | c2r =>
    show (!_ && _) = false
    cases hh : (p.case .c2r none o fwd nb inplace r).s0 with
    | true => simp
    | false =>
      rcases hfirst with h | h | h
      · cases h
      · cases hin r hr (h r hr)
      · have hne := first_nonempty hp hs hr (by rw [before_src, e1, e2]; exact h r hr) (hs0 hh)
        rw [hk0, hne]
        simp only [Bool.false_eq_true, if_false]
        split <;> simp

end

/-! ## The calls -/

theorem sorted_dirs : ∀ a b c : Fin 3, AllDirs a b c → AllDirs (min a b) (max a b) c ∧ AllDirs a (min b c) (max b c) := by
  unfold AllDirs; decide

open Stock in
theorem joined_dft3 {wi : Box} {dirs : A3 (Fin 3)} (h : AllDirs dirs.x dirs.y dirs.z) (m1 m2 : Bool) (fwd : Bool) (c : Nat → A3 Int → ℂ) :
    chain wi (dft fwd) (joinedDirs m1 m2 dirs) fwd c 3 = fun j => dft3 fwd wi (c j) := by
  obtain ⟨h1, h2⟩ := sorted_dirs _ _ _ h
  have h3 : AllDirs (0 : Fin 3) 1 2 := by unfold AllDirs; decide
  have rot : ∀ {a b c : Fin 3}, AllDirs a b c → AllDirs b c a := fun {a b c} => by revert a b c; unfold AllDirs; decide
  funext j
  cases m1 <;> cases m2 <;> cases fwd
  · exact alongAll_dft3 false wi h.rev (c j)
  · exact alongAll_dft3 true wi h (c j)
  · exact alongAll_dft3 false wi (rot h2) (c j)
  · exact alongAll_dft3 true wi h2 (c j)
  · exact alongAll_dft3 false wi (rot (rot h1)) (c j)
  · exact alongAll_dft3 true wi h1 (c j)
  · exact alongAll_dft3 false wi h3 (c j)
  · exact alongAll_dft3 true wi h3 (c j)

section
variable {bin bout : List Box} {wi wo : Box} {opts : Opts} {ob : Object} {K : Kernel α β} {good : Nat → Prop} {t : Bool → List α → Nat → α}
  {mode : Mode} {fwd : Bool} {nb : Nat} {inplace : Nat → Bool} {W : World α β}
  {m0s : List (Mem α β)} {G : Field α β} {ws : Executor → Int}

/-- A call of an `fft3d` of a backend with executors for two and three directions. -/
theorem call_lib {bk : Backend} (hbk : bk.Joins) (hK : LinesOk K good t) (hg : ∀ d, good (wi.size d).toNat) (geo : Geometry bin bout none wi wo)
    (ho : makeFft3d bk bin bout opts = .ok ob) (hord : OrderlyBoxes bin bout opts)
    (hm : ModeOk mode fwd none) (hG : G.isReal = decide (mode = .r2c)) (hws : ∀ e, 0 ≤ ws e)
    (ha : CallArrays (srcBoxes fwd bin bout) (dstBoxes fwd bin bout) (decide (mode = .r2c)) (decide (mode = .c2r)) (ob.sizeWorkspace ws) nb inplace m0s G)
    (hW : WorldOk W ob.plan fwd) (hnb : 0 < nb) (hin : ∀ r, r < bin.length → inplace r = true → mode = .same)
    (hfirst : mode = .r2c ∨ (∀ r, r < bin.length → inplace r = true) ∨
      ∀ r, r < bin.length → (boxAt (srcBoxes fwd bin bout) r).empty = false) :
    ∃ m1 m2 ms, transform K W mode ob.fft fwd nb inplace m0s = .ok ms ∧
      Outcome (dstBoxes fwd bin bout) nb m0s ms (fieldC2C K wi t (joinedDirs m1 m2 ob.plan.dirs) mode fwd G 3) := by
  obtain ⟨hplan, -, hp, e1, e2, eh, -, hs⟩ := makeFft3d_ok geo ho
  have hplan' : planOperations bin bout none opts = .ok ob.plan := by rw [← hbk.options opts]; exact hplan
  obtain ⟨m1, m2, j1, j2, hstd⟩ := plan_joints geo hplan' hp hs hord
  refine ⟨m1, m2, ?_⟩
  have hex : ∀ r, r < bin.length → executorsC2C bk ob.plan.dirs (ob.plan.box r 0) (ob.plan.box r 1) (ob.plan.box r 2)
      (shaperAt ob.fft.fwd r 1).isSome (shaperAt ob.fft.fwd r 2).isSome =
      joinedExecs m1 m2 ob.plan.dirs (ob.plan.box r 0) (ob.plan.box r 1) (ob.plan.box r 2) := fun r hr => lib_execs hbk hp hs j1 j2 hr
  have hx := execsOk_c2c (K := K) (o := ob.fft) (nb := nb) (inplace := inplace) (t := t) (ds := joinedDirs m1 m2 ob.plan.dirs)
    (ex := fun r => executorsC2C bk ob.plan.dirs (ob.plan.box r 0) (ob.plan.box r 1) (ob.plan.box r 2)
      (shaperAt ob.fft.fwd r 1).isSome (shaperAt ob.fft.fwd r 2).isSome) hp hm G hG
    (fun r hr x e he => by
      rw [hex r hr] at he
      exact joined_does hK hg hp hs j1 j2 hr x e he)
    (fun r hr x he hb => by
      rw [hex r hr] at he
      exact joined_none x he hb)
  have hF0 : fieldC2C K wi t (joinedDirs m1 m2 ob.plan.dirs) mode fwd G 0 = G := by
    unfold fieldC2C
    by_cases h : mode = .r2c
    · rw [if_pos ⟨h, rfl⟩]
    · rw [if_neg (fun h' => h h'.1), if_neg (fun h' => absurd h'.2 (by decide))]
      obtain ⟨g, rfl⟩ := field_inl (x := G) (by rw [hG]; simp [h])
      rfl
  rw [← e1, ← e2] at ha ⊢
  refine call_run (M := fun r => maxBoxSize (executorsC2C bk ob.plan.dirs (ob.plan.box r 0) (ob.plan.box r 1) (ob.plan.box r 2)
      (shaperAt ob.fft.fwd r 1).isSome (shaperAt ob.fft.fwd r 2).isSome)) hp hs hm hx (by rw [hF0]; exact ha) hW hK.law hnb hin ?_ ?_
    (fun r hr => lib_merge hp hs j1 j2 hr (hex r hr)) (fun r hr => lib_bad geo hp hs e1 e2 hm j1 j2 hstd hr (hex r hr) hin hfirst)
  · intro r hr x
    rw [hp.cbox_same hr (.inl rfl), hex r hr]
    have q1 : m1 = true → (ob.plan.box r 0).count = (ob.plan.box r 1).count := fun h => by
      have := (hs.quiet (fwd := true) hp hr (i := 1) (j1.joined h r hr)).points
      rw [show boxAt (ob.plan.before true 1) r = ob.plan.box r 0 from in1_box hp r] at this
      rw [Box.count_eq_card, Box.count_eq_card, this]; rfl
    have q2 : m2 = true → (ob.plan.box r 1).count = (ob.plan.box r 2).count := fun h => by
      have := (hs.quiet (fwd := true) hp hr (i := 2) (j2.joined h r hr)).points
      rw [show boxAt (ob.plan.before true 2) r = ob.plan.box r 1 from in2_box hp r] at this
      rw [Box.count_eq_card, Box.count_eq_card, this]; rfl
    have c1 : ∀ (b : Box) (d : Fin 3), sizeOr0 Executor.boxSize (makeExecutor b (.one b d)) = b.count := fun b d => sizeOr0_make rfl rfl
    have c2 : ∀ (b : Box) (d e : Fin 3), sizeOr0 Executor.boxSize (makeExecutor b (.two b d e)) = b.count := fun b d e => sizeOr0_make rfl rfl
    have c3 : ∀ b : Box, sizeOr0 Executor.boxSize (makeExecutor b (.three b)) = b.count := fun b => sizeOr0_make rfl rfl
    have c0 : sizeOr0 Executor.boxSize none = 0 := rfl
    have hx3 : (ob.plan.box r x).count = (ob.plan.box r 0).count ∨ (ob.plan.box r x).count = (ob.plan.box r 1).count ∨
        (ob.plan.box r x).count = (ob.plan.box r 2).count := by
      match x with
      | 0 => exact .inl rfl
      | 1 => exact .inr (.inl rfl)
      | 2 => exact .inr (.inr rfl)
    unfold maxBoxSize joinedExecs
    cases m1 <;> cases m2 <;> simp only [c0, c1, c2, c3, true_implies, reduceCtorEq, false_implies] at q1 q2 ⊢ <;> omega
  · intro r hr
    unfold Object.sizeWorkspace
    rw [eh, hs.execs r hr]
    have h1 := maxWorkSize_nonneg hws (executorsC2C bk ob.plan.dirs (ob.plan.box r 0) (ob.plan.box r 1) (ob.plan.box r 2)
      (shaperAt ob.fft.fwd r 1).isSome (shaperAt ob.fft.fwd r 2).isSome)
    refine le_trans ?_ (sizeWorkC2C_ge hws)
    simp only [Option.getD_some]
    omega

end
end Verif
