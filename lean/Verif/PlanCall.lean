import Verif.PlanRun

/-!
# A call of a planned transform

`plan_call` collects what `transform_core` needs from the plan, the setup, the executors and the arrays.
-/

namespace Verif
variable {α β : Type}

theorem r2c_half (b : Box) (d : Fin 3) : b.count ≤ 2 * (b.r2c d).count := by
  by_cases he : b.empty = true
  · unfold Box.count
    rw [if_pos he, r2c_empty, if_pos he]; simp
  · have he : b.empty = false := by simpa using he
    obtain ⟨-, -, h⟩ := r2c_fields he d
    have hp : ∀ e, 1 ≤ b.size.get e := by
      intro e
      have := Box.empty_false_iff.1 he e
      rw [Box.size_get]; omega
    have h0 : 1 ≤ b.size 0 := hp 0
    have h1 : 1 ≤ b.size 1 := hp 1
    have h2 : 1 ≤ b.size 2 := hp 2
    have e0 := h 0
    have e1 := h 1
    have e2 := h 2
    unfold Box.count
    rw [if_neg (by simp [he]), if_neg (by simp [he, r2c_empty])]
    change (b.r2c d).size 0 = _ at e0
    change (b.r2c d).size 1 = _ at e1
    change (b.r2c d).size 2 = _ at e2
    rw [e0, e1, e2]
    have key : ∀ n m : Int, 1 ≤ n → 0 ≤ m → n * m ≤ 2 * ((n / 2 + 1) * m) := by
      intro n m hn hm
      have : n * m ≤ (2 * (n / 2 + 1)) * m := mul_le_mul_of_nonneg_right (by omega) hm
      calc n * m ≤ (2 * (n / 2 + 1)) * m := this
        _ = _ := by ring
    have p01 : 0 ≤ b.size 0 * b.size 1 := mul_nonneg (by omega) (by omega)
    have p12 : 0 ≤ b.size 1 * b.size 2 := mul_nonneg (by omega) (by omega)
    have p02 : 0 ≤ b.size 0 * b.size 2 := mul_nonneg (by omega) (by omega)
    match d with
    | 0 =>
      have := key _ _ h0 p12
      simp only [if_true, if_false, Fin.reduceEq]
      calc _ = b.size 0 * (b.size 1 * b.size 2) := by ring
        _ ≤ _ := this
        _ = _ := by simp only [A3.get]; ring!
    | 1 =>
      have := key _ _ h1 p02
      simp only [if_true, if_false, Fin.reduceEq]
      calc _ = b.size 1 * (b.size 0 * b.size 2) := by ring
        _ ≤ _ := this
        _ = _ := by simp only [A3.get]; ring!
    | 2 =>
      have := key _ _ h2 p01
      simp only [if_true, if_false, Fin.reduceEq]
      calc _ = b.size 2 * (b.size 0 * b.size 1) := by ring
        _ ≤ _ := this
        _ = _ := by simp only [A3.get]; ring!

/-- Why there is an executor or not. -/
def kindOf (e : Option Executor) (b : Box) : Kind := if e.isSome then .run else if b.empty then .empty else .merged

/-- The situation of a rank. -/
def caseOf (mode : Mode) (halved : Bool) (nb : Nat) (s : Fin 4 → Option Shaper) (e : Fin 3 → Option Executor) (B : Fin 3 → Box)
    (inplace : Bool) : Case :=
  ⟨mode, halved, decide (1 < nb), (s 0).isSome, (s 1).isSome, (s 2).isSome, (s 3).isSome, kindOf (e 0) (B 0), kindOf (e 1) (B 1),
    kindOf (e 2) (B 2), inplace⟩

/-- The merged executors of a situation. -/
def Case.mergeOk (c : Case) : Bool :=
  (c.k0 ≠ .merged || (!c.s1 && !c.s2 && c.k1 = .merged && c.k2 = .run)) &&
  (c.k2 ≠ .merged || (!c.s1 && !c.s2 && c.k1 = .merged && c.k0 = .run)) &&
  (c.k1 ≠ .merged || (!c.s1 && c.k0 = .run) || (!c.s2 && c.k2 = .run))

theorem kindOf_run {e : Option Executor} {b : Box} : kindOf e b = .run ↔ e.isSome = true := by
  unfold kindOf; split_ifs <;> simp_all

theorem kindOf_empty {e : Option Executor} {b : Box} (h : e.isSome = true → b.empty = false) : kindOf e b = .empty ↔ b.empty = true := by
  unfold kindOf; split_ifs <;> simp_all

theorem kindOf_merged {e : Option Executor} {b : Box} : kindOf e b = .merged ↔ e = none ∧ b.empty = false := by
  unfold kindOf; cases e <;> simp

/-- The kind of the data at reshape `i` of a call. -/
def realStage (mode : Mode) (i : Fin 4) : Bool :=
  match mode with
  | .same => false
  | .r2c => decide (i = 0)
  | .c2r => decide (i = 3)

/-- The types of the arguments fit to the direction and the object. -/
structure ModeOk (mode : Mode) (fwd : Bool) (r2c : Option (Fin 3)) : Prop where
  forward : mode = .r2c → fwd = true
  backward : mode = .c2r → fwd = false
  same : mode = .same → r2c = none

/-- What is needed from the executors. -/
structure ExecsOk (K : Kernel α β) (mode : Mode) (r2c : Option (Fin 3)) (p : Plan) (o : Fft) (n : Nat) (fwd : Bool) (nb : Nat)
    (inplace : Nat → Bool) (ex : Nat → A3 (Option Executor)) (F : Fin 4 → Field α β) : Prop where
  types : ∀ i, (F i).isReal = realStage mode i
  present : ∀ r, r < n → ∀ k e, (ex r).get (execNo fwd k) = some e → (p.box r (execNo fwd k)).empty = false ∧
    GoodExec K (o.env fwd nb inplace r) k e (boxAt (p.after fwd k.castSucc) r) (boxAt (p.before fwd k.succ) r) (F k.castSucc) (F k.succ) ∧
    e.boxSize = (p.box r (execNo fwd k)).count ∧ e.complexSize = (p.cbox r (execNo fwd k)).count
  merged : ∀ r, r < n → ∀ k : Fin 3, (ex r).get (execNo fwd k) = none → (p.box r (execNo fwd k)).empty = false →
    r2c = none ∧ F k.castSucc = F k.succ

/-- What is needed from the arrays. -/
structure ArraysOk (K : Kernel α β) (mode : Mode) (p : Plan) (o : Fft) (n : Nat) (fwd : Bool) (nb : Nat) (inplace : Nat → Bool)
    (M : Nat → Int) (m0s : List (Mem α β)) (G : Field α β) : Prop where
  ranks : m0s.length = n
  input : ∀ (r : Nat) m0, m0s[r]? = some m0 → m0.input.isReal = decide (mode = .r2c)
  output : ∀ (r : Nat) m0, m0s[r]? = some m0 → m0.output.isReal = decide (mode = .c2r)
  inputSize : ∀ (r : Nat) m0, m0s[r]? = some m0 →
    nb * (boxAt (p.before fwd 0) r).points.card ≤ (if inplace r then m0.output else m0.input).size
  outputSize : ∀ (r : Nat) m0, m0s[r]? = some m0 → nb * (boxAt (p.after fwd 3) r).points.card ≤ m0.output.size
  start : ∀ (r : Nat) m0, m0s[r]? = some m0 → ∀ j, j < nb → HoldsSlot (boxAt (p.before fwd 0) r) j (if inplace r then m0.output else m0.input) G
  work : ∀ (r : Nat) m0, m0s[r]? = some m0 →
    nb * (commSize (shaperAt o.fwd r) (shaperAt o.bwd r) + M r) ≤ m0.work.length

/-- What is needed from the environment. -/
structure WorldOk (W : World α β) (p : Plan) (fwd : Bool) : Prop where
  stride : 0 < W.stride
  done : ∀ i, ArrivalOrder (p.before fwd i) (p.after fwd i) (W.done i)
  junk : ∀ i r l, (W.junk i r l).length = l.length
  junkReal : ∀ i r l, (W.junkReal i r l).length = l.length

section
variable {p : Plan} {r2c : Option (Fin 3)} {wi wo : Box} {n : Nat} {alg : Alg} {o : Fft} {ex : Nat → A3 (Option Executor)}
  {mode : Mode} {fwd : Bool} {nb : Nat} {inplace : Nat → Bool} {K : Kernel α β} {W : World α β} {F : Fin 4 → Field α β}
  {m0s : List (Mem α β)} {M : Nat → Int}

/-- The situation of rank `r` in the call. -/
def Plan.case (p : Plan) (mode : Mode) (r2c : Option (Fin 3)) (o : Fft) (fwd : Bool) (nb : Nat) (inplace : Nat → Bool) (r : Nat) : Case :=
  caseOf mode r2c.isSome nb (shaperAt (o.shapers fwd) r) (o.executors fwd r) (fun k => p.box r (execNo fwd k)) (inplace r)

theorem shapersOf_length {bin bout : List Box} {w : Box} (h : Redistribution bin bout w) {shs : List (Option Shaper)}
    (hs : shapersOf alg bin bout = .ok shs) : shs.length = bin.length := by
  rcases shapersOf_cases h alg with ⟨-, e⟩ | ⟨-, g, -, e⟩
  · rw [hs] at e; rw [Except.ok.inj e]; simp
  · rw [hs] at e; rw [Except.ok.inj e]; simp

theorem SetupOk.get (hs : SetupOk alg p o n ex) (hp : PlanFacts p r2c wi wo n) (fwd : Bool) {r : Nat} (hr : r < n) (i : Fin 4) :
    (o.shapers fwd i)[r]? = some (shaperAt (o.shapers fwd) r i) := by
  have hl := shapersOf_length (hp.call fwd i) (hs.shapers fwd i)
  rw [hp.lenBefore] at hl
  have := List.getElem?_eq_getElem (l := o.shapers fwd i) (i := r) (by omega)
  rw [shaperAt_get this]; exact this

theorem SetupOk.quiet (hs : SetupOk alg p o n ex) (hp : PlanFacts p r2c wi wo n) {r : Nat} (hr : r < n) {i : Fin 4}
    (h : shaperAt (o.shapers fwd) r i = none) : SameLayout (boxAt (p.before fwd i) r) (boxAt (p.after fwd i) r) := by
  refine null_layout (hp.call fwd i) alg (hs.shapers fwd i) ?_
  rw [hs.get hp fwd hr i, h]

theorem SetupOk.commGe (hs : SetupOk alg p o n ex) (hp : PlanFacts p r2c wi wo n) {r : Nat} (hr : r < n) {i : Fin 4} {sh : Shaper}
    (h : shaperAt (o.shapers fwd) r i = some sh) :
    (boxAt (p.before fwd i) r).count + (boxAt (p.after fwd i) r).count ≤ sh.sizeWorkspace ∧
    sh.sizeWorkspace ≤ commSize (shaperAt o.fwd r) (shaperAt o.bwd r) := by
  refine ⟨ws_ge (hp.call fwd i) alg (hs.shapers fwd i) (by rw [hs.get hp fwd hr i, h]), ?_⟩
  cases fwd with
  | true => exact le_commSize_fwd h
  | false => exact le_commSize_bwd h

theorem card_of_empty {b : Box} (h : b.empty = true) : b.points.card = 0 :=
  card_empty fun p hp => by rw [Box.empty_false_of_mem hp] at h; cases h

theorem not_mem_of_empty {b : Box} (h : b.empty = true) (q : A3 Int) : q ∉ b := fun hq => by
  rw [Box.empty_false_of_mem hq] at h; cases h

theorem SameLayout.empty {a b : Box} (h : SameLayout a b) : a.empty = b.empty := by
  cases ha : a.empty with
  | false =>
    obtain ⟨q, hq⟩ := Box.empty_false_iff_mem.1 ha
    exact (Box.empty_false_of_mem ((h.1 q).1 hq)).symm
  | true =>
    cases hb : b.empty with
    | true => rfl
    | false =>
      obtain ⟨q, hq⟩ := Box.empty_false_iff_mem.1 hb
      exact absurd ((h.1 q).2 hq) (not_mem_of_empty ha q)

/-- The boxes of an executor have the same size unless it changes the type. -/
theorem PlanFacts.cards (hp : PlanFacts p r2c wi wo n) (hm : ModeOk mode fwd r2c) {r : Nat} (hr : r < n) (k : Fin 3)
    (h : r2c = none ∨ realStage mode k.castSucc = realStage mode k.succ) : p.cbox r (execNo fwd k) = p.box r (execNo fwd k) := by
  refine hp.cbox_same hr ?_
  rcases h with h | h
  · exact .inl h
  · cases mode with
    | same => exact .inl (hm.same rfl)
    | r2c =>
      right
      rw [hm.forward rfl]
      match k with
      | 0 => simp [realStage] at h
      | 1 => decide
      | 2 => decide
    | c2r =>
      right
      rw [hm.backward rfl]
      match k with
      | 0 => decide
      | 1 => decide
      | 2 => simp [realStage, Fin.ext_iff] at h

theorem case_realAt (r : Nat) (i : Fin 4) : (p.case mode r2c o fwd nb inplace r).realAt i = realStage mode i := by
  unfold Case.realAt realStage Plan.case caseOf
  cases mode
  · rfl
  · match i with
    | 0 => rfl
    | 1 => rfl
    | 2 => rfl
    | 3 => rfl
  · match i with
    | 0 => rfl
    | 1 => rfl
    | 2 => rfl
    | 3 => rfl

theorem case_kind (r : Nat) (k : Fin 3) : (p.case mode r2c o fwd nb inplace r).kind k = kindOf (o.executors fwd r k) (p.box r (execNo fwd k)) := by
  match k with
  | 0 => rfl
  | 1 => rfl
  | 2 => rfl

theorem case_s (r : Nat) (i : Fin 4) : (p.case mode r2c o fwd nb inplace r).s i = (shaperAt (o.shapers fwd) r i).isSome := by
  match i with
  | 0 => rfl
  | 1 => rfl
  | 2 => rfl
  | 3 => rfl

theorem case_pattern (r : Nat) : (p.case mode r2c o fwd nb inplace r).pattern = patternOf (shaperAt (o.shapers fwd) r) (o.executors fwd r) (inplace r) := by
  have key : ∀ k : Fin 3, decide (kindOf (o.executors fwd r k) (p.box r (execNo fwd k)) = .run) = (o.executors fwd r k).isSome := by
    intro k
    rw [Bool.eq_iff_iff, decide_eq_true_iff, kindOf_run]
  simp only [Case.pattern, patternOf, Plan.case, caseOf, Pattern.mk.injEq, true_and, and_true]
  exact ⟨key 0, key 1, key 2⟩

/-- A box of a call is as large as the complex side of its executor if the data are complex. -/
theorem PlanFacts.boxB (hp : PlanFacts p r2c wi wo n) (hm : ModeOk mode fwd r2c) {r : Nat} (hr : r < n) (k : Fin 3)
    (h : realStage mode k.castSucc = false) : boxAt (p.after fwd k.castSucc) r = p.cbox r (execNo fwd k) := by
  rw [after_box]
  cases fwd with
  | false => rfl
  | true =>
    rw [if_pos rfl]
    symm
    refine hp.cards hm hr k ?_
    cases mode with
    | same => exact .inr rfl
    | r2c =>
      right
      rw [h]
      match k with
      | 0 => rfl
      | 1 => rfl
      | 2 => rfl
    | c2r => exact absurd (hm.backward rfl) (by simp)

theorem PlanFacts.boxA (hp : PlanFacts p r2c wi wo n) (hm : ModeOk mode fwd r2c) {r : Nat} (hr : r < n) (k : Fin 3)
    (h : realStage mode k.succ = false) : boxAt (p.before fwd k.succ) r = p.cbox r (execNo fwd k) := by
  rw [before_box]
  cases fwd with
  | true => rfl
  | false =>
    rw [if_neg (by simp)]
    symm
    refine hp.cards hm hr k ?_
    cases mode with
    | same => exact .inr rfl
    | c2r =>
      right
      rw [h]
      match k with
      | 0 => rfl
      | 1 => rfl
      | 2 => rfl
    | r2c => exact absurd (hm.forward rfl) (by simp)

theorem realStage_r2c {mode : Mode} {k : Fin 3} (h : realStage mode k.castSucc = true) : mode = .r2c ∧ k = 0 := by
  revert h; cases mode <;> revert k <;> decide

theorem realStage_c2r {mode : Mode} {k : Fin 3} (h : realStage mode k.succ = true) : mode = .c2r ∧ k = 2 := by
  revert h; cases mode <;> revert k <;> decide

theorem realStage_B {mode : Mode} (hm : ModeOk mode fwd r2c) {k : Fin 3} (h : realStage mode k.castSucc = true) (r : Nat) :
    boxAt (p.after fwd k.castSucc) r = p.box r (execNo fwd k) := by
  obtain ⟨h, -⟩ := realStage_r2c h
  rw [after_box, hm.forward h]; rfl

theorem realStage_A {mode : Mode} (hm : ModeOk mode fwd r2c) {k : Fin 3} (h : realStage mode k.succ = true) (r : Nat) :
    boxAt (p.before fwd k.succ) r = p.box r (execNo fwd k) := by
  obtain ⟨h, -⟩ := realStage_c2r h
  rw [before_box, hm.backward h]; rfl

/-- The situation of one rank in the call. -/
theorem plan_rank (hp : PlanFacts p r2c wi wo n) (hs : SetupOk alg p o n ex) (hm : ModeOk mode fwd r2c)
    (hx : ExecsOk K mode r2c p o n fwd nb inplace ex F) (ha : ArraysOk K mode p o n fwd nb inplace M m0s (F 0))
    (hK : ∀ a b, K.parts (K.join a b) = (a, b)) (hnb : 0 < nb) (hin : ∀ r, r < n → inplace r = true → mode = .same)
    (hM : ∀ r, r < n → ∀ x, (p.cbox r x).count ≤ M r) {r : Nat} {m0 : Mem α β} (hr : m0s[r]? = some m0) :
    RankOk K (o.env fwd nb inplace r) (p.case mode r2c o fwd nb inplace r) (trackOf (p.before fwd) (p.after fwd) F r) m0 := by
  have hrn : r < n := by rw [← ha.ranks]; exact (List.getElem?_eq_some_iff.1 hr).1
  have hE : (o.env fwd nb inplace r).nb = nb := rfl
  have hc0 := commSize_nonneg (shaperAt o.fwd r) (shaperAt o.bwd r)
  have htemp : ((o.env fwd nb inplace r).tempOff : Int) = nb * commSize (shaperAt o.fwd r) (shaperAt o.bwd r) := by
    unfold Env.tempOff
    exact Int.toNat_of_nonneg (mul_nonneg (Int.natCast_nonneg _) hc0)
  have room : ∀ x, (o.env fwd nb inplace r).tempOff + nb * (p.cbox r x).points.card ≤ m0.work.length := by
    intro x
    have h1 := ha.work r m0 hr
    have h2 := hM r hrn x
    rw [Box.count_eq_card] at h2
    have h3 : (nb : Int) * (commSize (shaperAt o.fwd r) (shaperAt o.bwd r) + (p.cbox r x).points.card) ≤ m0.work.length :=
      le_trans (mul_le_mul_of_nonneg_left (by omega) (Int.natCast_nonneg _)) h1
    rw [mul_add, ← htemp] at h3
    exact_mod_cast h3
  have some_of : ∀ k, (p.case mode r2c o fwd nb inplace r).kind k = .run → ∃ e, o.executors fwd r k = some e ∧ (ex r).get (execNo fwd k) = some e := by
    intro k hk
    rw [case_kind, kindOf_run, Option.isSome_iff_exists] at hk
    obtain ⟨e, he⟩ := hk
    exact ⟨e, he, by rw [← hs.executors fwd hrn, he]⟩
  refine ⟨hK, rfl, fun h => hin r hrn h, hnb, ?_, ?_, ?_, ?_, ?_, ?_, ?_, ?_, ?_, ?_, ?_, ?_, ?_, ?_, ?_, ?_, ?_, ?_⟩
  · -- many
    intro h
    have h : decide (1 < nb) = false := h
    have := of_decide_eq_false h
    show nb ≤ 1
    omega
  · intro i
    exact (hp.call fwd i).validIn _ (boxAt_mem (by rw [hp.lenBefore]; exact hrn))
  · intro i
    exact (hp.call fwd i).validOut _ (boxAt_mem (by rw [hp.lenAfter]; exact hrn))
  · intro i
    rw [case_realAt]; exact hx.types i
  · rw [ha.input r m0 hr]
    unfold Case.isReal Plan.case caseOf
    cases mode <;> rfl
  · rw [ha.output r m0 hr]
    unfold Case.isReal Plan.case caseOf
    cases mode <;> rfl
  · -- quiet
    intro i h
    rw [case_s] at h
    exact hs.quiet hp hrn (by simpa using h)
  · -- run
    intro k hk
    obtain ⟨e, he, he'⟩ := some_of k hk
    obtain ⟨h1, h2, h3, h4⟩ := hx.present r hrn k e he'
    refine ⟨e, he, h2, ?_, ?_⟩
    · rw [h3, show (k : Nat) + 1 = (k.succ : Fin 4) by simp, case_realAt, Box.count_eq_card]
      by_cases hre : realStage mode k.succ = true
      · rw [if_pos hre]
        show _ = ((boxAt (p.before fwd k.succ) r).points.card : Int)
        rw [realStage_A hm hre]
      · rw [if_neg hre]
        have hre : realStage mode k.succ = false := by simpa using hre
        show _ = ((boxAt (p.after fwd k.castSucc) r).points.card : Int)
        by_cases hre' : realStage mode k.castSucc = true
        · rw [realStage_B hm hre']
        · have hre' : realStage mode k.castSucc = false := by simpa using hre'
          rw [hp.boxB hm hrn k hre', hp.cards hm hrn k (.inr (by rw [hre, hre']))]
    · rw [h4, show (k : Nat) = (k.castSucc : Fin 4) by simp, case_realAt, Box.count_eq_card]
      by_cases hre : realStage mode k.castSucc = true
      · rw [if_pos hre]
        show _ = ((boxAt (p.before fwd k.succ) r).points.card : Int)
        have : realStage mode k.succ = false := by
          obtain ⟨rfl, rfl⟩ := realStage_r2c hre; rfl
        rw [hp.boxA hm hrn k this]
      · rw [if_neg hre]
        have hre : realStage mode k.castSucc = false := by simpa using hre
        show _ = ((boxAt (p.after fwd k.castSucc) r).points.card : Int)
        rw [hp.boxB hm hrn k hre]
  · -- empty
    intro k hk
    rw [case_kind] at hk
    have hb : (p.box r (execNo fwd k)).empty = true := by
      unfold kindOf at hk; split_ifs at hk with h1 h2
      exact h2
    have hcb := hp.cbox_empty hrn (execNo fwd k)
    rw [hb] at hcb
    constructor
    · show ∀ q, q ∉ boxAt (p.after fwd k.castSucc) r
      rw [after_box]; split
      · exact not_mem_of_empty hb
      · exact not_mem_of_empty hcb
    · show ∀ q, q ∉ boxAt (p.before fwd k.succ) r
      rw [before_box]; split
      · exact not_mem_of_empty hcb
      · exact not_mem_of_empty hb
  · -- merged
    intro k hk
    rw [case_kind, kindOf_merged, hs.executors fwd hrn] at hk
    obtain ⟨h1, h2⟩ := hx.merged r hrn k hk.1 hk.2
    have h3 := hx.types k.castSucc
    rw [h2, hx.types] at h3
    have hb : boxAt (p.after fwd k.castSucc) r = boxAt (p.before fwd k.succ) r := by
      rw [after_box, before_box, hp.cbox_same hrn (.inl h1)]
    refine ⟨?_, ?_, ?_⟩
    · rw [show (k : Nat) + 1 = (k.succ : Fin 4) by simp, case_realAt, h3, show (k : Nat) = (k.castSucc : Fin 4) by simp, case_realAt]
    · show SameLayout (boxAt (p.after fwd k.castSucc) r) (boxAt (p.before fwd k.succ) r)
      rw [hb]; exact SameLayout.refl _
    · intro j q _
      show (F k.castSucc).val j q = (F k.succ).val j q
      rw [h2]
  · -- cards
    intro k hk
    rw [show (k : Nat) + 1 = (k.succ : Fin 4) by simp, case_realAt, show (k : Nat) = (k.castSucc : Fin 4) by simp, case_realAt] at hk
    have : p.cbox r (execNo fwd k) = p.box r (execNo fwd k) := by
      refine hp.cards hm hrn k ?_
      rcases hk with hk | hk
      · left
        have hk : r2c.isSome = false := hk
        simpa using hk
      · exact .inr hk
    show (boxAt (p.before fwd k.succ) r).points.card = (boxAt (p.after fwd k.castSucc) r).points.card
    rw [after_box, before_box, this]
  · intro h
    have h : inplace r = false := h
    have := ha.inputSize r m0 hr
    rw [h] at this
    exact this
  · intro h
    have h : inplace r = true := h
    have := ha.inputSize r m0 hr
    rw [h] at this
    exact this
  · exact ha.outputSize r m0 hr
  · intro k hk
    rw [show (k : Nat) = (k.castSucc : Fin 4) by simp, case_realAt] at hk
    show _ + _ * (boxAt (p.after fwd k.castSucc) r).points.card ≤ _
    rw [hp.boxB hm hrn k hk]
    exact room _
  · intro k hk
    rw [show (k : Nat) = (k.castSucc : Fin 4) by simp, case_realAt] at hk
    show _ + _ * (boxAt (p.before fwd k.succ) r).points.card ≤ _
    have : realStage mode k.succ = false := by
      obtain ⟨rfl, rfl⟩ := realStage_r2c hk; rfl
    rw [hp.boxA hm hrn k this]
    exact room _
  · intro _ h
    have h : (shaperAt (o.shapers fwd) r 0).isSome = true := h
    obtain ⟨sh, hsh⟩ := Option.isSome_iff_exists.1 h
    obtain ⟨h1, h2⟩ := hs.commGe hp hrn hsh
    have h3 := Box.count_nonneg (boxAt (p.before fwd 0) r)
    rw [Box.count_eq_card (boxAt (p.after fwd 0) r)] at h1
    show nb * (boxAt (p.after fwd 0) r).points.card ≤ _
    have : (nb : Int) * (boxAt (p.after fwd 0) r).points.card ≤ nb * commSize (shaperAt o.fwd r) (shaperAt o.bwd r) :=
      mul_le_mul_of_nonneg_left (by omega) (Int.natCast_nonneg _)
    rw [← htemp] at this
    have : nb * (boxAt (p.after fwd 0) r).points.card ≤ (o.env fwd nb inplace r).tempOff := by exact_mod_cast this
    omega
  · intro _ h
    have h : (shaperAt (o.shapers fwd) r 3).isSome = true := h
    obtain ⟨sh, hsh⟩ := Option.isSome_iff_exists.1 h
    obtain ⟨h1, h2⟩ := hs.commGe hp hrn hsh
    have h3 := Box.count_nonneg (boxAt (p.after fwd 3) r)
    rw [Box.count_eq_card (boxAt (p.before fwd 3) r)] at h1
    show nb * (boxAt (p.before fwd 3) r).points.card ≤ _
    have : (nb : Int) * (boxAt (p.before fwd 3) r).points.card ≤ nb * commSize (shaperAt o.fwd r) (shaperAt o.bwd r) :=
      mul_le_mul_of_nonneg_left (by omega) (Int.natCast_nonneg _)
    rw [← htemp] at this
    have : nb * (boxAt (p.before fwd 3) r).points.card ≤ (o.env fwd nb inplace r).tempOff := by exact_mod_cast this
    omega

theorem case_consistent (hp : PlanFacts p r2c wi wo n) (hs : SetupOk alg p o n ex) (hm : ModeOk mode fwd r2c)
    (hx : ExecsOk K mode r2c p o n fwd nb inplace ex F) (hin : ∀ r, r < n → inplace r = true → mode = .same)
    {r : Nat} (hr : r < n) (hmerge : (p.case mode r2c o fwd nb inplace r).mergeOk = true) :
    (p.case mode r2c o fwd nb inplace r).consistent = true := by
  have hmg : ∀ k : Fin 3, (p.case mode r2c o fwd nb inplace r).kind k = .merged → r2c = none ∧ realStage mode k.castSucc = realStage mode k.succ := by
    intro k hk
    rw [case_kind, kindOf_merged, hs.executors fwd hr] at hk
    obtain ⟨h1, h2⟩ := hx.merged r hr k hk.1 hk.2
    refine ⟨h1, ?_⟩
    rw [← hx.types, h2, hx.types]
  have hem : ∀ k : Fin 3, (p.case mode r2c o fwd nb inplace r).kind k = .empty ↔ (p.box r (execNo fwd k)).empty = true := by
    intro k
    rw [case_kind]
    refine kindOf_empty fun h => ?_
    rw [hs.executors fwd hr] at h
    obtain ⟨e, he⟩ := Option.isSome_iff_exists.1 h
    exact (hx.present r hr k e he).1
  have hbe : ∀ k : Fin 3, (boxAt (p.after fwd k.castSucc) r).empty = (p.box r (execNo fwd k)).empty := by
    intro k
    rw [after_box]; split
    · rfl
    · exact hp.cbox_empty hr _
  have hae : ∀ k : Fin 3, (boxAt (p.before fwd k.succ) r).empty = (p.box r (execNo fwd k)).empty := by
    intro k
    rw [before_box]; split
    · exact hp.cbox_empty hr _
    · rfl
  have q1 : (p.case mode r2c o fwd nb inplace r).s1 = false → (p.box r (execNo fwd 0)).empty = (p.box r (execNo fwd 1)).empty := by
    intro h
    have h : (shaperAt (o.shapers fwd) r 1).isSome = false := h
    rw [← hae 0, ← hbe 1]
    exact (hs.quiet hp hr (by simpa using h)).empty
  have q2 : (p.case mode r2c o fwd nb inplace r).s2 = false → (p.box r (execNo fwd 1)).empty = (p.box r (execNo fwd 2)).empty := by
    intro h
    have h : (shaperAt (o.shapers fwd) r 2).isSome = false := h
    rw [← hae 1, ← hbe 2]
    exact (hs.quiet hp hr (by simpa using h)).empty
  have m0 := hmg 0
  have m1 := hmg 1
  have m2 := hmg 2
  have e0 := hem 0
  have e1 := hem 1
  have e2 := hem 2
  have hmode : (p.case mode r2c o fwd nb inplace r).mode = mode := rfl
  have hhalf : (p.case mode r2c o fwd nb inplace r).halved = r2c.isSome := rfl
  have hinp : (p.case mode r2c o fwd nb inplace r).inplace = true → mode = .same := hin r hr
  simp only [Case.kind] at m0 m1 m2 e0 e1 e2
  have hms := hm.same
  revert hmerge hmode hhalf hinp m0 m1 m2 e0 e1 e2 q1 q2
  generalize p.case mode r2c o fwd nb inplace r = c
  intro hmerge q1 q2 m0 m1 m2 e0 e1 e2 hmode hhalf hinp
  have g1 : (c.s1 || decide (c.k0 = .empty) == decide (c.k1 = .empty)) = true := by
    cases h : c.s1 with
    | true => rfl
    | false => simp [e0, e1, q1 h]
  have g2 : (c.s2 || decide (c.k1 = .empty) == decide (c.k2 = .empty)) = true := by
    cases h : c.s2 with
    | true => rfl
    | false => simp [e1, e2, q2 h]
  unfold Case.mergeOk at hmerge
  unfold Case.consistent
  simp only [Bool.and_eq_true] at hmerge ⊢
  obtain ⟨⟨a1, a2⟩, a3⟩ := hmerge
  refine ⟨⟨⟨⟨⟨⟨⟨⟨g1, g2⟩, a1⟩, a2⟩, a3⟩, ?_⟩, ?_⟩, ?_⟩, ?_⟩
  · rw [hmode]
    cases h : c.inplace with
    | false => rfl
    | true => simp [hinp h]
  · rw [hmode, hhalf]
    cases r2c with
    | none => rfl
    | some d =>
      have : mode ≠ .same := fun h => by cases hms h
      have n0 : c.k0 ≠ .merged := fun h => by cases (m0 h).1
      have n1 : c.k1 ≠ .merged := fun h => by cases (m1 h).1
      have n2 : c.k2 ≠ .merged := fun h => by cases (m2 h).1
      simp [this, n0, n1, n2]
  · rw [hmode]
    cases mode
    · rfl
    · have n0 : c.k0 ≠ .merged := fun h => by simpa [realStage] using (m0 h).2
      simp [n0]
    · rfl
  · rw [hmode]
    cases mode
    · rfl
    · rfl
    · have n2 : c.k2 ≠ .merged := fun h => by simpa [realStage, Fin.ext_iff] using (m2 h).2
      simp [n2]

/-- The largest executor of a rank. -/
theorem maxBox_le (hs : SetupOk alg p o n ex) (hp : PlanFacts p r2c wi wo n)
    (hx : ExecsOk K mode r2c p o n fwd nb inplace ex F) {r : Nat} (hr : r < n) (k : Fin 3) {B : Int}
    (hB : ∀ x, (p.cbox r x).count ≤ B) :
    sizeOr0 Executor.boxSize (o.executors fwd r k) ≤ max (p.box r 0).count B := by
  rw [hs.executors fwd hr]
  have h0 := Box.count_nonneg (p.box r 0)
  cases h : (ex r).get (execNo fwd k) with
  | none => exact le_max_of_le_left h0
  | some e =>
    obtain ⟨-, -, h3, -⟩ := hx.present r hr k e h
    show e.boxSize ≤ _
    rw [h3]
    by_cases hx0 : execNo fwd k = 0
    · rw [hx0]; exact le_max_left _ _
    · rw [← hp.cbox_same hr (.inr hx0)]
      exact le_max_of_le_right (hB _)

theorem real_room {nb : Nat} {q comm M ws b0 other : Int} {len : Nat} (hq0 : 0 ≤ q) (hq : q ≤ max b0 M) (hb : b0 ≤ q) (hw : other + b0 ≤ ws)
    (ho : 0 ≤ other) (hc : ws ≤ comm) (hM : b0 ≤ 2 * M) (hb0 : 0 ≤ b0) (hlen : nb * (comm + M) ≤ len) :
    nb * b0 ≤ 2 * (nb * q).toNat ∧ (nb * q).toNat ≤ len ∧ nb * ws ≤ 2 * (len - (nb * q).toNat : Nat) := by
  have hn : (0 : Int) ≤ nb := Int.natCast_nonneg _
  have e : ((nb * q).toNat : Int) = nb * q := Int.toNat_of_nonneg (mul_nonneg hn hq0)
  have hqq : q ≤ comm + M ∧ ws ≤ 2 * (comm + M - q) := by
    rcases le_max_iff.1 hq with h | h <;> omega
  have h1 : (nb : Int) * q ≤ nb * (comm + M) := mul_le_mul_of_nonneg_left hqq.1 hn
  have h2 : ((nb * q).toNat : Int) ≤ len := by rw [e]; omega
  have h2' : (nb * q).toNat ≤ len := by exact_mod_cast h2
  refine ⟨?_, h2', ?_⟩
  · rw [e]
    have : (nb : Int) * b0 ≤ nb * q := mul_le_mul_of_nonneg_left hb hn
    have : 0 ≤ (nb : Int) * q := mul_nonneg hn hq0
    omega
  · rw [Int.natCast_sub h2', e]
    have h3 : (nb : Int) * ws ≤ nb * (2 * (comm + M - q)) := mul_le_mul_of_nonneg_left hqq.2 hn
    have : (nb : Int) * (2 * (comm + M - q)) = 2 * (nb * (comm + M) - nb * q) := by ring
    omega

theorem plan_call (hp : PlanFacts p r2c wi wo n) (hs : SetupOk alg p o n ex) (hm : ModeOk mode fwd r2c)
    (hx : ExecsOk K mode r2c p o n fwd nb inplace ex F) (ha : ArraysOk K mode p o n fwd nb inplace M m0s (F 0)) (hW : WorldOk W p fwd)
    (hK : ∀ a b, K.parts (K.join a b) = (a, b)) (hnb : 0 < nb) (hin : ∀ r, r < n → inplace r = true → mode = .same)
    (hM : ∀ r, r < n → ∀ x, (p.cbox r x).count ≤ M r)
    (hmerge : ∀ r, r < n → (p.case mode r2c o fwd nb inplace r).mergeOk = true)
    (hbad : ∀ r, r < n → (p.case mode r2c o fwd nb inplace r).bad = false) :
    CallOk K W mode alg o fwd nb inplace m0s (p.case mode r2c o fwd nb inplace) (p.before fwd) (p.after fwd)
      (fun i => worldAt wi wo (stageOf fwd i)) F := by
  have hbox : ∀ r, r < n → (p.box r 0).count ≤ 2 * M r := by
    intro r hr
    refine le_trans ?_ (mul_le_mul_of_nonneg_left (hM r hr 0) (by norm_num))
    rw [hp.cbox_zero hr]
    cases r2c with
    | none => have := Box.count_nonneg (p.box r 0); simp only; omega
    | some d => exact r2c_half _ d
  refine ⟨hp.call fwd, hs.shapers fwd, ?_, fun _ => rfl, case_pattern, fun r m0 h => plan_rank hp hs hm hx ha hK hnb hin hM h, ?_, ha.start,
    hW.stride, hW.done, hW.junk, hW.junkReal, ?_, ?_⟩
  · intro i; rw [ha.ranks, hp.lenBefore]
  · intro r hr
    rw [ha.ranks] at hr
    exact (runs_iff (case_consistent hp hs hm hx hin hr (hmerge r hr))).2 (hbad r hr)
  · intro hmode r m0 sh hr hsh q
    have hrn : r < n := by rw [← ha.ranks]; exact (List.getElem?_eq_some_iff.1 hr).1
    obtain ⟨h1, h2⟩ := hs.commGe hp hrn hsh
    have hf := hm.forward hmode
    have hbx : boxAt (p.after fwd 0) r = p.box r 0 := by rw [hf]; rfl
    have hx0 : execNo fwd 0 = 0 := by rw [hf]; rfl
    rw [hbx] at h1 ⊢
    have hmax : ∀ k, sizeOr0 Executor.boxSize (o.executors fwd r k) ≤ max (p.box r 0).count (M r) := fun k => maxBox_le hs hp hx hrn k (hM r hrn)
    have hqe : q = max (max (sizeOr0 Executor.boxSize (o.executors fwd r 0)) (sizeOr0 Executor.boxSize (o.executors fwd r 1)))
        (sizeOr0 Executor.boxSize (o.executors fwd r 2)) := by
      show realCut mode _ = _
      rw [hmode]; rfl
    have hq1 : q ≤ max (p.box r 0).count (M r) := by
      rw [hqe]; exact max_le (max_le (hmax 0) (hmax 1)) (hmax 2)
    have hq2 : (p.box r 0).count ≤ q := by
      rw [hqe]
      refine le_trans ?_ (le_trans (le_max_left _ _) (le_max_left _ _))
      rw [hs.executors fwd hrn, hx0]
      cases he : (ex r).get 0 with
      | some e =>
        have := (hx.present r hrn 0 e (by rw [hx0]; exact he)).2.2.1
        rw [hx0] at this
        exact this.symm.le
      | none =>
        show _ ≤ (0 : Int)
        by_contra hne
        have hne : (p.box r 0).empty = false := Box.count_pos_iff.1 (by omega)
        have := (hx.merged r hrn 0 (by rw [hx0]; exact he) (by rw [hx0]; exact hne)).2
        have h3 := hx.types 0
        have h4 := hx.types 1
        rw [show F 0 = F 1 from this, h4, hmode] at h3
        simp [realStage] at h3
    have hb0 := Box.count_nonneg (p.box r 0)
    have key := real_room (le_trans hb0 hq2) hq1 hq2 h1 (Box.count_nonneg _) h2 (hbox r hrn) hb0 (ha.work r m0 hr)
    rw [Box.count_eq_card] at key
    exact ⟨by exact_mod_cast key.1, key.2⟩
  · intro hmode r m0 sh hr hsh q
    have hrn : r < n := by rw [← ha.ranks]; exact (List.getElem?_eq_some_iff.1 hr).1
    obtain ⟨h1, h2⟩ := hs.commGe hp hrn hsh
    have hf := hm.backward hmode
    have hbx : boxAt (p.before fwd 3) r = p.box r 0 := by rw [hf]; rfl
    have hx0 : execNo fwd 2 = 0 := by rw [hf]; rfl
    rw [hbx] at h1 ⊢
    have hmax : ∀ k, sizeOr0 Executor.boxSize (o.executors fwd r k) ≤ max (p.box r 0).count (M r) := fun k => maxBox_le hs hp hx hrn k (hM r hrn)
    have hqe : q = sizeOr0 Executor.boxSize (o.executors fwd r 2) := by
      show realCut mode _ = _
      rw [hmode]; rfl
    have hq1 : q ≤ max (p.box r 0).count (M r) := by
      rw [hqe]; exact hmax 2
    have hq2 : (p.box r 0).count ≤ q := by
      rw [hqe, hs.executors fwd hrn, hx0]
      cases he : (ex r).get 0 with
      | some e =>
        have := (hx.present r hrn 2 e (by rw [hx0]; exact he)).2.2.1
        rw [hx0] at this
        exact this.symm.le
      | none =>
        show _ ≤ (0 : Int)
        by_contra hne
        have hne : (p.box r 0).empty = false := Box.count_pos_iff.1 (by omega)
        have := (hx.merged r hrn 2 (by rw [hx0]; exact he) (by rw [hx0]; exact hne)).2
        have h3 := hx.types 2
        have h4 := hx.types 3
        rw [show F 2 = F 3 from this, h4, hmode] at h3
        simp [realStage, Fin.ext_iff] at h3
    have hb0 := Box.count_nonneg (p.box r 0)
    have key := real_room (le_trans hb0 hq2) hq1 hq2 (show (boxAt (p.after fwd 3) r).count + (p.box r 0).count ≤ _ by omega) (Box.count_nonneg _) h2 (hbox r hrn) hb0 (ha.work r m0 hr)
    rw [Box.count_eq_card] at key
    exact ⟨by exact_mod_cast key.1, key.2⟩

end
end Verif
