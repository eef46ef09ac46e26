import Verif.Fortran

/-!
# The variables of a Fortran program and the objects in memory
-/

namespace Verif

section
variable {α ω κ : Type}

/-- A plan has one owner. -/
def OneOwner (vars : Nat → Option (Nat × Bool)) : Prop := ∀ v w k, vars v = some (k, true) → vars w = some (k, true) → v = w

/-- The owner of a plan exists. -/
def OwnedBy (vars : Nat → Option (Nat × Bool)) (k : Nat) : Prop := ∃ v, vars v = some (k, true)

theorem owned_update {vars : Nat → Option (Nat × Bool)} (hu : OneOwner vars) {v : Nat} {h : Option (Nat × Bool)} {k : Nat} :
    OwnedBy (Function.update vars v h) k ↔ h = some (k, true) ∨ (OwnedBy vars k ∧ vars v ≠ some (k, true)) := by
  constructor
  · rintro ⟨w, hw⟩
    by_cases e : w = v
    · subst e
      rw [Function.update_self] at hw
      exact .inl hw
    · rw [Function.update_of_ne e] at hw
      exact .inr ⟨⟨w, hw⟩, fun hv => e (hu _ _ _ hw hv)⟩
  · rintro (rfl | ⟨⟨w, hw⟩, hv⟩)
    · exact ⟨v, Function.update_self ..⟩
    · have e : w ≠ v := fun e => hv (e ▸ hw)
      exact ⟨w, by rw [Function.update_of_ne e]; exact hw⟩

theorem oneOwner_update {vars : Nat → Option (Nat × Bool)} (hu : OneOwner vars) {v : Nat} {h : Option (Nat × Bool)}
    (hh : ∀ k, h = some (k, true) → ¬ OwnedBy vars k) : OneOwner (Function.update vars v h) := by
  intro a b k ha hb
  by_cases ea : a = v <;> by_cases eb : b = v
  · rw [ea, eb]
  · subst ea
    rw [Function.update_self] at ha
    rw [Function.update_of_ne eb] at hb
    exact absurd ⟨b, hb⟩ (hh k ha)
  · subst eb
    rw [Function.update_self] at hb
    rw [Function.update_of_ne ea] at ha
    exact absurd ⟨a, ha⟩ (hh k hb)
  · rw [Function.update_of_ne ea] at ha
    rw [Function.update_of_ne eb] at hb
    exact hu _ _ _ ha hb

/-- What the memory holds: the objects of the plans in `L`. -/
def HeapIs (heap : Nat → Option (Nat × ω)) (addr : Nat → Nat) (plans : List ω) (L : Nat → Prop) : Prop :=
  ∀ a k x, heap a = some (k, x) ↔ addr k = a ∧ plans[k]? = some x ∧ L k

/-- All the high addresses are free. -/
def FreeAbove (heap : Nat → Option (Nat × ω)) : Prop := ∃ n, ∀ a, n ≤ a → heap a = none

/-- The wrapper that a variable holds. -/
def wrapperOf (addr : Nat → Nat) : Option (Nat × Bool) → SwigWrapper
  | none => .null
  | some (k, mine) => ⟨some ⟨addr k, k⟩, mine, false⟩

/-- The state of the process is the expected one. -/
structure Agrees (s : FState ω κ) (t : FSpec ω κ) (addr : Nat → Nat) : Prop where
  made : s.made = t.plans.length
  events : s.events = t.events
  vars : ∀ v, s.vars v = wrapperOf addr (t.vars v)
  owner : OneOwner t.vars
  bound : ∀ v k mine, t.vars v = some (k, mine) → k < t.plans.length
  heap : HeapIs s.heap addr t.plans (OwnedBy t.vars)
  free : FreeAbove s.heap

theorem agrees_start : Agrees (FState.start : FState ω κ) FSpec.start fun _ => 0 where
  made := rfl
  events := rfl
  vars _ := rfl
  owner _ _ _ h := by cases h
  bound _ _ _ h := by cases h
  heap a k x := by
    constructor
    · intro h
      cases h
    · rintro ⟨-, h, -⟩
      simp [FSpec.start] at h
  free := ⟨0, fun _ _ => rfl⟩

theorem HeapIs.congr {heap : Nat → Option (Nat × ω)} {addr : Nat → Nat} {plans : List ω} {L M : Nat → Prop} (h : HeapIs heap addr plans L)
    (e : ∀ k, L k ↔ M k) : HeapIs heap addr plans M := fun a k x => by rw [h a k x, e k]

theorem HeapIs.at {heap : Nat → Option (Nat × ω)} {addr : Nat → Nat} {plans : List ω} {L : Nat → Prop} (h : HeapIs heap addr plans L) {k : Nat}
    (hk : k < plans.length) (hL : L k) : heap (addr k) = some (k, plans[k]) := (h _ _ _).2 ⟨rfl, List.getElem?_eq_getElem hk, hL⟩

theorem HeapIs.addr_ne {heap : Nat → Option (Nat × ω)} {addr : Nat → Nat} {plans : List ω} {L : Nat → Prop} (h : HeapIs heap addr plans L) {j k : Nat}
    (hj : j < plans.length) (hLj : L j) (hk : k < plans.length) (hLk : L k) (e : j ≠ k) : addr j ≠ addr k := by
  intro ea
  have h1 := h.at hj hLj
  rw [ea, h.at hk hLk] at h1
  simp only [Option.some.injEq, Prod.mk.injEq] at h1
  exact e h1.1.symm

/-- The deletion of the object of a plan. -/
theorem HeapIs.delete {heap : Nat → Option (Nat × ω)} {addr : Nat → Nat} {plans : List ω} {L : Nat → Prop} (h : HeapIs heap addr plans L) {j : Nat}
    (hj : j < plans.length) (hL : L j) : HeapIs (Function.update heap (addr j) none) addr plans fun k => L k ∧ k ≠ j := by
  intro a k x
  by_cases e : a = addr j
  · subst e
    rw [Function.update_self]
    constructor
    · intro h
      cases h
    · rintro ⟨h1, h2, h3, h4⟩
      have hk : k < plans.length := (List.getElem?_eq_some_iff.1 h2).1
      exact absurd h1 (h.addr_ne hk h3 hj hL h4)
  · rw [Function.update_of_ne e, h a k x]
    constructor
    · rintro ⟨h1, h2, h3⟩
      refine ⟨h1, h2, h3, ?_⟩
      rintro rfl
      exact e h1.symm
    · rintro ⟨h1, h2, h3, -⟩
      exact ⟨h1, h2, h3⟩

/-- The creation of an object. -/
theorem HeapIs.create {heap : Nat → Option (Nat × ω)} {addr : Nat → Nat} {plans : List ω} {L : Nat → Prop} (h : HeapIs heap addr plans L)
    (hL : ∀ k, L k → k < plans.length) {a : Nat} (ha : heap a = none) (x : ω) :
    HeapIs (Function.update heap a (some (plans.length, x))) (Function.update addr plans.length a) (plans ++ [x])
      fun k => L k ∨ k = plans.length := by
  intro b k y
  by_cases ek : k = plans.length
  · subst ek
    rw [Function.update_self]
    have e1 : (plans ++ [x])[plans.length]? = some x := by simp
    rw [e1]
    by_cases eb : b = a
    · subst eb
      rw [Function.update_self]
      simp [eq_comm]
    · rw [Function.update_of_ne eb, h b]
      constructor
      · rintro ⟨-, h2, -⟩
        simp at h2
      · rintro ⟨h1, -⟩
        exact absurd h1.symm eb
  · rw [Function.update_of_ne ek]
    by_cases eb : b = a
    · subst eb
      rw [Function.update_self]
      constructor
      · intro h1
        simp only [Option.some.injEq, Prod.mk.injEq] at h1
        exact absurd h1.1.symm ek
      · rintro ⟨h1, -, h3⟩
        have h4 : L k := h3.resolve_right ek
        have h5 := h.at (hL k h4) h4
        rw [h1, ha] at h5
        cases h5
    · rw [Function.update_of_ne eb, h b k y]
      constructor
      · rintro ⟨h1, h2, h3⟩
        have := hL k h3
        exact ⟨h1, by rw [List.getElem?_append_left this]; exact h2, .inl h3⟩
      · rintro ⟨h1, h2, h3⟩
        have h4 : L k := h3.resolve_right ek
        have := hL k h4
        rw [List.getElem?_append_left this] at h2
        exact ⟨h1, h2, h4⟩

theorem FreeAbove.set {heap : Nat → Option (Nat × ω)} (h : FreeAbove heap) (a : Nat) (v : Option (Nat × ω)) : FreeAbove (Function.update heap a v) := by
  obtain ⟨n, hn⟩ := h
  refine ⟨max n (a + 1), fun b hb => ?_⟩
  rw [Function.update_of_ne (by omega)]
  exact hn b (by omega)

theorem Agrees.living {s : FState ω κ} {t : FSpec ω κ} {addr : Nat → Nat} (h : Agrees s t addr) {k : Nat} (hk : OwnedBy t.vars k) : k < t.plans.length := by
  obtain ⟨v, hv⟩ := hk
  exact h.bound _ _ _ hv

theorem delete_at {s : FState ω κ} {a k : Nat} {x : ω} (h : s.heap a = some (k, x)) :
    s.delete (some ⟨a, k⟩) = .ok { s with heap := Function.update s.heap a none, events := s.events ++ [.destroyed k] } := by
  unfold FState.delete
  simp only [h, if_true]

/-- The state after variable `v` has got another value and its plan has been destroyed if it was the owner. -/
theorem Agrees.assign {s s' : FState ω κ} {t : FSpec ω κ} {addr : Nat → Nat} (h : Agrees s t addr) {v : Nat} {z : Option (Nat × Bool)}
    (hz : ∀ k mine, z = some (k, mine) → mine = false ∧ k < t.plans.length)
    (hs : (if (s.vars v).own then s.delete (s.vars v).cptr else .ok s) = .ok s') :
    Agrees { s' with vars := Function.update s'.vars v (wrapperOf addr z) } (t.assign v z) addr := by
  have hz' : ∀ k, z ≠ some (k, true) := fun k e => by cases (hz k true e).1
  have hu := h.owner
  have hv := h.vars v
  have hbound : ∀ w k mine, (t.assign v z).vars w = some (k, mine) → k < t.plans.length := by
    intro w k mine hw
    unfold FSpec.assign at hw
    dsimp only at hw
    by_cases e : w = v
    · subst e
      rw [Function.update_self] at hw
      exact (hz _ _ hw).2
    · rw [Function.update_of_ne e] at hw
      exact h.bound _ _ _ hw
  have hown : OneOwner (t.assign v z).vars := oneOwner_update hu fun k e => absurd e (hz' k)
  have hvars : ∀ w, Function.update s.vars v (wrapperOf addr z) w = wrapperOf addr ((t.assign v z).vars w) := by
    intro w
    unfold FSpec.assign
    dsimp only
    by_cases e : w = v
    · subst e
      rw [Function.update_self, Function.update_self]
    · rw [Function.update_of_ne e, Function.update_of_ne e, h.vars w]
  by_cases ho : ∃ j, t.vars v = some (j, true)
  · obtain ⟨j, hj⟩ := ho
    rw [hj] at hv
    have hjl := h.bound _ _ _ hj
    have hat := h.heap.at hjl ⟨v, hj⟩
    rw [hv] at hs
    unfold wrapperOf at hs
    simp only [if_true] at hs
    rw [delete_at hat] at hs
    cases hs
    refine ⟨h.made, ?_, hvars, hown, hbound, ?_, h.free.set _ _⟩
    · unfold FSpec.assign FSpec.drops
      simp only [hj, h.events]
    · refine (h.heap.delete hjl ⟨v, hj⟩).congr fun k => ?_
      unfold FSpec.assign
      dsimp only
      rw [owned_update hu]
      simp only [hz', false_or, hj, ne_eq, Option.some.injEq, Prod.mk.injEq, and_true]
      rw [eq_comm (a := k)]
  · have ho' : ∀ k, t.vars v ≠ some (k, true) := fun k e => ho ⟨k, e⟩
    have e1 : (s.vars v).own = false := by
      rw [hv]
      cases e : t.vars v with
      | none => rfl
      | some r =>
        obtain ⟨k, m⟩ := r
        cases m
        · rfl
        · exact absurd e (ho' k)
    rw [e1] at hs
    cases hs
    refine ⟨h.made, ?_, hvars, hown, hbound, ?_, h.free⟩
    · unfold FSpec.assign FSpec.drops
      dsimp only
      rw [h.events]
      split
      · rename_i j e
        exact absurd e (ho' j)
      · simp
    · refine h.heap.congr fun k => ?_
      unfold FSpec.assign
      dsimp only
      rw [owned_update hu]
      simp [hz', ho']

/-- Releasing the plan of an owner does not fail. -/
theorem Agrees.drop_ok {s : FState ω κ} {t : FSpec ω κ} {addr : Nat → Nat} (h : Agrees s t addr) (v : Nat) :
    ∃ s', (if (s.vars v).own then s.delete (s.vars v).cptr else .ok s) = .ok s' ∧ s'.vars = s.vars := by
  rw [h.vars v]
  cases e : t.vars v with
  | none => exact ⟨s, rfl, rfl⟩
  | some r =>
    obtain ⟨k, m⟩ := r
    cases m
    · exact ⟨s, rfl, rfl⟩
    · have hat := h.heap.at (h.bound _ _ _ e) ⟨v, e⟩
      exact ⟨_, delete_at hat, rfl⟩

/-- An assignment that destroys the plan of the owner `v`. -/
theorem drop_assign {s : FState ω κ} (self other : SwigWrapper) :
    s.copyAlias self other = (if self.own then s.delete self.cptr else .ok s).map fun s' => (other.capture, s') := by
  unfold FState.copyAlias FState.destroy
  split
  · cases s.delete self.cptr <;> rfl
  · rfl

theorem move_eq_copy {s : FState ω κ} (self other : SwigWrapper) : s.moveAlias self other = s.copyAlias self other := rfl

/-- An address that is free. -/
def Allocates (alloc : FState ω κ → Nat) : Prop := ∀ s : FState ω κ, (∃ a, s.heap a = none) → s.heap (alloc s) = none

theorem assign_same {t : FSpec ω κ} {v : Nat} {z : Option (Nat × Bool)} (h1 : t.vars v = none) (h2 : z = none) : t.assign v z = t := by
  unfold FSpec.assign FSpec.drops
  subst h2
  rw [h1]
  have e : Function.update t.vars v none = t.vars := by rw [← h1, Function.update_eq_self]
  simp [e]

/-- A plan without an owner at the end of the list is not owned. -/
theorem Agrees.fresh {s : FState ω κ} {t : FSpec ω κ} {addr : Nat → Nat} (h : Agrees s t addr) : ¬ OwnedBy t.vars t.plans.length := by
  rintro ⟨v, hv⟩
  exact lt_irrefl _ (h.bound _ _ _ hv)

variable {alloc : FState ω κ → Nat} {build : α → Res ω}

/-- The assignment of a new plan. -/
theorem Agrees.make {s : FState ω κ} {t : FSpec ω κ} {addr : Nat → Nat} (h : Agrees s t addr) {v : Nat} (x : ω) {a : Nat} (ha : s.heap a = none)
    (hp : ∀ k mine, t.vars v = some (k, mine) → t.Living k) :
    ∃ s', (s.wrapNew a x).2.opAssign v (s.wrapNew a x).1 = .ok s' ∧
      Agrees s' (t.create v x) (Function.update addr t.plans.length a) := by
  have hm := h.made
  have hu := h.owner
  have hcreate := h.heap.create (fun k hk => h.living hk) ha x
  have hv := h.vars v
  have hw : ∀ z : Option (Nat × Bool), (∀ k mine, z = some (k, mine) → k < t.plans.length) →
      wrapperOf (Function.update addr t.plans.length a) z = wrapperOf addr z := by
    intro z hz
    cases z with
    | none => rfl
    | some r =>
      obtain ⟨k, m⟩ := r
      have := hz k m rfl
      unfold wrapperOf
      dsimp only
      rw [Function.update_of_ne (by omega)]
  have hvars : ∀ w, Function.update s.vars v ⟨some ⟨a, s.made⟩, true, false⟩ w =
      wrapperOf (Function.update addr t.plans.length a) (Function.update t.vars v (some (t.plans.length, true)) w) := by
    intro w
    by_cases e : w = v
    · subst e
      rw [Function.update_self, Function.update_self]
      unfold wrapperOf
      dsimp only
      rw [Function.update_self, hm]
    · rw [Function.update_of_ne e, Function.update_of_ne e, hw _ fun k mine e => h.bound _ _ _ e, h.vars w]
  have hown : OneOwner (Function.update t.vars v (some (t.plans.length, true))) := by
    refine oneOwner_update hu fun k e => ?_
    cases e
    exact h.fresh
  have hbound : ∀ w k mine, Function.update t.vars v (some (t.plans.length, true)) w = some (k, mine) → k < (t.plans ++ [x]).length := by
    intro w k mine hwk
    rw [List.length_append, List.length_singleton]
    by_cases e : w = v
    · subst e
      rw [Function.update_self] at hwk
      cases hwk
      exact Nat.lt_succ_self _
    · rw [Function.update_of_ne e] at hwk
      have := h.bound _ _ _ hwk
      omega
  have hm' : s.made + 1 = (t.plans ++ [x]).length := by simp [hm]
  rw [← hm] at hcreate
  -- the wrapper of the variable before the assignment
  cases e : t.vars v with
  | none =>
    rw [e] at hv
    refine ⟨{ (s.wrapNew a x).2 with vars := Function.update s.vars v ⟨some ⟨a, s.made⟩, true, false⟩ }, ?_,
        ⟨hm', ?_, hvars, hown, hbound, ?_, h.free.set a (some (s.made, x))⟩⟩
    · unfold FState.opAssign FState.swigAssign FState.wrapNew
      dsimp only
      rw [hv]
      rfl
    · unfold FSpec.create FSpec.drops FState.wrapNew
      simp only [h.events, e, hm]
    · refine HeapIs.congr (by rw [← hm]; exact hcreate) fun k => ?_
      unfold FSpec.create
      rw [owned_update hu, e, hm]
      constructor
      · rintro (h1 | rfl)
        · exact .inr ⟨h1, by simp⟩
        · exact .inl rfl
      · rintro (h1 | ⟨h1, -⟩)
        · cases h1
          exact .inr rfl
        · exact .inl h1
  | some r =>
    obtain ⟨j, m⟩ := r
    rw [e] at hv
    have hj := hp j m e
    have hjl := h.bound _ _ _ e
    have hat := h.heap.at hjl hj
    have hne : addr j ≠ a := by
      intro e'
      rw [e', ha] at hat
      cases hat
    cases m with
    | false =>
      refine ⟨{ (s.wrapNew a x).2 with vars := Function.update s.vars v ⟨some ⟨a, s.made⟩, true, false⟩ }, ?_,
        ⟨hm', ?_, hvars, hown, hbound, ?_, h.free.set a (some (s.made, x))⟩⟩
      · unfold FState.opAssign FState.swigAssign FState.wrapNew
        dsimp only
        rw [hv]
        unfold wrapperOf FState.moveAlias
        simp only [hne, if_false, if_true]
        rfl
      · unfold FSpec.create FSpec.drops FState.wrapNew
        simp only [h.events, e, hm]
      · refine HeapIs.congr (by rw [← hm]; exact hcreate) fun k => ?_
        unfold FSpec.create
        rw [owned_update hu, e, hm]
        constructor
        · rintro (h1 | rfl)
          · exact .inr ⟨h1, by simp⟩
          · exact .inl rfl
        · rintro (h1 | ⟨h1, -⟩)
          · cases h1
            exact .inr rfl
          · exact .inl h1
    | true =>
      have hat' : Function.update s.heap a (some (s.made, x)) (addr j) = some (j, t.plans[j]) := by
        rw [Function.update_of_ne hne]
        exact hat
      have hdel := delete_at (s := (s.wrapNew a x).2) (a := addr j) (k := j) (x := t.plans[j]) hat'
      have hcd := hcreate.delete (j := j) (by simp; omega) (.inl hj)
      rw [Function.update_of_ne (by omega : j ≠ s.made)] at hcd
      refine ⟨{ (s.wrapNew a x).2 with
          heap := Function.update (Function.update s.heap a (some (s.made, x))) (addr j) none,
          vars := Function.update s.vars v ⟨some ⟨a, s.made⟩, true, false⟩,
          events := s.events ++ [.created s.made x] ++ [.destroyed j] }, ?_, ⟨hm', ?_, hvars, hown, hbound, ?_, (h.free.set a (some (s.made, x))).set (addr j) none⟩⟩
      · unfold FState.opAssign FState.swigAssign
        have e2 : (s.wrapNew a x).2.vars v = ⟨some ⟨addr j, j⟩, true, false⟩ := hv
        rw [e2]
        unfold FState.moveAlias FState.destroy
        rw [hdel]
        unfold FState.wrapNew
        simp only [hne, if_false, if_true]
        rfl
      · unfold FSpec.create FSpec.drops FState.wrapNew
        simp only [h.events, e, hm, List.append_assoc, List.singleton_append]
      · refine HeapIs.congr (by rw [← hm]; exact hcd) fun k => ?_
        unfold FSpec.create
        rw [owned_update hu, e]
        simp only [hm, Option.some.injEq, Prod.mk.injEq, and_true, ne_eq]
        constructor
        · rintro ⟨h1 | rfl, h2⟩
          · exact .inr ⟨h1, fun e => h2 e.symm⟩
          · exact .inl rfl
        · rintro (h1 | ⟨h1, h2⟩)
          · subst h1
            exact ⟨.inr rfl, by omega⟩
          · exact ⟨.inl h1, fun e => h2 e.symm⟩

/-- `v = w`. -/
theorem Agrees.copy {s : FState ω κ} {t : FSpec ω κ} {addr : Nat → Nat} (h : Agrees s t addr) {v w : Nat} {t' : FSpec ω κ}
    (hp : t.Permitted build (.copy v w)) (ht : t.step build (.copy v w) = .finished t') :
    ∃ s', s.opAssign v (s.vars w) = .ok s' ∧ Agrees s' t' addr := by
  have hv := h.vars v
  have hw := h.vars w
  unfold FSpec.Permitted at hp
  unfold FSpec.step at ht
  unfold FState.opAssign FState.swigAssign
  obtain ⟨s1, hs1, hs1v⟩ := h.drop_ok v
  cases ev : t.vars v with
  | none =>
    rw [ev] at hv
    have hs0 : (if (s.vars v).own then s.delete (s.vars v).cptr else .ok s) = .ok s := by rw [hv]; rfl
    cases ew : t.vars w with
    | none =>
      rw [ew] at hw
      simp only [ev, ew] at ht
      cases ht
      rw [hv, hw]
      refine ⟨_, rfl, ?_⟩
      have := h.assign (z := none) (by simp) hs0
      rw [assign_same ev rfl] at this
      exact this
    | some r =>
      obtain ⟨k, m⟩ := r
      rw [ew] at hw
      simp only [ev, ew] at ht
      cases ht
      rw [hv, hw]
      refine ⟨_, rfl, ?_⟩
      exact h.assign (z := some (k, false)) (by rintro k' m' e; cases e; exact ⟨rfl, h.bound _ _ _ ew⟩) hs0
  | some r =>
    obtain ⟨j, mj⟩ := r
    rw [ev] at hv
    cases ew : t.vars w with
    | none =>
      rw [ew] at hw
      simp only [ev, ew] at ht hp
      subst hp
      cases ht
      have ha := h.assign (z := none) (by simp) hs1
      rw [hv] at hs1
      unfold wrapperOf at hs1
      simp only [if_true] at hs1
      rw [hv, hw]
      unfold wrapperOf FState.destroy
      dsimp only [SwigWrapper.null]
      rw [hs1]
      exact ⟨_, rfl, ha⟩
    | some r =>
      obtain ⟨k, mk⟩ := r
      rw [ew] at hw
      simp only [ev, ew] at ht hp
      by_cases e : j = k
      · subst e
        rw [if_pos rfl] at ht
        cases ht
        rw [hv, hw]
        unfold wrapperOf
        dsimp only
        rw [if_pos rfl]
        refine ⟨_, rfl, ?_⟩
        have e2 : Function.update s.vars v ⟨some ⟨addr j, j⟩, mj, false⟩ = s.vars := by
          have : s.vars v = ⟨some ⟨addr j, j⟩, mj, false⟩ := hv
          rw [← this, Function.update_eq_self]
        show Agrees { s with vars := Function.update s.vars v ⟨some ⟨addr j, j⟩, mj, false⟩ } t addr
        rw [e2]
        exact h
      · rw [if_neg e] at ht
        cases ht
        obtain ⟨rfl, h1, h2⟩ := hp.resolve_left e
        have hne := h.heap.addr_ne (h.living h1) h1 (h.living h2) h2 e
        have ha := h.assign (z := some (k, false)) (by rintro k' m' e; cases e; exact ⟨rfl, h.bound _ _ _ ew⟩) hs1
        have hd := drop_assign (s := s) (s.vars v) (s.vars w)
        rw [hs1] at hd
        rw [hv, hw] at hd ⊢
        unfold wrapperOf at hd ⊢
        dsimp only at hd ⊢
        rw [if_neg hne, if_neg (by simp), hd]
        exact ⟨_, rfl, ha⟩

/-- `release`. -/
theorem Agrees.release {s : FState ω κ} {t : FSpec ω κ} {addr : Nat → Nat} (h : Agrees s t addr) (v : Nat) :
    ∃ s', s.release v = .ok s' ∧ Agrees s' (t.assign v none) addr := by
  obtain ⟨s1, hs1, hs1v⟩ := h.drop_ok v
  have ha := h.assign (z := none) (by simp) hs1
  unfold FState.release
  dsimp only
  rw [hs1]
  exact ⟨_, rfl, ha⟩

/-- Another method. -/
theorem Agrees.method {s : FState ω κ} {t : FSpec ω κ} {addr : Nat → Nat} (h : Agrees s t addr) {v : Nat} {c : κ} {t' : FSpec ω κ}
    (hp : t.Permitted build (.call v c)) (ht : t.step build (.call v c) = .finished t') : ∃ s', s.method v c = .ok s' ∧ Agrees s' t' addr := by
  have hv := h.vars v
  unfold FSpec.Permitted at hp
  unfold FSpec.step at ht
  unfold FState.method
  cases ev : t.vars v with
  | none =>
    rw [ev] at hv
    simp only [ev] at ht
    cases ht
    rw [hv]
    refine ⟨_, rfl, ⟨h.made, by simp only [h.events], h.vars, h.owner, h.bound, h.heap, h.free⟩⟩
  | some r =>
    obtain ⟨k, m⟩ := r
    rw [ev] at hv
    have hL := hp k m ev
    have hk := h.bound _ _ _ ev
    have hat := h.heap.at hk hL
    simp only [ev, List.getElem?_eq_getElem hk] at ht
    cases ht
    rw [hv]
    unfold wrapperOf
    simp only [hat, if_true]
    exact ⟨_, rfl, ⟨h.made, by simp only [h.events], h.vars, h.owner, h.bound, h.heap, h.free⟩⟩

/-- Programs end in the same way. -/
inductive SameEnd (s : FOutcome (FState ω κ)) (t : FOutcome (FSpec ω κ)) : Prop where
  | finished {s' t' addr} : s = .finished s' → t = .finished t' → Agrees s' t' addr → SameEnd s t
  | terminated {e s' t' addr} : s = .terminated e s' → t = .terminated e t' → Agrees s' t' addr → SameEnd s t

/-- One statement. -/
theorem step_agrees (halloc : Allocates alloc) {s : FState ω κ} {t : FSpec ω κ} {addr : Nat → Nat} (h : Agrees s t addr) {x : FStmt α κ}
    (hp : t.Permitted build x) : SameEnd (s.step alloc build x) (t.step build x) := by
  cases x with
  | make v args =>
    unfold FState.step FSpec.step
    unfold FSpec.Permitted at hp
    cases e : build args with
    | error e' =>
      cases e'
      · exact absurd e hp.1
      · dsimp only
        rw [e]
        exact .terminated rfl rfl h
      · dsimp only
        rw [e]
        exact .terminated rfl rfl h
    | ok y =>
      obtain ⟨n, hn⟩ := h.free
      obtain ⟨s', h1, h2⟩ := h.make (v := v) y (halloc s ⟨n, hn n le_rfl⟩) hp.2
      dsimp only
      rw [e]
      dsimp only
      rw [h1]
      exact .finished rfl rfl h2
  | copy v w =>
    have e : ∃ t', t.step build (.copy v w) = .finished t' := ⟨_, rfl⟩
    obtain ⟨t', e⟩ := e
    obtain ⟨s', h1, h2⟩ := h.copy hp e
    rw [e]
    unfold FState.step
    dsimp only
    rw [h1]
    exact .finished rfl rfl h2
  | release v =>
    obtain ⟨s', h1, h2⟩ := h.release v
    unfold FState.step FSpec.step
    dsimp only
    rw [h1]
    exact .finished rfl rfl h2
  | call v c =>
    have e : ∃ t', t.step build (.call v c) = .finished t' := ⟨_, rfl⟩
    obtain ⟨t', e⟩ := e
    obtain ⟨s', h1, h2⟩ := h.method hp e
    rw [e]
    unfold FState.step
    dsimp only
    rw [h1]
    exact .finished rfl rfl h2

/-- Whole programs. -/
theorem run_agrees (halloc : Allocates alloc) {prog : List (FStmt α κ)} : ∀ {s : FState ω κ} {t : FSpec ω κ} {addr : Nat → Nat}, Agrees s t addr →
    t.PermittedRun build prog → SameEnd (s.run alloc build prog) (t.run build prog) := by
  induction prog with
  | nil => intro s t addr h _; exact .finished rfl rfl h
  | cons x xs ih =>
    intro s t addr h hp
    unfold FSpec.PermittedRun at hp
    unfold FState.run FSpec.run
    cases step_agrees halloc h hp.1 with
    | finished h1 h2 h3 =>
      rw [h1, h2]
      exact ih h3 (hp.2 _ h2)
    | terminated h1 h2 h3 =>
      rw [h1, h2]
      exact .terminated rfl rfl h3

/-! ## Lifetimes -/

theorem lifetimes_snoc {l : List (FEvent ω κ)} {e : FEvent ω κ} (h : Lifetimes l) (he : Orderly l e) : Lifetimes (l ++ [e]) := by
  intro pre a post hl
  rcases List.eq_nil_or_concat post with rfl | ⟨q, b, rfl⟩
  · have := List.append_inj' hl rfl
    obtain ⟨rfl, h2⟩ := this
    cases h2
    exact he
  · have e2 : l ++ [e] = (pre ++ a :: q) ++ [b] := by rw [hl]; simp [List.concat_eq_append]
    obtain ⟨rfl, -⟩ := List.append_inj' e2 rfl
    exact h _ _ _ rfl

/-- The events of the expected runs. -/
structure Told (t : FSpec ω κ) : Prop where
  lifetimes : Lifetimes t.events
  created : ∀ k x, .created k x ∈ t.events ↔ t.plans[k]? = some x
  destroyed : ∀ k, .destroyed k ∈ t.events ↔ k < t.plans.length ∧ ¬ t.Living k
  owner : OneOwner t.vars
  bound : ∀ v k mine, t.vars v = some (k, mine) → k < t.plans.length

theorem told_start : Told (FSpec.start : FSpec ω κ) where
  lifetimes pre e post h := by simp [FSpec.start] at h
  created k x := by simp [FSpec.start]
  destroyed k := by simp [FSpec.start]
  owner _ _ _ h := by cases h
  bound _ _ _ h := by cases h

theorem Told.created_lt {t : FSpec ω κ} (h : Told t) (k : Nat) : (∃ x, .created k x ∈ t.events) ↔ k < t.plans.length := by
  simp only [h.created]
  constructor
  · rintro ⟨x, hx⟩
    exact (List.getElem?_eq_some_iff.1 hx).1
  · intro hk
    exact ⟨_, List.getElem?_eq_getElem hk⟩

theorem Told.assign {t : FSpec ω κ} (h : Told t) {v : Nat} {z : Option (Nat × Bool)} (hz : ∀ k mine, z = some (k, mine) → mine = false ∧ k < t.plans.length) :
    Told (t.assign v z) := by
  have hz' : ∀ k, z ≠ some (k, true) := fun k e => by cases (hz k true e).1
  have hliv : ∀ k, (t.assign v z).Living k ↔ t.Living k ∧ t.vars v ≠ some (k, true) := by
    intro k
    have := owned_update h.owner (v := v) (h := z) (k := k)
    simp only [hz', false_or] at this
    exact this
  have hown : OneOwner (t.assign v z).vars := oneOwner_update h.owner fun k e => absurd e (hz' k)
  have hbound : ∀ w k mine, (t.assign v z).vars w = some (k, mine) → k < t.plans.length := by
    intro w k mine hw
    unfold FSpec.assign at hw
    dsimp only at hw
    by_cases e : w = v
    · subst e
      rw [Function.update_self] at hw
      exact (hz _ _ hw).2
    · rw [Function.update_of_ne e] at hw
      exact h.bound _ _ _ hw
  by_cases ho : ∃ j, t.vars v = some (j, true)
  · obtain ⟨j, hj⟩ := ho
    have ed : t.drops v = [.destroyed j] := by unfold FSpec.drops; rw [hj]
    have ee : (t.assign v z).events = t.events ++ [.destroyed j] := by unfold FSpec.assign; rw [ed]
    refine ⟨?_, ?_, ?_, hown, hbound⟩
    · rw [ee]
      refine lifetimes_snoc h.lifetimes ⟨(h.created_lt j).2 (h.bound _ _ _ hj), fun hd => ?_⟩
      exact ((h.destroyed j).1 hd).2 ⟨v, hj⟩
    · intro k x
      rw [ee]
      simp only [List.mem_append, List.mem_singleton, reduceCtorEq, or_false]
      exact h.created k x
    · intro k
      rw [ee, hliv]
      simp only [List.mem_append, List.mem_singleton, FEvent.destroyed.injEq, h.destroyed, hj, Option.some.injEq, Prod.mk.injEq, and_true, ne_eq]
      constructor
      · rintro (⟨h1, h2⟩ | rfl)
        · exact ⟨h1, fun h3 => h2 h3.1⟩
        · exact ⟨h.bound _ _ _ hj, fun h3 => h3.2 rfl⟩
      · rintro ⟨h1, h2⟩
        by_cases e : k = j
        · exact .inr e
        · exact .inl ⟨h1, fun h3 => h2 ⟨h3, fun e' => e e'.symm⟩⟩
  · have ho' : ∀ k, t.vars v ≠ some (k, true) := fun k e => ho ⟨k, e⟩
    have ed : t.drops v = [] := by
      unfold FSpec.drops
      split
      · rename_i j e
        exact absurd e (ho' j)
      · rfl
    have ee : (t.assign v z).events = t.events := by unfold FSpec.assign; rw [ed]; simp
    refine ⟨by rw [ee]; exact h.lifetimes, fun k x => by rw [ee]; exact h.created k x, fun k => ?_, hown, hbound⟩
    rw [ee, hliv, h.destroyed]
    simp only [ne_eq, ho', not_false_iff, and_true]
    rfl

theorem told_step {t t' : FSpec ω κ} (h : Told t) {x : FStmt α κ} (hp : t.Permitted build x) (ht : t.step build x = .finished t') : Told t' := by
  unfold FSpec.step at ht
  cases x with
  | make v args =>
    dsimp only at ht
    cases e : build args with
    | error e' => rw [e] at ht; cases e' <;> cases ht
    | ok y =>
      rw [e] at ht
      cases ht
      -- first the plan is created, for a variable that does not exist, then it is assigned
      have hfresh : ¬ OwnedBy t.vars t.plans.length := by
        rintro ⟨w, hw⟩
        exact lt_irrefl _ (h.bound _ _ _ hw)
      have hliv : ∀ k, OwnedBy (Function.update t.vars v (some (t.plans.length, true))) k ↔ k = t.plans.length ∨ (t.Living k ∧ t.vars v ≠ some (k, true)) := by
        intro k
        have := owned_update h.owner (v := v) (h := some (t.plans.length, true)) (k := k)
        rw [this]
        simp only [Option.some.injEq, Prod.mk.injEq, and_true, eq_comm (a := t.plans.length)]
        rfl
      have hown : OneOwner (Function.update t.vars v (some (t.plans.length, true))) :=
        oneOwner_update h.owner fun k e => by cases e; exact hfresh
      have hbound : ∀ w k mine, Function.update t.vars v (some (t.plans.length, true)) w = some (k, mine) → k < (t.plans ++ [y]).length := by
        intro w k mine hwk
        rw [List.length_append, List.length_singleton]
        by_cases e : w = v
        · subst e
          rw [Function.update_self] at hwk
          cases hwk
          exact Nat.lt_succ_self _
        · rw [Function.update_of_ne e] at hwk
          have := h.bound _ _ _ hwk
          omega
      have hlife : Lifetimes (t.events ++ [.created t.plans.length y]) := lifetimes_snoc h.lifetimes fun j => h.created_lt j
      have hcreated : ∀ k x, (FEvent.created k x ∈ t.events ∨ (k = t.plans.length ∧ x = y)) ↔ (t.plans ++ [y])[k]? = some x := by
        intro k x
        rw [h.created, List.getElem?_append]
        by_cases e : k < t.plans.length
        · rw [if_pos e]
          constructor
          · rintro (h1 | h1)
            · exact h1
            · omega
          · exact .inl
        · rw [if_neg e]
          have e1 : t.plans[k]? = none := List.getElem?_eq_none (by omega)
          rw [e1]
          by_cases e2 : k = t.plans.length
          · subst e2
            simp [eq_comm]
          · have e3 : ([y] : List ω)[k - t.plans.length]? = none := List.getElem?_eq_none (by simp; omega)
            rw [e3]
            simp [e2]
      by_cases ho : ∃ j, t.vars v = some (j, true)
      · obtain ⟨j, hj⟩ := ho
        have ed : t.drops v = [.destroyed j] := by unfold FSpec.drops; rw [hj]
        have hjl := h.bound _ _ _ hj
        have ee : t.events ++ FEvent.created t.plans.length y :: t.drops v = (t.events ++ [.created t.plans.length y]) ++ [.destroyed j] := by rw [ed]; simp
        refine ⟨?_, ?_, ?_, hown, hbound⟩
        · dsimp only [FSpec.create]
          rw [ee]
          refine lifetimes_snoc hlife ⟨?_, ?_⟩
          · obtain ⟨z, hz⟩ := (h.created_lt j).2 hjl
            exact ⟨z, List.mem_append_left _ hz⟩
          · simp only [List.mem_append, List.mem_singleton, reduceCtorEq, or_false]
            intro hd
            exact ((h.destroyed j).1 hd).2 ⟨v, hj⟩
        · intro k x
          dsimp only [FSpec.create]
          rw [ee, ← hcreated]
          simp only [List.mem_append, List.mem_singleton, reduceCtorEq, or_false, FEvent.created.injEq]
        · intro k
          have : (t.create v y).Living k ↔
            k = t.plans.length ∨ (t.Living k ∧ t.vars v ≠ some (k, true)) := hliv k
          rw [this]
          dsimp only [FSpec.create]
          rw [ee]
          simp only [List.mem_append, List.mem_singleton, reduceCtorEq, or_false, FEvent.destroyed.injEq, h.destroyed, hj, Option.some.injEq, Prod.mk.injEq,
            and_true, ne_eq, List.length_append, List.length_singleton]
          constructor
          · rintro (⟨h1, h2⟩ | rfl)
            · exact ⟨by omega, by rintro (h3 | h3); exacts [by omega, h2 h3.1]⟩
            · exact ⟨by omega, by rintro (h3 | h3); exacts [by omega, h3.2 rfl]⟩
          · rintro ⟨h1, h2⟩
            by_cases e : k = j
            · exact .inr e
            · refine .inl ⟨?_, fun h3 => h2 (.inr ⟨h3, fun e' => e e'.symm⟩)⟩
              by_contra h4
              exact h2 (.inl (by omega))
      · have ho' : ∀ k, t.vars v ≠ some (k, true) := fun k e => ho ⟨k, e⟩
        have ed : t.drops v = [] := by
          unfold FSpec.drops
          split
          · rename_i j e
            exact absurd e (ho' j)
          · rfl
        refine ⟨by dsimp only [FSpec.create]; rw [ed]; exact hlife, ?_, ?_, hown, hbound⟩
        · intro k x
          dsimp only [FSpec.create]
          rw [ed, ← hcreated]
          simp only [List.mem_append, List.mem_singleton, FEvent.created.injEq]
        · intro k
          have : (t.create v y).Living k ↔
            k = t.plans.length ∨ (t.Living k ∧ t.vars v ≠ some (k, true)) := hliv k
          rw [this]
          dsimp only [FSpec.create]
          rw [ed]
          simp only [List.mem_append, List.mem_singleton, reduceCtorEq, or_false, h.destroyed, ho', ne_eq, not_false_iff, and_true, List.length_append,
            List.length_singleton]
          constructor
          · rintro ⟨h1, h2⟩
            exact ⟨by omega, by rintro (h3 | h3); exacts [by omega, h2 h3]⟩
          · rintro ⟨h1, h2⟩
            refine ⟨?_, fun h3 => h2 (.inr h3)⟩
            by_contra h4
            exact h2 (.inl (by omega))
  | copy v w =>
    cases ev : t.vars v with
    | none =>
      cases ew : t.vars w with
      | none => simp only [ev, ew] at ht; cases ht; exact h
      | some r =>
        obtain ⟨k, m⟩ := r
        simp only [ev, ew] at ht
        cases ht
        exact h.assign (by rintro k' m' e; cases e; exact ⟨rfl, h.bound _ _ _ ew⟩)
    | some r =>
      obtain ⟨j, mj⟩ := r
      cases ew : t.vars w with
      | none =>
        simp only [ev, ew] at ht
        cases ht
        exact h.assign (by simp)
      | some r =>
        obtain ⟨k, m⟩ := r
        simp only [ev, ew] at ht
        split at ht
        · cases ht
          exact h
        · cases ht
          exact h.assign (by rintro k' m' e; cases e; exact ⟨rfl, h.bound _ _ _ ew⟩)
  | release v =>
    cases ht
    exact h.assign (by simp)
  | call v c =>
    cases ev : t.vars v with
    | none =>
      simp only [ev] at ht
      cases ht
      exact ⟨lifetimes_snoc h.lifetimes trivial, fun k x => by simp [h.created], fun k => by simp [h.destroyed]; exact fun _ => Iff.rfl, h.owner, h.bound⟩
    | some r =>
      obtain ⟨k, m⟩ := r
      have hk := h.bound _ _ _ ev
      simp only [ev, List.getElem?_eq_getElem hk] at ht
      cases ht
      refine ⟨lifetimes_snoc h.lifetimes ⟨(h.created _ _).2 (List.getElem?_eq_getElem hk), fun hd => ?_⟩, fun k x => by simp [h.created],
        fun k => by simp [h.destroyed]; exact fun _ => Iff.rfl, h.owner, h.bound⟩
      exact ((h.destroyed k).1 hd).2 (hp k m ev)

theorem told_run {prog : List (FStmt α κ)} : ∀ {t t' : FSpec ω κ}, Told t → t.PermittedRun build prog →
    (t.run build prog = .finished t' ∨ ∃ e, t.run build prog = .terminated e t') → Told t' := by
  induction prog with
  | nil =>
    rintro t t' h - (h1 | ⟨e, h1⟩)
    · cases h1
      exact h
    · cases h1
  | cons x xs ih =>
    intro t t' h hp ht
    unfold FSpec.PermittedRun at hp
    unfold FSpec.run at ht
    cases e : t.step build x with
    | finished t1 =>
      rw [e] at ht
      exact ih (told_step h hp.1 e) (hp.2 _ e) ht
    | terminated e' t1 =>
      rw [e] at ht
      have h2 : t1 = t := by
        unfold FSpec.step at e
        cases x with
        | make v args =>
          dsimp only at e
          split at e <;> cases e
          rfl
        | copy v w => cases e
        | release v => cases e
        | call v c => cases e
      rcases ht with h1 | ⟨e'', h1⟩
      · cases h1
      · cases h1
        rw [h2]
        exact h
    | undefined =>
      rw [e] at ht
      rcases ht with h1 | ⟨e'', h1⟩ <;> cases h1

end
end Verif
