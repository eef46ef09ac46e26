import Verif.PlanVarsLemmas

/-!
# Plans in variables of C++: the invariant
-/

namespace Verif

/-- The place of a value of a plan: its members are the ones of the constructor call `p`. -/
structure HoldsPlan (B : VarBuild) (p : Nat) (P : HeldPlan) : Prop where
  named : NamedFrom p 0 P.members
  kinds : kindsOf P.members = B.conf p
  parts : ∀ o ∈ objectsOf P.members, PartsOk B.lib o
  queue : P.queue = if B.magma then some p else none

/-- The constructors make thirteen members, the boxes are always there. -/
def VarBuild.Sound (B : VarBuild) : Prop := ∀ p, (B.conf p).length = 13 ∧ ∃ a b l, B.conf p = some a :: some b :: l

/-- The variables of a rank are what the movements say. -/
structure VarInv (B : VarBuild) (o : Owners) (σ : VarState) : Prop where
  next : σ.next = o.next
  absent : ∀ v, o.holds v = none → σ.vars v = none
  empty : ∀ v, o.holds v = some none → ∃ P, σ.vars v = some P ∧ (∀ x ∈ P.members, x = none) ∧ P.queue = none
  full : ∀ v p, o.holds v = some (some p) → p < o.next ∧ ∃ P, σ.vars v = some P ∧ HoldsPlan B p P ∧ ∀ r, r.plan = p → phaseOf σ.log r = some (stand P.all r)
  once : ∀ v w p, o.holds v = some (some p) → o.holds w = some (some p) → v = w
  later : ∀ r, o.next ≤ r.plan → phaseOf σ.log r = some .fresh
  over : ∀ r, (∀ v, o.holds v ≠ some (some r.plan)) → phaseOf σ.log r = some .fresh ∨ phaseOf σ.log r = some .gone

variable {B : VarBuild}

theorem inv_start : VarInv B .start .start where
  next := rfl
  absent := fun _ _ => rfl
  empty := fun _ h => by cases h
  full := fun _ _ h => by cases h
  once := fun _ _ _ h => by cases h
  later := fun _ _ => rfl
  over := fun _ _ => Or.inl rfl

theorem HoldsPlan.length {p : Nat} {P : HeldPlan} (hB : B.Sound) (h : HoldsPlan B p P) : P.members.length = 13 := by
  have := congrArg List.length h.kinds
  rw [(hB p).1] at this
  simpa [kindsOf] using this

theorem HoldsPlan.all_plan {p : Nat} {P : HeldPlan} (h : HoldsPlan B p P) {r : Resource} (hr : r ∈ P.all) : r.plan = p := by
  unfold HeldPlan.all at hr
  rcases List.mem_append.1 hr with hr | hr
  · rw [h.queue] at hr
    cases hm : B.magma with
    | true =>
      rw [hm] at hr
      have : r = queueOf p := by simpa using hr
      rw [this]; rfl
    | false => rw [hm] at hr; cases hr
  · exact (mem_membersAll_plan h.named hr).1

/-- The variables seen through the owners. -/
theorem VarInv.isSome {o : Owners} {σ : VarState} (h : VarInv B o σ) (v : Nat) : (σ.vars v).isSome ↔ o.holds v ≠ none := by
  cases e : o.holds v with
  | none => simp [h.absent v e]
  | some x =>
    cases x with
    | none =>
      obtain ⟨P, e', -⟩ := h.empty v e
      simp [e']
    | some p =>
      obtain ⟨-, P, e', -⟩ := h.full v p e
      simp [e']

theorem stand_eq {A A' : List Resource} (h : ∀ r, r ∈ A' ↔ r ∈ A) (r : Resource) : stand A' r = stand A r := by simp [stand, h]

/-- The relation between the two runs after a statement. -/
def Agree (B : VarBuild) : Option Owners → Option VarState → Prop
  | some o, some σ => VarInv B o σ
  | none, none => True
  | _, _ => False

section
variable {o : Owners} {σ : VarState}

theorem step_make (hB : B.Sound) (h : VarInv B o σ) (v : Nat) : Agree B (o.step (.make v : VarOp CallArgs)) (σ.step B (.make v)) := by
  by_cases e : o.holds v = none
  case neg =>
    have : (σ.vars v).isSome := (h.isSome v).2 e
    simp [Owners.step, VarState.step, e, this, Agree]
  have hn : ¬ (σ.vars v).isSome := by rw [h.isSome v]; simpa using e
  simp only [Owners.step, VarState.step, e, hn, if_true, if_false, Agree, Bool.false_eq_true]
  rw [h.next]
  set ms := freshMembers B.lib o.next (B.conf o.next) with hms
  have hl : ms.length = 13 := by simp [hms, freshMembers, (hB o.next).1]
  set P : HeldPlan := ⟨ms, if B.magma then some o.next else none⟩ with hP
  have hh : HoldsPlan B o.next P := ⟨fresh_named B.lib o.next (B.conf o.next) 0, fresh_kinds _ _ _, fresh_parts _ _ _, rfl⟩
  have hperm := constructed_all (magma := B.magma) (p := o.next) hl
  have hnodup : (constructed B.magma o.next ms).Nodup := by
    rw [hperm.nodup_iff]
    have h1 := destroyed_nodup (P := P) hh.named (hh.length hB).le
    have h2 : P.destroyed.Perm P.all := by
      unfold HeldPlan.destroyed HeldPlan.all membersAll
      refine List.Perm.append_left _ ?_
      refine (List.Perm.flatMap_right _ (List.reverse_perm _)).trans ?_
      exact List.Perm.flatMap_left _ fun o _ => released_perm o
    exact h2.nodup_iff.1 h1
  have hgrow : Grow [] P.all ((constructed B.magma o.next ms).map .acquire) :=
    Grow.acquires hnodup (fun _ _ h => by cases h) fun r => by rw [hperm.mem_iff]; simp [hP]
  have hother : ∀ r, r.plan ≠ o.next → phaseOf (σ.log ++ (constructed B.magma o.next ms).map .acquire) r = phaseOf σ.log r := by
    intro r hr
    rw [phaseOf_append]
    refine phaseFrom_other fun ev hev => ?_
    obtain ⟨y, hy, rfl⟩ := List.mem_map.1 hev
    intro e'
    exact hr (e' ▸ hh.all_plan (hperm.mem_iff.1 hy))
  refine ⟨rfl, ?_, ?_, ?_, ?_, ?_, ?_⟩
  · intro w hw
    by_cases e' : w = v
    · subst e'; simp at hw
    · simp only [Function.update_of_ne e'] at hw ⊢; exact h.absent w hw
  · intro w hw
    by_cases e' : w = v
    · subst e'; simp at hw
    · simp only [Function.update_of_ne e'] at hw ⊢; exact h.empty w hw
  · intro w p hw
    by_cases e' : w = v
    · subst e'
      have hp : o.next = p := by simpa using hw
      subst hp
      refine ⟨Nat.lt_succ_self _, P, by simp, hh, fun r hr => ?_⟩
      show phaseOf (σ.log ++ _) r = _
      rw [phaseOf_append, h.later r hr.ge]
      exact hgrow r
    · simp only [Function.update_of_ne e'] at hw
      obtain ⟨hlt, Q, hQ, hH, hph⟩ := h.full w p hw
      refine ⟨Nat.lt_succ_of_lt hlt, Q, by rw [← hQ]; exact Function.update_of_ne e' _ _, hH, fun r hr => ?_⟩
      show phaseOf (σ.log ++ _) r = _
      rw [hother r (by omega), hph r hr]
  · intro a b p ha hb
    by_cases ea : a = v <;> by_cases eb : b = v
    · rw [ea, eb]
    · subst ea
      simp only [Function.update_of_ne eb] at hb
      have hp : o.next = p := by simpa using ha
      have := (h.full b p hb).1
      omega
    · subst eb
      simp only [Function.update_of_ne ea] at ha
      have hp : o.next = p := by simpa using hb
      have := (h.full a p ha).1
      omega
    · simp only [Function.update_of_ne ea] at ha
      simp only [Function.update_of_ne eb] at hb
      exact h.once a b p ha hb
  · intro r hr
    have hr' : o.next + 1 ≤ r.plan := hr
    show phaseOf (σ.log ++ _) r = _
    rw [hother r (by omega)]
    exact h.later r (by omega)
  · intro r hr
    have hne : r.plan ≠ o.next := by
      intro e'
      have := hr v
      simp [e'] at this
    show phaseOf (σ.log ++ _) r = _ ∨ phaseOf (σ.log ++ _) r = _
    rw [hother r hne]
    refine h.over r fun w hw => ?_
    have := hr w
    by_cases e' : w = v
    · subst e'; rw [e] at hw; cases hw
    · simp [Function.update_of_ne e', hw] at this

/-- A value goes from `w` to `v`; whatever `v` had has been given back by the events `es`. -/
theorem move_inv (hm : B.magma = false) (h : VarInv B o σ) {v w : Nat} (hvw : v ≠ w) {x : Option Nat} (hx : o.holds w = some x) {P : HeldPlan}
    (hP : σ.vars w = some P) {es : List ResEvent}
    (hsame : ∀ r, o.holds v ≠ some (some r.plan) → phaseOf (σ.log ++ es) r = phaseOf σ.log r)
    (hgone : ∀ r, o.holds v = some (some r.plan) → phaseOf (σ.log ++ es) r = some .fresh ∨ phaseOf (σ.log ++ es) r = some .gone) :
    VarInv B ⟨o.next, Function.update (Function.update o.holds v (some x)) w (some none)⟩
      ⟨σ.next, Function.update (Function.update σ.vars v (some P)) w (some P.moved), σ.log ++ es⟩ := by
  have hold : ∀ u p, Function.update (Function.update o.holds v (some x)) w (some none) u = some (some p) → u ≠ w ∧ ((u = v ∧ x = some p) ∨ (u ≠ v ∧ o.holds u = some (some p))) := by
    intro u p hu
    by_cases eu : u = w
    · subst eu; simp at hu
    · simp only [Function.update_of_ne eu] at hu
      by_cases ev : u = v
      · subst ev; simp at hu; exact ⟨eu, Or.inl ⟨rfl, hu⟩⟩
      · simp only [Function.update_of_ne ev] at hu; exact ⟨eu, Or.inr ⟨ev, hu⟩⟩
  refine ⟨h.next, ?_, ?_, ?_, ?_, ?_, ?_⟩
  · intro u hu
    by_cases eu : u = w
    · subst eu; simp at hu
    · simp only [Function.update_of_ne eu] at hu ⊢
      by_cases ev : u = v
      · subst ev; simp at hu
      · simp only [Function.update_of_ne ev] at hu ⊢; exact h.absent u hu
  · intro u hu
    by_cases eu : u = w
    · subst eu
      refine ⟨P.moved, by simp, ?_, ?_⟩
      · intro y hy
        obtain ⟨z, -, rfl⟩ := List.mem_map.1 hy
        rfl
      · show P.queue = none
        cases x with
        | none =>
          obtain ⟨Q, hQ, -, hq⟩ := h.empty u hx
          rw [hP] at hQ; cases hQ; exact hq
        | some p =>
          obtain ⟨-, Q, hQ, hH, -⟩ := h.full u p hx
          rw [hP] at hQ; cases hQ
          rw [hH.queue, hm]; rfl
    · simp only [Function.update_of_ne eu] at hu ⊢
      by_cases ev : u = v
      · subst ev
        simp only [Function.update_self, Option.some.injEq] at hu
        subst hu
        obtain ⟨Q, hQ, hQ'⟩ := h.empty w hx
        rw [hP] at hQ; cases hQ
        exact ⟨P, by simp, hQ'⟩
      · simp only [Function.update_of_ne ev] at hu ⊢; exact h.empty u hu
  · intro u p hu
    obtain ⟨eu, ⟨rfl, rfl⟩ | ⟨ev, hu'⟩⟩ := hold u p hu
    · obtain ⟨hlt, Q, hQ, hH, hph⟩ := h.full w p hx
      rw [hP] at hQ; cases hQ
      refine ⟨hlt, P, by simp [Function.update_of_ne eu], hH, fun r hr => ?_⟩
      show phaseOf (σ.log ++ es) r = _
      rw [hsame r, hph r hr]
      rw [hr]
      exact fun e' => hvw (h.once u w p e' hx)
    · obtain ⟨hlt, Q, hQ, hH, hph⟩ := h.full u p hu'
      refine ⟨hlt, Q, by simp [Function.update_of_ne eu, Function.update_of_ne ev, hQ], hH, fun r hr => ?_⟩
      show phaseOf (σ.log ++ es) r = _
      rw [hsame r, hph r hr]
      rw [hr]
      exact fun e' => ev (h.once u v p hu' e')
  · intro a b p ha hb
    obtain ⟨-, ⟨rfl, rfl⟩ | ⟨eva, ha'⟩⟩ := hold a p ha
    · obtain ⟨ebw, ⟨rfl, -⟩ | ⟨evb, hb'⟩⟩ := hold b p hb
      · rfl
      · exact absurd (h.once b w p hb' hx) ebw
    · obtain ⟨ebw, ⟨rfl, rfl⟩ | ⟨evb, hb'⟩⟩ := hold b p hb
      · exact absurd (h.once a w p ha' hx) (hold a p ha).1
      · exact h.once a b p ha' hb'
  · intro r hr
    show phaseOf (σ.log ++ es) r = _
    rw [hsame r, h.later r hr]
    intro e'
    have := (h.full v _ e').1
    have : o.next ≤ r.plan := hr
    omega
  · intro r hr
    show phaseOf (σ.log ++ es) r = _ ∨ phaseOf (σ.log ++ es) r = _
    by_cases e' : o.holds v = some (some r.plan)
    · exact hgone r e'
    · rw [hsame r e']
      refine h.over r fun u hu => ?_
      by_cases ew : u = w
      · subst ew
        rw [hx] at hu
        have := hr v
        simp only [Function.update_of_ne hvw, Function.update_self] at this
        exact this hu
      · have := hr u
        simp only [Function.update_of_ne ew] at this
        by_cases ev : u = v
        · subst ev; exact e' hu
        · simp only [Function.update_of_ne ev] at this; exact this hu

theorem step_moveInit (hm : B.magma = false) (h : VarInv B o σ) (v w : Nat) :
    Agree B (o.step (.moveInit v w : VarOp CallArgs)) (σ.step B (.moveInit v w)) := by
  by_cases e : o.holds v = none
  case neg =>
    have : (σ.vars v).isSome := (h.isSome v).2 e
    simp [Owners.step, VarState.step, e, this, Agree]
  have hn : ¬ (σ.vars v).isSome := by rw [h.isSome v]; simpa using e
  simp only [Owners.step, VarState.step, e, hn, if_true, if_false, Bool.false_eq_true]
  cases hx : o.holds w with
  | none => rw [h.absent w hx]; trivial
  | some x =>
    obtain ⟨P, hP⟩ := Option.isSome_iff_exists.1 ((h.isSome w).2 (by rw [hx]; simp))
    rw [hP]
    have hvw : v ≠ w := by rintro rfl; rw [e] at hx; cases hx
    have := move_inv hm h hvw hx hP (es := []) (fun r _ => by rw [List.append_nil]) (fun r hr => by rw [e] at hr; cases hr)
    rw [List.append_nil] at this
    exact this

/-- What happens to the resources of a plan when its members are given back. -/
theorem give_back (h : VarInv B o σ) {v : Nat} {Q : HeldPlan} (hQ : σ.vars v = some Q) {l : List Resource} (hn : l.Nodup) (hl : ∀ r, r ∈ l ↔ r ∈ Q.all) :
    (∀ r, o.holds v ≠ some (some r.plan) → phaseOf (σ.log ++ l.map .release) r = phaseOf σ.log r) ∧
    ∀ r, o.holds v = some (some r.plan) → phaseOf (σ.log ++ l.map .release) r = some .fresh ∨ phaseOf (σ.log ++ l.map .release) r = some .gone := by
  constructor
  · intro r hr
    rw [phaseOf_append]
    refine phaseFrom_other fun ev hev => ?_
    obtain ⟨y, hy, rfl⟩ := List.mem_map.1 hev
    have hy' := (hl y).1 hy
    intro e'
    have e'' : y = r := e'
    subst e''
    cases hv : o.holds v with
    | none => rw [h.absent v hv] at hQ; cases hQ
    | some x =>
      cases x with
      | none =>
        obtain ⟨P, hP, hnone, hq⟩ := h.empty v hv
        rw [hQ] at hP; cases hP
        unfold HeldPlan.all membersAll at hy'
        rw [hq] at hy'
        obtain ⟨ob, hob, -⟩ := List.mem_flatMap.1 hy'
        obtain ⟨z, hz, hz'⟩ := List.mem_filterMap.1 hob
        rw [hnone z hz] at hz'
        cases hz'
      | some p =>
        obtain ⟨-, P, hP, hH, -⟩ := h.full v p hv
        rw [hQ] at hP; cases hP
        rw [hv, hH.all_plan hy'] at hr
        exact hr rfl
  · intro r hr
    obtain ⟨-, P, hP, hH, hph⟩ := h.full v _ hr
    rw [hQ] at hP; cases hP
    rw [phaseOf_append, hph r rfl]
    by_cases hmem : r ∈ Q.all
    · right
      rw [stand, if_pos hmem]
      exact phase_releases hn ((hl r).2 hmem)
    · left
      rw [stand, if_neg hmem]
      refine phaseFrom_other fun ev hev => ?_
      obtain ⟨y, hy, rfl⟩ := List.mem_map.1 hev
      intro e'
      exact hmem (e' ▸ (hl y).1 hy)

/-- What a variable has is given back once, whatever it has. -/
theorem VarInv.nodup (hB : B.Sound) (h : VarInv B o σ) {v : Nat} {Q : HeldPlan} (hQ : σ.vars v = some Q) :
    Q.destroyed.Nodup ∧ (B.magma = false → ((objectsOf Q.members).flatMap HeldObj.released).Nodup) ∧ (B.magma = false → Q.queue = none) := by
  cases hv : o.holds v with
  | none => rw [h.absent v hv] at hQ; cases hQ
  | some x =>
    cases x with
    | none =>
      obtain ⟨P, hP, hnone, hq⟩ := h.empty v hv
      rw [hQ] at hP; cases hP
      have e : objectsOf Q.members = [] := by
        refine List.eq_nil_iff_forall_not_mem.2 fun a ha => ?_
        obtain ⟨z, hz, hz'⟩ := List.mem_filterMap.1 ha
        rw [hnone z hz] at hz'
        cases hz'
      refine ⟨?_, fun _ => by rw [e]; exact List.nodup_nil, fun _ => hq⟩
      unfold HeldPlan.destroyed
      rw [hq, e]
      exact List.nodup_nil
    | some p =>
      obtain ⟨-, P, hP, hH, -⟩ := h.full v p hv
      rw [hQ] at hP; cases hP
      exact ⟨destroyed_nodup hH.named (hH.length hB).le, fun _ => objects_nodup (named_pairwise hH.named) _ released_perm, fun hm => by rw [hH.queue, hm]; rfl⟩

theorem step_moveAssign (hB : B.Sound) (hm : B.magma = false) (h : VarInv B o σ) (v w : Nat) :
    Agree B (o.step (.moveAssign v w : VarOp CallArgs)) (σ.step B (.moveAssign v w)) := by
  by_cases e : o.holds v = none
  · simp [Owners.step, VarState.step, e, h.absent v e, Agree]
  obtain ⟨Q, hQ⟩ := Option.isSome_iff_exists.1 ((h.isSome v).2 e)
  simp only [Owners.step, VarState.step, e, if_false, hQ]
  cases hx : o.holds w with
  | none => rw [h.absent w hx]; trivial
  | some x =>
    obtain ⟨P, hP⟩ := Option.isSome_iff_exists.1 ((h.isSome w).2 (by rw [hx]; simp))
    rw [hP]
    by_cases hvw : v = w
    · simp only [hvw, if_true]; exact h
    · simp only [hvw, if_false]
      obtain ⟨-, hn, hq⟩ := h.nodup hB hQ
      have hl : ∀ r, r ∈ (objectsOf Q.members).flatMap HeldObj.released ↔ r ∈ Q.all := by
        intro r
        rw [released_all]
        unfold HeldPlan.all
        rw [hq hm]
        rfl
      obtain ⟨h1, h2⟩ := give_back h hQ (hn hm) hl
      exact move_inv hm h hvw hx hP h1 h2

theorem step_destroy (hB : B.Sound) (h : VarInv B o σ) (v : Nat) : Agree B (o.step (.destroy v : VarOp CallArgs)) (σ.step B (.destroy v)) := by
  by_cases e : o.holds v = none
  · simp [Owners.step, VarState.step, e, h.absent v e, Agree]
  obtain ⟨Q, hQ⟩ := Option.isSome_iff_exists.1 ((h.isSome v).2 e)
  simp only [Owners.step, VarState.step, e, if_false, hQ]
  obtain ⟨h1, h2⟩ := give_back h hQ (h.nodup hB hQ).1 (destroyed_mem Q)
  have hold : ∀ {u : Nat} {y : Option Nat}, Function.update o.holds v none u = some y → u ≠ v ∧ o.holds u = some y := by
    intro u y hu
    by_cases eu : u = v
    · subst eu; simp at hu
    · simp only [Function.update_of_ne eu] at hu; exact ⟨eu, hu⟩
  refine ⟨h.next, ?_, ?_, ?_, ?_, ?_, ?_⟩
  · intro u hu
    by_cases eu : u = v
    · subst eu; simp
    · simp only [Function.update_of_ne eu] at hu ⊢; exact h.absent u hu
  · intro u hu
    obtain ⟨eu, hu'⟩ := hold hu
    simp only [Function.update_of_ne eu]
    exact h.empty u hu'
  · intro u p hu
    obtain ⟨eu, hu'⟩ := hold hu
    obtain ⟨hlt, P, hP, hH, hph⟩ := h.full u p hu'
    refine ⟨hlt, P, by simp [Function.update_of_ne eu, hP], hH, fun r hr => ?_⟩
    show phaseOf (σ.log ++ _) r = _
    rw [h1 r, hph r hr]
    rw [hr]
    exact fun e' => eu (h.once u v p hu' e')
  · intro a b p ha hb
    exact h.once a b p (hold ha).2 (hold hb).2
  · intro r hr
    show phaseOf (σ.log ++ _) r = _
    rw [h1 r, h.later r hr]
    intro e'
    have := (h.full v _ e').1
    have : o.next ≤ r.plan := hr
    omega
  · intro r hr
    show phaseOf (σ.log ++ _) r = _ ∨ phaseOf (σ.log ++ _) r = _
    by_cases e' : o.holds v = some (some r.plan)
    · exact h2 r e'
    · rw [h1 r e']
      refine h.over r fun u hu => ?_
      by_cases eu : u = v
      · subst eu; exact e' hu
      · have := hr u
        simp only [Function.update_of_ne eu] at this
        exact this hu

/-! ## Calls -/

theorem called_obj (lib : FftLibrary) (c : CallArgs) (ob : HeldObj) (hp : PartsOk lib ob) :
    (ob.called lib c).1.plan = ob.plan ∧ (ob.called lib c).1.member = ob.member ∧ (ob.called lib c).1.kind = ob.kind ∧ PartsOk lib (ob.called lib c).1 ∧
    (∀ ev ∈ (ob.called lib c).2, ev.resource.plan = ob.plan ∧ ev.resource.member = ob.member) ∧
    Grow ob.all (ob.called lib c).1.all (ob.called lib c).2 := by
  cases hk : ob.kind with
  | box =>
    have e : ob.called lib c = (ob, []) := by simp only [HeldObj.called, hk]
    rw [e]
    exact ⟨rfl, rfl, hk, hp, fun _ h => (by cases h), Grow.nil _⟩
  | reshape x =>
    by_cases hd : decide (ob.member < 6) = c.fwd
    · have e : ob.called lib c = (ob, ob.held.map .use) := by simp only [HeldObj.called, hk, hd, if_true]
      rw [e]
      refine ⟨rfl, rfl, hk, hp, ?_, Grow.uses fun x hx => List.mem_cons_of_mem _ hx⟩
      intro ev hev
      obtain ⟨y, hy, rfl⟩ := List.mem_map.1 hev
      exact mem_all (List.mem_cons_of_mem _ hy)
    · have e : ob.called lib c = (ob, []) := by simp only [HeldObj.called, hk, hd, if_false]
      rw [e]
      exact ⟨rfl, rfl, hk, hp, fun _ h => (by cases h), Grow.nil _⟩
  | executor x =>
    obtain ⟨j, hj⟩ : ∃ j, j = x.used lib c.double c.fwd := ⟨_, rfl⟩
    have hlen : j < ob.parts.length := by
      rw [hp.1, hk, hj]
      exact used_lt lib c.double c.fwd x
    by_cases hd : ob.parts[j]? = some true
    · have e : ob.called lib c = (ob, [.use ⟨ob.plan, ob.member, some j⟩]) := by simp only [HeldObj.called, hk, ← hj, hd, if_true]
      rw [e]
      refine ⟨rfl, rfl, hk, hp, ?_, Grow.use (List.mem_cons_of_mem _ (mem_held.2 ⟨j, hd, rfl⟩))⟩
      intro ev hev
      rw [List.mem_singleton.1 hev]
      exact ⟨rfl, rfl⟩
    · have e : ob.called lib c = ({ ob with parts := ob.parts.set j true }, [.acquire ⟨ob.plan, ob.member, some j⟩, .use ⟨ob.plan, ob.member, some j⟩]) := by
        simp only [HeldObj.called, hk, ← hj, hd, if_false]
      rw [e]
      refine ⟨rfl, rfl, hk, ?_, ?_, ?_⟩
      · refine ⟨?_, fun b hb => ?_⟩
        · show (ob.parts.set j true).length = _
          rw [List.length_set]; exact hp.1
        · have : ob.kind = .reshape b := hb
          rw [hk] at this; cases this
      · intro ev hev
        rcases List.mem_cons.1 hev with e | hev
        · rw [e]; exact ⟨rfl, rfl⟩
        · rw [List.mem_singleton.1 hev]; exact ⟨rfl, rfl⟩
      · have hmem : ∀ r : Resource, r ∈ ({ ob with parts := ob.parts.set j true } : HeldObj).all ↔ r = ⟨ob.plan, ob.member, some j⟩ ∨ r ∈ ob.all := by
          intro r
          unfold HeldObj.all
          rw [List.mem_cons, List.mem_cons, mem_held, mem_held]
          show r = ob.memory ∨ _ ↔ _
          constructor
          · rintro (e | ⟨i, hi, rfl⟩)
            · exact Or.inr (Or.inl e)
            · by_cases eij : j = i
              · subst eij; exact Or.inl rfl
              · exact Or.inr (Or.inr ⟨i, by rwa [List.getElem?_set_ne eij] at hi, rfl⟩)
          · rintro (rfl | e | ⟨i, hi, rfl⟩)
            · exact Or.inr ⟨j, by simp [hlen], rfl⟩
            · exact Or.inl e
            · refine Or.inr ⟨i, ?_, rfl⟩
              by_cases eij : j = i
              · subst eij; exact absurd hi hd
              · show (ob.parts.set j true)[i]? = _
                rw [List.getElem?_set_ne eij]; exact hi
        refine Grow.trans (a := [.acquire _]) (Grow.acquire ?_ hmem) (Grow.use ((hmem _).2 (Or.inl rfl)))
        intro hx
        rcases List.mem_cons.1 hx with e | hx
        · simp [HeldObj.memory] at e
        · obtain ⟨i, hi, e⟩ := mem_held.1 hx
          simp only [Resource.mk.injEq, Option.some.injEq, true_and] at e
          subst e
          exact hd hi

theorem called_members (lib : FftLibrary) (c : CallArgs) {p : Nat} : ∀ {l : List (Option HeldObj)} {k : Nat}, NamedFrom p k l → (∀ ob ∈ objectsOf l, PartsOk lib ob) →
    NamedFrom p k (calledMembers lib c l).1 ∧ kindsOf (calledMembers lib c l).1 = kindsOf l ∧ (∀ ob ∈ objectsOf (calledMembers lib c l).1, PartsOk lib ob) ∧
    (∀ ev ∈ (calledMembers lib c l).2, ev.resource.plan = p ∧ k ≤ ev.resource.member ∧ ev.resource.member < k + l.length) ∧
    Grow (membersAll l) (membersAll (calledMembers lib c l).1) (calledMembers lib c l).2
  | [], k, _, _ => ⟨trivial, rfl, fun _ h => (by cases h), fun _ h => (by cases h), Grow.nil _⟩
  | none :: l, k, hn, hp => by
    obtain ⟨h1, h2, h3, h4, h5⟩ := called_members lib c (l := l) (k := k + 1) hn fun ob hob => hp ob hob
    refine ⟨h1, ?_, h3, ?_, h5⟩
    · show none :: kindsOf _ = none :: kindsOf l
      rw [h2]
    · intro ev hev
      have := h4 ev hev
      refine ⟨this.1, by omega, ?_⟩
      simp only [List.length_cons]; omega
  | some ob :: l, k, hn, hp => by
    obtain ⟨h1, h2, h3, h4, h5⟩ := called_members lib c (l := l) (k := k + 1) hn.2.2 fun x hx => hp x (List.mem_cons_of_mem _ hx)
    obtain ⟨g1, g2, g3, g4, g5, g6⟩ := called_obj lib c ob (hp ob List.mem_cons_self)
    have hmem : ob.member = k := hn.2.1
    refine ⟨⟨g1.trans hn.1, g2.trans hn.2.1, h1⟩, ?_, ?_, ?_, ?_⟩
    · show some (ob.called lib c).1.kind :: kindsOf _ = some ob.kind :: kindsOf l
      rw [h2, g3]
    · intro x hx
      rcases List.mem_cons.1 (show x ∈ (ob.called lib c).1 :: objectsOf (calledMembers lib c l).1 from hx) with e | hx'
      · rw [e]; exact g4
      · exact h3 x hx'
    · intro ev hev
      rcases List.mem_append.1 hev with hev | hev
      · have := g5 ev hev
        refine ⟨this.1.trans hn.1, by omega, ?_⟩
        simp only [List.length_cons]; omega
      · have := h4 ev hev
        refine ⟨this.1, by omega, ?_⟩
        simp only [List.length_cons]; omega
    · -- the events of the first object do not touch the others and the other way round
      show Grow (ob.all ++ membersAll l) ((ob.called lib c).1.all ++ membersAll (calledMembers lib c l).1) _
      intro r
      show phaseFrom r _ (_ ++ _) = _
      rw [phaseFrom_append]
      by_cases hr : r.member = k
      · have n1 : r ∉ membersAll l := fun h => by
          have := (mem_membersAll_plan hn.2.2 h).2
          omega
        have n2 : r ∉ membersAll (calledMembers lib c l).1 := fun h => by
          have := (mem_membersAll_plan h1 h).2
          omega
        have e1 : stand (ob.all ++ membersAll l) r = stand ob.all r := by simp [stand, n1]
        have e2 : stand ((ob.called lib c).1.all ++ membersAll (calledMembers lib c l).1) r = stand (ob.called lib c).1.all r := by simp [stand, n2]
        rw [e1, e2, g6 r]
        refine phaseFrom_other fun ev hev e => ?_
        have := (h4 ev hev).2.1
        rw [e] at this
        omega
      · have n1 : r ∉ ob.all := fun h => hr ((mem_all h).2.trans hmem)
        have n2 : r ∉ (ob.called lib c).1.all := fun h => hr ((mem_all h).2.trans (g2.trans hmem))
        have e1 : stand (ob.all ++ membersAll l) r = stand (membersAll l) r := by simp [stand, n1]
        have e2 : stand ((ob.called lib c).1.all ++ membersAll (calledMembers lib c l).1) r = stand (membersAll (calledMembers lib c l).1) r := by simp [stand, n2]
        rw [e1, e2, phaseFrom_other (es := (ob.called lib c).2), h5 r]
        intro ev hev e
        have := (g5 ev hev).2
        rw [e] at this
        exact hr (this.trans hmem)

theorem step_call (hB : B.Sound) (h : VarInv B o σ) (v : Nat) (c : CallArgs) : Agree B (o.step (.call v c)) (σ.step B (.call v c)) := by
  cases hv : o.holds v with
  | none => simp [Owners.step, VarState.step, hv, h.absent v hv, Agree]
  | some x =>
    cases x with
    | none =>
      obtain ⟨P, hP, hnone, -⟩ := h.empty v hv
      simp only [Owners.step, VarState.step, hv, hP]
      match hmm : P.members with
      | [] => trivial
      | none :: _ => trivial
      | [some _] => trivial
      | some _ :: none :: _ => trivial
      | some a :: some _ :: _ =>
        have := hnone (some a) (by rw [hmm]; exact List.mem_cons_self)
        cases this
    | some p =>
      obtain ⟨hlt, P, hP, hH, hph⟩ := h.full v p hv
      obtain ⟨-, ka, kb, kl, hconf⟩ := hB p
      obtain ⟨a, b, l, hmem⟩ : ∃ a b l, P.members = some a :: some b :: l := by
        have hk := hH.kinds
        rw [hconf] at hk
        match hmm : P.members, hk with
        | some a :: some b :: l, _ => exact ⟨a, b, l, rfl⟩
        | [], hk => simp [kindsOf] at hk
        | none :: _, hk => simp [kindsOf] at hk
        | [some _], hk => simp [kindsOf] at hk
        | some _ :: none :: _, hk => simp [kindsOf] at hk
      obtain ⟨h1, h2, h3, h4, h5⟩ := called_members B.lib c hH.named hH.parts
      have hstep : σ.step B (.call v c) = some ⟨σ.next, Function.update σ.vars v (some { P with members := (calledMembers B.lib c P.members).1 }),
          σ.log ++ (calledMembers B.lib c P.members).2 ++ P.scaled c⟩ := by
        simp only [VarState.step, hP, hmem]
      have ho : o.step (.call v c) = some o := by simp [Owners.step, hv]
      rw [hstep, ho]
      set P' : HeldPlan := { P with members := (calledMembers B.lib c P.members).1 } with hP'
      have hH' : HoldsPlan B p P' := ⟨h1, h2.trans hH.kinds, h3, hH.queue⟩
      have hlen := hH.length hB
      have hscale : ∀ ev ∈ P.scaled c, ev.resource = queueOf p := by
        intro ev hev
        unfold HeldPlan.scaled at hev
        rw [hH.queue] at hev
        cases hm : B.magma <;> rw [hm] at hev
        · cases hev
        · cases hs : c.scaled <;> simp [hs] at hev
          rw [hev]; rfl
      have hother : ∀ r, r.plan ≠ p → phaseOf (σ.log ++ (calledMembers B.lib c P.members).2 ++ P.scaled c) r = phaseOf σ.log r := by
        intro r hr
        rw [phaseOf_append, phaseOf_append, phaseFrom_other, phaseFrom_other]
        · intro ev hev e
          exact hr (e ▸ (h4 ev hev).1)
        · intro ev hev e
          refine hr ?_
          rw [← e, hscale ev hev]; rfl
      have hown : ∀ r, r.plan = p → phaseOf (σ.log ++ (calledMembers B.lib c P.members).2 ++ P.scaled c) r = some (stand P'.all r) := by
        intro r hr
        rw [phaseOf_append, phaseOf_append, hph r hr]
        by_cases hq : r = queueOf p
        · have e1 : ∀ ev ∈ (calledMembers B.lib c P.members).2, ev.resource ≠ r := by
            intro ev hev e
            have := (h4 ev hev).2.2
            rw [e, hq, hlen] at this
            have : (13 : Nat) < 0 + 13 := this
            omega
          rw [phaseFrom_other e1]
          have n1 : ∀ {Q : HeldPlan}, NamedFrom p 0 Q.members → Q.members.length = 13 → r ∉ membersAll Q.members := by
            intro Q hQ hQl hr
            obtain ⟨ob, hob, hrob⟩ := List.mem_flatMap.1 hr
            have e1 := named_lt hQ ob hob
            have e2 := (mem_all hrob).2
            rw [hq] at e2
            have e3 : (13 : Nat) = ob.member := e2
            omega
          have n2 := n1 hH.named hlen
          have n3 := n1 hH'.named (hH'.length hB)
          have e2 : stand P'.all r = stand P.all r := by
            unfold HeldPlan.all
            simp only [stand, List.mem_append, n2, n3, or_false]
            rfl
          rw [e2]
          unfold HeldPlan.scaled
          rw [hH.queue]
          cases hm : B.magma
          · rfl
          · cases hs : c.scaled
            · rfl
            · have hin : queueOf p ∈ P.all := by
                unfold HeldPlan.all
                rw [hH.queue, hm]
                simp
              rw [hq]
              exact Grow.use hin (queueOf p)
        · have n1 : ∀ {Q : HeldPlan}, HoldsPlan B p Q → stand Q.all r = stand (membersAll Q.members) r := by
            intro Q hQ
            unfold HeldPlan.all
            rw [hQ.queue]
            cases B.magma
            · rfl
            · simp [stand, hq]
          rw [n1 hH, n1 hH', h5 r]
          exact phaseFrom_other fun ev hev e => hq (by rw [← e, hscale ev hev])
      refine ⟨h.next, ?_, ?_, ?_, h.once, ?_, ?_⟩
      · intro u hu
        have eu : u ≠ v := by rintro rfl; rw [hv] at hu; cases hu
        simp only [Function.update_of_ne eu]; exact h.absent u hu
      · intro u hu
        have eu : u ≠ v := by rintro rfl; rw [hv] at hu; cases hu
        simp only [Function.update_of_ne eu]; exact h.empty u hu
      · intro u q hu
        by_cases eu : u = v
        · subst eu
          rw [hv] at hu; cases hu
          exact ⟨hlt, P', by simp, hH', hown⟩
        · obtain ⟨hlt', Q, hQ, hHQ, hphQ⟩ := h.full u q hu
          refine ⟨hlt', Q, by simp [Function.update_of_ne eu, hQ], hHQ, fun r hr => ?_⟩
          rw [← hphQ r hr]
          refine hother r ?_
          rw [hr]
          rintro rfl
          exact eu (h.once u v q hu hv)
      · intro r hr
        rw [← h.later r hr]
        refine hother r ?_
        have : o.next ≤ r.plan := hr
        omega
      · intro r hr
        have e := hother r fun e => hr v (by rw [e]; exact hv)
        show phaseOf (σ.log ++ _ ++ _) r = _ ∨ phaseOf (σ.log ++ _ ++ _) r = _
        rw [e]
        exact h.over r hr

end

theorem step_agree (hB : B.Sound) {o : Owners} {σ : VarState} (h : VarInv B o σ) (op : VarOp CallArgs) (hm : B.magma = false ∨ op.isMove = false) :
    Agree B (o.step op) (σ.step B op) := by
  cases op with
  | make v => exact step_make hB h v
  | moveInit v w => exact step_moveInit (hm.resolve_right (by simp [VarOp.isMove])) h v w
  | moveAssign v w => exact step_moveAssign hB (hm.resolve_right (by simp [VarOp.isMove])) h v w
  | call v c => exact step_call hB h v c
  | destroy v => exact step_destroy hB h v

theorem run_agree (hB : B.Sound) : ∀ {ops : List (VarOp CallArgs)} {o : Owners} {σ : VarState}, VarInv B o σ → (B.magma = false ∨ ∀ op ∈ ops, op.isMove = false) →
    Agree B (o.run ops) (σ.run B ops)
  | [], _, _, h, _ => h
  | op :: ops, o, σ, h, hm => by
    have hs := step_agree hB h op (hm.imp id fun h => h op List.mem_cons_self)
    simp only [Owners.run, VarState.run]
    cases e1 : o.step op with
    | none =>
      cases e2 : σ.step B op with
      | none => trivial
      | some σ' => rw [e1, e2] at hs; exact hs.elim
    | some o' =>
      cases e2 : σ.step B op with
      | none => rw [e1, e2] at hs; exact hs.elim
      | some σ' =>
        rw [e1, e2] at hs
        exact run_agree hB hs (hm.imp id fun h x hx => h x (List.mem_cons_of_mem _ hx))

end Verif
