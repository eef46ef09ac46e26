import Mathlib.Data.List.Nodup
import Mathlib.Tactic.Ring
import Verif.PlanVars
import Verif.MpiMain

/-!
# Plans in variables of C++: lemmas
-/

namespace Verif

/-! ## Phases -/

theorem phaseFrom_append (r : Resource) : ∀ (a b : List ResEvent) (ph : Option Phase), phaseFrom r ph (a ++ b) = phaseFrom r (phaseFrom r ph a) b
  | [], _, _ => rfl
  | e :: a, b, ph => by
    show phaseFrom r _ (a ++ b) = _
    rw [phaseFrom_append r a b]
    rfl

theorem phaseOf_append (a b : List ResEvent) (r : Resource) : phaseOf (a ++ b) r = phaseFrom r (phaseOf a r) b := phaseFrom_append r a b _

theorem phaseFrom_other {r : Resource} : ∀ {es : List ResEvent} {ph : Option Phase}, (∀ e ∈ es, e.resource ≠ r) → phaseFrom r ph es = ph
  | [], _, _ => rfl
  | e :: es, ph, h => by
    show phaseFrom r (if e.resource = r then _ else ph) es = ph
    rw [if_neg (h e List.mem_cons_self)]
    exact phaseFrom_other fun x hx => h x (List.mem_cons_of_mem _ hx)

/-- The phase of a resource that is among the held ones or not acquired yet. -/
def stand (A : List Resource) (r : Resource) : Phase := if r ∈ A then .held else .fresh

/-- The events lead from the held resources `A` to the held resources `B`; nothing is released. -/
def Grow (A B : List Resource) (es : List ResEvent) : Prop := ∀ r, phaseFrom r (some (stand A r)) es = some (stand B r)

theorem Grow.nil (A : List Resource) : Grow A A [] := fun _ => rfl

theorem Grow.trans {A B C : List Resource} {a b : List ResEvent} (h1 : Grow A B a) (h2 : Grow B C b) : Grow A C (a ++ b) := by
  intro r
  rw [phaseFrom_append, h1 r, h2 r]

theorem Grow.acquire {A B : List Resource} {x : Resource} (h : x ∉ A) (hB : ∀ r, r ∈ B ↔ r = x ∨ r ∈ A) : Grow A B [.acquire x] := by
  intro r
  show (if x = r then _ else _) = _
  by_cases e : x = r
  · subst e
    simp [stand, h, hB, Phase.after, ResEvent.resource]
  · simp only [e, if_false, stand, hB, eq_comm (a := r), false_or, ResEvent.resource]

theorem Grow.use {A : List Resource} {x : Resource} (h : x ∈ A) : Grow A A [.use x] := by
  intro r
  show (if x = r then _ else _) = _
  by_cases e : x = r
  · subst e
    simp [stand, h, Phase.after]
  · simp only [e, if_false, ResEvent.resource]

theorem Grow.uses {A : List Resource} : ∀ {l : List Resource}, (∀ x ∈ l, x ∈ A) → Grow A A (l.map .use)
  | [], _ => Grow.nil A
  | x :: l, h => (Grow.use (h x List.mem_cons_self)).trans (Grow.uses fun y hy => h y (List.mem_cons_of_mem _ hy))

theorem Grow.acquires : ∀ {l A B : List Resource}, l.Nodup → (∀ x ∈ l, x ∉ A) → (∀ r, r ∈ B ↔ r ∈ l ∨ r ∈ A) → Grow A B (l.map .acquire)
  | [], A, B, _, _, hB => by
    intro r
    have : stand A r = stand B r := by simp [stand, hB]
    rw [List.map_nil, ← this]
    rfl
  | x :: l, A, B, hn, hd, hB => by
    have hn' := List.nodup_cons.1 hn
    refine Grow.trans (a := [.acquire x]) (B := x :: A) (Grow.acquire (hd x List.mem_cons_self) fun r => List.mem_cons) (Grow.acquires hn'.2 ?_ ?_)
    · intro y hy hyA
      rcases List.mem_cons.1 hyA with e | hyA
      · exact hn'.1 (e ▸ hy)
      · exact hd y (List.mem_cons_of_mem _ hy) hyA
    · intro r
      rw [hB, List.mem_cons, List.mem_cons]
      tauto

theorem Grow.congr {A A' B B' : List Resource} {es : List ResEvent} (h : Grow A B es) (hA : ∀ r, r ∈ A' ↔ r ∈ A) (hB : ∀ r, r ∈ B' ↔ r ∈ B) : Grow A' B' es := by
  intro r
  have e1 : stand A' r = stand A r := by simp [stand, hA]
  have e2 : stand B' r = stand B r := by simp [stand, hB]
  rw [e1, e2]
  exact h r

theorem phase_releases {r : Resource} : ∀ {l : List Resource}, l.Nodup → r ∈ l → phaseFrom r (some .held) (l.map .release) = some .gone
  | x :: l, hn, h => by
    have hn' := List.nodup_cons.1 hn
    show phaseFrom r (if x = r then _ else _) (l.map .release) = _
    by_cases e : x = r
    · subst e
      rw [if_pos rfl]
      show phaseFrom x (some .gone) _ = _
      refine phaseFrom_other fun ev hev => ?_
      obtain ⟨y, hy, rfl⟩ := List.mem_map.1 hev
      exact fun e => hn'.1 (e ▸ hy)
    · rw [if_neg e]
      exact phase_releases hn'.2 ((List.mem_cons.1 h).resolve_left fun e' => e e'.symm)

/-! ## Objects -/

theorem mem_held {o : HeldObj} {r : Resource} : r ∈ o.held ↔ ∃ j, o.parts[j]? = some true ∧ r = ⟨o.plan, o.member, some j⟩ := by
  simp only [HeldObj.held, List.mem_map, List.mem_filter, List.mem_range, decide_eq_true_eq]
  constructor
  · rintro ⟨j, ⟨-, h⟩, rfl⟩
    exact ⟨j, h, rfl⟩
  · rintro ⟨j, h, rfl⟩
    obtain ⟨hl, -⟩ := List.getElem?_eq_some_iff.1 h
    exact ⟨j, ⟨hl, h⟩, rfl⟩

/-- The resources of an object. -/
def HeldObj.all (o : HeldObj) : List Resource := o.memory :: o.held

theorem held_nodup (o : HeldObj) : o.held.Nodup := by
  refine List.Nodup.map ?_ (List.Nodup.filter _ List.nodup_range)
  intro a b e
  simpa using e

theorem obj_nodup (o : HeldObj) : o.all.Nodup := by
  refine List.nodup_cons.2 ⟨?_, held_nodup o⟩
  intro h
  obtain ⟨j, -, e⟩ := mem_held.1 h
  simp [HeldObj.memory] at e

theorem released_perm (o : HeldObj) : o.released.Perm o.all := by
  unfold HeldObj.released HeldObj.all
  exact (List.perm_append_comm).trans (List.Perm.cons _ (List.reverse_perm _))

theorem acquired_perm (o : HeldObj) : o.acquired.Perm o.all := by
  unfold HeldObj.acquired
  split
  · exact List.perm_append_comm
  · exact List.Perm.refl _

theorem mem_all {o : HeldObj} {r : Resource} (h : r ∈ o.all) : r.plan = o.plan ∧ r.member = o.member := by
  rcases List.mem_cons.1 h with e | h
  · rw [e]; exact ⟨rfl, rfl⟩
  · obtain ⟨j, -, e⟩ := mem_held.1 h
    rw [e]; exact ⟨rfl, rfl⟩

/-- The members are those of the constructor call `p`, at the place `k` and behind it. -/
def NamedFrom (p : Nat) : Nat → List (Option HeldObj) → Prop
  | _, [] => True
  | k, none :: l => NamedFrom p (k + 1) l
  | k, some o :: l => o.plan = p ∧ o.member = k ∧ NamedFrom p (k + 1) l

theorem named_mem {p : Nat} : ∀ {k : Nat} {l : List (Option HeldObj)}, NamedFrom p k l → ∀ o ∈ objectsOf l, o.plan = p ∧ k ≤ o.member
  | _, [], _, o, ho => by simp [objectsOf] at ho
  | k, none :: l, h, o, ho => by
    have := named_mem (k := k + 1) (l := l) h o (by simpa [objectsOf] using ho)
    exact ⟨this.1, by omega⟩
  | k, some x :: l, h, o, ho => by
    have ho' : o = x ∨ o ∈ objectsOf l := by simpa [objectsOf] using ho
    rcases ho' with e | ho'
    · subst e; exact ⟨h.1, h.2.1.ge⟩
    · have := named_mem (k := k + 1) (l := l) h.2.2 o ho'
      exact ⟨this.1, by omega⟩

theorem named_pairwise {p : Nat} : ∀ {k : Nat} {l : List (Option HeldObj)}, NamedFrom p k l → (objectsOf l).Pairwise fun a b => a.member ≠ b.member
  | _, [], _ => List.Pairwise.nil
  | k, none :: l, h => named_pairwise (k := k + 1) (l := l) h
  | k, some x :: l, h => by
    show (x :: objectsOf l).Pairwise _
    refine List.pairwise_cons.2 ⟨fun b hb => ?_, named_pairwise (k := k + 1) (l := l) h.2.2⟩
    have := named_mem (k := k + 1) h.2.2 b hb
    have := h.2.1
    omega

theorem objects_nodup {l : List HeldObj} (h : l.Pairwise fun a b => a.member ≠ b.member) (f : HeldObj → List Resource)
    (hf : ∀ o, (f o).Perm o.all) : (l.flatMap f).Nodup := by
  refine List.nodup_flatMap.2 ⟨fun o _ => (hf o).nodup_iff.2 (obj_nodup o), h.imp ?_⟩
  intro a b hab x hxa hxb
  have h1 := mem_all ((hf a).mem_iff.1 hxa)
  have h2 := mem_all ((hf b).mem_iff.1 hxb)
  exact hab (h1.2.symm.trans h2.2)

/-! ## A whole plan -/

/-- The resources behind the pointers of a plan. -/
def membersAll (l : List (Option HeldObj)) : List Resource := (objectsOf l).flatMap HeldObj.all

/-- The resources of a plan. -/
def HeldPlan.all (P : HeldPlan) : List Resource := (match P.queue with
  | some p => [queueOf p]
  | none => []) ++ membersAll P.members

theorem mem_membersAll_plan {p k : Nat} {l : List (Option HeldObj)} (h : NamedFrom p k l) {r : Resource} (hr : r ∈ membersAll l) : r.plan = p ∧ k ≤ r.member := by
  obtain ⟨o, ho, hro⟩ := List.mem_flatMap.1 hr
  have := named_mem h o ho
  have e := mem_all hro
  exact ⟨e.1.trans this.1, e.2 ▸ this.2⟩

theorem named_lt {p : Nat} : ∀ {k : Nat} {l : List (Option HeldObj)}, NamedFrom p k l → ∀ o ∈ objectsOf l, o.member < k + l.length
  | _, [], _, o, ho => by simp [objectsOf] at ho
  | k, none :: l, h, o, ho => by
    have := named_lt (k := k + 1) (l := l) h o (by simpa [objectsOf] using ho)
    simp only [List.length_cons]; omega
  | k, some x :: l, h, o, ho => by
    have ho' : o = x ∨ o ∈ objectsOf l := by simpa [objectsOf] using ho
    rcases ho' with e | ho'
    · subst e
      have := h.2.1
      simp only [List.length_cons]; omega
    · have := named_lt (k := k + 1) (l := l) h.2.2 o ho'
      simp only [List.length_cons]; omega

theorem released_all (l : List HeldObj) (r : Resource) : r ∈ l.flatMap HeldObj.released ↔ r ∈ l.flatMap HeldObj.all := by
  simp only [List.mem_flatMap, (released_perm _).mem_iff]

/-- The destructor gives back what the plan has, each thing once. -/
theorem destroyed_mem (P : HeldPlan) (r : Resource) : r ∈ P.destroyed ↔ r ∈ P.all := by
  unfold HeldPlan.destroyed HeldPlan.all membersAll
  rw [List.mem_append, List.mem_append, released_all]
  simp only [List.mem_flatMap, List.mem_reverse]
  rfl

theorem destroyed_nodup {p : Nat} {P : HeldPlan} (h : NamedFrom p 0 P.members) (hl : P.members.length ≤ 13) : P.destroyed.Nodup := by
  unfold HeldPlan.destroyed
  have hn : ((objectsOf P.members).reverse.flatMap HeldObj.released).Nodup :=
    objects_nodup (List.pairwise_reverse.2 ((named_pairwise h).imp fun h => h.symm)) _ released_perm
  refine List.nodup_append'.2 ⟨?_, hn, ?_⟩
  · cases P.queue <;> simp
  · intro x hx hy
    cases hq : P.queue with
    | none => rw [hq] at hx; cases hx
    | some q =>
      rw [hq] at hx
      have hx' : x = queueOf q := by simpa using hx
      obtain ⟨o, ho, hxo⟩ := List.mem_flatMap.1 hy
      have h1 := mem_all ((released_perm o).mem_iff.1 hxo)
      have h2 := named_lt h o (List.mem_reverse.1 ho)
      rw [hx'] at h1
      have : (13 : Nat) = o.member := h1.2
      omega

theorem fresh_named (lib : FftLibrary) (p : Nat) : ∀ (conf : List (Option MemberKind)) (k : Nat),
    NamedFrom p k ((conf.zipIdx k).map fun x => x.1.map fun m => (⟨p, x.2, m, m.parts lib⟩ : HeldObj))
  | [], _ => trivial
  | none :: conf, k => fresh_named lib p conf (k + 1)
  | some _ :: conf, k => ⟨rfl, rfl, fresh_named lib p conf (k + 1)⟩

/-- The kinds of the objects of a plan. -/
def kindsOf (l : List (Option HeldObj)) : List (Option MemberKind) := l.map fun x => x.map HeldObj.kind

theorem fresh_kinds (lib : FftLibrary) (p : Nat) (conf : List (Option MemberKind)) : kindsOf (freshMembers lib p conf) = conf := by
  unfold kindsOf freshMembers
  rw [List.map_map]
  have : ((fun x : Option HeldObj => x.map HeldObj.kind) ∘ fun x : Option MemberKind × Nat => x.1.map fun k => (⟨p, x.2, k, k.parts lib⟩ : HeldObj)) = fun x => x.1 := by
    funext x
    cases x with
    | mk a b => cases a <;> rfl
  rw [this, List.zipIdx_map_fst]

/-- The parts of an object have the places of the table, those of a reshape never change. -/
def PartsOk (lib : FftLibrary) (o : HeldObj) : Prop :=
  o.parts.length = (o.kind.parts lib).length ∧ ∀ b, o.kind = .reshape b → o.parts = o.kind.parts lib

theorem fresh_parts (lib : FftLibrary) (p : Nat) (conf : List (Option MemberKind)) : ∀ o ∈ objectsOf (freshMembers lib p conf), PartsOk lib o := by
  intro o ho
  obtain ⟨x, hx, hxo⟩ := List.mem_filterMap.1 ho
  obtain ⟨y, -, rfl⟩ := List.mem_map.1 hx
  cases hy : y.1 with
  | none => rw [hy] at hxo; cases hxo
  | some k =>
    rw [hy] at hxo
    cases hxo
    exact ⟨rfl, fun _ _ => rfl⟩

/-- Every call finds the place of the plan it needs. -/
theorem used_lt (lib : FftLibrary) (double fwd : Bool) (c : ExecClass) : c.used lib double fwd < (c.parts lib).length := by
  cases lib <;> cases double <;> cases fwd <;> cases c <;> decide

/-- What the constructor acquires for the member `m`. -/
def acqAt (ms : List (Option HeldObj)) (m : Nat) : List Resource :=
  match ms[m]? with
  | some (some o) => o.acquired
  | _ => []

theorem constructed_eq (magma : Bool) (p : Nat) (ms : List (Option HeldObj)) : constructed magma p ms =
    [0, 1].flatMap (acqAt ms) ++ (if magma then [queueOf p] else []) ++ [2, 9, 3, 8, 4, 7, 5, 6, 10, 11, 12].flatMap (acqAt ms) := rfl

theorem constructed_perm (magma : Bool) (p : Nat) (ms : List (Option HeldObj)) :
    (constructed magma p ms).Perm ((if magma then [queueOf p] else []) ++ (List.range 13).flatMap (acqAt ms)) := by
  rw [constructed_eq, List.append_assoc]
  refine List.perm_append_comm.trans ?_
  rw [List.append_assoc]
  refine List.Perm.append_left _ ?_
  rw [← List.flatMap_append]
  refine List.Perm.flatMap_right _ ?_
  decide

theorem acq_perm : ∀ (ms : List (Option HeldObj)) (k : Nat), k = ms.length → ((List.range k).flatMap (acqAt ms)).Perm (membersAll ms)
  | [], _, h => by subst h; exact List.Perm.refl _
  | x :: ms, k, h => by
    subst h
    rw [List.length_cons, List.range_succ_eq_map, List.flatMap_cons, List.flatMap_map]
    have ih := acq_perm ms _ rfl
    have e : (fun a => acqAt (x :: ms) (Nat.succ a)) = acqAt ms := by
      funext a
      simp [acqAt]
    rw [e]
    cases x with
    | none => exact ih
    | some o =>
      show (o.acquired ++ _).Perm (o.all ++ membersAll ms)
      exact (acquired_perm o).append ih

theorem constructed_all {magma : Bool} {p : Nat} {ms : List (Option HeldObj)} (hl : ms.length = 13) :
    (constructed magma p ms).Perm (⟨ms, if magma then some p else none⟩ : HeldPlan).all := by
  refine (constructed_perm magma p ms).trans ?_
  have h := acq_perm ms 13 hl.symm
  cases magma with
  | false => exact h
  | true => exact List.Perm.append_left [queueOf p] h

end Verif
