import Verif.Trace
import Verif.MpiMain
import Mathlib.Tactic.Linarith
import Mathlib.Order.Monotone.Basic

/-!
# Lemmas about nested scopes and the log
-/

namespace Verif

/-- The number of open scopes after `l`, starting with `k` of them. -/
def depthRun : Nat → List TraceOp → Option Nat
  | k, [] => some k
  | k, .enter _ :: t => depthRun (k + 1) t
  | 0, .leave :: _ => none
  | k + 1, .leave :: t => depthRun k t

theorem depthRun_append (k : Nat) (a b : List TraceOp) : depthRun k (a ++ b) = (depthRun k a).bind fun m => depthRun m b := by
  induction a generalizing k with
  | nil => rfl
  | cons x t ih =>
    cases x with
    | enter n => exact ih (k + 1)
    | leave =>
      cases k with
      | zero => rfl
      | succ k => exact ih k

theorem depthRun_shift {k m : Nat} {l : List TraceOp} (h : depthRun k l = some m) (d : Nat) : depthRun (k + d) l = some (m + d) := by
  induction l generalizing k with
  | nil => cases h; rfl
  | cons x t ih =>
    cases x with
    | enter n =>
      have := ih (k := k + 1) h
      rw [show k + 1 + d = (k + d) + 1 by omega] at this
      exact this
    | leave =>
      cases k with
      | zero => cases h
      | succ k =>
        rw [show k + 1 + d = (k + d) + 1 by omega]
        exact ih (k := k) h

theorem Nested.depth {l : List TraceOp} (h : Nested l) (k : Nat) : depthRun k l = some k := by
  induction h generalizing k with
  | nil => rfl
  | scope name _ _ ih1 ih2 =>
    show depthRun (k + 1) _ = _
    rw [depthRun_append, ih1]
    exact ih2 k

theorem Nested.append {a b : List TraceOp} (ha : Nested a) (hb : Nested b) : Nested (a ++ b) := by
  induction ha with
  | nil => exact hb
  | scope name h1 _ _ ih2 =>
    rw [List.cons_append, List.append_assoc, List.cons_append]
    exact .scope name h1 ih2

/-- `l` closes `k` scopes. -/
def Closing : Nat → List TraceOp → Prop
  | 0, l => Nested l
  | k + 1, l => ∃ a b, l = a ++ .leave :: b ∧ Nested a ∧ Closing k b

theorem closing_scope {k : Nat} (name : String) {a b : List TraceOp} (ha : Nested a) (hb : Closing k b) :
    Closing k (.enter name :: (a ++ .leave :: b)) := by
  cases k with
  | zero => exact .scope name ha hb
  | succ k =>
    obtain ⟨c, d, rfl, hc, hd⟩ := hb
    exact ⟨.enter name :: (a ++ .leave :: c), d, by simp, .scope name ha hc, hd⟩

theorem closing_of_depth {k : Nat} {l : List TraceOp} (h : depthRun k l = some 0) : Closing k l := by
  induction l generalizing k with
  | nil => cases h; exact .nil
  | cons x t ih =>
    cases x with
    | enter n =>
      obtain ⟨a, b, rfl, ha, hb⟩ := ih (k := k + 1) h
      exact closing_scope n ha hb
    | leave =>
      cases k with
      | zero => cases h
      | succ k => exact ⟨[], t, rfl, .nil, ih h⟩

theorem nested_iff {l : List TraceOp} : Nested l ↔ depthRun 0 l = some 0 := ⟨fun h => h.depth 0, fun h => closing_of_depth h⟩

instance (l : List TraceOp) : Decidable (Nested l) := decidable_of_iff _ nested_iff.symm

theorem Nested.insert {a b c : List TraceOp} (h : Nested (a ++ b)) (hc : Nested c) : Nested (a ++ c ++ b) := by
  rw [nested_iff, depthRun_append] at h
  rw [nested_iff, depthRun_append, depthRun_append]
  cases ha : depthRun 0 a with
  | none => rw [ha] at h; cases h
  | some m =>
    rw [ha] at h
    show (depthRun m c).bind _ = _
    rw [hc.depth]
    exact h

theorem nested_prefix {a b : List TraceOp} (h : Nested (a ++ b)) : ∃ m, depthRun 0 a = some m ∧ depthRun m b = some 0 := by
  rw [nested_iff, depthRun_append] at h
  cases ha : depthRun 0 a with
  | none => rw [ha] at h; cases h
  | some m => rw [ha] at h; exact ⟨m, rfl, h⟩

/-- No scope is opened in between two ends of nested sequences. -/
theorem not_nested_enter {c b : List TraceOp} {x : String} (hb : Nested b) : ¬ Nested (c ++ .enter x :: b) := by
  intro h
  obtain ⟨m, -, h2⟩ := nested_prefix h
  have h3 : depthRun (m + 1) b = some 0 := h2
  rw [hb.depth] at h3
  cases h3

theorem last_enter {a a' b b' : List TraceOp} {x x' : String} (hb : Nested b) (hb' : Nested b')
    (h : a ++ .enter x :: b = a' ++ .enter x' :: b') : a = a' ∧ x = x' ∧ b = b' := by
  rcases List.append_eq_append_iff.1 h with ⟨c, h1, h2⟩ | ⟨c, h1, h2⟩
  · cases c with
    | nil => cases h2; exact ⟨by simpa using h1.symm, rfl, rfl⟩
    | cons y t =>
      cases h2
      exact absurd hb (not_nested_enter hb')
  · cases c with
    | nil => cases h2; exact ⟨by simpa using h1, rfl, rfl⟩
    | cons y t =>
      cases h2
      exact absurd hb' (not_nested_enter hb)

/-! ## The log -/

/-- The open scopes of `p`, the last one first, with their positions. -/
inductive StackOf : List TraceOp → List (String × Nat) → Prop
  | base {b : List TraceOp} : Nested b → StackOf b []
  | push {p : List TraceOp} {st : List (String × Nat)} (name : String) {b : List TraceOp} : StackOf p st → Nested b →
      StackOf (p ++ .enter name :: b) ((name, p.length) :: st)

theorem StackOf.grow {p : List TraceOp} {st : List (String × Nat)} (h : StackOf p st) {c : List TraceOp} (hc : Nested c) :
    StackOf (p ++ c) st := by
  cases h with
  | base hb => exact .base (hb.append hc)
  | push name h hb =>
    rw [List.append_assoc, List.cons_append]
    exact .push name h (hb.append hc)

theorem scope_snoc_iff {p : List TraceOp} {o : TraceOp} {name : String} {i j : Nat} :
    ScopeAt (p ++ [o]) name i j ↔
      ScopeAt p name i j ∨ (o = .leave ∧ j = p.length ∧ ∃ a b, p = a ++ .enter name :: b ∧ Nested b ∧ i = a.length) := by
  constructor
  · rintro ⟨a, b, c, h, hb, hi, hj⟩
    rcases List.eq_nil_or_concat c with rfl | ⟨c, x, rfl⟩
    · right
      have h' : p ++ [o] = (a ++ .enter name :: b) ++ [.leave] := by simpa using h
      obtain ⟨h1, h2⟩ := List.append_inj' h' rfl
      refine ⟨by simpa using h2, ?_, a, b, h1, hb, hi⟩
      rw [hj, h1]; simp; omega
    · left
      have h' : p ++ [o] = (a ++ .enter name :: (b ++ .leave :: c)) ++ [x] := by simpa using h
      obtain ⟨h1, -⟩ := List.append_inj' h' rfl
      exact ⟨a, b, c, h1, hb, hi, hj⟩
  · rintro (⟨a, b, c, rfl, hb, hi, hj⟩ | ⟨rfl, hj, a, b, rfl, hb, hi⟩)
    · exact ⟨a, b, c ++ [o], by simp, hb, hi, hj⟩
    · exact ⟨a, b, [], by simp, hb, hi, by rw [hj]; simp; omega⟩

theorem ScopeAt.lt {ops : List TraceOp} {name : String} {i j : Nat} (h : ScopeAt ops name i j) : i < j ∧ j < ops.length := by
  obtain ⟨a, b, c, rfl, -, rfl, rfl⟩ := h
  simp
  omega

/-- The state of the tracer after `p`, when there was nothing before. -/
structure LogOf (clock : Nat → ℚ) (p : List TraceOp) (s : Tracer) : Prop where
  events : EventsOf clock p s.log
  stack : ∃ st, StackOf p st ∧ s.alive = st.map fun x => (x.1, clock x.2)

theorem LogOf.step {rank : Nat} {clock : Nat → ℚ} {p : List TraceOp} {s s' : Tracer} (h : LogOf clock p s) (o : TraceOp)
    (hs : s.step rank (clock p.length) (.op o) = .ok s') : LogOf clock (p ++ [o]) s' := by
  obtain ⟨⟨sc, h1, h2, h3⟩, st, hst, hal⟩ := h
  cases o with
  | enter name =>
    cases hs
    refine ⟨⟨sc, h1, fun n i j => ?_, h3⟩, (name, p.length) :: st, .push name hst .nil, ?_⟩
    · rw [h2, scope_snoc_iff]; simp
    · dsimp only; rw [hal]; rfl
  | leave =>
    cases hst with
    | base hb =>
      unfold Tracer.step at hs
      rw [hal] at hs
      cases hs
    | push name hp hb =>
      rename_i p' st' b
      unfold Tracer.step at hs
      rw [hal] at hs
      cases hs
      refine ⟨⟨sc ++ [(name, p'.length, (p' ++ .enter name :: b).length)], ?_, fun n i j => ?_, ?_⟩, st', ?_, rfl⟩
      · rw [List.map_append, List.pairwise_append]
        refine ⟨h1, by simp, ?_⟩
        intro x hx y hy
        obtain ⟨⟨n, i, j⟩, hm, rfl⟩ := List.mem_map.1 hx
        have hlt := ((h2 n i j).1 hm).lt.2
        simp only [List.map_cons, List.map_nil, List.mem_singleton] at hy
        subst hy
        exact hlt
      · rw [List.mem_append, h2, scope_snoc_iff]
        refine or_congr Iff.rfl ?_
        simp only [List.mem_singleton, Prod.mk.injEq, true_and]
        constructor
        · rintro ⟨rfl, rfl, rfl⟩
          exact ⟨rfl, p', b, rfl, hb, rfl⟩
        · rintro ⟨hj, a, b', e, hb', hi⟩
          obtain ⟨e1, e2, -⟩ := last_enter hb' hb e.symm
          exact ⟨e2, by rw [hi, e1], hj⟩
      · rw [h3, List.map_append]
        simp
      · have := StackOf.grow hp (c := .enter name :: (b ++ [.leave])) (.scope name hb .nil)
        rw [List.append_assoc, List.cons_append]
        exact this

theorem LogOf.run {rank : Nat} {clock : Nat → ℚ} {p : List TraceOp} {s s' : Tracer} (h : LogOf clock p s) (ops : List TraceOp)
    (hs : Tracer.run rank clock p.length s (ops.map .op) = .ok s') : LogOf clock (p ++ ops) s' := by
  induction ops generalizing p s with
  | nil =>
    cases hs
    simpa using h
  | cons o t ih =>
    rw [List.map_cons] at hs
    unfold Tracer.run at hs
    cases hc : s.step rank (clock p.length) (.op o) with
    | error e => rw [hc] at hs; cases hs
    | ok s1 =>
      rw [hc] at hs
      have := ih (p := p ++ [o]) (s := s1) (h.step o hc) (by rw [List.length_append]; exact hs)
      rwa [List.append_assoc] at this

/-- The clock starts at call number `k`. -/
theorem run_shift (rank : Nat) (clock : Nat → ℚ) (d k : Nat) (s : Tracer) (l : List TraceCall) :
    Tracer.run rank clock (d + k) s l = Tracer.run rank (fun i => clock (d + i)) k s l := by
  induction l generalizing k s with
  | nil => rfl
  | cons c t ih =>
    unfold Tracer.run
    cases hc : s.step rank (clock (d + k)) c with
    | error e => rfl
    | ok s1 => exact ih (k + 1) s1

theorem tracer_cons (rank : Nat) (clock : Nat → ℚ) (k : Nat) (s : Tracer) (c : TraceCall) (t : List TraceCall) :
    Tracer.run rank clock k s (c :: t) = (s.step rank (clock k) c).bind fun s' => Tracer.run rank clock (k + 1) s' t := rfl

theorem tracer_append (rank : Nat) (clock : Nat → ℚ) (k : Nat) (s : Tracer) (a b : List TraceCall) :
    Tracer.run rank clock k s (a ++ b) = (Tracer.run rank clock k s a).bind fun s' => Tracer.run rank clock (k + a.length) s' b := by
  induction a generalizing k s with
  | nil => rfl
  | cons c t ih =>
    rw [List.cons_append, tracer_cons, tracer_cons]
    cases hc : s.step rank (clock k) c with
    | error e => rfl
    | ok s1 =>
      refine (ih (k + 1) s1).trans ?_
      rw [List.length_cons, show k + 1 + t.length = k + (t.length + 1) by omega]
      rfl

/-- Events do not touch the files nor the name of the file. -/
theorem run_ops_files {rank : Nat} {clock : Nat → ℚ} {k : Nat} {s s' : Tracer} {ops : List TraceOp}
    (hs : Tracer.run rank clock k s (ops.map .op) = .ok s') : s'.file = s.file ∧ s'.disk = s.disk := by
  induction ops generalizing k s with
  | nil => cases hs; exact ⟨rfl, rfl⟩
  | cons o t ih =>
    rw [List.map_cons] at hs
    unfold Tracer.run at hs
    cases hc : s.step rank (clock k) (.op o) with
    | error e => rw [hc] at hs; cases hs
    | ok s1 =>
      rw [hc] at hs
      obtain ⟨h1, h2⟩ := ih hs
      rw [h1, h2]
      cases o with
      | enter n => cases hc; exact ⟨rfl, rfl⟩
      | leave =>
        unfold Tracer.step at hc
        cases ha : s.alive with
        | nil => rw [ha] at hc; cases hc
        | cons x r => rw [ha] at hc; cases hc; exact ⟨rfl, rfl⟩

/-- Nested scopes can be run and leave no object behind. -/
theorem run_depth {rank : Nat} {clock : Nat → ℚ} {k : Nat} {s : Tracer} {ops : List TraceOp} {m : Nat}
    (h : depthRun s.alive.length ops = some m) : ∃ s', Tracer.run rank clock k s (ops.map .op) = .ok s' ∧ s'.alive.length = m := by
  induction ops generalizing k s with
  | nil => cases h; exact ⟨s, rfl, rfl⟩
  | cons o t ih =>
    cases o with
    | enter n => exact ih (k := k + 1) (s := { s with alive := (n, clock k) :: s.alive }) h
    | leave =>
      cases ha : s.alive with
      | nil => rw [ha] at h; cases h
      | cons x r =>
        rw [ha] at h
        obtain ⟨s', h1, h2⟩ := ih (k := k + 1) (s := { s with alive := r, log := s.log ++ [⟨x.1, x.2, clock k - x.2⟩] }) h
        refine ⟨s', ?_, h2⟩
        rw [List.map_cons]
        unfold Tracer.run Tracer.step
        rw [ha]
        exact h1

/-! ## Scopes -/

/-- Scopes are nested or disjoint. -/
theorem scopes_laminar {ops : List TraceOp} {n n' : String} {i j i' j' : Nat} (h : ScopeAt ops n i j) (h' : ScopeAt ops n' i' j')
    (hi : i < i') : j < i' ∨ j' < j := by
  obtain ⟨a, b, c, e, hb, rfl, rfl⟩ := h
  obtain ⟨a', b', c', e', hb', rfl, rfl⟩ := h'
  by_contra hn
  simp only [not_or, not_lt] at hn
  obtain ⟨h1, h2⟩ := hn
  have e1 : a ++ TraceOp.enter n :: (b ++ .leave :: c) = a' ++ .enter n' :: (b' ++ .leave :: c') := e.symm.trans e'
  -- the second scope starts inside the first one
  rcases List.append_eq_append_iff.1 e1 with ⟨u, e2, e3⟩ | ⟨u, e2, -⟩
  · cases u with
    | nil => rw [e2] at hi; simp at hi
    | cons x u =>
      injection e3 with hx e3
      subst hx
      rw [e2] at h1
      simp only [List.length_append, List.length_cons] at h1
      rcases List.append_eq_append_iff.1 e3 with ⟨v, e4, e5⟩ | ⟨v, e4, e5⟩
      · cases v with
        | nil => cases e5
        | cons y v =>
          rw [e4] at h1
          simp only [List.length_append, List.length_cons] at h1
          omega
      · cases v with
        | nil => cases e5
        | cons y v =>
          injection e5 with hy e5
          subst hy
          have hlen : v.length ≤ b'.length := by
            rw [e4, e2] at h2
            simp only [List.length_append, List.length_cons] at h2
            omega
          rw [e4] at hb
          obtain ⟨m, -, h4⟩ := nested_prefix hb
          have h5 : depthRun (m + 1) v = some 0 := h4
          rcases List.append_eq_append_iff.1 e5 with ⟨w, e6, -⟩ | ⟨w, e6, -⟩
          · rw [e6] at hlen
            have : w = [] := by
              rw [List.length_append] at hlen
              exact List.eq_nil_of_length_eq_zero (by omega)
            subst this
            rw [List.append_nil] at e6
            rw [e6, hb'.depth] at h5
            cases h5
          · rw [e6] at hb'
            obtain ⟨m', h6, -⟩ := nested_prefix hb'
            have h7 := depthRun_shift h6 (m + 1)
            rw [Nat.zero_add, h5] at h7
            injection h7 with h7
            omega
  · rw [e2] at hi
    rw [List.length_append] at hi
    omega

/-- A scope has one end. -/
theorem scope_unique {ops : List TraceOp} {n n' : String} {i j j' : Nat} (h : ScopeAt ops n i j) (h' : ScopeAt ops n' i j') :
    n = n' ∧ j = j' := by
  obtain ⟨a, b, c, e, hb, hi, rfl⟩ := h
  obtain ⟨a', b', c', e', hb', hi', rfl⟩ := h'
  have e1 := e.symm.trans e'
  obtain ⟨e2, e3⟩ := List.append_inj e1 (hi.symm.trans hi')
  injection e3 with e4 e5
  injection e4 with e4
  refine ⟨e4, ?_⟩
  rw [← e2]
  have key : ∀ {b b' c c' : List TraceOp}, Nested b → Nested b' → b ++ .leave :: c = b' ++ .leave :: c' → b'.length ≤ b.length := by
    intro b b' c c' hb hb' e
    rcases List.append_eq_append_iff.1 e with ⟨u, e6, e7⟩ | ⟨u, e6, -⟩
    · cases u with
      | nil => rw [e6]; simp
      | cons x u =>
        injection e7 with hx
        subst hx
        rw [e6] at hb'
        obtain ⟨m, h1, h2⟩ := nested_prefix hb'
        rw [hb.depth] at h1
        cases h1
        cases h2
    · rw [e6, List.length_append]; omega
  have := key hb hb' e5
  have := key hb' hb e5.symm
  omega

theorem nested_closes {ops : List TraceOp} (h : Nested ops) {i : Nat} {name : String} (hi : ops[i]? = some (.enter name)) :
    ∃ j, ScopeAt ops name i j := by
  obtain ⟨hlt, he⟩ := List.getElem?_eq_some_iff.1 hi
  have e : ops = ops.take i ++ .enter name :: ops.drop (i + 1) := by
    rw [← he, List.getElem_cons_drop, List.take_append_drop]
  rw [e] at h
  obtain ⟨m, -, h2⟩ := nested_prefix h
  have h3 : depthRun (m + 1) (ops.drop (i + 1)) = some 0 := h2
  obtain ⟨b, c, e2, hb, -⟩ := closing_of_depth h3
  refine ⟨i + b.length + 1, ops.take i, b, c, ?_, hb, ?_, ?_⟩
  · rw [← e2]; exact e
  · rw [List.length_take]; omega
  · rw [List.length_take]; omega

theorem nested_flat (l : List String) : Nested (l.flatMap flatScope) := by
  induction l with
  | nil => exact .nil
  | cons x t ih => exact .scope x .nil ih

/-! ## The steps of a transform -/

def TStep.mark? : TStep → Option TraceOp
  | .mark o => some o
  | .work _ => none

def TStep.work? : TStep → Option Instr
  | .mark _ => none
  | .work c => some c

theorem nested_expand {sub : Fin 4 → List TraceOp} (hsub : ∀ i, Nested (sub i)) {l : List TStep} {a : List TraceOp}
    (h : Nested (a ++ l.filterMap TStep.mark?)) : Nested (a ++ expand sub l) := by
  induction l generalizing a with
  | nil => simpa [expand] using h
  | cons c t ih =>
    cases c with
    | mark o =>
      have := ih (a := a ++ [o]) (by simpa [TStep.mark?, List.filterMap_cons] using h)
      simpa [expand, List.flatMap_cons] using this
    | work c =>
      have h' : Nested (a ++ t.filterMap TStep.mark?) := by simpa [TStep.mark?, List.filterMap_cons] using h
      cases c with
      | reshape i s d =>
        have := ih (a := a ++ sub i) (h'.insert (hsub i))
        simpa [expand, List.flatMap_cons] using this
      | copy k s d =>
        have := ih (a := a) h'
        simpa [expand, List.flatMap_cons] using this
      | batch l =>
        have := ih (a := a) h'
        simpa [expand, List.flatMap_cons] using this

theorem traced_table : ([Mode.same, .r2c, .c2r].all fun m => Pattern.all.all fun P => match tracedProgram m P with
    | .ok l => decide (program m P = .ok (l.filterMap TStep.work?)) && decide (Nested (l.filterMap TStep.mark?))
    | .error e => decide (program m P = .error e)) = true := by decide +kernel

end Verif
