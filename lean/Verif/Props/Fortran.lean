import Verif.FortranLemmas
import Verif.Props.CApi

/-!
# Properties of the Fortran interface (C83)
-/

namespace Verif
open Stock

section
variable {α ω κ : Type} {alloc alloc' : FState ω κ → Nat} {build : α → Res ω} {prog : List (FStmt α κ)}

/-! ## C83: the variables of a program -/

/-- C83: a program that respects the rules, with any allocator: no undefined behaviour, exactly the expected events happen, the variables
hold plans exactly when they are expected to; an exception of a constructor ends the program where it is expected. -/
theorem C83_runs (halloc : Allocates alloc) (hp : (FSpec.start : FSpec ω κ).PermittedRun build prog) :
    (∃ s t, FState.start.run alloc build prog = .finished s ∧ FSpec.start.run build prog = .finished t ∧ s.events = t.events ∧
      ∀ v, (s.vars v).cptr = none ↔ t.vars v = none) ∨
    (∃ e s t, FState.start.run alloc build prog = .terminated e s ∧ FSpec.start.run build prog = .terminated e t ∧ s.events = t.events) := by
  cases run_agrees halloc agrees_start hp with
  | finished h1 h2 h3 =>
    refine .inl ⟨_, _, h1, h2, h3.events, fun v => ?_⟩
    rw [h3.vars v]
    rename_i t' _
    cases t'.vars v with
    | none => exact ⟨fun _ => rfl, fun _ => rfl⟩
    | some r =>
      obtain ⟨k, m⟩ := r
      exact ⟨fun h => (by cases h), fun h => (by cases h)⟩
  | terminated h1 h2 h3 => exact .inr ⟨_, _, _, h1, h2, h3.events⟩

/-- C83: in such a program every plan is destroyed at most once and not used afterwards, and a plan that has not been destroyed has a
variable that owns it. -/
theorem C83_lifetimes (halloc : Allocates alloc) (hp : (FSpec.start : FSpec ω κ).PermittedRun build prog) {s : FState ω κ}
    (hs : FState.start.run alloc build prog = .finished s ∨ ∃ e, FState.start.run alloc build prog = .terminated e s) :
    Lifetimes s.events ∧ ∀ k x, .created k x ∈ s.events → .destroyed k ∈ s.events ∨ ∃ v a, s.vars v = ⟨some ⟨a, k⟩, true, false⟩ := by
  obtain ⟨t, addr, h, ht⟩ : ∃ t addr, Agrees s t addr ∧ Told t := by
    cases run_agrees halloc agrees_start hp with
    | finished h1 h2 h3 =>
      rcases hs with hs | ⟨e, hs⟩
      · rw [hs] at h1
        cases h1
        exact ⟨_, _, h3, told_run told_start hp (.inl h2)⟩
      · rw [hs] at h1
        cases h1
    | terminated h1 h2 h3 =>
      rcases hs with hs | ⟨e, hs⟩
      · rw [hs] at h1
        cases h1
      · rw [hs] at h1
        cases h1
        exact ⟨_, _, h3, told_run told_start hp (.inr ⟨_, h2⟩)⟩
  rw [h.events]
  refine ⟨ht.lifetimes, fun k x hc => ?_⟩
  by_cases hL : t.Living k
  · obtain ⟨v, hv⟩ := hL
    exact .inr ⟨v, addr k, by rw [h.vars v, hv]; rfl⟩
  · exact .inl ((ht.destroyed k).2 ⟨(ht.created_lt k).1 ⟨x, hc⟩, hL⟩)

theorem spec_run_append {t : FSpec ω κ} {p q : List (FStmt α κ)} {t' : FSpec ω κ} (h : t.run build p = .finished t') :
    t.run build (p ++ q) = t'.run build q := by
  induction p generalizing t with
  | nil => cases h; rfl
  | cons x xs ih =>
    unfold FSpec.run at h
    rw [List.cons_append]
    show (match t.step build x with
      | .finished t' => t'.run build (xs ++ q)
      | .terminated e t' => .terminated e t'
      | .undefined => .undefined) = _
    cases e : t.step build x with
    | finished t1 => rw [e] at h; exact ih h
    | terminated e' t1 => rw [e] at h; cases h
    | undefined => rw [e] at h; cases h

theorem run_cons {s s' : FState ω κ} {x : FStmt α κ} {xs : List (FStmt α κ)} (h : s.step alloc build x = .finished s') :
    s.run alloc build (x :: xs) = s'.run alloc build xs := by
  show (match s.step alloc build x with
      | .finished t' => t'.run alloc build xs
      | .terminated e t' => .terminated e t'
      | .undefined => .undefined) = _
  rw [h]

theorem run_undefined {s : FState ω κ} {x : FStmt α κ} {xs : List (FStmt α κ)} (h : s.step alloc build x = .undefined) :
    s.run alloc build (x :: xs) = .undefined := by
  show (match s.step alloc build x with
      | .finished t' => t'.run alloc build xs
      | .terminated e t' => .terminated e t'
      | .undefined => .undefined) = _
  rw [h]

theorem run_append {s : FState ω κ} {p q : List (FStmt α κ)} {s' : FState ω κ} (h : s.run alloc build p = .finished s') :
    s.run alloc build (p ++ q) = s'.run alloc build q := by
  induction p generalizing s with
  | nil => cases h; rfl
  | cons x xs ih =>
    unfold FState.run at h
    rw [List.cons_append]
    show (match s.step alloc build x with
      | .finished t' => t'.run alloc build (xs ++ q)
      | .terminated e t' => .terminated e t'
      | .undefined => .undefined) = _
    cases e : s.step alloc build x with
    | finished t1 => rw [e] at h; exact ih h
    | terminated e' t1 => rw [e] at h; cases h
    | undefined => rw [e] at h; cases h

theorem permitted_append {t : FSpec ω κ} {p q : List (FStmt α κ)} (h : t.PermittedRun build p)
    (hq : ∀ t', t.run build p = .finished t' → t'.PermittedRun build q) : t.PermittedRun build (p ++ q) := by
  induction p generalizing t with
  | nil => exact hq t rfl
  | cons x xs ih =>
    unfold FSpec.PermittedRun at h
    rw [List.cons_append]
    refine ⟨h.1, fun t' ht => ih (h.2 t' ht) fun t'' ht'' => hq t'' ?_⟩
    unfold FSpec.run
    rw [ht]
    exact ht''

theorem releases_permitted (t : FSpec ω κ) (l : List Nat) : t.PermittedRun build (l.map FStmt.release : List (FStmt α κ)) := by
  induction l generalizing t with
  | nil => trivial
  | cons v l ih => exact ⟨trivial, fun t' ht => by cases ht; exact ih _⟩

theorem releases_run (t : FSpec ω κ) (l : List Nat) : ∃ t', t.run build (l.map FStmt.release : List (FStmt α κ)) = .finished t' ∧
    ∀ v, t'.vars v = if v ∈ l then none else t.vars v := by
  induction l generalizing t with
  | nil => exact ⟨t, rfl, fun v => by simp⟩
  | cons w l ih =>
    obtain ⟨t', h1, h2⟩ := ih (t.assign w none)
    refine ⟨t', h1, fun v => ?_⟩
    rw [h2]
    by_cases e : v ∈ l
    · simp [e]
    · rw [if_neg e]
      by_cases e' : v = w
      · subst e'
        rw [if_pos (List.mem_cons_self ..)]
        exact Function.update_self ..
      · rw [if_neg (by simp [e, e'])]
        exact Function.update_of_ne e' ..

/-- C83: a program that releases all its variables at its end, in any order, has destroyed all its plans, each of them once. -/
theorem C83_no_leak (halloc : Allocates alloc) (hp : (FSpec.start : FSpec ω κ).PermittedRun build prog) {s : FState ω κ}
    (hs : FState.start.run alloc build prog = .finished s) (l : List Nat) (hl : ∀ v, (s.vars v).cptr ≠ none → v ∈ l) :
    ∃ s', FState.start.run alloc build (prog ++ l.map .release) = .finished s' ∧ (∀ v, (s'.vars v).cptr = none) ∧ Lifetimes s'.events ∧
      ∀ k x, .created k x ∈ s'.events → .destroyed k ∈ s'.events := by
  have hp' : (FSpec.start : FSpec ω κ).PermittedRun build (prog ++ l.map .release) := permitted_append hp fun t' _ => releases_permitted t' l
  obtain ⟨t, hts, hvars⟩ : ∃ t, FSpec.start.run build prog = .finished t ∧ ∀ v, (s.vars v).cptr = none ↔ t.vars v = none := by
    rcases C83_runs halloc hp with ⟨s1, t, h1, h2, -, h4⟩ | ⟨e, s1, t, h1, -⟩
    · rw [hs] at h1
      cases h1
      exact ⟨t, h2, h4⟩
    · rw [hs] at h1
      cases h1
  obtain ⟨t', h1, h2⟩ := releases_run (build := build) t l
  have hrun := (spec_run_append (q := l.map .release) hts).trans h1
  rcases C83_runs halloc hp' with ⟨s1, t1, g1, g2, -, g4⟩ | ⟨e, s1, t1, -, g2, -⟩
  · rw [hrun] at g2
    cases g2
    have hnull : ∀ v, (s1.vars v).cptr = none := by
      intro v
      rw [g4, h2]
      by_cases e : v ∈ l
      · rw [if_pos e]
      · rw [if_neg e, ← hvars]
        by_contra h
        exact e (hl v h)
    obtain ⟨k1, k2⟩ := C83_lifetimes halloc hp' (.inl g1)
    refine ⟨s1, g1, hnull, k1, fun k x hc => (k2 k x hc).resolve_right ?_⟩
    rintro ⟨v, a, hv⟩
    have := hnull v
    rw [hv] at this
    cases this
  · rw [hrun] at g2
    cases g2

/-- C83: on two ranks that execute the same program the same events happen, wherever the objects are placed in the memory of the ranks. -/
theorem C83_ranks (halloc : Allocates alloc) (halloc' : Allocates alloc') (hp : (FSpec.start : FSpec ω κ).PermittedRun build prog) :
    (∃ s s', FState.start.run alloc build prog = .finished s ∧ FState.start.run alloc' build prog = .finished s' ∧ s.events = s'.events) ∨
    (∃ e s s', FState.start.run alloc build prog = .terminated e s ∧ FState.start.run alloc' build prog = .terminated e s' ∧ s.events = s'.events) := by
  rcases C83_runs halloc hp with ⟨s, t, h1, h2, h3, -⟩ | ⟨e, s, t, h1, h2, h3⟩ <;>
    rcases C83_runs halloc' hp with ⟨s', t', g1, g2, g3, -⟩ | ⟨e', s', t', g1, g2, g3⟩ <;> rw [h2] at g2 <;> cases g2
  · exact .inl ⟨s, s', h1, g1, h3.trans g3.symm⟩
  · exact .inr ⟨e, s, s', h1, g1, h3.trans g3.symm⟩

theorem spec_plans {t t' : FSpec ω κ} (h : t.run build prog = .finished t' ∨ ∃ e, t.run build prog = .terminated e t') {x : ω} (hx : x ∈ t'.plans) :
    x ∈ t.plans ∨ ∃ v args, .make v args ∈ prog ∧ build args = .ok x := by
  induction prog generalizing t with
  | nil =>
    rcases h with h | ⟨e, h⟩ <;> cases h
    exact .inl hx
  | cons y ys ih =>
    unfold FSpec.run at h
    cases e : t.step build y with
    | undefined => rw [e] at h; rcases h with h | ⟨e, h⟩ <;> cases h
    | terminated e' t1 =>
      rw [e] at h
      rcases h with h | ⟨e, h⟩ <;> cases h
      unfold FSpec.step at e
      cases y with
      | make v args =>
        dsimp only at e
        split at e <;> cases e
        exact .inl hx
      | copy v w => cases e
      | release v => cases e
      | call v c => cases e
    | finished t1 =>
      rw [e] at h
      have key : x ∈ t1.plans → x ∈ t.plans ∨ ∃ v args, .make v args ∈ y :: ys ∧ build args = .ok x := by
        intro hx1
        unfold FSpec.step at e
        cases y with
        | make v args =>
          dsimp only at e
          cases eb : build args with
          | error e' => rw [eb] at e; cases e' <;> cases e
          | ok z =>
            rw [eb] at e
            cases e
            rcases List.mem_append.1 (show x ∈ t.plans ++ [z] from hx1) with h1 | h1
            · exact .inl h1
            · rw [List.mem_singleton.1 h1]
              exact .inr ⟨v, args, List.mem_cons_self .., eb⟩
        | copy v w =>
          dsimp only at e
          split at e <;> try split at e
          all_goals
            cases e
            exact .inl hx1
        | release v => cases e; exact .inl hx1
        | call v c =>
          dsimp only at e
          split at e <;> try split at e
          all_goals
            cases e
            exact .inl hx1
      rcases ih h with h1 | ⟨v, args, h1, h2⟩
      · exact key h1
      · exact .inr ⟨v, args, List.mem_cons_of_mem _ h1, h2⟩

/-- C83: the object whose method is executed is the object of a constructor that the program has called. -/
theorem C83_objects (halloc : Allocates alloc) (hp : (FSpec.start : FSpec ω κ).PermittedRun build prog) {s : FState ω κ}
    (hs : FState.start.run alloc build prog = .finished s ∨ ∃ e, FState.start.run alloc build prog = .terminated e s) {k : Nat} {x : ω} {c : κ}
    (hc : .called k x c ∈ s.events) : ∃ v args, .make v args ∈ prog ∧ build args = .ok x := by
  obtain ⟨t, ht, he⟩ : ∃ t, (FSpec.start.run build prog = .finished t ∨ ∃ e, FSpec.start.run build prog = .terminated e t) ∧ s.events = t.events := by
    rcases C83_runs halloc hp with ⟨s1, t, h1, h2, h3, -⟩ | ⟨e, s1, t, h1, h2, h3⟩
    · rcases hs with hs | ⟨e, hs⟩ <;> rw [hs] at h1 <;> cases h1
      exact ⟨t, .inl h2, h3⟩
    · rcases hs with hs | ⟨e, hs⟩ <;> rw [hs] at h1 <;> cases h1
      exact ⟨t, .inr ⟨_, h2⟩, h3⟩
  have hT := told_run told_start hp ht
  rw [he] at hc
  obtain ⟨pre, post, e⟩ := List.append_of_mem hc
  have h1 := (hT.lifetimes pre _ post e).1
  have h2 : .created k x ∈ t.events := by rw [e]; exact List.mem_append_left _ h1
  have h3 := List.mem_of_getElem? ((hT.created k x).1 h2)
  rcases spec_plans ht h3 with h4 | h4
  · cases h4
  · exact h4

/-- `heffte_stock_ierr` is -13 if a call was refused and 0 otherwise. -/
def CodeOk (s : FState ω κ) : Prop := (.refused ∈ s.events → s.ierr = -13) ∧ (.refused ∉ s.events → s.ierr = 0)

theorem CodeOk.more {s : FState ω κ} (h : CodeOk s) {s' : FState ω κ} {l : List (FEvent ω κ)} (hl : .refused ∉ l) (he : s'.events = s.events ++ l)
    (hi : s'.ierr = s.ierr) : CodeOk s' := by
  unfold CodeOk
  rw [he, hi, List.mem_append]
  exact ⟨fun h1 => h.1 (h1.resolve_right hl), fun h1 => h.2 fun h2 => h1 (.inl h2)⟩

theorem CodeOk.delete {s s' : FState ω κ} (h : CodeOk s) {p : Option CPtr} (hd : s.delete p = .ok s') : CodeOk s' := by
  unfold FState.delete at hd
  split at hd
  · cases hd; exact h
  · split at hd
    · split at hd
      · cases hd
        exact h.more (l := [.destroyed _]) (by simp) rfl rfl
      · cases hd
    · cases hd

theorem CodeOk.destroy {s : FState ω κ} (h : CodeOk s) {self : SwigWrapper} {r : SwigWrapper × FState ω κ} (hd : s.destroy self = .ok r) : CodeOk r.2 := by
  unfold FState.destroy at hd
  cases e : s.delete self.cptr with
  | error _ => rw [e] at hd; cases hd
  | ok s1 => rw [e] at hd; cases hd; exact h.delete e

theorem CodeOk.opAssign {s s' : FState ω κ} (h : CodeOk s) {v : Nat} {other : SwigWrapper} (ha : s.opAssign v other = .ok s') : CodeOk s' := by
  unfold FState.opAssign at ha
  cases e : s.swigAssign (s.vars v) other with
  | error _ => rw [e] at ha; cases ha
  | ok r =>
    rw [e] at ha
    cases ha
    refine CodeOk.more (s := r.2) (l := []) ?_ (by simp) (by simp) rfl
    have key : ∀ {self : SwigWrapper} {q : SwigWrapper × FState ω κ},
        (if self.own then (s.destroy self).map fun r => (other.capture, r.2) else .ok (other.capture, s)) = Except.ok q → CodeOk q.2 := by
      intro self q hq
      split at hq
      · cases e1 : s.destroy self with
        | error _ => rw [e1] at hq; cases hq
        | ok r1 =>
          rw [e1] at hq
          cases hq
          have := h.destroy e1
          exact this
      · cases hq; exact h
    unfold FState.swigAssign FState.moveAlias FState.copyAlias at e
    split at e
    · split at e <;> · cases e; exact h
    · split at e
      · exact h.destroy e
      · split at e
        · cases e; exact h
        · split at e <;> exact key e

theorem CodeOk.step {s s' : FState ω κ} (h : CodeOk s) {x : FStmt α κ}
    (hs : s.step alloc build x = .finished s' ∨ ∃ e, s.step alloc build x = .terminated e s') : CodeOk s' := by
  have fin : ∀ {r : Res (FState ω κ)}, (FOutcome.ofRes r = .finished s' ∨ ∃ e, FOutcome.ofRes r = .terminated e s') → r = .ok s' := by
    intro r hr
    cases r with
    | error _ => rcases hr with hr | ⟨_, hr⟩ <;> cases hr
    | ok a => rcases hr with hr | ⟨_, hr⟩ <;> cases hr; rfl
  cases x with
  | make v args =>
    unfold FState.step at hs
    dsimp only at hs
    cases e : build args with
    | error er =>
      rw [e] at hs
      cases er <;> rcases hs with hs | ⟨_, hs⟩ <;> cases hs <;> exact h
    | ok y =>
      rw [e] at hs
      have := fin hs
      exact (h.more (s' := (s.wrapNew (alloc s) y).2) (l := [.created s.made y]) (by simp) rfl rfl).opAssign this
  | copy v w => exact h.opAssign (fin hs)
  | release v =>
    have hr := fin (r := s.release v) hs
    unfold FState.release at hr
    dsimp only at hr
    by_cases ho : (s.vars v).own = true
    · rw [if_pos ho] at hr
      cases e : s.delete (s.vars v).cptr with
      | error _ => rw [e] at hr; cases hr
      | ok s1 => rw [e] at hr; cases hr; exact (h.delete e).more (l := []) (by simp) (by simp) rfl
    · rw [if_neg ho] at hr
      cases hr
      exact h.more (l := []) (by simp) (by simp) rfl
  | call v c =>
    have hr := fin (r := s.method v c) hs
    unfold FState.method at hr
    split at hr
    · cases hr
      exact ⟨fun _ => rfl, fun h1 => absurd (by simp) h1⟩
    · split at hr
      · split at hr
        · cases hr
          exact h.more (l := [.called _ _ c]) (by simp) rfl rfl
        · cases hr
      · cases hr

/-- C83 (error code), for all programs, permitted or not: `heffte_stock_ierr` is set exactly if a method was called for a variable without a plan. -/
theorem C83_error_code {s : FState ω κ}
    (hs : FState.start.run alloc build prog = .finished s ∨ ∃ e, FState.start.run alloc build prog = .terminated e s) :
    (.refused ∈ s.events → s.ierr = -13) ∧ (.refused ∉ s.events → s.ierr = 0) := by
  have gen : ∀ (l : List (FStmt α κ)) (a : FState ω κ), CodeOk a →
      (a.run alloc build l = .finished s ∨ ∃ e, a.run alloc build l = .terminated e s) → CodeOk s := by
    intro l
    induction l with
    | nil =>
      intro a ha h
      rcases h with h | ⟨_, h⟩ <;> cases h
      exact ha
    | cons x t ih =>
      intro a ha h
      unfold FState.run at h
      cases e : a.step alloc build x with
      | finished b => rw [e] at h; exact ih b (ha.step (.inl e)) h
      | terminated er b =>
        rw [e] at h
        rcases h with h | ⟨_, h⟩ <;> cases h
        exact ha.step (.inr ⟨_, e⟩)
      | undefined => rw [e] at h; rcases h with h | ⟨_, h⟩ <;> cases h
  exact gen prog _ ⟨fun h => absurd h (by simp [FState.start]), fun _ => rfl⟩ hs

/-- A call without a plan: the event and the code. -/
example : ∃ s, (FState.start : FState Nat Nat).run (fun s => s.made) (fun (n : Nat) => .ok n) [.make 0 5, .call 0 7, .call 1 8, .release 0] = .finished s ∧
    s.events = [.created 0 5, .called 0 5 7, .refused, .destroyed 0] ∧ s.ierr = -13 := ⟨_, rfl, rfl, rfl⟩

/-! ## C83: what the rules exclude -/

/-- The state after a permitted program. -/
theorem reached (halloc : Allocates alloc) (hp : (FSpec.start : FSpec ω κ).PermittedRun build prog) {t : FSpec ω κ}
    (ht : FSpec.start.run build prog = .finished t) : ∃ s addr, FState.start.run alloc build prog = .finished s ∧ Agrees s t addr := by
  cases run_agrees halloc agrees_start hp with
  | finished h1 h2 h3 =>
    rw [ht] at h2
    cases h2
    exact ⟨_, _, h1, h3⟩
  | terminated h1 h2 h3 =>
    rw [ht] at h2
    cases h2

/-- Finding (C83): `v = w` copies the ownership if `v` already holds another plan; if both variables are released, as the documentation
asks, the plan is deleted twice. -/
theorem C83_false_copy (halloc : Allocates alloc) (hp : (FSpec.start : FSpec ω κ).PermittedRun build prog) {t : FSpec ω κ}
    (ht : FSpec.start.run build prog = .finished t) {v w j k : Nat} {mine : Bool} (hv : t.vars v = some (j, mine)) (hL : t.Living j)
    (hw : t.vars w = some (k, true)) (hjk : j ≠ k) : FState.start.run alloc build (prog ++ [.copy v w, .release v, .release w]) = .undefined := by
  obtain ⟨s, addr, h1, h⟩ := reached halloc hp ht
  rw [run_append h1]
  have hne := h.heap.addr_ne (h.living hL) hL (h.living ⟨w, hw⟩) ⟨w, hw⟩ hjk
  have hvw : w ≠ v := by
    rintro rfl
    rw [hv] at hw
    cases hw
    exact hjk rfl
  have ev := h.vars v
  have ew := h.vars w
  rw [hv] at ev
  rw [hw] at ew
  have hk := h.heap.at (h.living ⟨w, hw⟩) ⟨w, hw⟩
  have hstep : ∃ s1, s.opAssign v (s.vars w) = .ok s1 ∧ s1.vars = Function.update s.vars v ⟨some ⟨addr k, k⟩, true, false⟩ ∧ s1.heap (addr k) = some (k, t.plans[k]'(h.living ⟨w, hw⟩)) := by
    unfold FState.opAssign FState.swigAssign
    rw [ev, ew]
    unfold wrapperOf
    dsimp only
    rw [if_neg hne, if_neg (by simp)]
    unfold FState.copyAlias
    cases mine with
    | false => exact ⟨_, rfl, rfl, hk⟩
    | true =>
      have hj := h.heap.at (h.living hL) hL
      dsimp only
      rw [if_pos rfl]
      unfold FState.destroy
      dsimp only
      rw [delete_at hj]
      refine ⟨_, rfl, rfl, ?_⟩
      show Function.update s.heap (addr j) none (addr k) = _
      rw [Function.update_of_ne (Ne.symm hne)]
      exact hk
  obtain ⟨s1, g1, g2, g3⟩ := hstep
  have e1 : s.step alloc build (.copy v w) = .finished s1 := by
    unfold FState.step
    dsimp only
    rw [g1]
    rfl
  have hv1 : s1.vars v = ⟨some ⟨addr k, k⟩, true, false⟩ := by rw [g2, Function.update_self]
  have hw1 : s1.vars w = ⟨some ⟨addr k, k⟩, true, false⟩ := by rw [g2, Function.update_of_ne hvw, ew]; rfl
  have hrel : ∃ s2, s1.release v = .ok s2 ∧ s2.vars w = ⟨some ⟨addr k, k⟩, true, false⟩ ∧ s2.heap (addr k) = none := by
    unfold FState.release
    rw [hv1]
    dsimp only
    rw [if_pos rfl, delete_at g3]
    refine ⟨_, rfl, ?_, ?_⟩
    · show Function.update s1.vars v .null w = _
      rw [Function.update_of_ne hvw, hw1]
    · exact Function.update_self ..
  obtain ⟨s2, k1, k2, k3⟩ := hrel
  have e2 : s1.step alloc build (.release v) = .finished s2 := by
    unfold FState.step
    dsimp only
    rw [k1]
    rfl
  have e3 : s2.step alloc build (.release w) = .undefined := by
    unfold FState.step FState.release FState.delete
    dsimp only
    rw [k2]
    dsimp only
    rw [if_pos rfl, k3]
    rfl
  rw [run_cons e1, run_cons e2, run_undefined e3]

/-- Finding (C83): assigning a variable that holds no plan destroys the plan of the variable on the left even if that variable does not
own it; the owner is left with a plan that does not exist any more. -/
theorem C83_false_null (halloc : Allocates alloc) (hp : (FSpec.start : FSpec ω κ).PermittedRun build prog) {t : FSpec ω κ}
    (ht : FSpec.start.run build prog = .finished t) {u v w k : Nat} (hu : t.vars u = some (k, true)) (hv : t.vars v = some (k, false))
    (hw : t.vars w = none) : FState.start.run alloc build (prog ++ [.copy v w, .release u]) = .undefined ∧
      ∀ c, FState.start.run alloc build (prog ++ [.copy v w, .call u c]) = .undefined := by
  obtain ⟨s, addr, h1, h⟩ := reached halloc hp ht
  have huv : u ≠ v := by
    rintro rfl
    rw [hu] at hv
    cases hv
  have eu := h.vars u
  have ev := h.vars v
  have ew := h.vars w
  rw [hu] at eu
  rw [hv] at ev
  rw [hw] at ew
  have hk := h.heap.at (h.living ⟨u, hu⟩) ⟨u, hu⟩
  have hstep : ∃ s1, s.opAssign v (s.vars w) = .ok s1 ∧ s1.vars u = ⟨some ⟨addr k, k⟩, true, false⟩ ∧ s1.heap (addr k) = none := by
    unfold FState.opAssign FState.swigAssign
    rw [ev, ew]
    unfold wrapperOf FState.destroy
    dsimp only [SwigWrapper.null]
    rw [delete_at hk]
    refine ⟨_, rfl, ?_, ?_⟩
    · show Function.update s.vars v _ u = _
      rw [Function.update_of_ne huv, eu]
      rfl
    · exact Function.update_self ..
  obtain ⟨s1, g1, g2, g3⟩ := hstep
  have e1 : s.step alloc build (.copy v w) = .finished s1 := by
    unfold FState.step
    dsimp only
    rw [g1]
    rfl
  constructor
  · rw [run_append h1]
    have e2 : s1.step alloc build (.release u) = .undefined := by
      unfold FState.step FState.release FState.delete
      dsimp only
      rw [g2]
      dsimp only
      rw [if_pos rfl, g3]
      rfl
    rw [run_cons e1, run_undefined e2]
  · intro c
    rw [run_append h1]
    have e2 : s1.step alloc build (.call u c) = .undefined := by
      unfold FState.step FState.method
      dsimp only
      rw [g2]
      dsimp only
      rw [g3]
      rfl
    rw [run_cons e1, run_undefined e2]

open Classical in
/-- An allocator that uses the first address whenever it is free. -/
noncomputable def firstFree (s : FState ω κ) : Nat := if s.heap 0 = none then 0 else if h : ∃ a, s.heap a = none then h.choose else 0

theorem firstFree_allocates : Allocates (firstFree : FState ω κ → Nat) := by
  intro s h
  unfold firstFree
  split
  · assumption
  · exact h.choose_spec

theorem firstFree_start {s : FState ω κ} (h : s.heap 0 = none) : firstFree s = 0 := if_pos h

/-- Finding (C83): assigning a new plan to a variable whose plan another variable has released does nothing if the new plan has the
address of the old one: the new plan is never destroyed although every variable is released. -/
theorem C83_false_leak {a b : α} {x y : ω} (ha : build a = .ok x) (hb : build b = .ok y) :
    ∃ s, FState.start.run (κ := κ) firstFree build [.make 0 a, .copy 1 0, .release 0, .make 1 b, .release 0, .release 1] = .finished s ∧
      (∀ v, (s.vars v).cptr = none) ∧ .created 1 y ∈ s.events ∧ .destroyed 1 ∉ s.events := by
  let s1 : FState ω κ := ⟨Function.update (fun _ => none) 0 (some (0, x)), 1, Function.update (fun _ => .null) 0 ⟨some ⟨0, 0⟩, true, false⟩, 0, [.created 0 x]⟩
  have e1 : FState.start.step (κ := κ) firstFree build (.make 0 a) = .finished s1 := by
    unfold FState.step
    dsimp only
    rw [ha]
    dsimp only
    rw [firstFree_start rfl]
    rfl
  let s2 : FState ω κ := { s1 with vars := Function.update s1.vars 1 ⟨some ⟨0, 0⟩, false, false⟩ }
  have e2 : s1.step firstFree build (.copy 1 0) = .finished s2 := rfl
  let s3 : FState ω κ := ⟨Function.update s2.heap 0 none, 1, Function.update s2.vars 0 .null, 0, [.created 0 x, .destroyed 0]⟩
  have e3 : s2.step firstFree build (.release 0) = .finished s3 := rfl
  let s4 : FState ω κ := ⟨Function.update s3.heap 0 (some (1, y)), 2, Function.update s3.vars 1 ⟨some ⟨0, 0⟩, false, false⟩, 0, [.created 0 x, .destroyed 0, .created 1 y]⟩
  have e4 : s3.step firstFree build (.make 1 b) = .finished s4 := by
    unfold FState.step
    dsimp only
    rw [hb]
    dsimp only
    rw [firstFree_start rfl]
    rfl
  let s5 : FState ω κ := { s4 with vars := Function.update s4.vars 0 .null }
  have e5 : s4.step firstFree build (.release 0) = .finished s5 := rfl
  let s6 : FState ω κ := { s5 with vars := Function.update s5.vars 1 .null }
  have e6 : s5.step firstFree build (.release 1) = .finished s6 := rfl
  refine ⟨s6, ?_, ?_, ?_, ?_⟩
  · rw [run_cons e1, run_cons e2, run_cons e3, run_cons e4, run_cons e5, run_cons e6]
    rfl
  · intro v
    by_cases h1 : v = 1
    · subst h1
      rfl
    · by_cases h0 : v = 0
      · subst h0
        rfl
      · simp [s6, s5, s4, s3, s2, s1, h1, h0, SwigWrapper.null]
  · simp [s6, s5, s4]
  · simp [s6, s5, s4]

end

/-! ## C83: the constructors and the transforms -/

section

theorem direction_iff {n : Int} {d : Fin 3} : direction n = some d ↔ n = ((d : Nat) : Int) := by
  unfold direction
  split
  · rename_i h; subst h; fin_cases d <;> simp
  · split
    · rename_i h; subst h; fin_cases d <;> simp
    · split
      · rename_i h; subst h; fin_cases d <;> simp
      · rename_i h0 h1 h2
        refine ⟨fun h => (by cases h), fun h => ?_⟩
        have := d.2
        omega

/-- C83: the integers stand for the boxes. -/
theorem C83_boxes {l : List Int} {inbox outbox : Box} (h : StandsFor l inbox outbox) : fortranBoxes l = .ok (inbox, outbox) := by
  obtain ⟨⟨a0, a1, a2⟩, ⟨b0, b1, b2⟩, ⟨c0, c1, c2⟩⟩ := inbox
  obtain ⟨⟨d0, d1, d2⟩, ⟨e0, e1, e2⟩, ⟨f0, f1, f2⟩⟩ := outbox
  rcases h with ⟨hl, h1, h2, h3⟩ | ⟨hl, h3⟩
  · have e : l = [a0, a1, a2, b0, b1, b2, d0, d1, d2, e0, e1, e2] := by
      refine List.ext_getElem? fun i => ?_
      by_cases hi : i < 12
      · have k0 := h3 0
        have k1 := h3 1
        have k2 := h3 2
        simp only [A3.get] at k0 k1 k2
        interval_cases i
        exacts [k0.1, k1.1, k2.1, k0.2.1, k1.2.1, k2.2.1, k0.2.2.1, k1.2.2.1, k2.2.2.1, k0.2.2.2, k1.2.2.2, k2.2.2.2]
      · rw [List.getElem?_eq_none (by omega), List.getElem?_eq_none (by simp; omega)]
    subst e
    simp only at h1 h2
    cases h1
    cases h2
    rfl
  · have e : l = [a0, a1, a2, b0, b1, b2, ((c0 : Nat) : Int), ((c1 : Nat) : Int), ((c2 : Nat) : Int), d0, d1, d2, e0, e1, e2, ((f0 : Nat) : Int), ((f1 : Nat) : Int),
        ((f2 : Nat) : Int)] := by
      refine List.ext_getElem? fun i => ?_
      by_cases hi : i < 18
      · have k0 := h3 0
        have k1 := h3 1
        have k2 := h3 2
        simp only [A3.get] at k0 k1 k2
        interval_cases i
        exacts [k0.1, k1.1, k2.1, k0.2.1, k1.2.1, k2.2.1, k0.2.2.1, k1.2.2.1, k2.2.2.1, k0.2.2.2.1, k1.2.2.2.1, k2.2.2.2.1, k0.2.2.2.2.1, k1.2.2.2.2.1, k2.2.2.2.2.1,
          k0.2.2.2.2.2, k1.2.2.2.2.2, k2.2.2.2.2.2]
      · rw [List.getElem?_eq_none (by omega), List.getElem?_eq_none (by simp; omega)]
    subst e
    unfold fortranBoxes
    simp only [direction_iff.2 rfl]

/-- The integers of all the ranks stand for the boxes of all the ranks. -/
def Given (x : FortranArgs) (bin bout : List Box) : Prop := bin.length = bout.length ∧ List.Forall₂ (fun l b => StandsFor l b.1 b.2) x.ints (bin.zip bout)

theorem given_boxes {x : FortranArgs} {bin bout : List Box} (h : Given x bin bout) : x.ints.mapM fortranBoxes = .ok (bin.zip bout) := by
  obtain ⟨-, h⟩ := h
  generalize bin.zip bout = z at h
  generalize x.ints = y at h
  induction h with
  | nil => rfl
  | cons h1 h2 ih =>
    rw [List.mapM_cons, C83_boxes h1]
    simp only [bind, Except.bind]
    rw [ih]
    rfl

theorem fortran_new {B : CBuild} {bk : Backend} {x : FortranArgs} {bin bout : List Box} (h : Given x bin bout) : fortranNew B bk x =
    match x.direction with
    | none => construct B bk bin bout (fortranOptions x.options)
    | some d => constructR2C B bin bout d (fortranOptions x.options) := by
  unfold fortranNew
  simp only [bind, Except.bind]
  rw [given_boxes h]
  simp only [List.map_fst_zip (le_of_eq h.1), List.map_snd_zip (le_of_eq h.1.symm)]
  cases x.direction <;> rfl

variable {B : CBuild} {backend : Int} {x : FortranArgs} {bin bout : List Box} {wi wo : Box} {ob : Object}

/-- C83: the constructors of the two classes give the object of the C++ constructor for the boxes and the options that the arguments
stand for, or throw the exception of the planner, which terminates the program. -/
theorem C83_constructor (hx : Given x bin bout) (h0 : B.debug = true → wi.low = ⟨0, 0, 0⟩) (hsmall : wi.count < 2 ^ 31) :
    (x.direction = none → Geometry bin bout none wi wo → fortranNew B (backendOf backend) x = makeFft3d (backendOf backend) bin bout (fortranOptions x.options) ∧
      ((∃ ob, fortranNew B (backendOf backend) x = .ok ob) ∨ fortranNew B (backendOf backend) x = .error .runtime)) ∧
    ∀ d : Fin 3, x.direction = some ((d : Nat) : Int) → Geometry bin bout (some d) wi wo → RankZeroHolds bin →
      fortranNew B (backendOf backend) x = makeFft3dR2C bin bout d (fortranOptions x.options) ∧
      ((∃ ob, fortranNew B (backendOf backend) x = .ok ob) ∨ fortranNew B (backendOf backend) x = .error .runtime) := by
  rw [fortran_new hx]
  refine ⟨fun hd geo => ?_, fun d hd geo hz => ?_⟩
  · rw [hd]
    obtain ⟨h1, h2⟩ := construct_cases (backend := backend) geo h0 hsmall (fortranOptions x.options)
    refine ⟨h1, ?_⟩
    dsimp only
    rw [h1]
    rcases h2 with ⟨p, ob, -, h3, -⟩ | ⟨-, h3⟩
    · exact .inl ⟨ob, h3⟩
    · exact .inr h3
  · rw [hd]
    obtain ⟨h1, h2⟩ := construct_cases_r2c geo hz h0 hsmall (fortranOptions x.options)
    refine ⟨h1, ?_⟩
    rcases h2 with ⟨p, ob, -, h3, -⟩ | ⟨-, h3⟩
    · exact .inl ⟨ob, h3⟩
    · exact .inr h3

/-- C83: the options of a plan: the default ones, or those of the arguments; the four numbers of the algorithms mean what they mean in C++. -/
theorem C83_options : fortranOptions none = Opts.default true ∧
    ∀ (reorder pencils : Bool) (n : Int), (fortranOptions (some (reorder, n, pencils))).useReorder = reorder ∧
      (fortranOptions (some (reorder, n, pencils))).usePencils = pencils ∧
      (n = 0 → (fortranOptions (some (reorder, n, pencils))).algorithm = .alltoallv) ∧ (n = 1 → (fortranOptions (some (reorder, n, pencils))).algorithm = .p2pPlined) ∧
      (n = 2 → (fortranOptions (some (reorder, n, pencils))).algorithm = .p2p) ∧ (n = 3 → (fortranOptions (some (reorder, n, pencils))).algorithm = .alltoall) ∧
      (fortranOptions (some (reorder, n, pencils))).numSub = -1 := by
  refine ⟨rfl, fun r p n => ⟨rfl, rfl, ?_, ?_, ?_, ?_, rfl⟩⟩ <;> rintro rfl <;> rfl

variable {w : Nat} {scratch : Tag → Int × Int → Scratch} {inp : Tag → Int × Int → Arr ℂ} {W : World ℂ ℝ} {c : FortranCall} {inplace : Nat → Bool}
  {m0s : List (Mem ℂ ℝ)}

/-- A `forward` or `backward` with complex and real numbers. -/
noncomputable def performF (ob : Object) (K : Kernel ℂ ℝ) (W : World ℂ ℝ) (c : FortranCall) (inplace : Nat → Bool) (mems : List (Mem ℂ ℝ)) :
    Res (List (Mem ℂ ℝ)) := fortranCall K (fun x z => (x : ℂ) * z) (fun x y => x * y) W ob c inplace mems

theorem fortran_made (hx : Given x bin bout) (hd : x.direction = none) (hn : fortranNew B .stock x = .ok ob) :
    makeFft3d .stock bin bout (fortranOptions x.options) = .ok ob := by
  rw [fortran_new hx, hd] at hn
  replace hn : construct B .stock bin bout (fortranOptions x.options) = .ok ob := hn
  unfold construct at hn
  split at hn
  · simp only [bind, Except.bind] at hn
    split at hn
    · cases hn
    · exact hn
  · exact hn

theorem fortran_made_r2c {d : Fin 3} {bk : Backend} (hx : Given x bin bout) (hd : x.direction = some ((d : Nat) : Int)) (hn : fortranNew B bk x = .ok ob) :
    makeFft3dR2C bin bout d (fortranOptions x.options) = .ok ob := by
  rw [fortran_new hx, hd] at hn
  unfold constructR2C at hn
  have hd : (0 : Int) ≤ ((d : Nat) : Int) ∧ ((d : Nat) : Int) < 3 := by have := d.2; omega
  dsimp only at hn
  rw [dif_pos hd] at hn
  have e : (⟨((d : Nat) : Int).toNat, by omega⟩ : Fin 3) = d := by ext; simp
  simp only [e] at hn
  split at hn
  · simp only [bind, Except.bind] at hn
    split at hn
    · cases hn
    · exact hn
  · exact hn

/-- C83: complex data of a plan of the stock backend. -/
theorem C83_complex (hx : Given x bin bout) (hd : x.direction = none) (hn : fortranNew B .stock x = .ok ob) (geo : Geometry bin bout none wi wo)
    (hlen : ∀ d, GoodLength (wi.extent d)) (hw : 0 < w) (hW : WorldOk W ob.plan c.fwd) (ht : c.types = .complex) (hnb : 0 < c.batch) {g : Nat → A3 Int → ℂ}
    (ha : CallArrays (srcBoxes c.fwd bin bout) (dstBoxes c.fwd bin bout) false false (ob.sizeWorkspace noWork) c.batch inplace m0s (.inl g))
    (hs : SourceHolds (srcBoxes c.fwd bin bout) inplace) :
    ∃ ms, performF ob (stockKernel w scratch inp) W c inplace m0s = .ok ms ∧
      Outcome (dstBoxes c.fwd bin bout) c.batch m0s ms (.inl fun j p => (cFactor c.scale wi.count : ℂ) * dft3 c.fwd wi (g j) p) := by
  have S : StockC2C bin bout wi wo (fortranOptions x.options) ob := ⟨geo, fortran_made hx hd hn, hlen⟩
  rw [← cFactor_eq]
  unfold performF fortranCall
  rw [ht]
  exact C40_complex (junk := scratch) (inp := inp) (s := scalingOf c.scale) S hw hW hnb ha hs

/-- C83: real data of a plan of the stock backend without shrinking, both directions. -/
theorem C83_real (hx : Given x bin bout) (hd : x.direction = none) (hn : fortranNew B .stock x = .ok ob) (geo : Geometry bin bout none wi wo)
    (hlen : ∀ d, GoodLength (wi.extent d)) (hw : 0 < w) (hW : WorldOk W ob.plan c.fwd) (ht : c.types = .real) (hnb : 0 < c.batch) :
    (c.fwd = true → ∀ g : Nat → A3 Int → ℝ, CallArrays bin bout true false (ob.sizeWorkspace noWork) c.batch (fun _ => false) m0s (.inr g) →
      ∃ ms, performF ob (stockKernel w scratch inp) W c (fun _ => false) m0s = .ok ms ∧
        Outcome bout c.batch m0s ms (.inl fun j p => (cFactor c.scale wi.count : ℂ) * dft3 true wi (fun q => (g j q : ℂ)) p)) ∧
    (c.fwd = false → ∀ g : Nat → A3 Int → ℂ, CallArrays bout bin false true (ob.sizeWorkspace noWork) c.batch (fun _ => false) m0s (.inl g) →
      SourceHolds bout (fun _ => false) → ∃ ms, performF ob (stockKernel w scratch inp) W c (fun _ => false) m0s = .ok ms ∧
        Outcome bin c.batch m0s ms (.inr fun j p => cFactor c.scale wi.count * (dft3 false wi (g j) p).re)) := by
  have S : StockC2C bin bout wi wo (fortranOptions x.options) ob := ⟨geo, fortran_made hx hd hn, hlen⟩
  rw [← cFactor_eq]
  unfold performF fortranCall
  rw [ht]
  refine ⟨fun hf g ha => ?_, fun hf g ha hs => ?_⟩
  · rw [hf] at hW ⊢
    exact C40_real (junk := scratch) (inp := inp) (s := scalingOf c.scale) S hw hW hnb ha
  · rw [hf] at hW ⊢
    exact C52_real (junk := scratch) (inp := inp) (s := scalingOf c.scale) S hw hW hnb ha hs

/-- C83: plans that shrink direction `d`, both directions of the transform; several batches forward need a last reshape (C43). -/
theorem C83_r2c {d : Fin 3} (hx : Given x bin bout) (hd : x.direction = some ((d : Nat) : Int)) (hn : fortranNew B .stock x = .ok ob)
    (geo : Geometry bin bout (some d) wi wo) (hlen : ∀ d, GoodLength (wi.extent d)) (hw : 0 < w) (hz : RankZeroHolds bin)
    (hcnt : ∀ b ∈ bin, b.count < 2 ^ 31) (hW : WorldOk W ob.plan c.fwd) (ht : c.types = .real) (hnb : 0 < c.batch) :
    (c.fwd = true → (c.batch = 1 ∨ ReshapesAfter ob bin.length) → ∀ g : Nat → A3 Int → ℝ,
      CallArrays bin bout true false (ob.sizeWorkspace noWork) c.batch (fun _ => false) m0s (.inr g) →
      ∃ ms, performF ob (stockKernel w scratch inp) W c (fun _ => false) m0s = .ok ms ∧
        Outcome bout c.batch m0s ms (.inl fun j p => (cFactor c.scale wi.count : ℂ) * dft3 true wi (fun q => (g j q : ℂ)) p)) ∧
    (c.fwd = false → ∀ g : Nat → A3 Int → ℂ, CallArrays bout bin false true (ob.sizeWorkspace noWork) c.batch (fun _ => false) m0s (.inl g) →
      SourceHolds bout (fun _ => false) → ∃ ms, performF ob (stockKernel w scratch inp) W c (fun _ => false) m0s = .ok ms ∧
        Outcome bin c.batch m0s ms (.inr fun j p => cFactor c.scale wi.count * c2r3 wi d (g j) p)) := by
  have S : StockR2C bin bout d wi wo (fortranOptions x.options) ob := ⟨geo, fortran_made_r2c hx hd hn, hlen, hz, hcnt⟩
  rw [← cFactor_eq]
  unfold performF fortranCall
  rw [ht]
  refine ⟨fun hf hh g ha => ?_, fun hf g ha hs => ?_⟩
  · rw [hf] at hW ⊢
    exact C53_forward (junk := scratch) (inp := inp) (s := scalingOf c.scale) S hw hW hnb ha hh
  · rw [hf] at hW ⊢
    exact C53_backward (junk := scratch) (inp := inp) (s := scalingOf c.scale) S hw hW hnb ha hs

end

/-! ## Examples -/

/-- A program that respects the rules: two plans in turn in the same variable, another variable that names the first one, a call for a
variable without a plan. -/
def exFortran : List (FStmt Nat Nat) :=
  [.make 0 10, .copy 1 0, .call 1 7, .make 0 11, .call 0 8, .call 2 9, .release 1, .copy 1 0, .call 1 6, .release 0, .release 1]

/-- A constructor that fails for large arguments. -/
def exBuild (n : Nat) : Res Nat := if n < 100 then .ok n else .error .runtime

theorem exFortran_permitted : (FSpec.start : FSpec Nat Nat).PermittedRun exBuild exFortran := by
  refine ⟨⟨by decide, by intro k m h; cases h⟩, ?_⟩
  intro t1 h1
  cases h1
  refine ⟨trivial, ?_⟩
  intro t2 h2
  cases h2
  refine ⟨?_, ?_⟩
  · intro k m h
    cases h
    exact ⟨0, rfl⟩
  intro t3 h3
  cases h3
  refine ⟨⟨by decide, ?_⟩, ?_⟩
  · intro k m h
    cases h
    exact ⟨0, rfl⟩
  intro t4 h4
  cases h4
  refine ⟨?_, ?_⟩
  · intro k m h
    cases h
    exact ⟨0, rfl⟩
  intro t5 h5
  cases h5
  refine ⟨?_, ?_⟩
  · intro k m h
    cases h
  intro t6 h6
  cases h6
  refine ⟨trivial, ?_⟩
  intro t7 h7
  cases h7
  refine ⟨trivial, ?_⟩
  intro t8 h8
  cases h8
  refine ⟨?_, ?_⟩
  · intro k m h
    cases h
    exact ⟨0, rfl⟩
  intro t9 h9
  cases h9
  refine ⟨trivial, ?_⟩
  intro t10 h10
  cases h10
  exact ⟨trivial, fun _ _ => trivial⟩

/-- C83: what happens in this program, with any allocator. -/
example {alloc : FState Nat Nat → Nat} (h : Allocates alloc) : ∃ s, FState.start.run alloc exBuild exFortran = .finished s ∧ s.events =
    [.created 0 10, .called 0 10 7, .created 1 11, .destroyed 0, .called 1 11 8, .refused, .called 1 11 6, .destroyed 1] := by
  rcases C83_runs h exFortran_permitted with ⟨s, t, h1, h2, h3, -⟩ | ⟨e, s, t, -, h2, -⟩
  · cases h2
    exact ⟨s, h1, h3⟩
  · cases h2

/-- C83: an allocator exists. -/
example : Allocates (firstFree : FState Nat Nat → Nat) := firstFree_allocates

/-- C83: a constructor that throws ends the program; the first plan is not destroyed. -/
example {alloc : FState Nat Nat → Nat} (h : Allocates alloc) : ∃ s, FState.start.run alloc exBuild [.make 0 10, .make 1 100, .release 0] = .terminated .runtime s ∧
    s.events = [.created 0 10] := by
  have hp : (FSpec.start : FSpec Nat Nat).PermittedRun exBuild [.make 0 10, .make 1 100, .release 0] := by
    refine ⟨⟨by decide, by intro k m h; cases h⟩, ?_⟩
    intro t1 h1
    cases h1
    refine ⟨⟨by decide, by intro k m h; cases h⟩, ?_⟩
    intro t2 h2
    cases h2
  rcases C83_runs h hp with ⟨s, t, -, h2, -, -⟩ | ⟨e, s, t, h1, h2, h3⟩
  · cases h2
  · cases h2
    exact ⟨s, h1, h3⟩

/-- C83: the situations of `C83_false_copy` and `C83_false_null` occur: two variables with plans of their own; a variable that names the plan of
another one. -/
example {alloc : FState Nat Nat → Nat} (h : Allocates alloc) :
    FState.start.run alloc exBuild [.make 0 10, .make 1 11, .copy 0 1, .release 0, .release 1] = .undefined ∧
    FState.start.run alloc exBuild [.make 0 10, .copy 1 0, .copy 1 2, .release 0] = .undefined := by
  constructor
  · have hp : (FSpec.start : FSpec Nat Nat).PermittedRun exBuild [.make 0 10, .make 1 11] := by
      refine ⟨⟨by decide, by intro k m h; cases h⟩, ?_⟩
      intro t1 h1
      cases h1
      exact ⟨⟨by decide, by intro k m h; cases h⟩, fun _ _ => trivial⟩
    exact C83_false_copy (t := (FSpec.start.create 0 10).create 1 11) (v := 0) (w := 1) (j := 0) (k := 1) (mine := true) h hp rfl rfl ⟨0, rfl⟩ rfl (by decide)
  · have hp : (FSpec.start : FSpec Nat Nat).PermittedRun exBuild [.make 0 10, .copy 1 0] := by
      refine ⟨⟨by decide, by intro k m h; cases h⟩, ?_⟩
      intro t1 h1
      cases h1
      exact ⟨trivial, fun _ _ => trivial⟩
    exact (C83_false_null (t := (FSpec.start.create 0 10).assign 1 (some (0, false))) (u := 0) (v := 1) (w := 2) (k := 0) h hp rfl rfl rfl rfl).1

/-- The integers of two boxes. -/
def intsOf (a b : Box) : List Int :=
  [a.low.get 0, a.low.get 1, a.low.get 2, a.high.get 0, a.high.get 1, a.high.get 2, ((a.order.get 0 : Nat) : Int), ((a.order.get 1 : Nat) : Int), ((a.order.get 2 : Nat) : Int),
   b.low.get 0, b.low.get 1, b.low.get 2, b.high.get 0, b.high.get 1, b.high.get 2, ((b.order.get 0 : Nat) : Int), ((b.order.get 1 : Nat) : Int), ((b.order.get 2 : Nat) : Int)]

theorem intsOf_stands (a b : Box) : StandsFor (intsOf a b) a b := by
  refine .inr ⟨rfl, fun d => ?_⟩
  fin_cases d <;> exact ⟨rfl, rfl, rfl, rfl, rfl, rfl⟩

/-- The constructor arguments of four ranks. -/
def exFortranArgs (d : Option Int) (o : Option (Bool × Int × Bool)) (bin bout : List Box) : FortranArgs := ⟨(bin.zip bout).map fun b => intsOf b.1 b.2, d, o⟩

theorem exFortran_given (d : Option Int) (o : Option (Bool × Int × Bool)) {bin bout : List Box} (h : bin.length = bout.length) :
    Given (exFortranArgs d o bin bout) bin bout := by
  refine ⟨h, ?_⟩
  unfold exFortranArgs
  rw [List.forall₂_map_left_iff]
  exact List.forall₂_same.2 fun b _ => intsOf_stands _ _

/-- C83: the boxes of the example of the documentation (two ranks), without orders. -/
example : Given ⟨[[0, 0, 0, 3, 3, 1, 0, 0, 0, 3, 3, 1], [0, 0, 2, 3, 3, 3, 0, 0, 2, 3, 3, 3]], none, none⟩
    [⟨⟨0, 0, 0⟩, ⟨3, 3, 1⟩, ⟨0, 1, 2⟩⟩, ⟨⟨0, 0, 2⟩, ⟨3, 3, 3⟩, ⟨0, 1, 2⟩⟩] [⟨⟨0, 0, 0⟩, ⟨3, 3, 1⟩, ⟨0, 1, 2⟩⟩, ⟨⟨0, 0, 2⟩, ⟨3, 3, 3⟩, ⟨0, 1, 2⟩⟩] := by
  refine ⟨rfl, ?_⟩
  refine .cons (.inl ⟨rfl, rfl, rfl, fun d => ?_⟩) (.cons (.inl ⟨rfl, rfl, rfl, fun d => ?_⟩) .nil) <;> fin_cases d <;> exact ⟨rfl, rfl, rfl, rfl⟩

/-- C83: the constructor for the four ranks of the other examples, with any options; with the default ones it gives an object. -/
example (B : CBuild) : ∃ ob, fortranNew B .stock (exFortranArgs none none exIn exOut) = .ok ob := by
  obtain ⟨wi, wo, geo, h0, -⟩ := exGeometry
  have h1 : findWorld exIn = .ok ⟨⟨0, 0, 0⟩, ⟨3, 5, 7⟩, ⟨0, 1, 2⟩⟩ := by decide
  obtain rfl := Except.ok.inj (h1.symm.trans geo.worldIn)
  have h := (C83_constructor (B := B) (backend := 0) (exFortran_given none none (bin := exIn) (bout := exOut) rfl) (fun _ => rfl) (by decide)).1 rfl geo
  rcases h.2 with h2 | h2
  · exact h2
  · have h3 : (makeFft3d .stock exIn exOut (Opts.default true)).toBool = true := by decide +kernel
    have h4 : fortranNew B .stock (exFortranArgs none none exIn exOut) = makeFft3d .stock exIn exOut (Opts.default true) := h.1
    have h5 : fortranNew B .stock (exFortranArgs none none exIn exOut) = .error .runtime := h2
    rw [← h4, h5] at h3
    cases h3

end Verif
