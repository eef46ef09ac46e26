import Verif.Threads
import Verif.Props.Stock

/-!
# Several threads: lemmas
-/

namespace Verif
open Stock

/-- The transform of a line. -/
noncomputable def lineDft (fwd : Bool) (N : Nat) (v : List ℂ) : List ℂ := (List.range N).map (dft fwd v)

namespace Stock

theorem composite_split {K : Type} [Zero K] [One K] [Add K] [Sub K] [Mul K] [Neg K] [Div K] [NatCast K] (tw : Tw K) (N N1 N2 n : Nat)
    (left right : Arr K → Nat → Nat → Arr K → Nat → Nat → (Nat → Arr K) → Out K) (dir : Bool) (x : Arr K) (xo si : Nat) (y : Arr K) (yo so : Nat) (W : Nat → Arr K) :
    compositeFFT tw N N1 N2 n left right dir x xo si y yo so W = compositeDrain N2 n left y yo so (compositeFill tw N N1 N2 n right dir x xo si W) := by
  unfold compositeFFT compositeDrain compositeFill
  simp only [setWs, if_true]

theorem setWork_self {K : Type} (s : SharedPlan K) (a : Nat) : s.setWork a (s.work a) = s := by
  unfold SharedPlan.setWork
  have : (fun b => if b = a then s.work a else s.work b) = s.work := by
    funext b
    split_ifs with h
    · rw [h]
    · rfl
  rw [this]

variable {N : Nat} {fwd : Bool} {out0 : Arr ℂ} {s : SharedPlan ℂ} {c : Caller ℂ}

theorem line_out (hN : 1 ≤ N) (hfac : ∀ q, q.Prime → 1213 < q → ¬ Reach N (q * q)) {v : List ℂ} (hv : v.length = N) (W : Nat → Arr ℂ) :
    (List.range N).map ((initTree N).fft complexTw 0 fwd (fun n => v.getD n 0) 0 1 out0 0 1 W).1 = lineDft fwd N v := by
  have := C34_stock_fft_is_dft hN hfac fwd v hv out0 W
  rw [stockFFT_eq hN fwd v hv] at this
  exact Except.ok.inj this

/-- What the thread will have as its result. -/
noncomputable def Caller.answer (fwd : Bool) (N : Nat) (c : Caller ℂ) : List (List ℂ) := c.out ++ (c.lines ++ c.blocks.flatten).map (lineDft fwd N)

/-- The steps from `next` on. -/
def stepsNext {K : Type} (b : List (List (List K))) : Nat := (b.map fun l => 2 * l.length + 2).sum + 1

/-- A bound for the steps that the thread has still to make. -/
def Caller.left {K : Type} (c : Caller K) : Nat :=
  match c.pc with
  | .test => stepsNext c.blocks + 2
  | .make => stepsNext c.blocks + 1
  | .next => stepsNext c.blocks
  | .inside _ => 2 * c.lines.length + 1 + stepsNext c.blocks
  | .between _ => 2 * c.lines.length + stepsNext c.blocks
  | .done => 0

/-- The lines have the length of the transform, and none is pending outside of `execute`. -/
structure Caller.Wf {K : Type} (N : Nat) (c : Caller K) : Prop where
  len : ∀ v ∈ c.lines ++ c.blocks.flatten, v.length = N
  out : c.pc = .test ∨ c.pc = .make ∨ c.pc = .next ∨ c.pc = .done → c.lines = []
  fin : c.pc = .done → c.blocks = []

theorem done_of_left {K : Type} {c : Caller K} (h : c.left = 0) : c.pc = .done := by
  unfold Caller.left stepsNext at h
  cases hp : c.pc <;> rw [hp] at h <;> simp only at h
  all_goals first | rfl | omega

/-! ## One thread alone -/

/-- The pointer is null or points to a plan that has not been deleted. -/
def SharedPlan.Sane {K : Type} (s : SharedPlan K) : Prop := ∀ a, s.slot = some a → s.live a = true

/-- What a thread knows when nobody else has run since it began. -/
def Alone (N : Nat) (fwd : Bool) (s : SharedPlan ℂ) (c : Caller ℂ) : Prop :=
  c.Wf N ∧ s.Sane ∧ match c.pc with
  | .test => True
  | .make => True
  | .next => s.slot ≠ none
  | .inside a => s.slot = some a
  | .between a => s.slot = some a ∧ ∃ v vs W M l r, c.lines = v :: vs ∧ initTree N = .composite M l r ∧
      s.work a = compositeFill complexTw M l.sz r.sz 0 (r.fft complexTw (0 + (1 + l.count)) fwd) fwd (fun n => v.getD n 0) 0 1 W
  | .done => True

theorem put_wf {a : Nat} {v : List ℂ} {vs : List (List ℂ)} {o : Arr ℂ} (hw : c.Wf N) (hl : c.lines = v :: vs) : (c.put a vs N o).Wf N := by
  refine ⟨fun w hm => hw.len w ?_, fun h => ?_, fun h => ?_⟩
  · rw [hl]
    exact List.mem_cons_of_mem _ hm
  · rcases h with h | h | h | h <;> cases h
  · cases h

theorem put_answer {a : Nat} {v : List ℂ} {vs : List (List ℂ)} {o : Arr ℂ} (hl : c.lines = v :: vs) (ho : (List.range N).map o = lineDft fwd N v) :
    (c.put a vs N o).answer fwd N = c.answer fwd N := by
  unfold Caller.answer Caller.put
  simp only [hl, ho, List.cons_append, List.map_cons, List.append_assoc, List.nil_append]

theorem alone_step (hN : 1 ≤ N) (hfac : ∀ q, q.Prime → 1213 < q → ¬ Reach N (q * q)) (h : Alone N fwd s c) :
    ∃ s' c', threadStep complexTw (initTree N) N fwd out0 s c = .ok (s', c') ∧ Alone N fwd s' c' ∧ c'.answer fwd N = c.answer fwd N ∧ c'.left ≤ c.left - 1 := by
  obtain ⟨hw, hs, hpc⟩ := h
  obtain ⟨pc, ls, bs, o⟩ := c
  unfold threadStep
  cases pc with
  | test =>
    obtain rfl : ls = [] := hw.out (.inl rfl)
    refine ⟨_, _, rfl, ⟨⟨hw.len, fun _ => rfl, fun h => ?_⟩, hs, ?_⟩, rfl, ?_⟩
    · simp only at h; split at h <;> cases h
    · cases hsl : s.slot <;> simp [hsl]
    · cases hsl : s.slot <;> simp [Caller.left]
  | make =>
    obtain rfl : ls = [] := hw.out (.inr (.inl rfl))
    refine ⟨_, _, rfl, ⟨⟨hw.len, fun _ => rfl, fun h => by cases h⟩, ?_, ?_⟩, rfl, ?_⟩
    · intro a ha
      cases ha
      simp
    · simp
    · simp [Caller.left]
  | next =>
    obtain rfl : ls = [] := hw.out (.inr (.inr (.inl rfl)))
    cases bs with
    | nil => exact ⟨_, _, rfl, ⟨⟨hw.len, fun _ => rfl, fun _ => rfl⟩, hs, trivial⟩, rfl, by simp [Caller.left]⟩
    | cons b bs =>
      obtain ⟨a, ha⟩ := Option.ne_none_iff_exists'.1 hpc
      simp only [ha]
      refine ⟨_, _, rfl, ⟨⟨?_, fun h => ?_, fun h => by cases h⟩, hs, ha⟩, ?_, ?_⟩
      · intro v hv
        exact hw.len v (by simpa using hv)
      · rcases h with h | h | h | h <;> cases h
      · simp [Caller.answer]
      · simp only [Caller.left, stepsNext, List.map_cons, List.sum_cons]
        omega
  | inside a =>
    simp only at hpc ⊢
    cases ls with
    | nil =>
      refine ⟨_, _, rfl, ⟨⟨hw.len, fun _ => rfl, fun h => by cases h⟩, hs, ?_⟩, rfl, ?_⟩
      · simp [hpc]
      · simp [Caller.left]
    | cons v vs =>
      have hv : v.length = N := hw.len v (by simp)
      simp only [hs a hpc, hv, Bool.not_true, Bool.false_eq_true, ne_eq, not_true, decide_false, Bool.or_self, if_false, false_or]
      cases ht : initTree N with
      | composite M l r =>
        refine ⟨_, _, rfl, ⟨⟨hw.len, fun h => ?_, fun h => by cases h⟩, hs, hpc, v, vs, s.work a, M, l, r, rfl, ht, ?_⟩, rfl, ?_⟩
        · rcases h with h | h | h | h <;> cases h
        · simp [SharedPlan.setWork]
        · simp only [Caller.left]
          omega
      | leaf ty M =>
        refine ⟨_, _, rfl, ⟨put_wf hw rfl, hs, hpc⟩, put_answer rfl ?_, ?_⟩
        · rw [← ht]; exact line_out hN hfac hv _
        · simp only [Caller.left, Caller.put, List.length_cons]
          omega
      | rader M p q l =>
        refine ⟨_, _, rfl, ⟨put_wf hw rfl, hs, hpc⟩, put_answer rfl ?_, ?_⟩
        · rw [← ht]; exact line_out hN hfac hv _
        · simp only [Caller.left, Caller.put, List.length_cons]
          omega
  | between a =>
    obtain ⟨hsl, v, vs, W, M, l, r, hl, ht, hwk⟩ := hpc
    simp only at hl
    subst hl
    have hv : v.length = N := hw.len v (by simp)
    simp only [ht, hs a hsl, Bool.not_true, Bool.false_eq_true, if_false]
    refine ⟨_, _, rfl, ⟨put_wf hw rfl, hs, hsl⟩, put_answer rfl ?_, ?_⟩
    · rw [hwk, ← composite_split]
      have := line_out (fwd := fwd) (out0 := out0) hN hfac hv W
      rw [ht] at this
      exact this
    · simp only [Caller.left, Caller.put, List.length_cons]
      omega
  | done => exact ⟨_, _, rfl, ⟨hw, hs, trivial⟩, rfl, by simp [Caller.left]⟩

/-! ## All the threads at any time, without work memory -/

/-- A thread while the pointer is `a` all the time. -/
def Served (N a : Nat) (c : Caller ℂ) : Prop := c.Wf N ∧ (c.pc = .test ∨ c.pc = .next ∨ c.pc = .inside a ∨ c.pc = .done)

theorem leaf_work {K : Type} [Zero K] [One K] [Add K] [Sub K] [Mul K] [Neg K] [Div K] [NatCast K] (tw : Tw K) (ty : FftType) (M n : Nat) (dir : Bool) (x : Arr K) (xo si : Nat)
    (y : Arr K) (yo so : Nat) (W : Nat → Arr K) : ((Tree.leaf ty M).fft tw n dir x xo si y yo so W).2 = W := by
  cases ty <;> rfl

theorem served_step (hN : 1 ≤ N) (hfac : ∀ q, q.Prime → 1213 < q → ¬ Reach N (q * q)) {ty : FftType} {M a : Nat} (ht : initTree N = .leaf ty M)
    (hs : s.slot = some a) (hl : s.live a = true) (h : Served N a c) :
    ∃ c', threadStep complexTw (initTree N) N fwd out0 s c = .ok (s, c') ∧ Served N a c' ∧ c'.answer fwd N = c.answer fwd N ∧ c'.left ≤ c.left - 1 := by
  obtain ⟨hw, hp⟩ := h
  obtain ⟨pc, ls, bs, o⟩ := c
  unfold threadStep
  rcases hp with hp | hp | hp | hp <;> simp only at hp <;> subst hp <;> simp only
  · obtain rfl : ls = [] := hw.out (.inl rfl)
    rw [hs]
    exact ⟨_, rfl, ⟨⟨hw.len, fun _ => rfl, fun h => by simp at h⟩, by simp⟩, rfl, by simp [Caller.left]⟩
  · obtain rfl : ls = [] := hw.out (.inr (.inr (.inl rfl)))
    cases bs with
    | nil => exact ⟨_, rfl, ⟨⟨hw.len, fun _ => rfl, fun _ => rfl⟩, by simp⟩, rfl, by simp [Caller.left]⟩
    | cons b bs =>
      simp only [hs]
      refine ⟨_, rfl, ⟨⟨?_, fun h => ?_, fun h => by cases h⟩, by simp⟩, ?_, ?_⟩
      · intro v hv
        exact hw.len v (by simpa using hv)
      · rcases h with h | h | h | h <;> cases h
      · simp [Caller.answer]
      · simp only [Caller.left, stepsNext, List.map_cons, List.sum_cons]
        omega
  · cases ls with
    | nil => exact ⟨_, rfl, ⟨⟨hw.len, fun _ => rfl, fun h => by cases h⟩, by simp⟩, rfl, by simp [Caller.left]⟩
    | cons v vs =>
      have hv : v.length = N := hw.len v (by simp)
      have hlo := line_out (fwd := fwd) (out0 := out0) hN hfac hv (s.work a)
      simp only [hl, hv, Bool.not_true, Bool.false_eq_true, ne_eq, not_true, decide_false, Bool.or_self, if_false, false_or]
      rw [ht] at hlo ⊢
      simp only [leaf_work, setWork_self]
      refine ⟨_, rfl, ⟨put_wf hw rfl, .inr (.inr (.inl rfl))⟩, put_answer rfl hlo, ?_⟩
      simp only [Caller.left, Caller.put, List.length_cons]
      omega
  · exact ⟨_, rfl, ⟨hw, .inr (.inr (.inr rfl))⟩, rfl, by simp [Caller.left]⟩

theorem run_cons (hN : 0 < N) (i : Nat) (is : List Nat) (ts : Threads ℂ) {s' : SharedPlan ℂ} {c' : Caller ℂ}
    (h : threadStep complexTw (initTree N) N fwd out0 ts.shared (ts.callers i) = .ok (s', c')) :
    Threads.run complexTw N fwd out0 (i :: is) ts = Threads.run complexTw N fwd out0 is ⟨s', fun j => if j = i then c' else ts.callers j⟩ := by
  rw [Threads.run, stockPlan_eq hN]
  simp only [bind, Except.bind]
  rw [loadTree_root (initTree_proper N)]
  simp only [h]

theorem run_error (hN : 0 < N) (i : Nat) (is : List Nat) (ts : Threads ℂ) (h : threadStep complexTw (initTree N) N fwd out0 ts.shared (ts.callers i) = .error .ub) :
    Threads.run complexTw N fwd out0 (i :: is) ts = .error .ub := by
  rw [Threads.run, stockPlan_eq hN]
  simp only [bind, Except.bind]
  rw [loadTree_root (initTree_proper N)]
  simp only [h]

theorem run_append' (hN : 0 < N) : ∀ (a b : List Nat) (ts ts' : Threads ℂ), Threads.run complexTw N fwd out0 a ts = .ok ts' →
    Threads.run complexTw N fwd out0 (a ++ b) ts = Threads.run complexTw N fwd out0 b ts'
  | [], _, ts, ts', h => by cases h; rfl
  | i :: is, b, ts, ts', h => by
    cases hst : threadStep complexTw (initTree N) N fwd out0 ts.shared (ts.callers i) with
    | error e =>
      rw [Threads.run, stockPlan_eq hN] at h
      simp only [bind, Except.bind] at h
      rw [loadTree_root (initTree_proper N)] at h
      simp only [hst] at h
      cases h
    | ok p =>
      rw [run_cons hN i is ts (by rw [hst])] at h
      rw [List.cons_append, run_cons hN i (is ++ b) ts (by rw [hst])]
      exact run_append' hN is b _ _ h

end Stock
end Verif
