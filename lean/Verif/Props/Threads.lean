import Verif.ThreadsLemmas

/-!
# Properties of calls from several threads (C92)

The methods that transform are `const`, and the documentation says nothing about threads; a C++ programmer expects that `const` methods can be called
from several threads on separate arrays.  The specification: whatever the order in which the steps of the threads alternate, nothing undefined happens, and a thread that has made
all its steps has the transforms of its own lines (`dft`).
-/

namespace Verif
open Stock
variable {N : Nat} {fwd : Bool} {out0 : Arr ℂ}

/-- The lines of the threads have the length of the transform. -/
def LinesFit (N : Nat) (B : Nat → List (List (List ℂ))) : Prop := ∀ i, ∀ b ∈ B i, ∀ v ∈ b, v.length = N

/-- Steps that are enough for a call with the given lines. -/
def enough (b : List (List (List ℂ))) : Nat := (b.map fun l => 2 * l.length + 2).sum + 3

/-- All the threads begin a call. -/
def begin (s : SharedPlan ℂ) (B : Nat → List (List (List ℂ))) : Threads ℂ := ⟨s, fun i => .fresh (B i)⟩

theorem fresh_wf {b : List (List (List ℂ))} (h : ∀ l ∈ b, ∀ v ∈ l, v.length = N) : (Caller.fresh b).Wf N := by
  refine ⟨fun v hv => ?_, fun _ => rfl, fun h => by cases h⟩
  obtain ⟨l, hl, hv⟩ := List.mem_flatten.1 (show v ∈ b.flatten from hv)
  exact h l hl v hv

theorem fresh_answer (b : List (List (List ℂ))) : (Caller.fresh b).answer fwd N = b.flatten.map (lineDft fwd N) := rfl

theorem finished {c : Caller ℂ} (hw : c.Wf N) (hp : c.pc = .done) : c.answer fwd N = c.out := by
  unfold Caller.answer
  rw [hw.out (.inr (.inr (.inr hp))), hw.fin hp]
  simp

/-! ## Lengths without work memory -/

/-- Powers of two and three, and primes up to 100000. -/
def Simple (N : Nat) : Prop := (∃ e, N = 2 ^ e) ∨ (∃ e, N = 3 ^ e) ∨ (N.Prime ∧ N ≤ 100000)

theorem simple_pos (h : Simple N) : 1 ≤ N := by
  rcases h with ⟨e, rfl⟩ | ⟨e, rfl⟩ | h
  · exact Nat.one_le_two_pow
  · exact Nat.one_le_pow _ _ (by omega)
  · exact h.1.one_le

theorem simple_reach (h : Simple N) : ∀ q, q.Prime → 1213 < q → ¬ Stock.Reach N (q * q) := by
  have pw : ∀ b e, b.Prime → b ≤ 3 → ∀ q, q.Prime → 1213 < q → ¬ Stock.Reach (b ^ e) (q * q) := by
    intro b e hb hb3 q hq hq1 hr
    cases hr with
    | dvd h =>
      have := (Nat.prime_dvd_prime_iff_eq hq hb).1 (hq.dvd_of_dvd_pow (dvd_of_mul_right_dvd h))
      omega
    | rader hp h1 h2 h3 =>
      have := (Nat.prime_dvd_prime_iff_eq hp hb).1 (hp.dvd_of_dvd_pow h2)
      omega
  rcases h with ⟨e, rfl⟩ | ⟨e, rfl⟩ | ⟨h1, h2⟩
  · exact pw 2 e Nat.prime_two (by omega)
  · exact pw 3 e Nat.prime_three (by omega)
  · exact reach_small h1.pos (by omega)

theorem simple_leaf (h : Simple N) : ∃ ty M, initTree N = .leaf ty M := by
  have hpos := simple_pos h
  have key : (∀ k, fptrFactorHelper N ≠ (.composite, k)) ∧ ∀ k, fptrFactorHelper N ≠ (.rader, k) := by
    have pw : ∀ b, (b = 2 ∨ b = 3) → powerOf N b = true → (∀ k, fptrFactorHelper N ≠ (.composite, k)) ∧ ∀ k, fptrFactorHelper N ≠ (.rader, k) := by
      intro b hb hpw
      constructor <;> intro k hk <;> unfold fptrFactorHelper at hk <;> rcases hb with rfl | rfl <;> simp only [hpw] at hk <;>
        split_ifs at hk <;> simp_all
    have one : N = 1 → (∀ k, fptrFactorHelper N ≠ (.composite, k)) ∧ ∀ k, fptrFactorHelper N ≠ (.rader, k) := by
      rintro rfl
      constructor <;> intro k hk
      · have := helper_composite hk; omega
      · have := (helper_rader hk).1; omega
    rcases h with ⟨e, he⟩ | ⟨e, he⟩ | ⟨h1, h2⟩
    · cases e with
      | zero => exact one he
      | succ e => exact pw 2 (.inl rfl) ((powerOf_iff hpos (by omega)).2 ⟨e, he⟩)
    · cases e with
      | zero => exact one he
      | succ e => exact pw 3 (.inr rfl) ((powerOf_iff hpos (by omega)).2 ⟨e, he⟩)
    · constructor <;> intro k hk
      · obtain ⟨a, b, c⟩ := helper_composite hk
        rcases (Nat.dvd_prime h1).1 c with h | h <;> omega
      · have := (helper_rader hk).1; omega
  unfold initTree
  split
  · exact absurd ‹_› (key.1 _)
  · exact absurd ‹_› (key.2 _)
  · exact ⟨_, _, rfl⟩

theorem served_run (hN : 1 ≤ N) (hfac : ∀ q, q.Prime → 1213 < q → ¬ Stock.Reach N (q * q)) {ty : FftType} {M a : Nat} (ht : initTree N = .leaf ty M) :
    ∀ (sch : List Nat) (ts : Threads ℂ), ts.shared.slot = some a → ts.shared.live a = true → (∀ i, Served N a (ts.callers i)) →
    ∃ ts', Threads.run complexTw N fwd out0 sch ts = .ok ts' ∧ ts'.shared = ts.shared ∧ ∀ i, Served N a (ts'.callers i) ∧
      (ts'.callers i).answer fwd N = (ts.callers i).answer fwd N ∧ (ts'.callers i).left ≤ (ts.callers i).left - sch.count i
  | [], ts, _, _, h => ⟨ts, rfl, rfl, fun i => ⟨h i, rfl, by simp⟩⟩
  | j :: sch, ts, hs, hl, h => by
    obtain ⟨c', e1, e2, e3, e4⟩ := served_step (fwd := fwd) (out0 := out0) hN hfac ht hs hl (h j)
    rw [run_cons (by omega) j sch ts e1]
    obtain ⟨ts', r1, r2, r3⟩ := served_run hN hfac ht sch ⟨ts.shared, fun i => if i = j then c' else ts.callers i⟩ hs hl (fun i => by
      by_cases hij : i = j
      · simpa [hij] using e2
      · simpa [hij] using h i)
    refine ⟨ts', r1, r2, fun i => ?_⟩
    obtain ⟨a1, a2, a3⟩ := r3 i
    refine ⟨a1, ?_, ?_⟩
    · rw [a2]
      by_cases hij : i = j
      · subst hij; simpa using e3
      · simp [hij]
    · by_cases hij : i = j
      · subst hij
        simp only [if_true] at a3
        rw [List.count_cons_self]
        omega
      · simp only [if_neg hij] at a3
        rw [List.count_cons_of_ne (Ne.symm hij)]
        exact a3

/-- **C92.** Any number of threads in calls of the same direction on one plan, for lengths that are powers of two or three or primes up to 100000, when the direction has been used
before: for every order of the steps nothing undefined happens, no thread writes anything that is shared, and a thread that had enough steps has finished with the
transforms of its lines. -/
theorem C92_shared_partial (hN : Simple N) {s : SharedPlan ℂ} {a : Nat} (hs : s.slot = some a) (hl : s.live a = true) {B : Nat → List (List (List ℂ))} (hB : LinesFit N B)
    (sch : List Nat) : ∃ ts, Threads.run complexTw N fwd out0 sch (begin s B) = .ok ts ∧ ts.shared = s ∧
      ∀ i, enough (B i) ≤ sch.count i → (ts.callers i).pc = .done ∧ (ts.callers i).out = (B i).flatten.map fun v => (List.range N).map (dft fwd v) := by
  obtain ⟨ty, M, ht⟩ := simple_leaf hN
  obtain ⟨ts, h1, h2, h3⟩ := served_run (fwd := fwd) (out0 := out0) (simple_pos hN) (simple_reach hN) ht sch (begin s B) hs hl
    fun i => ⟨fresh_wf (hB i), .inl rfl⟩
  refine ⟨ts, h1, h2, fun i hi => ?_⟩
  obtain ⟨a1, a2, a3⟩ := h3 i
  have hz : (ts.callers i).left = 0 := by
    have : ((begin s B).callers i).left = enough (B i) := rfl
    omega
  have hd := done_of_left hz
  exact ⟨hd, by rw [← finished (fwd := fwd) a1.1 hd, a2]; exact fresh_answer _⟩

/-! ## One call after the other -/

theorem alone_run (hN : 1 ≤ N) (hfac : ∀ q, q.Prime → 1213 < q → ¬ Stock.Reach N (q * q)) (i : Nat) : ∀ (k : Nat) (ts : Threads ℂ), Alone N fwd ts.shared (ts.callers i) →
    ∃ ts', Threads.run complexTw N fwd out0 (List.replicate k i) ts = .ok ts' ∧ Alone N fwd ts'.shared (ts'.callers i) ∧ (∀ j, j ≠ i → ts'.callers j = ts.callers j) ∧
      (ts'.callers i).answer fwd N = (ts.callers i).answer fwd N ∧ (ts'.callers i).left ≤ (ts.callers i).left - k
  | 0, ts, h => ⟨ts, rfl, h, fun _ _ => rfl, rfl, by simp⟩
  | k + 1, ts, h => by
    obtain ⟨s', c', e1, e2, e3, e4⟩ := alone_step (out0 := out0) hN hfac h
    rw [List.replicate_succ, run_cons (by omega) i _ ts e1]
    obtain ⟨ts', r1, r2, r3, r4, r5⟩ := alone_run hN hfac i k ⟨s', fun j => if j = i then c' else ts.callers j⟩ (by simpa using e2)
    refine ⟨ts', r1, r2, fun j hj => ?_, ?_, ?_⟩
    · rw [r3 j hj]; simp [hj]
    · rw [r4]; simpa using e3
    · simp only [if_true] at r5
      omega

theorem one_after_other (hN : 1 ≤ N) (hfac : ∀ q, q.Prime → 1213 < q → ¬ Stock.Reach N (q * q)) {B : Nat → List (List (List ℂ))} (hB : LinesFit N B) :
    ∀ (ids : List Nat), ids.Nodup → ∀ ts : Threads ℂ, ts.shared.Sane → (∀ i ∈ ids, ts.callers i = .fresh (B i)) →
    ∃ ts', Threads.run complexTw N fwd out0 (ids.flatMap fun i => List.replicate (enough (B i)) i) ts = .ok ts' ∧ ts'.shared.Sane ∧
      (∀ j, j ∉ ids → ts'.callers j = ts.callers j) ∧
      ∀ i ∈ ids, (ts'.callers i).pc = .done ∧ (ts'.callers i).out = (B i).flatten.map (lineDft fwd N)
  | [], _, ts, hs, _ => ⟨ts, rfl, hs, fun _ _ => rfl, fun i hi => absurd hi (by simp)⟩
  | i :: ids, hnd, ts, hs, hf => by
    obtain ⟨hni, hnd⟩ := List.nodup_cons.1 hnd
    have hfi := hf i List.mem_cons_self
    obtain ⟨t1, r1, r2, r3, r4, r5⟩ := alone_run (fwd := fwd) (out0 := out0) hN hfac i (enough (B i)) ts (by
      rw [hfi]
      exact ⟨fresh_wf (hB i), hs, trivial⟩)
    obtain ⟨t2, q1, q2, q3, q4⟩ := one_after_other hN hfac hB ids hnd t1 r2.2.1 (fun j hj => by
      rw [r3 j (fun h => hni (h ▸ hj))]
      exact hf j (List.mem_cons_of_mem _ hj))
    refine ⟨t2, ?_, q2, fun j hj => ?_, fun j hj => ?_⟩
    · rw [List.flatMap_cons, run_append' (by omega) _ _ _ _ r1, q1]
    · rw [List.mem_cons, not_or] at hj
      rw [q3 j hj.2, r3 j hj.1]
    · rcases List.mem_cons.1 hj with rfl | hj
      · rw [q3 j hni]
        have hz : (t1.callers j).left = 0 := by
          have : (ts.callers j).left = enough (B j) := by rw [hfi]; rfl
          omega
        have hd := done_of_left hz
        exact ⟨hd, by rw [← finished (fwd := fwd) r2.1 hd, r4, hfi]; exact fresh_answer _⟩
      · exact q4 j hj

/-- **C92.** Threads that call one after the other, under a lock for example: for every length for which the transform is right (C34), also if nobody
has used the direction before, nothing undefined happens and every thread has the transforms of its lines. -/
theorem C92_one_at_a_time (hN : 1 ≤ N) (hfac : ∀ q, q.Prime → 1213 < q → ¬ Stock.Reach N (q * q)) {B : Nat → List (List (List ℂ))} (hB : LinesFit N B)
    {s : SharedPlan ℂ} (hs : ∀ a, s.slot = some a → s.live a = true) {ids : List Nat} (hnd : ids.Nodup) :
    ∃ ts, Threads.run complexTw N fwd out0 (ids.flatMap fun i => List.replicate (enough (B i)) i) (begin s B) = .ok ts ∧
      ∀ i ∈ ids, (ts.callers i).pc = .done ∧ (ts.callers i).out = (B i).flatten.map fun v => (List.range N).map (dft fwd v) := by
  obtain ⟨ts, h1, -, -, h4⟩ := one_after_other (fwd := fwd) (out0 := out0) hN hfac hB ids hnd (begin s B) hs fun _ _ => rfl
  exact ⟨ts, h1, h4⟩

/-! ## False in general -/

/-- **C92, false.** Two threads make the first call of a direction at the same time, of any length with any data: there is an order of the steps in which one thread deletes the
plan that the other one is using. -/
theorem C92_false_first_call (hN : 1 ≤ N) {s : SharedPlan ℂ} (hs : s.slot = none) {B : Nat → List (List (List ℂ))} {v : List ℂ} {vs : List (List ℂ)}
    {bs : List (List (List ℂ))} (hB : B 0 = (v :: vs) :: bs) : ∃ sch, Threads.run complexTw N fwd out0 sch (begin s B) = .error .ub := by
  refine ⟨[0, 1, 0, 0, 1, 0], ?_⟩
  rw [run_cons (by omega) 0 _ _ rfl, run_cons (by omega) 1 _ _ rfl]
  simp only [begin, Caller.fresh, hs, Option.isNone_none, if_true]
  rw [run_cons (by omega) 0 _ _ rfl]
  simp only [if_true]
  rw [run_cons (by omega) 0 _ _ (by simp only [threadStep, if_true, hB]; rfl)]
  rw [run_cons (by omega) 1 _ _ (by simp only [threadStep, if_true, Nat.one_ne_zero, if_false]; rfl)]
  refine run_error (by omega) 0 _ _ ?_
  simp [threadStep, hB]

/-- The lengths whose transform begins with the work memory of the root. -/
theorem composite_root (h2 : 2 ≤ N) (hp : ¬ N.Prime) (hpow : ∀ e, N ≠ 2 ^ e ∧ N ≠ 3 ^ e) (hfac : ∀ q, q.Prime → 1213 < q → ¬ Stock.Reach N (q * q)) :
    ∃ M l r, initTree N = .composite M l r := by
  unfold initTree
  split
  · exact ⟨_, _, _, rfl⟩
  · rename_i k h
    obtain ⟨h1, -, h3⟩ := helper_rader h
    rcases (factor_self_iff h2).1 h3 with h | h | ⟨q, q1, q2, q3⟩
    · exact absurd h hp
    · omega
    · exact absurd (.dvd (by rw [q3])) (hfac q q1 q2)
  · rename_i t k hc hr h
    exfalso
    unfold fptrFactorHelper at h
    dsimp only at h
    split_ifs at h with h0 h4 h2' h3 g4 g2 g3 hk <;> simp only [Prod.mk.injEq] at h <;> obtain ⟨rfl, rfl⟩ := h
    · omega
    · obtain ⟨e, he⟩ := (powerOf_iff (by omega) (by omega)).1 h4
      exact (hpow (2 * (e + 1))).1 (by rw [he, pow_mul]; rfl)
    · obtain ⟨e, he⟩ := (powerOf_iff (by omega) (by omega)).1 h2'
      exact (hpow (e + 1)).1 he
    · obtain ⟨e, he⟩ := (powerOf_iff (by omega) (by omega)).1 h3
      exact (hpow (e + 1)).2 he
    all_goals first | exact hc rfl | exact hr rfl | skip
    rcases (factor_self_iff h2).1 hk with h | h | ⟨q, q1, q2, q3⟩
    · exact hp h
    · exact (hpow 2).1 (by omega)
    · exact hfac q q1 q2 (.dvd (by rw [q3]))

/-- **C92, false.** All the other lengths for which the transform is right, up to those that go to Rader's algorithm: also when the plan has been used before, two threads can transform one line each such
that the first one finishes normally with the transform of the line of the second one. -/
theorem C92_false_work_memory (h2 : 2 ≤ N) (hp : ¬ N.Prime) (hpow : ∀ e, N ≠ 2 ^ e ∧ N ≠ 3 ^ e) (hfac : ∀ q, q.Prime → 1213 < q → ¬ Stock.Reach N (q * q))
    {s : SharedPlan ℂ} {a : Nat} (hs : s.slot = some a) (hl : s.live a = true) {v w : List ℂ} (hv : v.length = N) (hw : w.length = N) :
    ∃ sch ts, Threads.run complexTw N fwd out0 sch (begin s fun i => if i = 0 then [[v]] else [[w]]) = .ok ts ∧
      (ts.callers 0).pc = .done ∧ (ts.callers 1).pc = .between a ∧ (ts.callers 0).out = [(List.range N).map (dft fwd w)] := by
  obtain ⟨M, l, r, ht⟩ := composite_root h2 hp hpow hfac
  have st1 : ∀ (s : SharedPlan ℂ) (b : List (List (List ℂ))), s.slot = some a →
      threadStep complexTw (initTree N) N fwd out0 s (.fresh b) = .ok (s, ⟨.next, [], b, []⟩) := by
    intro s b hs
    simp [threadStep, Caller.fresh, hs]
  have st2 : ∀ (s : SharedPlan ℂ) (b : List (List ℂ)), s.slot = some a →
      threadStep complexTw (initTree N) N fwd out0 s ⟨.next, [], [b], []⟩ = .ok (s, ⟨.inside a, b, [], []⟩) := by
    intro s b hs
    simp [threadStep, hs]
  let F (u : List ℂ) (W : Nat → Arr ℂ) := compositeFill complexTw M l.sz r.sz 0 (r.fft complexTw (0 + (1 + l.count)) fwd) fwd (fun n => u.getD n 0) 0 1 W
  have st3 : ∀ (s : SharedPlan ℂ) (u : List ℂ), s.live a = true → u.length = N →
      threadStep complexTw (initTree N) N fwd out0 s ⟨.inside a, [u], [], []⟩ = .ok (s.setWork a (F u (s.work a)), ⟨.between a, [u], [], []⟩) := by
    intro s u hs hu
    simp [threadStep, hs, hu, ht, F]
  have st4 : ∀ (s : SharedPlan ℂ) (W : Nat → Arr ℂ), s.live a = true → s.work a = F w W → ∃ s',
      threadStep complexTw (initTree N) N fwd out0 s ⟨.between a, [v], [], []⟩ = .ok (s', ⟨.inside a, [], [], [(List.range N).map (dft fwd w)]⟩) := by
    intro s W hs hW
    have := line_out (fwd := fwd) (out0 := out0) (by omega) hfac hw W
    rw [ht] at this
    unfold Tree.fft at this
    rw [composite_split] at this
    simp only [threadStep, hs, ht, Bool.not_true, Bool.false_eq_true, if_false, Caller.put, hW]
    exact ⟨_, by rw [this]; rfl⟩
  have k1 : (s.setWork a (F v (s.work a))).slot = some a := hs
  have k2 : (s.setWork a (F v (s.work a))).live a = true := hl
  obtain ⟨s', k3⟩ := st4 ((s.setWork a (F v (s.work a))).setWork a (F w ((s.setWork a (F v (s.work a))).work a))) _ hl (by
    show (if a = a then _ else _) = _
    rw [if_pos rfl])
  refine ⟨[0, 0, 0, 1, 1, 1, 0, 0, 0], ?_⟩
  rw [run_cons (by omega) 0 _ _ (st1 s [[v]] hs), run_cons (by omega) 0 _ _ (st2 s [v] hs), run_cons (by omega) 0 _ _ (st3 s v hl hv),
    run_cons (by omega) 1 _ _ (st1 _ [[w]] k1), run_cons (by omega) 1 _ _ (st2 _ [w] k1), run_cons (by omega) 1 _ _ (st3 _ w k2 hw),
    run_cons (by omega) 0 _ _ k3, run_cons (by omega) 0 _ _ rfl, run_cons (by omega) 0 _ _ rfl]
  exact ⟨_, rfl, rfl, rfl, rfl⟩

/-! ## Instances -/

/-- Shared state after a first call. -/
noncomputable def exWarm : SharedPlan ℂ := ⟨some 0, 1, fun b => b == 0, fun _ _ _ => 0⟩
/-- Shared state before any call. -/
noncomputable def exCold : SharedPlan ℂ := ⟨none, 0, fun _ => false, fun _ _ _ => 0⟩

/-- Three threads with two lines of length 4 in each of two blocks; the steps go round. -/
example (B : Nat → List (List (List ℂ))) (hB : LinesFit 4 B) (hc : ∀ i, i < 3 → ∃ a b c d, B i = [[a, b], [c, d]]) :
    ∃ ts, Threads.run complexTw 4 true (fun _ => 0) ((List.replicate 15 [0, 1, 2]).flatten) (begin exWarm B) = .ok ts ∧
      ∀ i, i < 3 → (ts.callers i).out = (B i).flatten.map fun v => (List.range 4).map (dft true v) := by
  obtain ⟨ts, h1, -, h3⟩ := C92_shared_partial (N := 4) (fwd := true) (out0 := fun _ => 0) (.inl ⟨2, rfl⟩) (s := exWarm) (a := 0) rfl rfl hB
    (List.replicate 15 [0, 1, 2]).flatten
  refine ⟨ts, h1, fun i hi => (h3 i ?_).2⟩
  obtain ⟨a, b, c, d, e⟩ := hc i hi
  rw [e]
  have : i = 0 ∨ i = 1 ∨ i = 2 := by omega
  rcases this with rfl | rfl | rfl <;> simp [enough] <;> decide

/-- Length 6: two threads one after the other, and at the same time. -/
example (v w : List ℂ) (hv : v.length = 6) (hw : w.length = 6) :
    (∃ ts, Threads.run complexTw 6 true (fun _ => 0) ([0, 1].flatMap fun i => List.replicate 7 i) (begin exCold fun i => if i = 0 then [[v]] else [[w]]) = .ok ts ∧
      (ts.callers 0).out = [(List.range 6).map (dft true v)]) ∧
    ∃ sch ts, Threads.run complexTw 6 true (fun _ => 0) sch (begin exWarm fun i => if i = 0 then [[v]] else [[w]]) = .ok ts ∧
      (ts.callers 0).out = [(List.range 6).map (dft true w)] := by
  constructor
  · have hB : LinesFit 6 fun i => if i = 0 then [[v]] else [[w]] := by
      intro i b hb u hu
      simp only at hb
      split at hb <;> simp at hb <;> subst hb <;> simp at hu <;> subst hu <;> assumption
    obtain ⟨ts, h1, h2⟩ := C92_one_at_a_time (N := 6) (fwd := true) (out0 := fun _ => 0) (by omega) (reach_small (by omega) (by omega)) hB (s := exCold)
      (fun a h => by cases h) (ids := [0, 1]) (by decide)
    exact ⟨ts, h1, (h2 0 (by simp)).2⟩
  · obtain ⟨sch, ts, h1, -, -, h4⟩ := C92_false_work_memory (N := 6) (fwd := true) (out0 := fun _ => 0) (by omega) (by decide)
      (fun e => by
        constructor <;> intro h
        · have : 3 ∣ 2 ^ e := ⟨2, by omega⟩
          have := (Nat.prime_dvd_prime_iff_eq Nat.prime_three Nat.prime_two).1 (Nat.prime_three.dvd_of_dvd_pow this)
          omega
        · have : 2 ∣ 3 ^ e := ⟨3, by omega⟩
          have := (Nat.prime_dvd_prime_iff_eq Nat.prime_two Nat.prime_three).1 (Nat.prime_two.dvd_of_dvd_pow this)
          omega) (reach_small (by omega) (by omega)) (s := exWarm) (a := 0) rfl rfl hv hw
    exact ⟨sch, ts, h1, h4⟩

example (v : List ℂ) : ∃ sch, Threads.run complexTw 8 true (fun _ => 0) sch (begin exCold fun _ => [[v]]) = .error .ub :=
  C92_false_first_call (by omega) rfl (v := v) (vs := []) (bs := []) rfl

end Verif
