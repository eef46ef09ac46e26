import Verif.DeviceSteps

/-!
# Properties of the vectors in device memory (C75)

`DevValues` are the values that a program expects: every vector and every raw pointer has its own list of entries, as for `std::vector`.
`DevFine` is a correct program together with possible answers of the allocations: with CUDA and ROCm any queues, and allocations may fail;
with oneAPI one queue, and allocations do not fail (the two negations below show that this is needed).
-/

namespace Verif

section
variable {α : Type} {api : DevApi} {q0 : Nat}

/-- No vectors. -/
def noValues : DevValues α := ⟨fun _ => none, fun _ => none⟩

theorem start_sim : DevSim api q0 (devStart : DevState α) noValues where
  owned :=
    { inj := fun x _ _ h => by cases x <;> cases h
      live := fun x _ h => by cases x <;> cases h
      null := fun x _ => by cases x <;> rfl
      cover := fun _ _ h => by cases h }
  exist := fun _ => ⟨fun _ => rfl, fun _ => rfl⟩
  sizes := fun _ _ _ h => by cases h
  raws := fun _ _ => rfl

theorem run_sim : ∀ {prog : List (DevOp α × DevAnswer α)} {st : DevState α} {t : DevValues α}, DevSim api q0 st t → DevFine api q0 prog st t →
    ∃ st', devRun api prog st = some st' ∧ DevSim api q0 st' (DevValues.run prog t)
  | [], st, t, h, _ => ⟨st, rfl, h⟩
  | (op, ans) :: rest, st, t, h, hf => by
    obtain ⟨h1, h2, h3, h4⟩ := hf
    obtain ⟨st', hs, hsim⟩ := dev_step h h1 h2 h3
    obtain ⟨st'', hr, hsim'⟩ := run_sim (prog := rest) hsim (h4 st' hs)
    refine ⟨st'', ?_, hsim'⟩
    unfold devRun
    rcases hs with hs | hs <;> rw [hs] <;> exact hr

/-- C75: a correct program has no undefined behaviour, and every vector has the size and the entries that one expects from values: copies
are independent of the original, the source of a move is empty, assignments to itself change nothing, a released pointer has the entries
of the vector. -/
theorem C75_values {prog : List (DevOp α × DevAnswer α)} (h : DevFine api q0 prog devStart noValues) :
    ∃ st, devRun api prog devStart = some st ∧ DevHolds st (DevValues.run prog noValues) ∧
      ∀ r l, (DevValues.run prog noValues).raws r = some l → l ≠ [] → ∃ a b, st.raws r = some a ∧ st.heap a = some b ∧ l <+: b.data := by
  obtain ⟨st, h1, h2⟩ := run_sim start_sim h
  refine ⟨st, h1, h2.holds, fun r l hl hn => ?_⟩
  have hv : valOf (DevValues.run prog noValues) (.raw r) = l := by simp [valOf, hl]
  cases ha : st.raws r with
  | none => exact absurd (hv.symm.trans (h2.owned.null (.raw r) ha)) hn
  | some a =>
    obtain ⟨b, hb, hp, -⟩ := h2.owned.live (.raw r) a ha
    exact ⟨a, b, rfl, hb, hv ▸ hp⟩

/-- C75: no pointer dangles, no block has two owners, no block is without an owner; without vectors and raw pointers all the memory has been
returned. -/
theorem C75_no_leak {prog : List (DevOp α × DevAnswer α)} (h : DevFine api q0 prog devStart noValues) :
    ∃ st, devRun api prog devStart = some st ∧
      (∀ v d a, st.vecs v = some d → d.data = some a → st.heap a ≠ none) ∧ (∀ r a, st.raws r = some a → st.heap a ≠ none) ∧
      (∀ v w d e a, st.vecs v = some d → st.vecs w = some e → d.data = some a → e.data = some a → v = w) ∧
      (∀ v d r a, st.vecs v = some d → d.data = some a → st.raws r ≠ some a) ∧
      (∀ a, st.heap a ≠ none → (∃ v d, st.vecs v = some d ∧ d.data = some a) ∨ ∃ r, st.raws r = some a) ∧
      ((∀ v, (DevValues.run prog noValues).vecs v = none) → (∀ r, (DevValues.run prog noValues).raws r = none) → ∀ a, st.heap a = none) := by
  obtain ⟨st, h1, h2⟩ := run_sim start_sim h
  have hp : ∀ v d a, st.vecs v = some d → d.data = some a → ptrOf st (.vec v) = some a := fun v d a hd ha => by simp [ptrOf, hd, ha]
  refine ⟨st, h1, fun v d a hd ha => ?_, fun r a ha => ?_, fun v w d e a hd he ha hb => ?_, fun v d r a hd ha hr => ?_, fun a ha => ?_, h2.empty⟩
  · obtain ⟨b, hb, -⟩ := h2.owned.live _ _ (hp v d a hd ha)
    rw [hb]; simp
  · obtain ⟨b, hb, -⟩ := h2.owned.live (.raw r) a ha
    rw [hb]; simp
  · exact Owner.vec.inj (h2.owned.inj _ _ a (hp v d a hd ha) (hp w e a he hb))
  · cases h2.owned.inj _ (.raw r) a (hp v d a hd ha) hr
  · cases hb : st.heap a with
    | none => exact absurd hb ha
    | some b =>
      obtain ⟨x, hx⟩ := h2.owned.cover a b hb
      cases x with
      | vec v =>
        left
        cases hd : st.vecs v with
        | none => simp [ptrOf, hd] at hx
        | some d => exact ⟨v, d, hd, by simpa [ptrOf, hd] using hx⟩
      | raw r => exact .inr ⟨r, hx⟩
      | temp => cases hx

/-- C75: with CUDA and ROCm a failed allocation is an exception, and nothing has changed, also in an assignment. -/
theorem C75_exception {prog : List (DevOp α × DevAnswer α)} (hf : DevFine .checked q0 prog devStart noValues) {op : DevOp α}
    (hl : op.Legal (DevValues.run prog noValues)) (hr : op.request (DevValues.run prog noValues) ≠ none) :
    ∃ st, devRun .checked prog devStart = some st ∧ devStep .checked st op .failed = .throws st := by
  obtain ⟨st, h1, h⟩ := run_sim start_sim hf
  refine ⟨st, h1, ?_⟩
  generalize DevValues.run prog noValues = t at hl hr h
  cases op with
  | make v q n => rfl
  | range v q w i n =>
    obtain ⟨-, l, hw, -⟩ := hl
    obtain ⟨d, _, e1, -⟩ := h.get (v := w) (by rw [hw]; simp)
    simp only [devStep, e1, newVec, devAllocate]
  | copy v w =>
    obtain ⟨d, _, e1, -⟩ := h.get hl.2
    simp only [devStep, e1, copyVec, newVec, devAllocate]
  | assign v w =>
    obtain ⟨d, _, e1, -⟩ := h.get hl.2
    obtain ⟨d', _, e2, -⟩ := h.get hl.1
    simp only [devStep, e1, e2, copyVec, newVec, devAllocate]
  | move v w => exact absurd rfl hr
  | moveAssign v w => exact absurd rfl hr
  | capture v q r n => exact absurd rfl hr
  | release v r => exact absurd rfl hr
  | destroy v => exact absurd rfl hr
  | discard r q => exact absurd rfl hr
  | write v i x => exact absurd rfl hr

end

/-! ## oneAPI -/

/-- The program of the first negation: two vectors on two queues, and an assignment. -/
def twoQueues : List (DevOp Nat × DevAnswer Nat) :=
  [(.make 0 0 1, .block 10 [5]), (.make 1 1 1, .block 11 [6]), (.assign 0 1, .block 12 [0])]

/-- C75: with oneAPI the assignment of a vector on another queue frees the old memory with the queue of the new one; this is undefined if
they have different contexts.  With CUDA and ROCm the same program is correct. -/
theorem C75_false_queues : devRun .oneapi twoQueues devStart = none ∧ DevFine .checked 0 twoQueues devStart noValues := by
  constructor
  · simp [twoQueues, devRun, devStep, newVec, devAllocate, copyVec, devCopy, takeOver, devFree, devStart, Function.update_apply]
  · simp [twoQueues, DevFine, DevOp.Legal, DevOp.request, DevAnswer.Fits, devStep, newVec, devAllocate, copyVec, devCopy, takeOver, devFree, devStart, noValues,
      DevValues.step, DevAnswer.given, Function.update_apply]

/-- C75: with oneAPI there is no exception when an allocation fails: the vector reports its size but has no memory. -/
theorem C75_false_memory (n q : Nat) (hn : 0 < n) : ∃ st d, devStep .oneapi (devStart : DevState Nat) (.make 0 q n) .failed = .ok st ∧ st.vecs 0 = some d ∧ d.num = n ∧
    st.entries d = none := by
  refine ⟨_, ⟨q, n, none⟩, rfl, by simp, rfl, ?_⟩
  simp [DevState.entries, Nat.pos_iff_ne_zero.1 hn]

/-! ## Examples -/

/-- A program with copies, moves, assignments (also to itself), an allocation that fails, and raw pointers; at the end everything is destroyed. -/
def exVectors : List (DevOp Nat × DevAnswer Nat) :=
  [(.make 0 0 2, .block 10 [5, 6]), (.copy 1 0, .block 11 [0, 0]), (.write 1 0 9, .null), (.moveAssign 0 0, .null), (.assign 1 1, .block 12 [1, 2]),
    (.copy 2 0, .failed), (.move 2 1, .null), (.assign 0 2, .block 13 [7, 7]), (.release 0 0, .null), (.capture 3 0 0 1, .null),
    (.range 4 0 2 1 1, .block 14 [3]), (.make 5 0 0, .null), (.moveAssign 5 3, .null)]

theorem exVectors_fine : DevFine .checked 0 exVectors devStart noValues := by
  simp [exVectors, DevFine, DevOp.Legal, DevOp.request, DevAnswer.Fits, devStep, newVec, devAllocate, copyVec, devCopy, takeOver, devFree, devStart, noValues,
    DevValues.step, DevAnswer.given, Function.update_apply]

/-- C75: the hypotheses can be met; the values at the end. -/
example : (DevValues.run exVectors noValues).vecs 2 = some [9, 6] ∧ (DevValues.run exVectors noValues).vecs 5 = some [9] ∧
    (DevValues.run exVectors noValues).vecs 4 = some [6] ∧ (DevValues.run exVectors noValues).vecs 3 = some [] ∧ (DevValues.run exVectors noValues).vecs 1 = some [] := by
  decide

end Verif
