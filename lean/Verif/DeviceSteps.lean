import Verif.DeviceOwners

/-!
# The operations on device vectors keep the owners and the values
-/

namespace Verif

section
variable {α : Type} {api : DevApi} {q0 : Nat} {st : DevState α} {t : DevValues α}

theorem ptrOf_vecs (st : DevState α) (heap : Nat → Option (DevBlock α)) (v : Nat) (d : Option DevVec) (x : Owner) :
    ptrOf { st with heap := heap, vecs := Function.update st.vecs v d } x = Function.update (ptrOf st) (.vec v) (d.bind (·.data)) x := by
  cases x with
  | vec u =>
    by_cases e : u = v
    · subst e; simp [ptrOf]
    · rw [Function.update_of_ne (by simpa using e)]; simp [ptrOf, Function.update_of_ne e]
  | raw r => simp [ptrOf]
  | temp => simp [ptrOf]

theorem valOf_vecs (t : DevValues α) (v : Nat) (l : Option (List α)) (x : Owner) :
    valOf { t with vecs := Function.update t.vecs v l } x = Function.update (valOf t) (.vec v) (l.getD []) x := by
  cases x with
  | vec u =>
    by_cases e : u = v
    · subst e; simp [valOf]
    · rw [Function.update_of_ne (by simpa using e)]; simp [valOf, Function.update_of_ne e]
  | raw r => simp [valOf]
  | temp => simp [valOf]

theorem ptrOf_raws (st : DevState α) (heap : Nat → Option (DevBlock α)) (r : Nat) (p : Option Nat) (x : Owner) :
    ptrOf { st with heap := heap, raws := Function.update st.raws r p } x = Function.update (ptrOf st) (.raw r) p x := by
  cases x with
  | raw u =>
    by_cases e : u = r
    · subst e; simp [ptrOf]
    · rw [Function.update_of_ne (by simpa using e)]; simp [ptrOf, Function.update_of_ne e]
  | vec v => simp [ptrOf]
  | temp => simp [ptrOf]

theorem valOf_raws (t : DevValues α) (r : Nat) (l : Option (List α)) (x : Owner) :
    valOf { t with raws := Function.update t.raws r l } x = Function.update (valOf t) (.raw r) (l.getD []) x := by
  cases x with
  | raw u =>
    by_cases e : u = r
    · subst e; simp [valOf]
    · rw [Function.update_of_ne (by simpa using e)]; simp [valOf, Function.update_of_ne e]
  | vec v => simp [valOf]
  | temp => simp [valOf]

/-- One vector changes. -/
theorem DevSim.set (h : DevSim api q0 st t) {heap : Nat → Option (DevBlock α)} {v : Nat} {d : DevVec} {l : List α}
    (ho : Owned api q0 heap (Function.update (ptrOf st) (.vec v) d.data) (Function.update (valOf t) (.vec v) l)) (hn : d.num = l.length)
    (hq : api = .oneapi → d.queue = q0) :
    DevSim api q0 { st with heap := heap, vecs := Function.update st.vecs v (some d) } { t with vecs := Function.update t.vecs v (some l) } := by
  refine ⟨ho.congr (fun x => ptrOf_vecs st heap v (some d) x) (fun x => valOf_vecs t v (some l) x), fun u => ?_, fun u d' l' h1 h2 => ?_, h.raws⟩
  · by_cases e : u = v
    · subst e; simp
    · simp only [Function.update_of_ne e]; exact h.exist u
  · by_cases e : u = v
    · subst e
      simp only [Function.update_self, Option.some.injEq] at h1 h2
      subst h1 h2
      exact ⟨hn, hq⟩
    · simp only [Function.update_of_ne e] at h1 h2
      exact h.sizes u d' l' h1 h2

theorem upd_comm {β : Type} (f : Owner → β) {x y : Owner} (h : x ≠ y) (a b : β) (z : Owner) :
    Function.update (Function.update f x a) y b z = Function.update (Function.update f y b) x a z := by
  rw [Function.update_comm h]

/-- Allocate for a new owner. -/
theorem newVec_owned {heap : Nat → Option (DevBlock α)} {ptr : Owner → Option Nat} {val : Owner → List α} (h : Owned api q0 heap ptr val) {x : Owner} (hx : ptr x = none)
    {q n : Nat} {ans : DevAnswer α} (hf : ans.Fits heap n) (hq : api = .oneapi → q = q0 ∧ ans.given ≠ none) :
    (ans.given = none ∧ newVec api heap q n ans = none) ∨ ∃ junk heap' p, ans.given = some junk ∧ junk.length = n ∧ newVec api heap q n ans = some (heap', ⟨q, n, p⟩) ∧
      Owned api q0 heap' (Function.update ptr x p) (Function.update val x junk) := by
  unfold newVec devAllocate
  cases ans with
  | failed =>
    left
    cases api with
    | checked => exact ⟨rfl, rfl⟩
    | oneapi => exact absurd rfl (hq rfl).2
  | null =>
    right
    refine ⟨[], heap, none, rfl, Eq.symm hf, rfl, h.congr (fun y => ?_) fun y => ?_⟩
    · rw [← hx, Function.update_eq_self]
    · rw [← h.null x hx, Function.update_eq_self]
  | block a junk => exact .inr ⟨junk, _, some a, rfl, hf.2, rfl, h.alloc hx hf.1 junk fun ho => (hq ho).1⟩

/-- The copy constructor for a new owner. -/
theorem copyVec_owned {heap : Nat → Option (DevBlock α)} {ptr : Owner → Option Nat} {val : Owner → List α} (h : Owned api q0 heap ptr val) {x y : Owner} (hx : ptr x = none)
    (hxy : x ≠ y) {other : DevVec} (hp : ptr y = other.data) (hn : other.num = (val y).length) {ans : DevAnswer α} (hf : ans.Fits heap other.num)
    (hq : api = .oneapi → other.queue = q0 ∧ ans.given ≠ none) :
    (ans.given = none ∧ copyVec api heap other ans = none) ∨ ∃ junk heap' p, ans.given = some junk ∧ copyVec api heap other ans = some (some (heap', ⟨other.queue, other.num, p⟩)) ∧
      Owned api q0 heap' (Function.update ptr x p) (Function.update val x (val y)) := by
  unfold copyVec
  rcases newVec_owned h hx hf hq with ⟨h1, h2⟩ | ⟨junk, heap', p, h1, h2, h3, h4⟩
  · exact .inl ⟨h1, by rw [h2]⟩
  · right
    obtain ⟨heap'', c1, c2⟩ := h4.copy (x := y) (y := x) hxy (i := 0) (n := other.num) (q := other.queue)
      (by rw [Function.update_of_ne hxy.symm, hn]; omega) (by rw [Function.update_self, h2]) (fun ho => (hq ho).1)
    refine ⟨junk, heap'', p, h1, ?_, ?_⟩
    · rw [h3]
      simp only
      rw [Function.update_of_ne hxy.symm, Function.update_self, hp] at c1
      rw [c1]; rfl
    · refine c2.congr (fun _ => rfl) fun z => ?_
      rw [Function.update_idem, Function.update_of_ne hxy.symm, List.drop_zero, hn, List.take_length]

/-- The end of an assignment. -/
theorem takeOver_owned {heap : Nat → Option (DevBlock α)} {ptr : Owner → Option Nat} {val : Owner → List α} (h : Owned api q0 heap ptr val) {x : Owner} (hx : x ≠ .temp)
    {this temp : DevVec} (h1 : ptr x = this.data) (h2 : ptr .temp = temp.data) (hq : api = .oneapi → temp.queue = q0) :
    ∃ heap', takeOver api heap this temp = some (heap', ⟨temp.queue, temp.num, temp.data⟩) ∧
      Owned api q0 heap' (Function.update (Function.update ptr .temp none) x temp.data) (Function.update (Function.update val .temp []) x (val .temp)) := by
  obtain ⟨heap', f1, f2⟩ := h.free (x := x) (q := temp.queue) hq
  refine ⟨heap', ?_, ?_⟩
  · unfold takeOver
    rw [← h1, f1]; rfl
  · refine (f2.give (x := .temp) (y := x) (Function.update_self ..) hx).congr (fun z => ?_) fun z => ?_
    · rw [Function.update_of_ne hx.symm, h2]
      by_cases a : z = x <;> by_cases b : z = .temp <;> simp [Function.update_apply, a, b]
    · rw [Function.update_of_ne hx.symm]
      by_cases a : z = x <;> by_cases b : z = .temp <;> simp [Function.update_apply, a, b]

theorem temp_update {β : Type} (f : Owner → β) (b : β) (hf : f .temp = b) {x : Owner} (hx : x ≠ .temp) (a c : β) (z : Owner) :
    Function.update (Function.update (Function.update f .temp c) .temp b) x a z = Function.update f x a z := by
  rw [Function.update_idem, ← hf, Function.update_eq_self]

/-- Every operation of a correct program. -/
theorem dev_step (h : DevSim api q0 st t) {op : DevOp α} {ans : DevAnswer α} (hl : op.Legal t) (hf : ∀ n, op.request t = some n → ans.Fits st.heap n)
    (hq : api = .oneapi → (∀ q ∈ op.queues, q = q0) ∧ (op.request t ≠ none → ans.given ≠ none)) :
    ∃ st', (devStep api st op ans = .ok st' ∨ devStep api st op ans = .throws st') ∧ DevSim api q0 st' (t.step op ans) := by
  have fresh : ∀ v, t.vecs v = none → ptrOf st (.vec v) = none ∧ valOf t (.vec v) = [] := fun v hv => by
    simp [ptrOf, valOf, (h.exist v).2 hv, hv]
  cases op with
  | make v q n =>
    rcases newVec_owned h.owned (fresh v hl).1 (hf n rfl) (fun ho => ⟨(hq ho).1 q (by simp [DevOp.queues]), (hq ho).2 (by simp [DevOp.request])⟩) with ⟨h1, h2⟩ | ⟨junk, heap', p, h1, h2, h3, h4⟩
    · refine ⟨st, .inr ?_, ?_⟩
      · simp only [devStep, h2]
      · simp only [DevValues.step, h1]; exact h
    · refine ⟨_, .inl (by simp only [devStep, h3]; rfl), ?_⟩
      simp only [DevValues.step, h1]
      exact h.set h4 h2.symm fun ho => (hq ho).1 q (by simp [DevOp.queues])
  | range v q w i n =>
    obtain ⟨hv, l, hw, hi⟩ := hl
    obtain ⟨d, l', e1, e2, e3, e4, e5, e6⟩ := h.get (v := w) (by rw [hw]; simp)
    obtain rfl := Option.some.inj (hw.symm.trans e2)
    have hne : Owner.vec v ≠ Owner.vec w := fun e => by
      rw [Owner.vec.injEq] at e
      rw [e, hw] at hv; cases hv
    have hq' : api = .oneapi → q = q0 ∧ ans.given ≠ none := fun ho => ⟨(hq ho).1 q (by simp [DevOp.queues]), (hq ho).2 (by simp [DevOp.request])⟩
    rcases newVec_owned h.owned (fresh v hv).1 (hf n rfl) hq' with ⟨h1, h2⟩ | ⟨junk, heap', p, h1, h2, h3, h4⟩
    · refine ⟨st, .inr ?_, ?_⟩
      · simp only [devStep, h2, e1]
      · simp only [DevValues.step, h1]; exact h
    · obtain ⟨heap'', c1, c2⟩ := h4.copy (x := .vec w) (y := .vec v) hne (i := i) (n := n) (q := q)
        (by rw [Function.update_of_ne hne.symm, e6]; exact hi) (by rw [Function.update_self, h2]) (fun ho => (hq' ho).1)
      rw [Function.update_of_ne hne.symm, Function.update_self, e5] at c1
      refine ⟨_, .inl (by simp only [devStep, h3, e1, c1]; rfl), ?_⟩
      simp only [DevValues.step, h1, hw, Option.map_some]
      refine h.set (c2.congr (fun _ => rfl) fun z => ?_) ?_ fun ho => (hq' ho).1
      · rw [Function.update_idem, Function.update_of_ne hne.symm, e6]
      · rw [List.length_take, List.length_drop]
        show n = _
        omega
  | copy v w =>
    obtain ⟨hv, hw⟩ := hl
    obtain ⟨d, l, e1, e2, e3, e4, e5, e6⟩ := h.get hw
    have hne : Owner.vec v ≠ Owner.vec w := fun e => by
      rw [Owner.vec.injEq] at e
      rw [e, e2] at hv; cases hv
    rcases copyVec_owned h.owned (fresh v hv).1 hne e5 (by rw [e3, e6]) (by rw [e3]; exact hf l.length (by simp [DevOp.request, e2]))
      (fun ho => ⟨e4 ho, (hq ho).2 (by simp [DevOp.request])⟩) with ⟨h1, h2⟩ | ⟨junk, heap', p, h1, h2, h3⟩
    · refine ⟨st, .inr ?_, ?_⟩
      · simp only [devStep, h2, e1]
      · simp only [DevValues.step, h1]; exact h
    · refine ⟨_, .inl (by simp only [devStep, h2, e1]; rfl), ?_⟩
      simp only [DevValues.step, h1, e2]
      rw [e6] at h3
      exact h.set h3 e3 e4
  | move v w =>
    obtain ⟨hv, hw⟩ := hl
    obtain ⟨d, l, e1, e2, e3, e4, e5, e6⟩ := h.get hw
    have hne : Owner.vec v ≠ Owner.vec w := fun e => by
      rw [Owner.vec.injEq] at e
      rw [e, e2] at hv; cases hv
    refine ⟨_, .inl (by simp only [devStep, e1]; rfl), ?_⟩
    simp only [DevValues.step, e2]
    -- the other vector becomes empty, the new one has the values
    have g := h.owned.give (x := .vec w) (y := .vec v) (fresh v hv).1 hne
    rw [e5, e6] at g
    have hvw : v ≠ w := fun e => hne (by rw [e])
    refine ⟨g.congr (fun x => ?_) (fun x => ?_), fun u => ?_, fun u d' l' h1 h2 => ?_, h.raws⟩
    · cases x with
      | vec u =>
        by_cases a : u = v
        · simp [ptrOf, a]
        · by_cases b : u = w <;> simp [ptrOf, Function.update_apply, a, b, hvw.symm]
      | raw r => simp [ptrOf]
      | temp => simp [ptrOf]
    · cases x with
      | vec u =>
        by_cases a : u = v
        · simp [valOf, a]
        · by_cases b : u = w <;> simp [valOf, Function.update_apply, a, b, hvw.symm]
      | raw r => simp [valOf]
      | temp => simp [valOf]
    · have := h.exist u
      by_cases a : u = v
      · simp [a]
      · by_cases b : u = w <;> simp [Function.update_apply, a, b, hvw.symm, this]
    · simp only [Function.update_apply] at h1 h2
      by_cases a : u = v
      · simp only [a, if_true, Option.some.injEq] at h1 h2
        subst h1 h2
        exact ⟨e3, e4⟩
      · by_cases b : u = w
        · simp only [a, b, hvw.symm, if_true, if_false, Option.some.injEq] at h1 h2
          subst h1 h2
          exact ⟨rfl, e4⟩
        · simp only [a, b, if_false] at h1 h2
          exact h.sizes u d' l' h1 h2
  | assign v w =>
    obtain ⟨hv, hw⟩ := hl
    obtain ⟨d, l, e1, e2, e3, e4, e5, e6⟩ := h.get hw
    obtain ⟨d', l', f1, f2, f3, f4, f5, f6⟩ := h.get hv
    rcases copyVec_owned h.owned (x := .temp) rfl (y := .vec w) (by simp) e5 (by rw [e3, e6]) (by rw [e3]; exact hf l.length (by simp [DevOp.request, e2]))
      (fun ho => ⟨e4 ho, (hq ho).2 (by simp [DevOp.request])⟩) with ⟨h1, h2⟩ | ⟨junk, heap', p, h1, h2, h3⟩
    · refine ⟨st, .inr ?_, ?_⟩
      · simp only [devStep, h2, e1, f1]
      · simp only [DevValues.step, h1]; exact h
    · obtain ⟨heap'', t1, t2⟩ := takeOver_owned h3 (x := .vec v) (by simp) (this := d') (temp := ⟨d.queue, d.num, p⟩) (by rw [Function.update_of_ne (by simp)]; exact f5)
        (Function.update_self ..) e4
      refine ⟨_, .inl (by simp only [devStep, h2, e1, f1, t1]; rfl), ?_⟩
      simp only [DevValues.step, h1, e2]
      refine h.set (t2.congr (fun z => ?_) fun z => ?_) e3 e4
      · exact (temp_update (ptrOf st) none rfl (by simp) _ _ z).symm
      · rw [Function.update_self, e6]
        exact (temp_update (valOf t) [] rfl (by simp) _ _ z).symm
  | moveAssign v w =>
    obtain ⟨hv, hw⟩ := hl
    obtain ⟨d, l, e1, e2, e3, e4, e5, e6⟩ := h.get hw
    -- the temporary vector takes the block of the other one
    have g := h.owned.give (x := .vec w) (y := .temp) rfl (by simp)
    rw [e5, e6] at g
    obtain ⟨d', hd', hp'⟩ : ∃ d', Function.update st.vecs w (some ⟨d.queue, 0, none⟩) v = some d' ∧
        Function.update (Function.update (ptrOf st) (.vec w) none) .temp d.data (.vec v) = d'.data := by
      by_cases e : v = w
      · subst e
        exact ⟨⟨d.queue, 0, none⟩, by simp, by simp⟩
      · obtain ⟨d', l', f1, f2, f3, f4, f5, f6⟩ := h.get hv
        exact ⟨d', by rw [Function.update_of_ne e]; exact f1, by rw [Function.update_of_ne (by simp), Function.update_of_ne (by simpa using e)]; exact f5⟩
    obtain ⟨heap'', t1, t2⟩ := takeOver_owned g (x := .vec v) (by simp) (this := d') (temp := ⟨d.queue, d.num, d.data⟩) hp' (Function.update_self ..) e4
    refine ⟨_, .inl (by simp only [devStep, e1, hd', t1]; rfl), ?_⟩
    simp only [DevValues.step, e2]
    refine ⟨t2.congr (fun x => ?_) (fun x => ?_), fun u => ?_, fun u d1 l1 h1 h2 => ?_, h.raws⟩
    · cases x with
      | vec u =>
        by_cases a : u = v
        · simp [ptrOf, a]
        · by_cases b : u = w
          · have c : ¬ w = v := fun c => a (b.trans c)
            simp [ptrOf, Function.update_apply, b, c]
          · simp [ptrOf, Function.update_apply, a, b]
      | raw r => simp [ptrOf, Function.update_apply]
      | temp => simp [ptrOf, Function.update_apply]
    · cases x with
      | vec u =>
        by_cases a : u = v
        · simp [valOf, a]
        · by_cases b : u = w
          · have c : ¬ w = v := fun c => a (b.trans c)
            simp [valOf, Function.update_apply, b, c]
          · simp [valOf, Function.update_apply, a, b]
      | raw r => simp [valOf, Function.update_apply]
      | temp => simp [valOf, Function.update_apply]
    · have := h.exist u
      by_cases a : u = v
      · simp [a]
      · by_cases b : u = w
        · have c : ¬ w = v := fun c => a (b.trans c)
          simp [Function.update_apply, b, c]
        · simp [Function.update_apply, a, b, this]
    · simp only [Function.update_apply] at h1 h2
      by_cases a : u = v
      · simp only [a, if_true, Option.some.injEq] at h1 h2
        subst h1 h2
        exact ⟨e3, e4⟩
      · by_cases b : u = w
        · rw [if_neg a, if_pos b, Option.some.injEq] at h1 h2
          subst h1 h2
          exact ⟨rfl, e4⟩
        · simp only [a, b, if_false] at h1 h2
          exact h.sizes u d1 l1 h1 h2
  | capture v q r n =>
    obtain ⟨hv, l, hr, hn⟩ := hl
    refine ⟨_, .inl rfl, ?_⟩
    simp only [DevValues.step, hr, Option.map_some]
    have g := (h.owned.give (x := .raw r) (y := .vec v) (fresh v hv).1 (by simp)).less (x := .vec v) (l := l.take n)
      (by rw [Function.update_self]; simp only [valOf, hr, Option.getD_some]; exact List.take_prefix _ _)
    refine ⟨g.congr (fun x => ?_) (fun x => ?_), fun u => ?_, fun u d' l' h1 h2 => ?_, fun u hu => ?_⟩
    · cases x with
      | vec u => by_cases a : u = v <;> simp [ptrOf, Function.update_apply, a]
      | raw u => by_cases a : u = r <;> simp [ptrOf, Function.update_apply, a]
      | temp => simp [ptrOf, Function.update_apply]
    · cases x with
      | vec u => by_cases a : u = v <;> simp [valOf, Function.update_apply, a]
      | raw u => by_cases a : u = r <;> simp [valOf, Function.update_apply, a]
      | temp => simp [valOf, Function.update_apply]
    · have := h.exist u
      by_cases a : u = v <;> simp [Function.update_apply, a, this]
    · simp only [Function.update_apply] at h1 h2
      by_cases a : u = v
      · simp only [a, if_true, Option.some.injEq] at h1 h2
        subst h1 h2
        refine ⟨?_, fun ho => (hq ho).1 q (by simp [DevOp.queues])⟩
        rw [List.length_take]
        show n = _
        omega
      · simp only [a, if_false] at h1 h2
        exact h.sizes u d' l' h1 h2
    · simp only [Function.update_apply] at hu ⊢
      by_cases a : u = r
      · rw [if_pos a]
      · rw [if_neg a] at hu ⊢
        exact h.raws u hu
  | release v r =>
    obtain ⟨hv, hr⟩ := hl
    obtain ⟨d, l, e1, e2, e3, e4, e5, e6⟩ := h.get hv
    refine ⟨_, .inl (by simp only [devStep, e1]; rfl), ?_⟩
    simp only [DevValues.step, e2]
    have g := h.owned.give (x := .vec v) (y := .raw r) (h.raws r hr) (by simp)
    rw [e5, e6] at g
    refine ⟨g.congr (fun x => ?_) (fun x => ?_), fun u => ?_, fun u d' l' h1 h2 => ?_, fun u hu => ?_⟩
    · cases x with
      | vec u => by_cases a : u = v <;> simp [ptrOf, Function.update_apply, a]
      | raw u => by_cases a : u = r <;> simp [ptrOf, Function.update_apply, a]
      | temp => simp [ptrOf, Function.update_apply]
    · cases x with
      | vec u => by_cases a : u = v <;> simp [valOf, Function.update_apply, a]
      | raw u => by_cases a : u = r <;> simp [valOf, Function.update_apply, a]
      | temp => simp [valOf, Function.update_apply]
    · have := h.exist u
      by_cases a : u = v <;> simp [Function.update_apply, a, this]
    · simp only [Function.update_apply] at h1 h2
      by_cases a : u = v
      · simp only [a, if_true, Option.some.injEq] at h1 h2
        subst h1 h2
        exact ⟨rfl, e4⟩
      · simp only [a, if_false] at h1 h2
        exact h.sizes u d' l' h1 h2
    · simp only [Function.update_apply] at hu ⊢
      by_cases a : u = r
      · rw [if_pos a] at hu; cases hu
      · rw [if_neg a] at hu ⊢
        exact h.raws u hu
  | destroy v =>
    obtain ⟨d, l, e1, e2, e3, e4, e5, e6⟩ := h.get hl
    obtain ⟨heap', f1, f2⟩ := h.owned.free (x := .vec v) (q := d.queue) e4
    rw [e5] at f1
    refine ⟨_, .inl (by simp only [devStep, e1, f1]; rfl), ?_⟩
    simp only [DevValues.step]
    refine ⟨f2.congr (fun x => ptrOf_vecs st heap' v none x) (fun x => valOf_vecs t v none x), fun u => ?_, fun u d' l' h1 h2 => ?_, h.raws⟩
    · have := h.exist u
      by_cases a : u = v <;> simp [Function.update_apply, a, this]
    · simp only [Function.update_apply] at h1 h2
      by_cases a : u = v
      · rw [if_pos a] at h1; cases h1
      · simp only [a, if_false] at h1 h2
        exact h.sizes u d' l' h1 h2
  | discard r q =>
    obtain ⟨heap', f1, f2⟩ := h.owned.free (x := .raw r) (q := q) (fun ho => (hq ho).1 q (by simp [DevOp.queues]))
    refine ⟨_, .inl (by simp only [devStep]; rw [show st.raws r = ptrOf st (.raw r) from rfl, f1]), ?_⟩
    simp only [DevValues.step]
    refine ⟨f2.congr (fun x => ptrOf_raws st heap' r none x) (fun x => valOf_raws t r none x), h.exist, h.sizes, fun u hu => ?_⟩
    simp only [Function.update_apply] at hu ⊢
    by_cases a : u = r
    · rw [if_pos a]
    · rw [if_neg a] at hu ⊢
      exact h.raws u hu
  | write v i x =>
    obtain ⟨l, hv, hi⟩ := hl
    obtain ⟨d, l', e1, e2, e3, e4, e5, e6⟩ := h.get (v := v) (by rw [hv]; simp)
    obtain rfl := Option.some.inj (hv.symm.trans e2)
    cases hp : d.data with
    | none =>
      have := h.owned.null (.vec v) (e5.trans hp)
      rw [e6] at this
      rw [this] at hi
      cases hi
    | some a =>
      obtain ⟨b, hb, hpre, -⟩ := h.owned.live (.vec v) a (e5.trans hp)
      rw [e6] at hpre
      have hib : i < b.data.length := Nat.lt_of_lt_of_le hi hpre.length_le
      have g := h.owned.write (x := .vec v) (e5.trans hp) hb (data := b.data.set i x) (l := l.set i x) (by
        obtain ⟨s, hs⟩ := hpre
        rw [← hs, List.set_append_left _ _ hi]
        exact List.prefix_append _ _)
      refine ⟨_, .inl (by simp only [devStep, e1, hp, hb]; rw [if_pos hib]), ?_⟩
      simp only [DevValues.step, hv, Option.map_some]
      refine ⟨g.congr (fun x => rfl) (fun z => valOf_vecs t v _ z), fun u => ?_, fun u d' l' h1 h2 => ?_, h.raws⟩
      · have := h.exist u
        by_cases a : u = v
        · simp [a, e1]
        · simp [Function.update_apply, a, this]
      · simp only [Function.update_apply] at h1 h2
        by_cases a : u = v
        · subst a
          rw [if_pos rfl, Option.some.injEq] at h2
          obtain rfl := Option.some.inj (e1.symm.trans h1)
          rw [← h2, List.length_set]
          exact ⟨e3, e4⟩
        · simp only [a, if_false] at h2
          exact h.sizes u d' l' h1 h2

end
end Verif
