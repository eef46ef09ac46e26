import Verif.Mpi
import Mathlib.Data.List.Forall2
import Mathlib.Data.Finset.Basic
import Mathlib.Data.Finset.Lattice.Fold
import Mathlib.Algebra.BigOperators.Group.List.Basic
import Mathlib.Algebra.Order.BigOperators.Group.List
import Mathlib.Algebra.Order.Ring.Nat
import Mathlib.Data.Finset.Max

/-!
# Programs made of pieces do not get stuck

A piece is what all the ranks do in one reshape (or one constructor or destructor of a reshape).  If the calls fit together in every piece,
then any sequence of pieces completes, although the ranks run at their own speed: the rank that is furthest behind gets on.
-/

namespace Verif

/-- The part of a piece: posting, sending, waiting. -/
def MpiStep.stage : MpiStep → Nat
  | .irecv _ _ => 0
  | .enter _ _ => 0
  | .isend _ _ => 1
  | .endSend => 1
  | .leave _ => 1
  | .waitany => 2
  | .waitall => 2

def MpiStep.isWaitany : MpiStep → Bool
  | .waitany => true
  | _ => false

def MpiStep.isAnyIrecv : MpiStep → Bool
  | .irecv _ _ => true
  | _ => false

theorem MpiStep.stage_lt (s : MpiStep) : s.stage < 3 := by cases s <;> simp [MpiStep.stage]

/-- Lengths of the messages to `dst`. -/
def sendLens (dst : Nat) (l : List MpiStep) : List Int := l.filterMap fun x => match x with
  | .isend d len => if d = dst then some len else none
  | _ => none

/-- Lengths of the receives from `src`. -/
def recvLens (src : Nat) (l : List MpiStep) : List Int := l.filterMap fun x => match x with
  | .irecv s len => if s = src then some len else none
  | _ => none

/-- Collective calls on `c`. -/
def collOps' (c : Comm) (l : List MpiStep) : List CollCall := l.filterMap fun x => match x with
  | .enter c' op => if c' = c then some op else none
  | _ => none

/-- What the `n` ranks do in one piece fits together. -/
structure Piece (n : Nat) (b : Nat → List MpiStep) : Prop where
  sorted : ∀ r, r < n → (b r).Pairwise fun x y => x.stage ≤ y.stage
  messages : ∀ s d, s < n → d < n → sendLens d (b s) = recvLens s (b d)
  peers : ∀ r, r < n → ∀ x ∈ b r, ∀ p len, x = .isend p len ∨ x = .irecv p len → p < n ∧ p ≠ r
  waits : ∀ r, r < n → (b r).countP MpiStep.isWaitany = (b r).countP MpiStep.isAnyIrecv
  members : ∀ r, r < n → ∀ x ∈ b r, ∀ c, (x = .leave c ∨ ∃ op, x = .enter c op) → r ∈ c.members ∧ ∀ s ∈ c.members, s < n
  collective : ∀ c r s, r < n → s < n → r ∈ c.members → s ∈ c.members →
    List.Forall₂ (CallFits c r s) (collOps' c (b r)) (collOps' c (b s))

theorem sendLens_length (d : Nat) (l : List MpiStep) : (sendLens d l).length = l.countP (MpiStep.isIsend d) := by
  induction l with
  | nil => rfl
  | cons x t ih =>
    unfold sendLens at ih ⊢
    cases x <;> simp only [List.filterMap_cons, List.countP_cons, MpiStep.isIsend] <;> try simpa using ih
    split <;> rename_i h <;> split at h <;> simp_all

theorem recvLens_length (d : Nat) (l : List MpiStep) : (recvLens d l).length = l.countP (MpiStep.isIrecv d) := by
  induction l with
  | nil => rfl
  | cons x t ih =>
    unfold recvLens at ih ⊢
    cases x <;> simp only [List.filterMap_cons, List.countP_cons, MpiStep.isIrecv] <;> try simpa using ih
    split <;> rename_i h <;> split at h <;> simp_all

theorem collOps'_length (c : Comm) (l : List MpiStep) : (collOps' c l).length = l.countP (MpiStep.isEnter c) := by
  induction l with
  | nil => rfl
  | cons x t ih =>
    unfold collOps' at ih ⊢
    cases x <;> simp only [List.filterMap_cons, List.countP_cons, MpiStep.isEnter] <;> try simpa using ih
    split <;> rename_i h <;> split at h <;> simp_all

/-- The program of rank `r` made of pieces with labels. -/
def assemble (ps : List (Nat × (Nat → List MpiStep))) (r : Nat) : List (Nat × MpiStep) :=
  ps.flatMap fun p => (p.2 r).map fun s => (p.1, s)

section matched
variable {n : Nat} {ps : List (Nat × (Nat → List MpiStep))}

theorem messagesTo_append (d : Nat) (a b : List (Nat × MpiStep)) : messagesTo d (a ++ b) = messagesTo d a ++ messagesTo d b :=
  List.filterMap_append
theorem messagesFrom_append (d : Nat) (a b : List (Nat × MpiStep)) : messagesFrom d (a ++ b) = messagesFrom d a ++ messagesFrom d b :=
  List.filterMap_append
theorem callsOn_append (c : Comm) (a b : List (Nat × MpiStep)) : callsOn c (a ++ b) = callsOn c a ++ callsOn c b := List.filterMap_append

theorem messagesTo_map (d q : Nat) (l : List MpiStep) : messagesTo d (l.map fun s => (q, s)) = (sendLens d l).map fun x => (q, x) := by
  unfold messagesTo sendLens
  rw [List.filterMap_map, List.map_filterMap]
  congr 1
  funext x
  cases x <;> simp
theorem messagesFrom_map (d q : Nat) (l : List MpiStep) : messagesFrom d (l.map fun s => (q, s)) = (recvLens d l).map fun x => (q, x) := by
  unfold messagesFrom recvLens
  rw [List.filterMap_map, List.map_filterMap]
  congr 1
  funext x
  cases x <;> simp
theorem callsOn_map (c : Comm) (q : Nat) (l : List MpiStep) : callsOn c (l.map fun s => (q, s)) = (collOps' c l).map fun x => (q, x) := by
  unfold callsOn collOps'
  rw [List.filterMap_map, List.map_filterMap]
  congr 1
  funext x
  cases x <;> simp

theorem matched_of_pieces (h : ∀ p ∈ ps, Piece n p.2) : Matched n (assemble ps) := by
  constructor
  · intro s d hs hd
    induction ps with
    | nil => rfl
    | cons p t ih =>
      have hp := h p List.mem_cons_self
      unfold assemble at ih ⊢
      rw [List.flatMap_cons, List.flatMap_cons, messagesTo_append, messagesFrom_append, ih fun q hq => h q (List.mem_cons_of_mem _ hq),
        messagesTo_map, messagesFrom_map, hp.messages s d hs hd]
  · intro r hr x hx p len hxp
    obtain ⟨q, hq, hx⟩ := List.mem_flatMap.1 hx
    obtain ⟨s, hs, rfl⟩ := List.mem_map.1 hx
    exact (h q hq).peers r hr s hs p len hxp
  · intro r hr x hx c op hxc
    obtain ⟨q, hq, hx⟩ := List.mem_flatMap.1 hx
    obtain ⟨s, hs, rfl⟩ := List.mem_map.1 hx
    exact (h q hq).members r hr s hs c (.inr ⟨op, hxc⟩)
  · intro c r s hr hs hrc hsc
    induction ps with
    | nil => exact .nil
    | cons p t ih =>
      have hp := h p List.mem_cons_self
      unfold assemble at ih ⊢
      rw [List.flatMap_cons, List.flatMap_cons, callsOn_append, callsOn_append, callsOn_map, callsOn_map]
      refine List.rel_append ?_ (ih fun q hq => h q (List.mem_cons_of_mem _ hq))
      rw [List.forall₂_map_left_iff, List.forall₂_map_right_iff]
      exact (hp.collective c r s hr hs hrc hsc).imp fun _ _ h => ⟨rfl, h⟩

end matched

/-! ## Phases -/

/-- The program of rank `r` with the phase of each step. -/
def tagged : Nat → List (Nat → List MpiStep) → Nat → List (Nat × MpiStep)
  | _, [], _ => []
  | k, b :: t, r => (b r).map (fun s => (3 * k + s.stage, s)) ++ tagged (k + 1) t r

/-- What the proof of progress needs. -/
structure Phased (n : Nat) (tag : Nat → List (Nat × MpiStep)) : Prop where
  sorted : ∀ r, r < n → (tag r).Pairwise fun x y => x.1 ≤ y.1
  stage : ∀ r, ∀ x ∈ tag r, x.1 % 3 = x.2.stage
  messages : ∀ Q s d, s < n → d < n → (tag s).countP (fun x => decide (x.1 < 3 * Q) && x.2.isIsend d) =
    (tag d).countP fun x => decide (x.1 < 3 * Q) && x.2.isIrecv s
  peers : ∀ r, r < n → ∀ x ∈ tag r, ∀ p len, x.2 = .isend p len ∨ x.2 = .irecv p len → p < n ∧ p ≠ r
  waits : ∀ Q r, r < n → (tag r).countP (fun x => decide (x.1 < 3 * Q) && x.2.isWaitany) =
    (tag r).countP fun x => decide (x.1 < 3 * Q) && x.2.isAnyIrecv
  enters : ∀ Q c r s, r < n → s < n → r ∈ c.members → s ∈ c.members → (tag r).countP (fun x => decide (x.1 < 3 * Q) && x.2.isEnter c) =
    (tag s).countP fun x => decide (x.1 < 3 * Q) && x.2.isEnter c
  members : ∀ r, r < n → ∀ x ∈ tag r, ∀ c, x.2 = .leave c → r ∈ c.members ∧ ∀ s ∈ c.members, s < n

section phased
variable {n : Nat}

theorem mem_tagged {r : Nat} {x : Nat × MpiStep} : ∀ {k : Nat} {bs : List (Nat → List MpiStep)}, x ∈ tagged k bs r →
    3 * k ≤ x.1 ∧ x.1 % 3 = x.2.stage ∧ ∃ b ∈ bs, x.2 ∈ b r
  | _, [], h => absurd h List.not_mem_nil
  | k, b :: t, h => by
    rcases List.mem_append.1 h with h | h
    · obtain ⟨s, hs, rfl⟩ := List.mem_map.1 h
      have := s.stage_lt
      exact ⟨by dsimp only; omega, by dsimp only; omega, b, List.mem_cons_self, hs⟩
    · obtain ⟨h1, h2, b', hb, h3⟩ := mem_tagged h
      exact ⟨by omega, h2, b', List.mem_cons_of_mem _ hb, h3⟩

theorem tagged_sorted {r : Nat} : ∀ {k : Nat} {bs : List (Nat → List MpiStep)},
    (∀ b ∈ bs, (b r).Pairwise fun x y => x.stage ≤ y.stage) → (tagged k bs r).Pairwise fun x y => x.1 ≤ y.1
  | _, [], _ => .nil
  | k, b :: t, h => by
    refine List.pairwise_append.2 ⟨?_, tagged_sorted fun c hc => h c (List.mem_cons_of_mem _ hc), ?_⟩
    · rw [List.pairwise_map]
      exact (h b List.mem_cons_self).imp fun {x y} hxy => by dsimp only; omega
    · intro x hx y hy
      obtain ⟨s, hs, rfl⟩ := List.mem_map.1 hx
      have := s.stage_lt
      have := (mem_tagged hy).1
      dsimp only; omega

theorem countP_head (k Q : Nat) (f : MpiStep → Bool) (l : List MpiStep) :
    (l.map fun s => (3 * k + s.stage, s)).countP (fun x => decide (x.1 < 3 * Q) && f x.2) = if k < Q then l.countP f else 0 := by
  rw [List.countP_map]
  split
  · apply List.countP_congr
    intro s _
    have := s.stage_lt
    have : 3 * k + s.stage < 3 * Q := by omega
    simp [this]
  · rw [List.countP_eq_zero]
    intro s _
    have : ¬ 3 * k + s.stage < 3 * Q := by omega
    simp [this]

theorem countP_tagged {Q r s : Nat} {f g : MpiStep → Bool} : ∀ {k : Nat} {bs : List (Nat → List MpiStep)},
    (∀ b ∈ bs, (b r).countP f = (b s).countP g) →
    (tagged k bs r).countP (fun x => decide (x.1 < 3 * Q) && f x.2) = (tagged k bs s).countP fun x => decide (x.1 < 3 * Q) && g x.2
  | _, [], _ => rfl
  | k, b :: t, h => by
    unfold tagged
    rw [List.countP_append, List.countP_append, countP_head, countP_head, h b List.mem_cons_self,
      countP_tagged fun c hc => h c (List.mem_cons_of_mem _ hc)]

theorem phased_of_pieces {bs : List (Nat → List MpiStep)} (h : ∀ b ∈ bs, Piece n b) : Phased n (tagged 0 bs) := by
  constructor
  · exact fun r hr => tagged_sorted fun b hb => (h b hb).sorted r hr
  · exact fun r x hx => (mem_tagged hx).2.1
  · intro Q s d hs hd
    refine countP_tagged fun b hb => ?_
    rw [← sendLens_length, ← recvLens_length, (h b hb).messages s d hs hd]
  · intro r hr x hx
    obtain ⟨-, -, b, hb, hxb⟩ := mem_tagged hx
    exact (h b hb).peers r hr _ hxb
  · exact fun Q r hr => countP_tagged fun b hb => (h b hb).waits r hr
  · intro Q c r s hr hs hrc hsc
    refine countP_tagged fun b hb => ?_
    rw [← collOps'_length, ← collOps'_length, ((h b hb).collective c r s hr hs hrc hsc).length_eq]
  · intro r hr x hx c hxc
    obtain ⟨-, -, b, hb, hxb⟩ := mem_tagged hx
    exact (h b hb).members r hr _ hxb c (.inl hxc)

theorem tagged_steps {r : Nat} : ∀ (k : Nat) (ps : List (Nat × (Nat → List MpiStep))),
    (tagged k (ps.map (·.2)) r).map (·.2) = (assemble ps r).map (·.2)
  | _, [] => rfl
  | k, p :: t => by
    unfold assemble
    rw [List.map_cons, List.flatMap_cons, List.map_append]
    unfold tagged
    rw [List.map_append, tagged_steps (k + 1) t]
    unfold assemble
    simp [Function.comp_def]

/-! ## Steps done by a rank -/

theorem drop_phase {l : List (Nat × MpiStep)} (h : l.Pairwise fun x y => x.1 ≤ y.1) {pc φ : Nat}
    (hφ : ∀ x, l[pc]? = some x → φ ≤ x.1) : ∀ x ∈ l.drop pc, φ ≤ x.1 := by
  intro x hx
  have hp := h.sublist (List.drop_sublist pc l)
  cases hd : l.drop pc with
  | nil => rw [hd] at hx; exact absurd hx List.not_mem_nil
  | cons a t =>
    have ha : l[pc]? = some a := by
      have := congrArg List.head? hd
      rwa [List.head?_drop] at this
    rw [hd] at hx hp
    rcases List.mem_cons.1 hx with rfl | hx
    · exact hφ _ ha
    · exact le_trans (hφ a ha) (List.rel_of_pairwise_cons hp hx)

theorem take_phase {l : List (Nat × MpiStep)} (h : l.Pairwise fun x y => x.1 ≤ y.1) {pc : Nat} {a : Nat × MpiStep} (ha : l[pc]? = some a) :
    ∀ x ∈ l.take pc, x.1 ≤ a.1 := by
  intro x hx
  have ha' : a ∈ l.drop pc := by
    obtain ⟨hlt, rfl⟩ := List.getElem?_eq_some_iff.1 ha
    exact List.mem_drop_iff_getElem.2 ⟨0, by omega, by simp⟩
  rw [← List.take_append_drop pc l] at h
  exact (List.pairwise_append.1 h).2.2 x hx a ha'

/-- A rank that is at phase `φ` or behind it has done all the steps before `φ`. -/
theorem count_before {l : List (Nat × MpiStep)} (h : l.Pairwise fun x y => x.1 ≤ y.1) {pc φ : Nat}
    (hφ : ∀ x, l[pc]? = some x → φ ≤ x.1) (f : MpiStep → Bool) :
    l.countP (fun x => decide (x.1 < φ) && f x.2) ≤ ((l.take pc).map (·.2)).countP f := by
  conv_lhs => rw [← List.take_append_drop pc l, List.countP_append]
  have h0 : (l.drop pc).countP (fun x => decide (x.1 < φ) && f x.2) = 0 := by
    rw [List.countP_eq_zero]
    intro x hx
    have := drop_phase h hφ x hx
    simp; intro; omega
  rw [h0, Nat.add_zero, List.countP_map]
  apply List.countP_mono_left
  intro x _ hx
  simp only [Bool.and_eq_true] at hx
  exact hx.2

/-- A rank that is at phase `φ` has done steps up to `φ` only. -/
theorem count_upto {l : List (Nat × MpiStep)} (h : l.Pairwise fun x y => x.1 ≤ y.1) {pc : Nat} {a : Nat × MpiStep} (ha : l[pc]? = some a)
    {φ : Nat} (hφ : a.1 < φ) (f : MpiStep → Bool) :
    ((l.take pc).map (·.2)).countP f ≤ l.countP fun x => decide (x.1 < φ) && f x.2 := by
  rw [List.countP_map]
  refine le_trans ?_ (List.Sublist.countP_le (List.take_sublist pc l))
  apply List.countP_mono_left
  intro x hx hf
  have := take_phase h ha x hx
  have : x.1 < φ := by omega
  simp only [this, decide_true, Bool.true_and]
  exact hf

end phased

/-! ## Histories -/

section runs
variable {n : Nat} {progs : Nat → List MpiStep}

/-- What is true in every history. -/
structure Sane (n : Nat) (progs : Nat → List MpiStep) (st : MpiState) : Prop where
  le : ∀ r, st.done r ≤ (progs r).length
  number : ∀ r, ∀ q ∈ st.pending r, q.2 < posted progs st r q.1
  open_ : ∀ r, (st.pending r).length + ((progs r).take (st.done r)).countP MpiStep.isWaitany =
    ((progs r).take (st.done r)).countP MpiStep.isAnyIrecv

theorem take_next {l : List MpiStep} {k : Nat} {s : MpiStep} (h : l[k]? = some s) : l.take (k + 1) = l.take k ++ [s] := by
  rw [List.take_add_one, h]; rfl

theorem Sane.next {st : MpiState} (h : Sane n progs st) {r : Nat} {s : MpiStep} (hs : (progs r)[st.done r]? = some s)
    {p : List (Nat × Nat)} (hp : ∀ q ∈ p, q ∈ st.pending r ∨ ∃ len, s = .irecv q.1 len ∧ q.2 = posted progs st r q.1)
    (hl : p.length + (if s.isWaitany then 1 else 0) = (st.pending r).length + if s.isAnyIrecv then 1 else 0) :
    Sane n progs (st.next r p) := by
  have hlt := (List.getElem?_eq_some_iff.1 hs).1
  constructor
  · intro i
    unfold MpiState.next
    dsimp only
    split
    · rename_i e; subst e; omega
    · exact h.le i
  · intro i q hq
    unfold MpiState.next at hq
    unfold posted MpiState.next
    dsimp only at hq ⊢
    by_cases e : i = r
    · subst e
      rw [if_pos rfl] at hq ⊢
      rw [take_next hs, List.countP_append]
      rcases hp q hq with hq | ⟨len, rfl, hq⟩
      · have := h.number i q hq
        unfold posted at this
        omega
      · unfold posted at hq
        rw [hq]
        simp [MpiStep.isIrecv]
    · rw [if_neg e] at hq ⊢
      exact h.number i q hq
  · intro i
    unfold MpiState.next
    dsimp only
    by_cases e : i = r
    · subst e
      rw [if_pos rfl, if_pos rfl, take_next hs, List.countP_append, List.countP_append]
      have := h.open_ i
      simp only [List.countP_cons, List.countP_nil, Nat.zero_add]
      omega
    · rw [if_neg e, if_neg e]
      exact h.open_ i

theorem sane_move {st st' : MpiState} (h : Sane n progs st) (hm : MpiMove n progs st st') : Sane n progs st' := by
  cases hm with
  | post hr hs =>
    refine h.next hs ?_ (by simp [MpiStep.isWaitany, MpiStep.isAnyIrecv])
    intro q hq
    rcases List.mem_append.1 hq with hq | hq
    · exact .inl hq
    · rw [List.mem_singleton] at hq
      subst hq
      exact .inr ⟨_, rfl, rfl⟩
  | wait hr hs hq _ =>
    refine h.next hs (fun q hq => .inl (List.mem_of_mem_erase hq)) ?_
    have := List.length_pos_of_mem hq
    rw [List.length_erase_of_mem hq]
    simp only [MpiStep.isWaitany, MpiStep.isAnyIrecv]
    simp
    omega
  | other hr hs h1 h2 =>
    rename_i r s
    refine h.next hs (fun q hq => .inl hq) ?_
    have e1 : s.isWaitany = false := by cases s <;> simp_all [MpiStep.isWaitany]
    have e2 : s.isAnyIrecv = false := by cases s <;> simp_all [MpiStep.isAnyIrecv]
    rw [e1, e2]

theorem sane_run {k : Nat} {st : MpiState} (h : MpiRun n progs k st) : Sane n progs st := by
  induction h with
  | start => exact ⟨fun _ => Nat.zero_le _, fun _ _ hq => absurd hq List.not_mem_nil, fun _ => by simp [MpiState.init]⟩
  | step _ hm ih => exact sane_move ih hm

theorem sum_next {done : Nat → Nat} {r : Nat} (hr : r < n) :
    ((List.range n).map fun i => if i = r then done r + 1 else done i).sum = ((List.range n).map done).sum + 1 := by
  induction n with
  | zero => omega
  | succ n ih =>
    rw [List.range_succ, List.map_append, List.map_append, List.sum_append, List.sum_append]
    by_cases e : r = n
    · subst e
      have : (List.range r).map (fun i => if i = r then done r + 1 else done i) = (List.range r).map done := by
        apply List.map_congr_left
        intro i hi
        rw [if_neg (by have := List.mem_range.1 hi; omega)]
      rw [this]
      simp
      omega
    · rw [ih (by omega)]
      simp [Ne.symm e]
      omega

theorem move_sum {st st' : MpiState} (hm : MpiMove n progs st st') :
    ((List.range n).map st'.done).sum = ((List.range n).map st.done).sum + 1 := by
  cases hm with
  | post hr _ => exact sum_next hr
  | wait hr _ _ _ => exact sum_next hr
  | other hr _ _ _ => exact sum_next hr

theorem run_sum {k : Nat} {st : MpiState} (h : MpiRun n progs k st) : ((List.range n).map st.done).sum = k := by
  induction h with
  | start => simp [MpiState.init]
  | step _ hm ih => rw [move_sum hm, ih]

theorem bounded_run {k : Nat} {st : MpiState} (h : MpiRun n progs k st) : k ≤ ((List.range n).map fun r => (progs r).length).sum := by
  rw [← run_sum h]
  exact List.sum_le_sum fun r _ => (sane_run h).le r

/-- A rank that is behind all the others gets on. -/
theorem progress {tag : Nat → List (Nat × MpiStep)} (h : Phased n tag) (hp : ∀ r, progs r = (tag r).map (·.2)) {st : MpiState}
    (hs : Sane n progs st) : Finished n progs st ∨ ∃ r, r < n ∧ MpiReady progs st r := by
  by_cases hf : Finished n progs st
  · exact .inl hf
  right
  -- the ranks that are not finished and their phases
  let U := (Finset.range n).filter fun r => st.done r < (tag r).length
  let ph : Nat → Nat := fun r => match (tag r)[st.done r]? with
    | some x => x.1
    | none => 0
  have hU : U.Nonempty := by
    unfold Finished at hf
    obtain ⟨r, hr⟩ := not_forall.1 hf
    obtain ⟨hr, hne⟩ := Classical.not_imp.1 hr
    refine ⟨r, Finset.mem_filter.2 ⟨Finset.mem_range.2 hr, ?_⟩⟩
    have := hs.le r
    rw [hp r, List.length_map] at this hne
    omega
  obtain ⟨m, hm, hmin⟩ := Finset.exists_min_image U ph hU
  obtain ⟨hmn, hml⟩ := Finset.mem_filter.1 hm
  rw [Finset.mem_range] at hmn
  obtain ⟨a, ha⟩ : ∃ a, (tag m)[st.done m]? = some a := ⟨_, List.getElem?_eq_getElem hml⟩
  have hpa : ph m = a.1 := by simp only [ph, ha]
  have hlow : ∀ s, s < n → ∀ x, (tag s)[st.done s]? = some x → a.1 ≤ x.1 := by
    intro s hsn x hx
    have hin : s ∈ U := Finset.mem_filter.2 ⟨Finset.mem_range.2 hsn, (List.getElem?_eq_some_iff.1 hx).1⟩
    have := hmin s hin
    rw [hpa] at this
    simp only [ph, hx] at this
    exact this
  have hstage := h.stage m a (List.mem_of_getElem? ha)
  have htake : ∀ s, (progs s).take (st.done s) = ((tag s).take (st.done s)).map (·.2) := by
    intro s; rw [hp s, List.map_take]
  have hat : (progs m)[st.done m]? = some a.2 := by rw [hp m, List.getElem?_map, ha]; rfl
  refine ⟨m, hmn, ?_⟩
  -- what is sent up to this piece is posted
  have hsent : 0 < a.1 % 3 → ∀ s d, s < n → d < n → (tag s).countP (fun x => decide (x.1 < 3 * (a.1 / 3 + 1)) && x.2.isIsend d) ≤
      posted progs st d s := by
    intro h3 s d hsn hdn
    rw [h.messages _ s d hsn hdn]
    unfold posted
    rw [htake]
    refine le_trans ?_ (count_before (h.sorted d hdn) (hlow d hdn) _)
    apply List.countP_mono_left
    intro x hx hxx
    simp only [Bool.and_eq_true, decide_eq_true_eq] at hxx ⊢
    refine ⟨?_, hxx.2⟩
    have h0 : x.1 % 3 = 0 := by
      rw [h.stage d x hx]
      obtain ⟨_, y⟩ := x
      cases y <;> simp_all [MpiStep.isIrecv, MpiStep.stage]
    omega
  have hwaitSends : 0 < a.1 % 3 → ∀ d, started progs st m d ≤ posted progs st d m := by
    intro h3 d
    unfold started
    rw [htake]
    by_cases hz : (((tag m).take (st.done m)).map (·.2)).countP (MpiStep.isIsend d) = 0
    · rw [hz]; exact Nat.zero_le _
    obtain ⟨x, hx, hxs⟩ := List.countP_pos_iff.1 (Nat.pos_of_ne_zero hz)
    obtain ⟨y, hy, rfl⟩ := List.mem_map.1 hx
    have hdn : d < n := by
      obtain ⟨p, len, e⟩ : ∃ p len, y.2 = .isend p len := by
        obtain ⟨_, y⟩ := y
        cases y <;> simp_all [MpiStep.isIsend]
      have := h.peers m hmn y (List.mem_of_mem_take hy) p len (.inl e)
      rw [e] at hxs
      simp only [MpiStep.isIsend, decide_eq_true_eq] at hxs
      exact hxs ▸ this.1
    exact le_trans (count_upto (h.sorted m hmn) ha (by omega) _) (hsent h3 m d hmn hdn)
  unfold MpiReady
  rw [hat]
  cases hstep : a.2 with
  | irecv _ _ => trivial
  | isend _ _ => trivial
  | enter _ _ => trivial
  | endSend => exact hwaitSends (by rw [hstage, hstep]; decide)
  | waitall => exact hwaitSends (by rw [hstage, hstep]; decide)
  | leave c =>
    dsimp only
    intro s hsc
    obtain ⟨hmc, hlt⟩ := h.members m hmn a (List.mem_of_getElem? ha) c hstep
    have hsn := hlt s hsc
    have h3 : a.1 % 3 = 1 := by rw [hstage, hstep]; rfl
    unfold entered
    rw [htake, htake]
    refine le_trans (count_upto (h.sorted m hmn) ha (φ := 3 * (a.1 / 3 + 1)) (by omega) _) ?_
    rw [h.enters _ c m s hmn hsn hmc hsc]
    refine le_trans ?_ (count_before (h.sorted s hsn) (hlow s hsn) _)
    apply List.countP_mono_left
    intro x hx hxx
    simp only [Bool.and_eq_true, decide_eq_true_eq] at hxx ⊢
    refine ⟨?_, hxx.2⟩
    have h0 : x.1 % 3 = 0 := by
      rw [h.stage s x hx]
      obtain ⟨_, y⟩ := x
      cases y <;> simp_all [MpiStep.isEnter, MpiStep.stage]
    omega
  | waitany =>
    dsimp only
    have h3 : a.1 % 3 = 2 := by rw [hstage, hstep]; rfl
    -- there is a pending receive
    have hopen := hs.open_ m
    rw [htake] at hopen
    have hlt : (((tag m).take (st.done m)).map (·.2)).countP MpiStep.isWaitany <
        (((tag m).take (st.done m)).map (·.2)).countP MpiStep.isAnyIrecv := by
      have h1 : (((tag m).take (st.done m + 1)).map (·.2)).countP MpiStep.isWaitany ≤
          (tag m).countP fun x => decide (x.1 < 3 * (a.1 / 3 + 1)) && x.2.isWaitany := by
        rw [List.countP_map]
        refine le_trans ?_ (List.Sublist.countP_le (List.take_sublist (st.done m + 1) (tag m)))
        apply List.countP_mono_left
        intro x hx hf
        have hxa : x.1 ≤ a.1 := by
          rw [List.take_add_one, ha] at hx
          rcases List.mem_append.1 hx with hx | hx
          · exact take_phase (h.sorted m hmn) ha x hx
          · simp only [Option.toList_some, List.mem_singleton] at hx
            rw [hx]
        have : x.1 < 3 * (a.1 / 3 + 1) := by omega
        simp only [this, decide_true, Bool.true_and]
        exact hf
      rw [List.take_add_one, ha, List.map_append, List.countP_append] at h1
      have e1 : ((some a).toList.map (·.2)).countP MpiStep.isWaitany = 1 := by
        simp [hstep, MpiStep.isWaitany]
      rw [e1, h.waits _ m hmn] at h1
      have h2 := count_before (h.sorted m hmn) (hlow m hmn) MpiStep.isAnyIrecv
      have h4 : (tag m).countP (fun x => decide (x.1 < 3 * (a.1 / 3 + 1)) && x.2.isAnyIrecv) ≤
          (tag m).countP fun x => decide (x.1 < a.1) && x.2.isAnyIrecv := by
        apply List.countP_mono_left
        intro x hx hxx
        simp only [Bool.and_eq_true, decide_eq_true_eq] at hxx ⊢
        refine ⟨?_, hxx.2⟩
        have h0 : x.1 % 3 = 0 := by
          rw [h.stage m x hx]
          obtain ⟨_, y⟩ := x
          cases y <;> simp_all [MpiStep.isAnyIrecv, MpiStep.stage]
        omega
      omega
    obtain ⟨q, hq⟩ : ∃ q, q ∈ st.pending m := List.exists_mem_of_length_pos (by omega)
    refine ⟨q, hq, ?_⟩
    have hnum := hs.number m q hq
    unfold posted at hnum
    rw [htake] at hnum
    have hqn : q.1 < n := by
      obtain ⟨x, hx, hxs⟩ := List.countP_pos_iff.1 (lt_of_le_of_lt (Nat.zero_le _) hnum)
      obtain ⟨y, hy, rfl⟩ := List.mem_map.1 hx
      obtain ⟨p, len, e⟩ : ∃ p len, y.2 = .irecv p len := by
        obtain ⟨_, y⟩ := y
        cases y <;> simp_all [MpiStep.isIrecv]
      have := h.peers m hmn y (List.mem_of_mem_take hy) p len (.inr e)
      rw [e] at hxs
      simp only [MpiStep.isIrecv, decide_eq_true_eq] at hxs
      exact hxs ▸ this.1
    unfold arrived started
    rw [htake]
    refine lt_of_lt_of_le hnum (le_trans (count_upto (h.sorted m hmn) ha (φ := 3 * (a.1 / 3 + 1)) (by omega) _) ?_)
    rw [← h.messages _ q.1 m hqn hmn]
    refine le_trans ?_ (count_before (h.sorted q.1 hqn) (hlow q.1 hqn) _)
    apply List.countP_mono_left
    intro x hx hxx
    simp only [Bool.and_eq_true, decide_eq_true_eq] at hxx ⊢
    refine ⟨?_, hxx.2⟩
    have h0 : x.1 % 3 = 1 := by
      rw [h.stage q.1 x hx]
      obtain ⟨_, y⟩ := x
      cases y <;> simp_all [MpiStep.isIsend, MpiStep.stage]
    omega

theorem completes_of_pieces {ps : List (Nat × (Nat → List MpiStep))} (h : ∀ p ∈ ps, Piece n p.2) :
    Completes n fun r => (assemble ps r).map (·.2) := by
  refine ⟨fun k st hk => bounded_run hk, fun k st hk => ?_⟩
  refine progress (tag := tagged 0 (ps.map (·.2))) (phased_of_pieces ?_) (fun r => (tagged_steps 0 ps).symm) (sane_run hk)
  intro b hb
  obtain ⟨p, hp, rfl⟩ := List.mem_map.1 hb
  exact h p hp

end runs

end Verif
