import Verif.Basic
import Mathlib.Data.Set.Basic
import Mathlib.Data.List.Perm.Basic
import Mathlib.Data.List.Nodup
import Mathlib.Data.List.Induction
import Mathlib.Logic.Relation
import Mathlib.Order.Basic

/-!
# Asynchronous execution

A rank of a GPU program is a host thread that puts kernels and copies in the stream of its device and calls MPI.  The
device performs the operations of the stream in their order, but at any time after they have been put there; the host
waits for them only when it synchronises.  MPI reads and writes the buffers of a message at any time between the start
and the completion of the operation.

This file states which orders this guarantees (`Guarantee`), defines the possible executions as the interleavings of the
single accesses that respect those guarantees (`Execution`), and proves that all the executions have the same result when
any two accesses in conflict are ordered (`schedule_eq`).
-/

namespace Verif

/-- The buffers of a rank: source, destination and workspace on the device, the buffers `send_unaware` and `recv_unaware` on
the host (`/repo/include/heffte_reshape3d.h:88-120`). -/
inductive DevBuf where
  | src | dst | ws | hs | hr
deriving DecidableEq, Repr

/-- A memory cell: one entry of a buffer of a rank, or one entry of a message on its way. -/
inductive Loc where
  | mem (rank : Nat) (b : DevBuf) (a : Int)
  | net (sender receiver : Nat) (a : Int)
deriving DecidableEq, Repr

/-- The contents of all cells. -/
abbrev Store (α : Type) := Loc → α

/-- An indivisible step: which cells it reads and writes and what it does. -/
structure Atom (α : Type) where
  reads : Loc → Prop
  writes : Loc → Prop
  run : Store α → Store α
  frame : ∀ m l, ¬ writes l → run m l = m l
  depends : ∀ m m' l, (∀ k, reads k → m k = m' k) → writes l → run m l = run m' l

/-- Copy one entry. -/
def Atom.move {α : Type} (dst src : Loc) : Atom α where
  reads := fun l => l = src
  writes := fun l => l = dst
  run := fun m l => if l = dst then m src else m l
  frame := fun m l h => if_neg h
  depends := fun m m' l h hl => by
    subst hl
    rw [if_pos rfl, if_pos rfl, h src rfl]

section
variable {α : Type}

/-- Two steps are in conflict when one of them writes a cell that the other one uses. -/
def Atom.apart (a b : Atom α) : Prop :=
  (∀ l, a.writes l → ¬ b.writes l) ∧ (∀ l, a.writes l → ¬ b.reads l) ∧ ∀ l, a.reads l → ¬ b.writes l

theorem Atom.apart.symm {a b : Atom α} (h : a.apart b) : b.apart a :=
  ⟨fun l h1 h2 => h.1 l h2 h1, fun l h1 h2 => h.2.2 l h2 h1, fun l h1 h2 => h.2.1 l h2 h1⟩

theorem Atom.apart.comm {a b : Atom α} (h : a.apart b) (m : Store α) : b.run (a.run m) = a.run (b.run m) := by
  funext l
  by_cases hb : b.writes l
  · have ha : ¬ a.writes l := fun ha => h.1 l ha hb
    rw [a.frame _ l ha]
    exact b.depends _ _ l (fun k hk => a.frame m k fun hw => h.2.1 k hw hk) hb
  · rw [b.frame _ l hb]
    by_cases ha : a.writes l
    · exact (a.depends _ _ l (fun k hk => b.frame m k fun hw => h.2.2 k hk hw) ha).symm
    · rw [a.frame _ l ha, a.frame _ l ha, b.frame _ l hb]

/-- Perform the steps in sequence. -/
def runAtoms (l : List (Atom α)) (m : Store α) : Store α := l.foldl (fun m a => a.run m) m

theorem runAtoms_append (l l' : List (Atom α)) (m : Store α) : runAtoms (l ++ l') m = runAtoms l' (runAtoms l m) :=
  List.foldl_append

/-- The order of two steps does not matter. -/
def Atom.commute (a b : Atom α) : Prop := ∀ m : Store α, b.run (a.run m) = a.run (b.run m)

/-- A step can be moved to the front of steps that commute with it. -/
theorem runAtoms_front {x : Atom α} : ∀ (l : List (Atom α)), (∀ a ∈ l, a.commute x) → ∀ m, x.run (runAtoms l m) = runAtoms l (x.run m)
  | [], _, _ => rfl
  | a :: l, h, m => by
    show x.run (runAtoms l (a.run m)) = runAtoms l (a.run (x.run m))
    rw [runAtoms_front l (fun b hb => h b (by simp [hb])), h a (by simp) m]

/-! ## The guarantees -/

/-- What the host of a rank does. -/
inductive HostInstr (E : Type) where
  /-- put an operation in the stream -/
  | launch (e : E)
  /-- wait until the stream is empty -/
  | sync
  /-- a blocking call of MPI, with everything that MPI does with the memory of the rank -/
  | call (es : List E)
  /-- start a receive or a send that does not block -/
  | post (e : E)
  /-- wait for its end -/
  | wait (e : E)

/-- The accesses that start with an instruction. -/
def HostInstr.starts {E : Type} : HostInstr E → List E
  | .launch e => [e]
  | .sync => []
  | .call es => es
  | .post e => [e]
  | .wait _ => []

/-- The accesses that have ended after an instruction. -/
def HostInstr.ends {E : Type} : HostInstr E → List E
  | .call es => es
  | .wait e => [e]
  | _ => []

/-- `e` ends before `f` starts: the operations of a stream are performed in order; an operation of the stream ends before
the host leaves `sync`, a blocking call before the host leaves it, and an operation that does not block before the host
leaves `wait`; what the host starts later starts later; a message arrives after it has been sent (`msg`). -/
inductive Guarantee {E : Type} (prog : Nat → List (HostInstr E)) (msg : E → E → Prop) : E → E → Prop where
  | stream {r e f} : [HostInstr.launch e, .launch f].Sublist (prog r) → Guarantee prog msg e f
  | sync {r e f i} : [HostInstr.launch e, .sync, i].Sublist (prog r) → f ∈ i.starts → Guarantee prog msg e f
  | ended {r e f i j} : [i, j].Sublist (prog r) → e ∈ i.ends → f ∈ j.starts → Guarantee prog msg e f
  | message {e f} : msg e f → Guarantee prog msg e f

/-! ## The executions -/

variable {E : Type}

/-- The steps in a schedule are numbered: the operation and the number of the step in it. -/
def stepIds (act : E → List (Atom α)) (es : List E) : List (E × Nat) := es.flatMap fun e => (List.range (act e).length).map (e, ·)

/-- Perform numbered steps. -/
def runSteps (act : E → List (Atom α)) (l : List (E × Nat)) (m : Store α) : Store α :=
  runAtoms (l.filterMap fun x => (act x.1)[x.2]?) m

/-- A possible execution of the operations `es`: all their steps in an order in which those of ordered operations do not mix;
the steps of one operation can be performed in any order (the threads of a kernel) unless it is `seq`. -/
def Execution (before : E → E → Prop) (seq : E → Bool) (act : E → List (Atom α)) (es : List E) (l : List (E × Nat)) : Prop :=
  l.Perm (stepIds act es) ∧
    l.Pairwise fun x y => ¬ (Relation.TransGen before y.1 x.1 ∨ (seq x.1 = true ∧ y.1 = x.1 ∧ y.2 < x.2))

/-- The steps of an operation can be performed in any order. -/
def AnyOrder (seq : E → Bool) (act : E → List (Atom α)) (es : List E) : Prop :=
  ∀ e ∈ es, seq e = false → ∀ a ∈ act e, ∀ b ∈ act e, a.commute b

/-- Any two operations in conflict are ordered. -/
def RaceFree (before : E → E → Prop) (act : E → List (Atom α)) (es : List E) : Prop :=
  ∀ e ∈ es, ∀ f ∈ es, e ≠ f → Relation.TransGen before e f ∨ Relation.TransGen before f e ∨
    ∀ a ∈ act e, ∀ b ∈ act f, a.apart b

/-- Two orders of the same steps that keep the order of the steps in conflict have the same result. -/
theorem perm_run {S : Type} (at' : S → Option (Atom α)) (lt : S → S → Prop) : ∀ (l' l : List S), l'.Perm l →
    l.Pairwise (fun x y => ¬ lt y x) → l'.Pairwise (fun x y => ¬ lt y x) → l.Nodup →
    (∀ x ∈ l, ∀ y ∈ l, x ≠ y → lt x y ∨ lt y x ∨ ∀ a ∈ at' x, ∀ b ∈ at' y, a.commute b) → ∀ m : Store α,
    runAtoms (l'.filterMap at') m = runAtoms (l.filterMap at') m
  | [], l, hp, _, _, _, _, m => by rw [List.nil_perm.1 hp]
  | x :: t, l, hp, h1, h2, hn, hr, m => by
    have hx : x ∈ l := hp.subset (by simp)
    obtain ⟨a, b, rfl⟩ := List.append_of_mem hx
    have hxa : x ∉ a ++ b := (List.nodup_middle.1 hn).notMem
    have hpt : t.Perm (a ++ b) := by
      have : (x :: t).Perm (x :: (a ++ b)) := hp.trans List.perm_middle
      exact this.cons_inv
    have hsub : (a ++ b).Sublist (a ++ x :: b) := (List.sublist_cons_self x b).append_left a
    have ih := perm_run at' lt t (a ++ b) hpt (h1.sublist hsub) (List.pairwise_cons.1 h2).2 (hn.sublist hsub)
      (fun y hy z hz => hr y (hsub.subset hy) z (hsub.subset hz))
    -- everything before `x` in the reference order commutes with it
    have hap : ∀ y ∈ a, ∀ u ∈ at' y, ∀ v ∈ at' x, u.commute v := by
      intro y hy
      have hyx : y ≠ x := fun e => hxa (by rw [← e]; exact List.mem_append_left _ hy)
      have n1 : ¬ lt x y := (List.pairwise_append.1 h1).2.2 y hy x (by simp)
      have n2 : ¬ lt y x := (List.pairwise_cons.1 h2).1 y (hpt.symm.subset (List.mem_append_left _ hy))
      rcases hr y (by simp [hy]) x hx hyx with h | h | h
      · exact absurd h n2
      · exact absurd h n1
      · exact h
    cases hxx : at' x with
    | none =>
      rw [List.filterMap_cons_none hxx, ih, List.filterMap_append, List.filterMap_append, List.filterMap_cons_none hxx]
    | some v =>
      rw [List.filterMap_cons_some hxx, List.filterMap_append, List.filterMap_cons_some hxx]
      show runAtoms (t.filterMap at') (v.run m) = _
      rw [ih, List.filterMap_append, runAtoms_append, runAtoms_append]
      show _ = runAtoms (b.filterMap at') (v.run (runAtoms (a.filterMap at') m))
      rw [runAtoms_front]
      intro u hu
      obtain ⟨y, hy, hyu⟩ := List.mem_filterMap.1 hu
      exact hap y hy u hyu v hxx

theorem stepIds_nodup (act : E → List (Atom α)) {es : List E} (h : es.Nodup) : (stepIds act es).Nodup := by
  unfold stepIds
  rw [List.nodup_flatMap]
  refine ⟨fun e _ => List.nodup_range.map (fun i j h => by simpa using h), ?_⟩
  apply h.imp
  intro a b hab x hx hy
  obtain ⟨i, -, rfl⟩ := List.mem_map.1 hx
  obtain ⟨j, -, hj⟩ := List.mem_map.1 hy
  exact hab (congrArg Prod.fst hj).symm

theorem runSteps_stepIds (act : E → List (Atom α)) (es : List E) (m : Store α) :
    runSteps act (stepIds act es) m = runAtoms (es.flatMap act) m := by
  unfold runSteps stepIds
  congr 1
  rw [List.filterMap_flatMap]
  congr 1
  funext e
  rw [List.filterMap_map]
  apply List.ext_getElem?
  intro i
  have : (List.range (act e).length).filterMap ((fun x : E × Nat => (act x.1)[x.2]?) ∘ fun k => (e, k)) = act e := by
    have h2 : ∀ l : List (Atom α), (List.range l.length).filterMap (fun k => l[k]?) = l := by
      intro l
      induction l using List.reverseRecOn with
      | nil => rfl
      | append_singleton l a ih =>
        rw [List.length_append, List.length_singleton, List.range_succ, List.filterMap_append]
        congr 1
        · conv_rhs => rw [← ih]
          apply List.filterMap_congr
          intro k hk
          exact List.getElem?_append_left (List.mem_range.1 hk)
        · simp
    exact h2 (act e)
  rw [this]

/-- The operations one after the other, in an order that respects the guarantees, are a possible execution. -/
theorem schedule_refl {before : E → E → Prop} (seq : E → Bool) (act : E → List (Atom α)) {es : List E} (hn : es.Nodup)
    (hord : es.Pairwise fun e f => ¬ Relation.TransGen before f e) (hirr : ∀ e ∈ es, ¬ Relation.TransGen before e e) :
    Execution before seq act es (stepIds act es) := by
  refine ⟨.refl _, ?_⟩
  unfold stepIds
  rw [List.pairwise_flatMap]
  constructor
  · intro e he
    rw [List.pairwise_map]
    apply List.pairwise_lt_range.imp
    rintro i j hij (h | ⟨-, -, h⟩)
    · exact hirr e he h
    · dsimp only at h; omega
  · have : es.Pairwise fun e f => (¬ Relation.TransGen before f e) ∧ e ≠ f := List.pairwise_and_iff.2 ⟨hord, hn⟩
    apply this.imp
    rintro e f ⟨h1, h2⟩ x hx y hy
    obtain ⟨i, -, rfl⟩ := List.mem_map.1 hx
    obtain ⟨j, -, rfl⟩ := List.mem_map.1 hy
    rintro (h | ⟨-, h, -⟩)
    · exact h1 h
    · exact h2 h.symm

/-- Without races all the executions have the same result, that of performing the operations one after the other in any
order that respects the guarantees. -/
theorem schedule_eq {before : E → E → Prop} {seq : E → Bool} {act : E → List (Atom α)} {es : List E} (hn : es.Nodup)
    (hord : es.Pairwise fun e f => ¬ Relation.TransGen before f e) (hirr : ∀ e ∈ es, ¬ Relation.TransGen before e e)
    (hrace : RaceFree before act es) (hself : AnyOrder seq act es) {l : List (E × Nat)} (hl : Execution before seq act es l) (m : Store α) :
    runSteps act l m = runAtoms (es.flatMap act) m := by
  rw [← runSteps_stepIds]
  have hmem : ∀ x : E × Nat, x ∈ stepIds act es → x.1 ∈ es := by
    intro x hx
    obtain ⟨e, he, hx⟩ := List.mem_flatMap.1 hx
    obtain ⟨i, -, rfl⟩ := List.mem_map.1 hx
    exact he
  apply perm_run (fun x : E × Nat => (act x.1)[x.2]?)
    (fun x y => Relation.TransGen before x.1 y.1 ∨ (seq y.1 = true ∧ x.1 = y.1 ∧ x.2 < y.2)) l (stepIds act es) hl.1
  · exact (schedule_refl seq act hn hord hirr).2
  · exact hl.2
  · exact stepIds_nodup act hn
  · intro x hx y hy hxy
    by_cases he : x.1 = y.1
    · cases hq : seq x.1 with
      | false =>
        refine Or.inr (Or.inr ?_)
        intro a ha b hb
        rw [← he] at hb
        exact hself x.1 (hmem x hx) hq a (List.mem_of_getElem? ha) b (List.mem_of_getElem? hb)
      | true =>
        rcases lt_trichotomy x.2 y.2 with h | h | h
        · exact Or.inl (Or.inr ⟨by rw [← he]; exact hq, he, h⟩)
        · exact absurd (Prod.ext he h) hxy
        · exact Or.inr (Or.inl (Or.inr ⟨rfl, he.symm, h⟩))
    · rcases hrace x.1 (hmem x hx) y.1 (hmem y hy) he with h | h | h
      · exact Or.inl (Or.inl h)
      · exact Or.inr (Or.inl (Or.inl h))
      · refine Or.inr (Or.inr ?_)
        intro a ha b hb
        exact (h a (List.mem_of_getElem? ha) b (List.mem_of_getElem? hb)).comm

/-- A numbering that grows with the guarantees orders the operations. -/
theorem transGen_lt {T : Type} [Preorder T] {before : E → E → Prop} {φ : E → T} (h : ∀ e f, before e f → φ e < φ f) {e f : E}
    (hg : Relation.TransGen before e f) : φ e < φ f := by
  induction hg with
  | single h1 => exact h _ _ h1
  | tail _ h2 ih => exact lt_trans ih (h _ _ h2)

/-- The guarantees of programs that go through the numbers in order. -/
theorem guarantee_lt {T : Type} [Preorder T] {prog : Nat → List (HostInstr E)} {msg : E → E → Prop} {φ : E → T}
    (hp : ∀ r, (prog r).Pairwise fun i j => ∀ e, (e ∈ i.ends ∨ i = .launch e) → ∀ f ∈ j.starts, φ e < φ f)
    (hm : ∀ e f, msg e f → φ e < φ f) : ∀ e f, Guarantee prog msg e f → φ e < φ f := by
  intro e f h
  cases h with
  | stream h =>
    have := List.pairwise_iff_forall_sublist.1 (hp _) h
    exact this e (Or.inr rfl) f (by simp [HostInstr.starts])
  | sync h hf =>
    rename_i i
    have h' : [HostInstr.launch e, i].Sublist (prog _) := List.Sublist.trans (by simp) h
    exact List.pairwise_iff_forall_sublist.1 (hp _) h' e (Or.inr rfl) f hf
  | ended h he hf => exact List.pairwise_iff_forall_sublist.1 (hp _) h e (Or.inl he) f hf
  | message h => exact hm e f h

end
end Verif
