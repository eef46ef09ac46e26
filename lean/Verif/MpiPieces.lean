import Verif.MpiProgress
import Verif.MpiSession
import Verif.Calls

/-!
# The calls of one reshape on all the ranks fit together
-/

namespace Verif

theorem piece_nil (n : Nat) : Piece n fun _ => [] := by
  constructor <;> simp [sendLens, recvLens, collOps']

/-- At most one collective call on each rank; the members of the communicator of a call all take part in it. -/
theorem piece_coll {n : Nat} (S : Nat → Option (Comm × CollCall))
    (hm : ∀ r, r < n → ∀ c op, S r = some (c, op) → r ∈ c.members ∧ ∀ s ∈ c.members, s < n ∧ ∃ op', S s = some (c, op') ∧ CallFits c r s op op') :
    Piece n fun r => match S r with
      | some (c, op) => collSteps c op
      | none => [] := by
  have hcoll : ∀ c r, collOps' c (match S r with | some (c, op) => collSteps c op | none => []) = match S r with
      | some (c', op) => if c' = c then [op] else []
      | none => [] := by
    intro c r
    rcases S r with _ | ⟨c', op⟩
    · rfl
    · by_cases h : c' = c <;> simp [collOps', collSteps, h]
  constructor
  · intro r hr
    rcases S r with _ | ⟨c', op⟩ <;> simp [collSteps, MpiStep.stage]
  · intro s d _ _
    have h1 : ∀ s d, sendLens d (match S s with | some (c, op) => collSteps c op | none => []) = [] := by
      intro s d
      rcases S s with _ | ⟨c', op⟩ <;> simp [collSteps, sendLens]
    have h2 : ∀ s d, recvLens d (match S s with | some (c, op) => collSteps c op | none => []) = [] := by
      intro s d
      rcases S s with _ | ⟨c', op⟩ <;> simp [collSteps, recvLens]
    rw [h1, h2]
  · intro r hr x hx p len hxp
    exfalso
    rcases hS : S r with _ | ⟨c', op⟩
    · rw [hS] at hx; simp at hx
    · rw [hS] at hx
      simp only [collSteps, List.mem_cons, List.not_mem_nil, or_false] at hx
      rcases hx with rfl | rfl <;> simp at hxp
  · intro r hr
    rcases S r with _ | ⟨c', op⟩ <;> simp [collSteps, MpiStep.isWaitany, MpiStep.isAnyIrecv]
  · intro r hr x hx c hxc
    rcases hS : S r with _ | ⟨c', op⟩
    · rw [hS] at hx; simp at hx
    · rw [hS] at hx
      have hc : c' = c := by
        simp only [collSteps, List.mem_cons, List.not_mem_nil, or_false] at hx
        rcases hx with rfl | rfl
        · rcases hxc with h | ⟨o, h⟩
          · cases h
          · cases h; rfl
        · rcases hxc with h | ⟨o, h⟩
          · cases h; rfl
          · cases h
      subst hc
      obtain ⟨h1, h2⟩ := hm r hr _ _ hS
      exact ⟨h1, fun s hs => (h2 s hs).1⟩
  · intro c r s hr hs hrc hsc
    rw [hcoll, hcoll]
    rcases hS : S r with _ | ⟨c1, op1⟩ <;> rcases hT : S s with _ | ⟨c2, op2⟩
    · exact .nil
    · by_cases h : c2 = c
      · subst h
        obtain ⟨op', h', -⟩ := ((hm s hs _ _ hT).2 r hrc).2
        rw [hS] at h'; cases h'
      · simp [h]
    · by_cases h : c1 = c
      · subst h
        obtain ⟨op', h', -⟩ := ((hm r hr _ _ hS).2 s hsc).2
        rw [hT] at h'; cases h'
      · simp [h]
    · by_cases h : c1 = c
      · subst h
        obtain ⟨op', h', hf⟩ := ((hm r hr _ _ hS).2 s hsc).2
        rw [hT] at h'
        cases h'
        simpa using hf
      · by_cases h2 : c2 = c
        · subst h2
          obtain ⟨op', h', -⟩ := ((hm s hs _ _ hT).2 r hrc).2
          rw [hS] at h'; cases h'
          exact absurd rfl h
        · simp [h, h2]

/-! ## Point-to-point -/

theorem filterMap_proc_look {β : Type} (f : Entry → β) (d : Nat) : ∀ (l : List Entry), (l.map Entry.proc).Nodup →
    (l.filterMap fun e => if e.proc = d then some (f e) else none) = ((look l d).map f).toList
  | [], _ => rfl
  | a :: t, hn => by
    rw [List.map_cons, List.nodup_cons] at hn
    rw [List.filterMap_cons, filterMap_proc_look f d t hn.2]
    unfold look
    rw [List.find?_cons]
    by_cases h : a.proc = d
    · have : t.find? (fun e => decide (e.proc = d)) = none := by
        rw [List.find?_eq_none]
        intro e he hc
        exact hn.1 (h ▸ (by simpa using hc : e.proc = d) ▸ List.mem_map_of_mem he)
      simp [h, this]
    · simp [h]

theorem look_eq_if {l : List Entry} (hn : (l.map Entry.proc).Nodup) {P : Nat → Prop} [DecidablePred P] {E : Nat → Entry} (hE : ∀ q, (E q).proc = q)
    (hm : ∀ e, e ∈ l ↔ ∃ q, P q ∧ e = E q) (d : Nat) : look l d = if P d then some (E d) else none := by
  split
  · rename_i h
    rw [look_some hn]
    exact ⟨(hm _).2 ⟨d, h, rfl⟩, hE d⟩
  · rename_i h
    rcases hl : look l d with _ | e
    · rfl
    · obtain ⟨h1, h2⟩ := (look_some hn).1 hl
      obtain ⟨q, hq, rfl⟩ := (hm _).1 h1
      rw [hE] at h2
      exact absurd (h2 ▸ hq) h

theorem sendLens_append (d : Nat) (a b : List MpiStep) : sendLens d (a ++ b) = sendLens d a ++ sendLens d b := List.filterMap_append
theorem recvLens_append (d : Nat) (a b : List MpiStep) : recvLens d (a ++ b) = recvLens d a ++ recvLens d b := List.filterMap_append

theorem sendLens_nil (d : Nat) (l : List MpiStep) (h : ∀ x ∈ l, ∀ p len, x ≠ .isend p len) : sendLens d l = [] := by
  unfold sendLens
  rw [List.filterMap_eq_nil_iff]
  intro x hx
  have := h x hx
  cases x <;> simp at this ⊢

theorem recvLens_nil (d : Nat) (l : List MpiStep) (h : ∀ x ∈ l, ∀ p len, x ≠ .irecv p len) : recvLens d l = [] := by
  unfold recvLens
  rw [List.filterMap_eq_nil_iff]
  intro x hx
  have := h x hx
  cases x <;> simp at this ⊢

section
variable (plined : Bool) (nb : Nat) (o : PointToPoint)

theorem p2p_sendLens (d : Nat) : sendLens d (o.mpiSteps plined nb) =
    (dropSelf o.selfToSelf o.packs).filterMap fun e => if e.proc = d then some ((nb : Int) * e.size) else none := by
  unfold PointToPoint.mpiSteps
  dsimp only
  generalize dropSelf o.selfToSelf o.packs = X
  generalize dropSelf o.selfToSelf o.unpacks = U
  rw [sendLens_append, sendLens_append, sendLens_append, sendLens_nil d (U.map _) (by
      intro x hx; obtain ⟨e, -, rfl⟩ := List.mem_map.1 hx; simp), sendLens_nil d (U.map fun _ => MpiStep.waitany) (by
      intro x hx; obtain ⟨e, -, rfl⟩ := List.mem_map.1 hx; simp), sendLens_nil d (if plined = true then [MpiStep.waitall] else _) (by
      intro x hx; cases plined <;> simp at hx; subst hx; simp)]
  rw [List.append_nil, List.append_nil, List.nil_append]
  induction X with
  | nil => cases plined <;> rfl
  | cons a t ih =>
    rw [List.filterMap_cons]
    cases plined
    · simp only [Bool.false_eq_true, if_false, List.flatMap_cons, sendLens_append] at ih ⊢
      rw [ih]
      by_cases h : a.proc = d <;> simp [h, sendLens]
    · simp only [if_true, List.map_cons] at ih ⊢
      rw [← List.singleton_append, sendLens_append, ih]
      by_cases h : a.proc = d <;> simp [h, sendLens]

theorem p2p_recvLens (s : Nat) : recvLens s (o.mpiSteps plined nb) =
    (dropSelf o.selfToSelf o.unpacks).filterMap fun e => if e.proc = s then some ((nb : Int) * e.size) else none := by
  unfold PointToPoint.mpiSteps
  dsimp only
  generalize dropSelf o.selfToSelf o.packs = X
  generalize dropSelf o.selfToSelf o.unpacks = U
  rw [recvLens_append, recvLens_append, recvLens_append, recvLens_nil s (U.map fun _ => MpiStep.waitany) (by
      intro x hx; obtain ⟨e, -, rfl⟩ := List.mem_map.1 hx; simp), recvLens_nil s (if plined = true then [MpiStep.waitall] else _) (by
      intro x hx; cases plined <;> simp at hx; subst hx; simp), recvLens_nil s (if plined = true then _ else _) (by
      intro x hx
      cases plined
      · simp only [Bool.false_eq_true, if_false, List.mem_flatMap] at hx
        obtain ⟨e, -, hx⟩ := hx
        simp only [List.mem_cons, List.not_mem_nil, or_false] at hx
        rcases hx with rfl | rfl <;> simp
      · simp only [if_true, List.mem_map] at hx
        obtain ⟨e, -, rfl⟩ := hx; simp)]
  rw [List.append_nil, List.append_nil, List.append_nil]
  induction U with
  | nil => rfl
  | cons a t ih =>
    rw [List.filterMap_cons, List.map_cons, ← List.singleton_append, recvLens_append, ih]
    by_cases h : a.proc = s <;> simp [h, recvLens]

theorem p2p_mem {x : MpiStep} (h : x ∈ o.mpiSteps plined nb) : (∃ e ∈ dropSelf o.selfToSelf o.unpacks, x = .irecv e.proc (nb * e.size)) ∨
    (∃ e ∈ dropSelf o.selfToSelf o.packs, x = .isend e.proc (nb * e.size)) ∨ x = .endSend ∨ x = .waitany ∨ x = .waitall := by
  unfold PointToPoint.mpiSteps at h
  dsimp only at h
  rcases List.mem_append.1 h with h | h
  · rcases List.mem_append.1 h with h | h
    · rcases List.mem_append.1 h with h | h
      · obtain ⟨e, he, rfl⟩ := List.mem_map.1 h
        exact .inl ⟨e, he, rfl⟩
      · cases plined
        · simp only [Bool.false_eq_true, if_false, List.mem_flatMap] at h
          obtain ⟨e, he, hx⟩ := h
          simp only [List.mem_cons, List.not_mem_nil, or_false] at hx
          rcases hx with rfl | rfl
          · exact .inr (.inl ⟨e, he, rfl⟩)
          · exact .inr (.inr (.inl rfl))
        · simp only [if_true, List.mem_map] at h
          obtain ⟨e, he, rfl⟩ := h
          exact .inr (.inl ⟨e, he, rfl⟩)
    · obtain ⟨e, he, rfl⟩ := List.mem_map.1 h
      simp
  · cases plined <;> simp at h
    subst h
    simp

theorem p2p_sorted : (o.mpiSteps plined nb).Pairwise fun x y => x.stage ≤ y.stage := by
  unfold PointToPoint.mpiSteps
  dsimp only
  generalize dropSelf o.selfToSelf o.packs = X
  generalize dropSelf o.selfToSelf o.unpacks = U
  have const : ∀ (k : Nat) (l : List MpiStep), (∀ x ∈ l, x.stage = k) → l.Pairwise fun x y => x.stage ≤ y.stage := by
    intro k l h
    rw [List.pairwise_iff_forall_sublist]
    intro a b hab
    rw [h a (hab.subset (by simp)), h b (hab.subset (by simp))]
  have h0 : ∀ x ∈ U.map (fun e => MpiStep.irecv e.proc (nb * e.size)), x.stage = 0 := by
    intro x hx; obtain ⟨e, -, rfl⟩ := List.mem_map.1 hx; rfl
  have h1 : ∀ x ∈ (if plined = true then X.map fun e => MpiStep.isend e.proc (nb * e.size)
    else X.flatMap fun e => [.isend e.proc (nb * e.size), .endSend]), x.stage = 1 := by
    intro x hx
    cases plined
    · simp only [Bool.false_eq_true, if_false, List.mem_flatMap] at hx
      obtain ⟨e, -, hx⟩ := hx
      simp only [List.mem_cons, List.not_mem_nil, or_false] at hx
      rcases hx with rfl | rfl <;> rfl
    · simp only [if_true, List.mem_map] at hx
      obtain ⟨e, -, rfl⟩ := hx; rfl
  have h2 : ∀ x ∈ U.map (fun _ => MpiStep.waitany), x.stage = 2 := by
    intro x hx; obtain ⟨e, -, rfl⟩ := List.mem_map.1 hx; rfl
  have h3 : ∀ x ∈ (if plined = true then [MpiStep.waitall] else []), x.stage = 2 := by
    intro x hx; cases plined <;> simp at hx; subst hx; rfl
  rw [List.pairwise_append, List.pairwise_append, List.pairwise_append]
  refine ⟨⟨⟨const 0 _ h0, const 1 _ h1, ?_⟩, const 2 _ h2, ?_⟩, const 2 _ h3, ?_⟩
  · intro a ha b hb; rw [h0 a ha, h1 b hb]; omega
  · intro a ha b hb
    rw [h2 b hb]
    have := a.stage_lt; omega
  · intro a ha b hb
    rw [h3 b hb]
    have := a.stage_lt; omega

theorem p2p_waits : (o.mpiSteps plined nb).countP MpiStep.isWaitany = (o.mpiSteps plined nb).countP MpiStep.isAnyIrecv := by
  unfold PointToPoint.mpiSteps
  dsimp only
  generalize dropSelf o.selfToSelf o.packs = X
  generalize dropSelf o.selfToSelf o.unpacks = U
  have hX : ∀ p : MpiStep → Bool, (∀ d l, p (.isend d l) = false) → p .endSend = false →
      (if plined = true then X.map fun e => MpiStep.isend e.proc (nb * e.size)
        else X.flatMap fun e => [.isend e.proc (nb * e.size), .endSend]).countP p = 0 := by
    intro p h1 h2
    rw [List.countP_eq_zero]
    intro x hx
    cases plined
    · simp only [Bool.false_eq_true, if_false, List.mem_flatMap] at hx
      obtain ⟨e, -, hx⟩ := hx
      simp only [List.mem_cons, List.not_mem_nil, or_false] at hx
      rcases hx with rfl | rfl
      · simp [h1]
      · simp [h2]
    · simp only [if_true, List.mem_map] at hx
      obtain ⟨e, -, rfl⟩ := hx
      simp [h1]
  simp only [List.countP_append]
  rw [hX _ (fun _ _ => rfl) rfl, hX _ (fun _ _ => rfl) rfl, List.countP_map, List.countP_map, List.countP_map, List.countP_map]
  have f1 : (MpiStep.isWaitany ∘ fun e : Entry => MpiStep.irecv e.proc (nb * e.size)) = fun _ => false := rfl
  have f2 : (MpiStep.isWaitany ∘ fun e : Entry => MpiStep.waitany) = fun _ => true := rfl
  have f3 : (MpiStep.isAnyIrecv ∘ fun e : Entry => MpiStep.irecv e.proc (nb * e.size)) = fun _ => true := rfl
  have f4 : (MpiStep.isAnyIrecv ∘ fun e : Entry => MpiStep.waitany) = fun _ => false := rfl
  rw [f1, f2, f3, f4]
  cases plined <;> simp [MpiStep.isWaitany, MpiStep.isAnyIrecv]

theorem p2p_collOps (c : Comm) : collOps' c (o.mpiSteps plined nb) = [] := by
  unfold collOps'
  rw [List.filterMap_eq_nil_iff]
  intro x hx
  rcases p2p_mem plined nb o hx with ⟨e, -, rfl⟩ | ⟨e, -, rfl⟩ | rfl | rfl | rfl <;> rfl

end

variable {bin bout : List Box} {w : Box}

theorem piece_p2p (h : bout.length = bin.length) (direct plined : Bool) (nb : Nat) (sh : Nat → PointToPoint)
    (hsh : ∀ r, r < bin.length → sh r = objP direct bin bout r) : Piece bin.length fun r => (sh r).mpiSteps plined nb := by
  constructor
  · intro r _
    exact p2p_sorted plined nb (sh r)
  · intro s d hs hd
    rw [p2p_sendLens, p2p_recvLens, hsh s hs, hsh d hd]
    unfold objP
    dsimp only
    have n1 := dropSelf_nodup (b := decide (0 < cnt bin bout s s)) (send_nodup h hs)
    have n2 := dropSelf_nodup (b := decide (0 < cnt bin bout d d)) (recv_nodup (direct := direct) (bout := bout) hd)
    rw [filterMap_proc_look _ _ _ n1, filterMap_proc_look _ _ _ n2]
    classical
    rw [look_eq_if (P := fun q => q < bin.length ∧ q ≠ s ∧ 0 < cnt bin bout s q) (E := sendE bin bout s) n1 (fun q => rfl)
      (fun e => by rw [mem_dropSend h hs]; simp only [and_assoc]),
      look_eq_if (P := fun q => q < bin.length ∧ q ≠ d ∧ 0 < cnt bin bout q d) (E := recvE direct bin bout d) n2 (fun q => rfl)
      (fun e => by rw [mem_dropRecv h hd]; simp only [and_assoc])]
    by_cases hc : d ≠ s ∧ 0 < cnt bin bout s d
    · rw [if_pos ⟨hd, hc.1, hc.2⟩, if_pos ⟨hs, fun e => hc.1 e.symm, hc.2⟩]
      simp [sendE_size, recvE_size]
    · rw [if_neg (fun x => hc x.2), if_neg (fun x => hc ⟨fun e => x.2.1 e.symm, x.2.2⟩)]
  · intro r hr x hx p len hxp
    rw [hsh r hr] at hx
    rcases p2p_mem plined nb _ hx with ⟨e, he, rfl⟩ | ⟨e, he, rfl⟩ | rfl | rfl | rfl
    · obtain ⟨q, h1, h2, -, rfl⟩ := (mem_dropRecv h hr).1 he
      rcases hxp with hxp | hxp
      · cases hxp
      · cases hxp; exact ⟨h1, h2⟩
    · obtain ⟨q, h1, h2, -, rfl⟩ := (mem_dropSend h hr).1 he
      rcases hxp with hxp | hxp
      · cases hxp; exact ⟨h1, h2⟩
      · cases hxp
    all_goals rcases hxp with hxp | hxp <;> cases hxp
  · intro r _
    exact p2p_waits plined nb (sh r)
  · intro r hr x hx c hxc
    exfalso
    rcases p2p_mem plined nb _ hx with ⟨e, he, rfl⟩ | ⟨e, he, rfl⟩ | rfl | rfl | rfl <;>
      rcases hxc with h | ⟨_, h⟩ <;> cases h
  · intro c r s _ _ _ _
    rw [p2p_collOps, p2p_collOps]
    exact .nil

/-! ## One reshape -/

theorem Piece.congr {n : Nat} {b b' : Nat → List MpiStep} (h : Piece n b) (e : ∀ r, r < n → b r = b' r) : Piece n b' := by
  obtain ⟨h1, h2, h3, h4, h5, h6⟩ := h
  constructor
  · intro r hr; rw [← e r hr]; exact h1 r hr
  · intro s d hs hd; rw [← e s hs, ← e d hd]; exact h2 s d hs hd
  · intro r hr; rw [← e r hr]; exact h3 r hr
  · intro r hr; rw [← e r hr]; exact h4 r hr
  · intro r hr; rw [← e r hr]; exact h5 r hr
  · intro c r s hr hs; rw [← e r hr, ← e s hs]; exact h6 c r s hr hs

theorem ioRows_counts {entries : List Entry} (hn : (entries.map Entry.proc).Nodup) : ∀ (g : List Nat) (off : Int),
    (ioRows entries g off).map IoRow.count = g.map (lookSize entries)
  | [], _ => rfl
  | a :: t, off => by
    obtain ⟨row, e1, e2, -, -⟩ := ioInner_eq hn a off
    unfold ioRows
    rw [e1]
    dsimp only
    rw [List.map_cons, List.map_cons, e2, ioRows_counts hn t]

/-- A call on the communicator of the reshape. -/
theorem piece_group {g : Nat → List Nat} (hg : GroupFacts bin bout g) (key : Nat × Nat) (op : Nat → CollCall)
    (hop : ∀ r, r < bin.length → ∀ s ∈ g r, CallFits ⟨some key, g r⟩ r s (op r) (op s)) :
    Piece bin.length fun r => if g r = [] then [] else collSteps ⟨some key, g r⟩ (op r) := by
  refine (piece_coll (n := bin.length) (fun r => if g r = [] then none else some (⟨some key, g r⟩, op r)) ?_).congr ?_
  · intro r hr c o h
    by_cases he : g r = []
    · simp [he] at h
    · simp only [if_neg he, Option.some.injEq, Prod.mk.injEq] at h
      obtain ⟨rfl, rfl⟩ := h
      obtain ⟨q, hq⟩ := List.exists_mem_of_ne_nil _ he
      refine ⟨hg.self r q hr hq, ?_⟩
      intro s hs
      dsimp only at hs
      have hs' := hg.same r s hr hs
      refine ⟨hg.lt hr hs, op s, ?_, hop r hr s hs⟩
      rw [hs', if_neg he]
  · intro r _
    by_cases he : g r = [] <;> simp [he]

/-- The object of rank `r` in the list of the objects. -/
abbrev shAt (shs : List (Option Shaper)) (r : Nat) : Option Shaper := (shs[r]?).join

theorem shAt_map {F : Nat → Option Shaper} {n r : Nat} (hr : r < n) : shAt ((List.range n).map F) r = F r := by
  simp [shAt, hr]

section
variable {alg : Alg} {shs : List (Option Shaper)}

theorem matchShaper_mpi (r : Nat) : matchShaper bin bout r = none ∨ ∃ p, matchShaper bin bout r = some (.transpose p) := by
  unfold matchShaper
  split
  · exact .inl rfl
  · split
    · exact .inl rfl
    · exact .inr ⟨_, rfl⟩

theorem piece_apply (h : Redistribution bin bout w) (hs : shapersOf alg bin bout = .ok shs) (key : Nat × Nat) (nb : Nat) :
    Piece bin.length fun r => Shaper.mpiApply alg key nb (shAt shs r) := by
  rcases shapersOf_cases h alg with ⟨-, e⟩ | ⟨-, g, hg, e⟩
  · rw [hs] at e
    obtain rfl := Except.ok.inj e
    refine (piece_nil _).congr ?_
    intro r hr
    rw [shAt_map hr]
    rcases matchShaper_mpi (bin := bin) (bout := bout) r with e | ⟨p, e⟩ <;> rw [e] <;> rfl
  · rw [hs] at e
    obtain rfl := Except.ok.inj e
    cases alg with
    | alltoallv =>
      refine (piece_group hg key (fun r => .alltoallv
        (((ioRows (sendEntries bout r (boxAt bin r)) (g r) 0).map IoRow.count).map (· * (nb : Int)))
        (((ioRows (recvEntries (directOf bin bout) bin r (boxAt bout r)) (g r) 0).map IoRow.count).map (· * (nb : Int)))) ?_).congr ?_
      · intro r hr s hs
        have hsn := hg.lt hr hs
        simp only [CallFits]
        rw [ioRows_counts (send_nodup h.length hr), ioRows_counts (recv_nodup hr), ioRows_counts (recv_nodup hsn), hg.same r s hr hs]
        refine ⟨by simp, by simp, ?_⟩
        intro i j hi hj
        rw [List.getElem?_map, List.getElem?_map, List.getElem?_map, List.getElem?_map, hi, hj]
        simp only [Option.map_some]
        rw [lookSize_send h.length hr hsn, lookSize_recv h.length hsn hr]
      · intro r hr
        rw [shAt_map hr]
        simp only [commShaper, objV]
        by_cases he : g r = []
        · simp [he, Shaper.mpiApply]
        · simp [he, Shaper.mpiApply, List.map_map, Function.comp_def]
    | alltoall =>
      refine (piece_group hg key (fun r => .alltoall (nb * getMaxSize (g r) bin bout)) ?_).congr ?_
      · intro r hr s hs
        simp only [CallFits]
        rw [hg.same r s hr hs]
      · intro r hr
        rw [shAt_map hr]
        simp only [commShaper, objA]
        by_cases he : g r = []
        · simp [he, Shaper.mpiApply]
        · simp [he, Shaper.mpiApply]
    | p2p =>
      refine (piece_p2p h.length (directOf bin bout) false nb (objP (directOf bin bout) bin bout) fun _ _ => rfl).congr ?_
      intro r hr
      rw [shAt_map hr]
      simp [commShaper, Shaper.mpiApply]
    | p2pPlined =>
      refine (piece_p2p h.length (directOf bin bout) true nb (objP (directOf bin bout) bin bout) fun _ _ => rfl).congr ?_
      intro r hr
      rw [shAt_map hr]
      simp [commShaper, Shaper.mpiApply]

theorem piece_free (h : Redistribution bin bout w) (hs : shapersOf alg bin bout = .ok shs) (key : Nat × Nat) :
    Piece bin.length fun r => Shaper.mpiFree key (shAt shs r) := by
  rcases shapersOf_cases h alg with ⟨-, e⟩ | ⟨-, g, hg, e⟩
  · rw [hs] at e
    obtain rfl := Except.ok.inj e
    refine (piece_nil _).congr ?_
    intro r hr
    rw [shAt_map hr]
    rcases matchShaper_mpi (bin := bin) (bout := bout) r with e | ⟨p, e⟩ <;> rw [e] <;> rfl
  · rw [hs] at e
    obtain rfl := Except.ok.inj e
    cases alg with
    | alltoallv =>
      refine (piece_group hg key (fun r => .free) (fun _ _ _ _ => trivial)).congr ?_
      intro r hr
      rw [shAt_map hr]
      simp only [commShaper, objV]
      by_cases he : g r = [] <;> simp [he, Shaper.mpiFree]
    | alltoall =>
      refine (piece_group hg key (fun r => .free) (fun _ _ _ _ => trivial)).congr ?_
      intro r hr
      rw [shAt_map hr]
      simp only [commShaper, objA]
      by_cases he : g r = [] <;> simp [he, Shaper.mpiFree]
    | p2p => exact (piece_nil _).congr fun r hr => by rw [shAt_map hr]; rfl
    | p2pPlined => exact (piece_nil _).congr fun r hr => by rw [shAt_map hr]; rfl

/-- A call of all the ranks on the communicator of the user. -/
theorem piece_user (n : Nat) (op : Nat → CollCall) (hop : ∀ r, r < n → ∀ s, s < n → CallFits (userComm n) r s (op r) (op s)) :
    Piece n fun r => collSteps (userComm n) (op r) := by
  refine (piece_coll (n := n) (fun r => some (userComm n, op r)) ?_).congr fun _ _ => rfl
  intro r hr c o h
  simp only [Option.some.injEq, Prod.mk.injEq] at h
  obtain ⟨rfl, rfl⟩ := h
  refine ⟨List.mem_range.2 hr, fun s hs => ?_⟩
  have hs := List.mem_range.1 hs
  exact ⟨hs, _, rfl, hop r hr s hs⟩

theorem commShaper_group (alg : Alg) (direct : Bool) (g : Nat → List Nat) (r : Nat) : Shaper.group (commShaper alg direct bin bout g r) =
    if alg = .alltoall ∨ alg = .alltoallv then g r else [] := by
  cases alg <;> simp only [commShaper, objV, objA]
  case alltoallv => by_cases he : g r = [] <;> simp [he, Shaper.group]
  case alltoall => by_cases he : g r = [] <;> simp [he, Shaper.group]
  all_goals simp [Shaper.group]

theorem piece_make (h : Redistribution bin bout w) (hs : shapersOf alg bin bout = .ok shs) :
    Piece bin.length fun r => mpiMake bin.length alg bin bout (shAt shs r) := by
  rcases shapersOf_cases h alg with ⟨hm, -⟩ | ⟨hm, g, hg, e⟩
  · exact (piece_nil _).congr fun r hr => by simp [mpiMake, hm]
  · rw [hs] at e
    obtain rfl := Except.ok.inj e
    by_cases ha : alg = .alltoall ∨ alg = .alltoallv
    · refine (piece_user bin.length (fun r => .create (g r)) ?_).congr ?_
      · intro r hr s hs hsg
        exact hg.same r s hr hsg
      · intro r hr
        rw [shAt_map hr]
        unfold mpiMake
        rw [commShaper_group, if_pos ha, hm]
        rcases ha with rfl | rfl <;> simp
    · refine (piece_nil _).congr fun r hr => ?_
      unfold mpiMake
      rw [hm]
      cases alg <;> simp at ha ⊢

end

end Verif
