import Verif.GpuBounds

/-!
# Local transpositions on devices
-/

namespace Verif
variable {α : Type} {bin bout : List Box} {w : Box}

/-- The rank of an operation. -/
def LocalOp.rank : LocalOp → Nat
  | .pre r | .cp r | .tr r => r

/-- The order of the operations of a stream. -/
def LocalOp.phase : LocalOp → Nat
  | .pre _ => 0
  | .cp _ => 1
  | .tr _ => 2

theorem mem_localOps {n : Nat} {o : LocalOp} : o ∈ localOps n ↔ o.rank < n := by
  cases o <;> simp [localOps, LocalOp.rank]

theorem localOps_sorted (n : Nat) : (localOps n).Pairwise fun o o' => o.phase ≤ o'.phase := by
  have hself : ∀ f : Nat → LocalOp, (∀ a b, (f a).phase ≤ (f b).phase) →
      ((List.range n).map f).Pairwise fun o o' => o.phase ≤ o'.phase := by
    intro f h
    rw [List.pairwise_map]
    exact List.pairwise_of_forall fun a b => h a b
  unfold localOps
  rw [List.pairwise_append, List.pairwise_append]
  refine ⟨⟨hself _ (fun _ _ => le_rfl), hself _ (fun _ _ => le_rfl), ?_⟩, hself _ (fun _ _ => le_rfl), ?_⟩
  · intro a ha b hb
    obtain ⟨i, -, rfl⟩ := List.mem_map.1 ha
    obtain ⟨j, -, rfl⟩ := List.mem_map.1 hb
    exact Nat.zero_le 1
  · intro a ha b hb
    obtain ⟨j, -, rfl⟩ := List.mem_map.1 hb
    cases a <;> simp [LocalOp.phase]

theorem localOps_nodup (n : Nat) : (localOps n).Nodup := by
  have hself : ∀ f : Nat → LocalOp, (∀ a b, f a = f b → a = b) → ((List.range n).map f).Nodup := by
    intro f h
    exact List.nodup_range.map fun a b => h a b
  unfold localOps
  rw [List.nodup_append, List.nodup_append]
  refine ⟨⟨hself _ (by simp), hself _ (by simp), ?_⟩, hself _ (by simp), ?_⟩
  · intro a ha b hb
    obtain ⟨i, -, rfl⟩ := List.mem_map.1 ha
    obtain ⟨j, -, rfl⟩ := List.mem_map.1 hb
    simp
  · intro a ha b hb
    obtain ⟨j, -, rfl⟩ := List.mem_map.1 hb
    rcases List.mem_append.1 ha with ha | ha <;> obtain ⟨i, -, rfl⟩ := List.mem_map.1 ha <;> simp

theorem local_order (c : Local) : ∀ e f, Guarantee (localProg c) (fun _ _ => False) e f → e.phase < f.phase := by
  apply guarantee_lt
  · intro r
    unfold localProg
    split
    · split <;> simp [HostInstr.ends, HostInstr.starts, LocalOp.phase]
    · simp
  · simp

theorem localMoves_rank {c : Local} {o : LocalOp} {x : Loc × Loc} (hx : x ∈ localMoves c o) :
    (∃ b a, x.1 = .mem o.rank b a) ∧ ∃ b a, x.2 = .mem o.rank b a := by
  cases o with
  | pre r => simp [localMoves] at hx
  | cp r =>
    simp only [localMoves] at hx
    split at hx
    · obtain ⟨t, -, rfl⟩ := mem_transfer.1 hx
      exact ⟨⟨_, _, rfl⟩, ⟨_, _, rfl⟩⟩
    · simp at hx
  | tr r =>
    simp only [localMoves] at hx
    split at hx
    · obtain ⟨u, v, -, rfl⟩ := mem_onRank.1 hx
      exact ⟨⟨_, _, rfl⟩, ⟨_, _, rfl⟩⟩
    · simp at hx

theorem localAct_rank {c : Local} {pre : Nat → List (Atom α)} (hpre : ∀ r, ∀ a ∈ pre r, a.onRank r) {o : LocalOp} {a : Atom α}
    (ha : a ∈ localAct c pre o) : a.onRank o.rank := by
  have hm : ∀ o', a ∈ (localMoves c o').map (fun x => Atom.move x.1 x.2) → a.onRank o'.rank := by
    intro o' h
    obtain ⟨x, hx, rfl⟩ := List.mem_map.1 h
    obtain ⟨⟨b, i, h1⟩, ⟨b', i', h2⟩⟩ := localMoves_rank hx
    rintro l (hl | hl)
    · exact ⟨b', i', hl.trans h2⟩
    · exact ⟨b, i, hl.trans h1⟩
  cases o with
  | pre r => exact hpre r a ha
  | cp r => exact hm (.cp r) ha
  | tr r => exact hm (.tr r) ha

theorem local_raceFree (c : Local) {pre : Nat → List (Atom α)} (hpre : ∀ r, ∀ a ∈ pre r, a.onRank r) :
    RaceFree (Guarantee (localProg c) fun _ _ => False) (localAct c pre) (localOps c.n) := by
  intro o ho o' ho' hne
  rw [mem_localOps] at ho ho'
  by_cases hr : o.rank = o'.rank
  · have hempty : ∀ {a : LocalOp}, (c.plan a.rank = none ∧ a.phase ≠ 0) ∨ (c.inplace a.rank = false ∧ a.phase = 1) →
        localAct c pre a = [] := by
      intro a h
      cases a with
      | pre r => simp [LocalOp.phase] at h
      | cp r =>
        simp only [LocalOp.rank, LocalOp.phase] at h
        simp only [localAct, localMoves]
        rcases h with h | h <;> rw [h.1]
        · rfl
        · cases c.plan r <;> rfl
      | tr r =>
        simp only [LocalOp.rank, LocalOp.phase] at h
        rcases h with h | h
        · simp only [localAct, localMoves]
          rw [h.1]; rfl
        · simp at h
    have key : ∀ {a b : LocalOp}, a.rank < c.n → a.rank = b.rank → a.phase < b.phase →
        (Guarantee (localProg c) (fun _ _ => False) a b) ∨ ∀ x ∈ localAct c pre a, ∀ y ∈ localAct c pre b, x.apart y := by
      intro a b ha hab hp
      by_cases h1 : localAct c pre a = []
      · right; rw [h1]; simp
      by_cases h2 : localAct c pre b = []
      · right; rw [h2]; simp
      left
      have n1 := mt hempty h1
      have n2 := mt hempty h2
      apply Guarantee.stream (r := a.rank)
      unfold localProg
      rw [if_pos ha]
      rw [← hab] at n2
      cases hpl : c.plan a.rank with
      | none =>
        exfalso
        apply n2
        exact .inl ⟨hpl, by omega⟩
      | some p =>
        cases hin : c.inplace a.rank with
        | true =>
          dsimp only
          cases a <;> cases b <;> simp only [LocalOp.rank, LocalOp.phase] at hab hp ⊢ <;> first | omega | (subst hab; in_prog)
        | false =>
          dsimp only
          rw [hin] at n1 n2
          cases a <;> cases b <;> simp only [LocalOp.rank, LocalOp.phase] at hab hp n1 n2 ⊢ <;>
            first | omega | (exfalso; simp at n1; done) | (exfalso; simp at n2; done) | (subst hab; in_prog)
    rcases lt_trichotomy o.phase o'.phase with h | h | h
    · rcases key ho hr h with h1 | h1
      · exact .inl (.single h1)
      · exact .inr (.inr h1)
    · exfalso
      apply hne
      cases o <;> cases o' <;> simp_all [LocalOp.rank, LocalOp.phase]
    · rcases key ho' hr.symm h with h1 | h1
      · exact .inr (.inl (.single h1))
      · exact .inr (.inr fun a ha b hb => (h1 b hb a ha).symm)
  · exact .inr (.inr fun a ha b hb => (localAct_rank hpre ha).apart (localAct_rank hpre hb) hr)

theorem local_executes (c : Local) (pre : Nat → List (Atom α)) :
    ∃ l, Execution (Guarantee (localProg c) fun _ _ => False) LocalOp.inOrder (localAct c pre) (localOps c.n) l := by
  refine ⟨_, schedule_refl _ _ (localOps_nodup c.n) ?_ ?_⟩
  · apply (localOps_sorted c.n).imp
    intro a b hab hg
    have := transGen_lt (local_order c) hg
    omega
  · intro a _ hg
    have := transGen_lt (local_order c) hg
    omega

/-! ## The result -/

/-- The moves of the operations `f r` of all ranks. -/
def localRanks (c : Local) (f : Nat → LocalOp) : List (Loc × Loc) := (List.range c.n).flatMap fun r => localMoves c (f r)

theorem mem_localRanks {c : Local} {f : Nat → LocalOp} {x : Loc × Loc} :
    x ∈ localRanks c f ↔ ∃ r, r < c.n ∧ x ∈ localMoves c (f r) := by
  simp [localRanks]

theorem runAtoms_localOps (c : Local) (pre : Nat → List (Atom α)) (m : Store α) :
    runAtoms ((localOps c.n).flatMap (localAct c pre)) m =
      runMoves (localRanks c .tr) (runMoves (localRanks c .cp) (runAtoms ((List.range c.n).flatMap pre) m)) := by
  have hf : ∀ (f : Nat → LocalOp), (∀ r, localAct c pre (f r) = (localMoves c (f r)).map fun x => Atom.move x.1 x.2) →
      ((List.range c.n).map f).flatMap (localAct c pre) = (localRanks c f).map fun x => Atom.move x.1 x.2 := by
    intro f h
    rw [List.flatMap_map, localRanks, List.map_flatMap]
    congr 1
    funext r
    exact h r
  have hp : ((List.range c.n).map LocalOp.pre).flatMap (localAct c pre) = (List.range c.n).flatMap pre := by
    rw [List.flatMap_map]
    rfl
  unfold localOps
  simp only [List.flatMap_append, runAtoms_append]
  rw [hf .cp (fun _ => rfl), hf .tr (fun _ => rfl), hp]
  rfl

/-- A local transposition on all ranks. -/
structure LocalOk (bin bout : List Box) (c : Local) : Prop where
  n : c.n = bin.length
  low : ∀ r, r < c.n → (boxAt bout r).low = (boxAt bin r).low
  high : ∀ r, r < c.n → (boxAt bout r).high = (boxAt bin r).high
  ordI : ∀ r, r < c.n → IsOrder (boxAt bin r).order
  ordO : ∀ r, r < c.n → IsOrder (boxAt bout r).order
  uniq : ∀ s s', s < c.n → s' < c.n → ∀ p : A3 Int, p ∈ boxAt bin s → p ∈ boxAt bin s' → s = s'
  idle : ∀ r, r < c.n → c.plan r = none → ∀ p : A3 Int, p ∉ boxAt bin r
  stride : 0 < c.stride
  plan : ∀ r, r < c.n → ∀ p, c.plan r = some p → ((boxAt bout r).collide (boxAt bin r)).empty = false ∧
    p = transposePlan (boxAt bout r) ((boxAt bout r).collide (boxAt bin r)) (boxAt bin r).order

section
variable {c : Local}

theorem LocalOk.count (h : LocalOk bin bout c) {r : Nat} (hr : r < c.n) : (boxAt bin r).count = (boxAt bout r).count :=
  Box.count_congr fun p => (mem_congr_bounds (h.low r hr) (h.high r hr) p).symm

theorem LocalOk.entries (h : LocalOk bin bout c) {r : Nat} (hr : r < c.n) {p : PackPlan} (hp : c.plan r = some p) :
    p.entries = (boxAt bout r).count := by
  obtain ⟨hne, rfl⟩ := h.plan r hr p hp
  have hco := collide_same (h.low r hr) (h.high r hr) hne
  have hone : (boxAt bout r).empty = false := by rw [hco] at hne; exact hne
  unfold PackPlan.entries
  rw [Box.count_osize (h.ordO r hr) hone, hco]
  simp only [transposePlan, A3.get_zero, A3.get_one, A3.get_two]
  ring

theorem LocalOk.cp (h : LocalOk bin bout c) {r : Nat} (hr : r < c.n) (x : Loc × Loc) :
    x ∈ localMoves c (.cp r) ↔ c.inplace r = true ∧ (c.plan r).isSome ∧ ∃ t, (0 ≤ t ∧ t < c.nb * (boxAt bout r).count) ∧
      x = (.mem r .ws t, .mem r .src t) := by
  simp only [localMoves]
  cases hp : c.plan r with
  | none => simp
  | some p =>
    cases hi : c.inplace r with
    | false => simp
    | true =>
      simp only [mem_transfer, h.entries hr hp, zero_add]
      simp

theorem LocalOk.tr (h : LocalOk bin bout c) {r : Nat} (hr : r < c.n) (x : Loc × Loc) :
    x ∈ localMoves c (.tr r) ↔ (c.plan r).isSome ∧ ∃ (j : Nat) (p : A3 Int), j < c.nb ∧ p ∈ boxAt bin r ∧
      x = (.mem r (c.out r) (j * (boxAt bout r).count + (boxAt bout r).offset p),
        .mem r (if c.inplace r then .ws else .src) (j * (boxAt bin r).count + (boxAt bin r).offset p)) := by
  simp only [localMoves]
  cases hp : c.plan r with
  | none => simp
  | some p =>
    have he := h.entries hr hp
    obtain ⟨hne, hpl⟩ := h.plan r hr p hp
    have hm : ∀ (j : Nat) (u : Int × Int), u ∈ unpackTranspose c.stride p (j * p.entries) (j * p.entries) ↔ ∃ q : A3 Int,
        q ∈ boxAt bin r ∧ u = (j * (boxAt bout r).count + (boxAt bout r).offset q, j * (boxAt bin r).count + (boxAt bin r).offset q) := by
      intro j u
      rw [he, hpl, mem_transposeMoves (h.ordI r hr) (h.ordO r hr) (h.low r hr) (h.high r hr) hne h.stride, h.count hr]
    simp only [mem_onRank, List.mem_flatMap, List.mem_range, hm, Option.isSome_some, true_and]
    constructor
    · rintro ⟨u, v, ⟨j, hj, q, hq, huv⟩, rfl⟩
      simp only [Prod.mk.injEq] at huv
      exact ⟨j, q, hj, hq, by rw [huv.1, huv.2]⟩
    · rintro ⟨j, q, hj, hq, rfl⟩
      exact ⟨_, _, ⟨j, hj, q, hq, rfl⟩, rfl⟩

/-- The moves of one operation can be performed in any order. -/
theorem LocalOk.unmixed (h : LocalOk bin bout c) {o : LocalOp} (ho : o ∈ localOps c.n) : Unmixed (localMoves c o) := by
  rw [mem_localOps] at ho
  cases o with
  | pre r => exact .nil
  | cp r =>
    simp only [localMoves]
    split
    · exact .transfer (by simp) _ _ _
    · exact .nil
  | tr q =>
    have hq : q < c.n := ho
    intro x hx y hy
    obtain ⟨-, j, p, hj, hp, rfl⟩ := (h.tr hq x).1 hx
    obtain ⟨-, j', p', hj', hp', rfl⟩ := (h.tr hq y).1 hy
    constructor
    · intro heq
      simp only [Loc.mem.injEq] at heq
      have h2 := heq.2.1
      unfold Local.out at h2
      cases hi : c.inplace q <;> simp [hi] at h2
    · intro heq
      simp only [Loc.mem.injEq, true_and] at heq
      have hpo := (mem_congr_bounds (h.low q hq) (h.high q hq) p).2 hp
      have hpo' := (mem_congr_bounds (h.low q hq) (h.high q hq) p').2 hp'
      have hro := Box.offset_range (h.ordO q hq) hpo
      have hro' := Box.offset_range (h.ordO q hq) hpo'
      obtain ⟨hjj, hoff⟩ := entry_inj (A := 0) (nb := c.nb) (e := (boxAt bout q).count) le_rfl hro hro' (by linarith) hj
      have := Box.offset_inj (h.ordO q hq) hpo hpo' hoff
      rw [hjj, this]

/-- Every execution has the result of the operations one after the other. -/
theorem LocalOk.any_schedule (h : LocalOk bin bout c) {pre : Nat → List (Atom α)} (hpre : ∀ r, ∀ a ∈ pre r, a.onRank r)
    {l : List (LocalOp × Nat)}
    (hl : Execution (Guarantee (localProg c) fun _ _ => False) LocalOp.inOrder (localAct c pre) (localOps c.n) l) (m : Store α) :
    runSteps (localAct c pre) l m = runAtoms ((localOps c.n).flatMap (localAct c pre)) m := by
  apply schedule_eq (localOps_nodup c.n) _ _ (local_raceFree c hpre) _ hl
  · apply (localOps_sorted c.n).imp
    intro a b hab hg
    have := transGen_lt (local_order c) hg
    omega
  · intro a _ hg
    have := transGen_lt (local_order c) hg
    omega
  · intro o ho hq
    have : localAct c pre o = (localMoves c o).map fun x => Atom.move x.1 x.2 := by
      cases o with
      | pre r => simp [LocalOp.inOrder] at hq
      | _ => rfl
    rw [this]
    exact (h.unmixed ho).atoms

theorem Local.out_cases (c : Local) (r : Nat) : c.out r = .src ∨ c.out r = .dst := by
  unfold Local.out
  split <;> simp

/-- The values after the transposition, and the cells that it leaves alone. -/
theorem LocalOk.result (h : LocalOk bin bout c) (m0 : Store α) :
    Moved c.n c.nb (boxAt bin) (boxAt bout) c.inplace m0 (runMoves (localRanks c .tr) (runMoves (localRanks c .cp) m0)) := by
  have hcp : ∀ r b a, b ≠ .ws → runMoves (localRanks c .cp) m0 (.mem r b a) = m0 (.mem r b a) := by
    intro r b a hb
    apply runMoves_frame
    intro x hx heq
    obtain ⟨q, hq, hx⟩ := mem_localRanks.1 hx
    obtain ⟨-, -, t, -, rfl⟩ := (h.cp hq x).1 hx
    simp only [Loc.mem.injEq] at heq
    exact hb heq.2.1.symm
  have hws : ∀ r, r < c.n → c.inplace r = true → (c.plan r).isSome = true → ∀ t, 0 ≤ t → t < c.nb * (boxAt bout r).count →
      runMoves (localRanks c .cp) m0 (.mem r .ws t) = m0 (.mem r .src t) := by
    intro r hr hi hp t h0 h1
    have hm : ((.mem r .ws t, .mem r .src t) : Loc × Loc) ∈ localRanks c .cp :=
      mem_localRanks.2 ⟨r, hr, (h.cp hr _).2 ⟨hi, hp, t, ⟨h0, h1⟩, rfl⟩⟩
    refine runMoves_ok _ m0 ?_ ?_ _ hm
    · intro x hx y hy heq
      obtain ⟨q, hq, hx⟩ := mem_localRanks.1 hx
      obtain ⟨q', hq', hy⟩ := mem_localRanks.1 hy
      obtain ⟨-, -, t, -, rfl⟩ := (h.cp hq x).1 hx
      obtain ⟨-, -, t', -, rfl⟩ := (h.cp hq' y).1 hy
      simp at heq
    · intro x hx y hy heq
      obtain ⟨q, hq, hx⟩ := mem_localRanks.1 hx
      obtain ⟨q', hq', hy⟩ := mem_localRanks.1 hy
      obtain ⟨-, -, t, -, rfl⟩ := (h.cp hq x).1 hx
      obtain ⟨-, -, t', -, rfl⟩ := (h.cp hq' y).1 hy
      simp only [Loc.mem.injEq] at heq
      rw [heq.1, heq.2.2]
  refine ⟨?_, ?_, ?_⟩
  · intro s r hs hr j p hj hI hO
    obtain rfl : s = r := h.uniq s r hs hr p hI ((mem_congr_bounds (h.low r hr) (h.high r hr) p).1 hO)
    have hpl : (c.plan s).isSome = true := by
      cases hp : c.plan s with
      | none => exact absurd hI (h.idle s hs hp p)
      | some q => rfl
    have hm := mem_localRanks.2 ⟨s, hs, (h.tr hs _).2 ⟨hpl, j, p, hj, hI, rfl⟩⟩
    have := runMoves_ok (localRanks c .tr) (runMoves (localRanks c .cp) m0) ?_ ?_ _ hm
    · refine Eq.trans this ?_
      dsimp only
      have hrg := mul_count_le hj (Box.offset_range (h.ordI s hs) hI)
      cases hi : c.inplace s with
      | true =>
        rw [if_pos rfl]
        apply hws s hs hi hpl _ hrg.1
        rw [← h.count hs]
        exact hrg.2
      | false =>
        rw [if_neg (by simp)]
        exact hcp _ _ _ (by simp)
    · intro x hx y hy heq
      obtain ⟨q, hq, hx⟩ := mem_localRanks.1 hx
      obtain ⟨q', hq', hy⟩ := mem_localRanks.1 hy
      obtain ⟨-, _, _, -, -, rfl⟩ := (h.tr hq x).1 hx
      obtain ⟨-, _, _, -, -, rfl⟩ := (h.tr hq' y).1 hy
      simp only [Loc.mem.injEq] at heq
      obtain ⟨rfl, h2, -⟩ := heq
      unfold Local.out at h2
      cases hi : c.inplace q <;> simp [hi] at h2
    · intro x hx y hy heq
      obtain ⟨q, hq, hx⟩ := mem_localRanks.1 hx
      obtain ⟨q', hq', hy⟩ := mem_localRanks.1 hy
      obtain ⟨-, j, p, hj, hp, rfl⟩ := (h.tr hq x).1 hx
      obtain ⟨-, j', p', hj', hp', rfl⟩ := (h.tr hq' y).1 hy
      simp only [Loc.mem.injEq] at heq
      obtain ⟨rfl, -, heq⟩ := heq
      have hpo := (mem_congr_bounds (h.low q hq) (h.high q hq) p).2 hp
      have hpo' := (mem_congr_bounds (h.low q hq) (h.high q hq) p').2 hp'
      have hro := Box.offset_range (h.ordO q hq) hpo
      have hro' := Box.offset_range (h.ordO q hq) hpo'
      obtain ⟨hjj, hoff⟩ := entry_inj (A := 0) (nb := c.nb) (e := (boxAt bout q).count) le_rfl hro hro' (by linarith) hj
      have := Box.offset_inj (h.ordO q hq) hpo hpo' hoff
      rw [hjj, this]
  · intro r a ha
    rw [runMoves_frame, hcp _ _ _ (by split <;> simp)]
    intro x hx heq
    obtain ⟨q, hq, hx⟩ := mem_localRanks.1 hx
    obtain ⟨-, j, p, hj, hp, rfl⟩ := (h.tr hq x).1 hx
    simp only [Loc.mem.injEq] at heq
    obtain ⟨rfl, -, heq⟩ := heq
    have := mul_count_le hj (Box.offset_range (h.ordO q hq) ((mem_congr_bounds (h.low q hq) (h.high q hq) p).2 hp))
    omega
  · intro r a ha
    rw [runMoves_frame, hcp _ _ _ (by simp)]
    intro x hx heq
    obtain ⟨q, hq, hx⟩ := mem_localRanks.1 hx
    obtain ⟨-, j, p, hj, hp, rfl⟩ := (h.tr hq x).1 hx
    simp only [Loc.mem.injEq] at heq
    obtain ⟨rfl, h2, -⟩ := heq
    simp [Local.out, ha] at h2

theorem LocalOk.run (h : LocalOk bin bout c) {pre : Nat → List (Atom α)} (hpre : ∀ r, ∀ a ∈ pre r, a.onRank r)
    {l : List (LocalOp × Nat)}
    (hl : Execution (Guarantee (localProg c) fun _ _ => False) LocalOp.inOrder (localAct c pre) (localOps c.n) l) (m : Store α) :
    Moved c.n c.nb (boxAt bin) (boxAt bout) c.inplace (runAtoms ((List.range c.n).flatMap pre) m) (runSteps (localAct c pre) l m) := by
  rw [h.any_schedule hpre hl m, runAtoms_localOps]
  exact h.result _

/-- The cells of a local transposition. -/
theorem LocalOk.inside (h : LocalOk bin bout c) {W H1 H2 : Nat → Int}
    (hW : ∀ r, r < c.n → (c.plan r).isSome = true → c.nb * (boxAt bout r).count ≤ W r) {o : LocalOp}
    (ho : o ∈ localOps c.n) {x : Loc × Loc} (hx : x ∈ localMoves c o) :
    InsideMove c.n (bufSizes c.nb (boxAt bin) (boxAt bout) W H1 H2 c.inplace) x := by
  have hr := mem_localOps.1 ho
  cases o with
  | pre r => simp [localMoves] at hx
  | cp r =>
    have hr : r < c.n := hr
    obtain ⟨hi, hp, t, ht, rfl⟩ := (h.cp hr x).1 hx
    have := hW r hr hp
    have hc := h.count hr
    refine ⟨⟨hr, ?_⟩, ⟨hr, ?_⟩⟩ <;> simp only [bufSizes]
    · omega
    · rw [hi, if_pos rfl, hc, max_self]
      exact ht
  | tr r =>
    have hr : r < c.n := hr
    obtain ⟨hp, j, p, hj, hI, rfl⟩ := (h.tr hr x).1 hx
    refine ⟨out_inside hr (h.ordO r hr) hj ((mem_congr_bounds (h.low r hr) (h.high r hr) p).2 hI), ?_⟩
    cases hi : c.inplace r with
    | false =>
      simp only [hi, Bool.false_eq_true, if_false]
      exact src_inside hr (h.ordI r hr) hj hI
    | true =>
      simp only [hi, if_true]
      have h1 := mul_count_le hj (Box.offset_range (h.ordI r hr) hI)
      have h2 := hW r hr hp
      rw [← h.count hr] at h2
      refine ⟨hr, h1.1, ?_⟩
      simp only [bufSizes]
      omega

end
end Verif
