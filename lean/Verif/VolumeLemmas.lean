import Verif.MpiMain
import Verif.SpecVolume
import Verif.Props.Trace

/-!
# Lemmas: the amount of communication of a reshape
-/

namespace Verif

theorem wireOut_append (r : Nat) (a b : List MpiStep) : wireOut r (a ++ b) = wireOut r a + wireOut r b := by
  simp [wireOut]

theorem wireIn_append (r : Nat) (a b : List MpiStep) : wireIn r (a ++ b) = wireIn r a + wireIn r b := by
  simp [wireIn]

theorem wireOut_flatMap {ι : Type} (r : Nat) (f : ι → List MpiStep) : ∀ l : List ι, wireOut r (l.flatMap f) = (l.map fun j => wireOut r (f j)).sum
  | [] => rfl
  | a :: t => by rw [List.flatMap_cons, wireOut_append, wireOut_flatMap r f t]; rfl

theorem wireIn_flatMap {ι : Type} (r : Nat) (f : ι → List MpiStep) : ∀ l : List ι, wireIn r (l.flatMap f) = (l.map fun j => wireIn r (f j)).sum
  | [] => rfl
  | a :: t => by rw [List.flatMap_cons, wireIn_append, wireIn_flatMap r f t]; rfl

theorem othersSum_map (r : Nat) (f : Nat → Int) : ∀ l : List Nat, othersSum r l (l.map f) = ((l.filter fun q => decide (q ≠ r)).map f).sum
  | [] => rfl
  | a :: t => by
    rw [List.map_cons, othersSum, othersSum_map r f t, List.filter_cons]
    by_cases h : a = r <;> simp [h]

theorem sum_filter_toFinset {l : List Nat} (hn : l.Nodup) (r : Nat) (f : Nat → Int) :
    ((l.filter fun q => decide (q ≠ r)).map f).sum = ∑ q ∈ l.toFinset.filter (fun q => q ≠ r), f q := by
  rw [← List.sum_toFinset f (hn.filter _), List.toFinset_filter]
  simp

/-- The sizes of the entries for the other ranks. -/
theorem sum_entries {l : List Entry} (hn : (l.map Entry.proc).Nodup) {n s : Nat} {c : Nat → Int} {E : Nat → Entry} (hE : ∀ q, (E q).proc = q)
    (hc : ∀ q, (E q).size = c q) (h0 : ∀ q, 0 ≤ c q) (hm : ∀ e, e ∈ l ↔ ∃ q, q < n ∧ q ≠ s ∧ 0 < c q ∧ e = E q) :
    (l.map Entry.size).sum = ∑ q ∈ (Finset.range n).filter (fun q => q ≠ s), c q := by
  classical
  have hinj : ∀ q q', E q = E q' → q = q' := fun q q' h => by rw [← hE q, h, hE]
  have hp : l.Perm ((((Finset.range n).filter fun q => q ≠ s ∧ 0 < c q).toList).map E) := by
    refine (List.perm_ext_iff_of_nodup (List.Nodup.of_map _ hn) ?_).2 ?_
    · exact (Finset.nodup_toList _).map (fun q q' h => hinj q q' h)
    · intro e
      rw [hm]
      simp only [List.mem_map, Finset.mem_toList, Finset.mem_filter, Finset.mem_range, and_assoc]
      constructor
      · rintro ⟨q, h1, h2, h3, rfl⟩
        exact ⟨q, h1, h2, h3, rfl⟩
      · rintro ⟨q, h1, h2, h3, rfl⟩
        exact ⟨q, h1, h2, h3, rfl⟩
  rw [(hp.map Entry.size).sum_eq, List.map_map]
  have : (Entry.size ∘ E) = c := funext hc
  rw [this, Finset.sum_map_toList]
  refine Finset.sum_subset ?_ ?_
  · intro q hq
    simp only [Finset.mem_filter] at hq ⊢
    exact ⟨hq.1, hq.2.1⟩
  · intro q hq hnq
    simp only [Finset.mem_filter, Finset.mem_range] at hq hnq
    have := h0 q
    by_contra hne
    exact hnq ⟨hq.1, hq.2, by omega⟩

variable {bin bout : List Box} {w : Box}

theorem pointsLost_boxAt (hl : bout.length = bin.length) {r : Nat} (hr : r < bin.length) :
    pointsLost bin bout r = ((boxAt bin r).points \ (boxAt bout r).points).card := by
  unfold pointsLost
  rw [boxAt_get hr, boxAt_get (show r < bout.length by omega)]

/-- The points that a rank loses are the ones it shares with the other ranks. -/
theorem sum_cnt_out (h : Redistribution bin bout w) {r : Nat} (hr : r < bin.length) :
    ∑ q ∈ (Finset.range bin.length).filter (fun q => q ≠ r), cnt bin bout r q = pointsLost bin bout r := by
  rw [pointsLost_boxAt h.length hr]
  have e : (boxAt bin r).points \ (boxAt bout r).points =
      ((Finset.range bin.length).filter (fun q => q ≠ r)).biUnion fun q => ((boxAt bin r).collide (boxAt bout q)).points := by
    ext p
    simp only [Finset.mem_sdiff, Finset.mem_biUnion, Finset.mem_filter, Finset.mem_range, collide_points, Finset.mem_inter, Box.mem_points]
    constructor
    · rintro ⟨hp, hn⟩
      obtain ⟨s, hs, hp'⟩ := h.cover' hr hp
      exact ⟨s, ⟨hs, fun e => hn (e ▸ hp')⟩, hp, hp'⟩
    · rintro ⟨q, ⟨hq, hne⟩, hp, hp'⟩
      refine ⟨hp, fun hp'' => hne ?_⟩
      exact h.tilesOut.boxAt_unique (by rw [h.length]; exact hq) (by rw [h.length]; exact hr) hp' hp''
  rw [e, Finset.card_biUnion]
  · push_cast
    refine Finset.sum_congr rfl fun q _ => ?_
    exact Box.count_eq_card _
  · intro q hq q' hq' hne
    refine Finset.disjoint_left.2 ?_
    intro p hp hp'
    simp only [Finset.mem_filter, Finset.mem_range, Finset.mem_coe] at hq hq'
    beta_reduce at hp hp'
    rw [collide_points, Finset.mem_inter, Box.mem_points, Box.mem_points] at hp hp'
    exact hne (h.tilesOut.boxAt_unique (by rw [h.length]; exact hq.1) (by rw [h.length]; exact hq'.1) hp.2 hp'.2)

theorem sum_cnt_in (h : Redistribution bin bout w) {r : Nat} (hr : r < bin.length) :
    ∑ q ∈ (Finset.range bin.length).filter (fun q => q ≠ r), cnt bin bout q r = pointsLost bout bin r := by
  have := sum_cnt_out h.symm (r := r) (by rw [h.length]; exact hr)
  rw [h.length] at this
  rw [← this]
  exact Finset.sum_congr rfl fun q _ => Box.collide_count_comm _ _

theorem sum_group {g : Nat → List Nat} (hg : GroupFacts bin bout g) {r : Nat} (hr : r < bin.length) {c : Nat → Int}
    (hc : ∀ q, q < bin.length → q ∉ g r → c q = 0) :
    (((g r).filter fun q => decide (q ≠ r)).map c).sum = ∑ q ∈ (Finset.range bin.length).filter (fun q => q ≠ r), c q := by
  rw [sum_filter_toFinset (hg.nodup hr)]
  refine Finset.sum_subset ?_ ?_
  · intro q hq
    simp only [Finset.mem_filter, Finset.mem_range, List.mem_toFinset] at hq ⊢
    exact ⟨hg.lt hr hq.1, hq.2⟩
  · intro q hq hnq
    simp only [Finset.mem_filter, Finset.mem_range, List.mem_toFinset] at hq hnq
    exact hc q hq.1 fun hm => hnq ⟨hm, hq.2⟩

theorem cnt_out_zero (hl : bout.length = bin.length) {g : Nat → List Nat} (hg : GroupFacts bin bout g) {r : Nat} (hr : r < bin.length) (q : Nat)
    (hq : q < bin.length) (hn : q ∉ g r) : cnt bin bout r q = 0 := by
  have := cnt_nonneg (bin := bin) (bout := bout) r q
  by_contra hne
  exact hn (hg.nbr r q hr (cnt_pos_adj hl hr hq (by omega)))

theorem cnt_in_zero (hl : bout.length = bin.length) {g : Nat → List Nat} (hg : GroupFacts bin bout g) {r : Nat} (hr : r < bin.length) (q : Nat)
    (hq : q < bin.length) (hn : q ∉ g r) : cnt bin bout q r = 0 := by
  have := cnt_nonneg (bin := bin) (bout := bout) q r
  by_contra hne
  exact hn (hg.nbr r q hr (cnt_pos_adj hl hq hr (by omega)).symm)

/-! ## The steps of one reshape -/

theorem wire_p2p (plined : Bool) (nb r : Nat) (o : PointToPoint) :
    wireOut r (o.mpiSteps plined nb) = nb * ((dropSelf o.selfToSelf o.packs).map Entry.size).sum ∧
    wireIn r (o.mpiSteps plined nb) = nb * ((dropSelf o.selfToSelf o.unpacks).map Entry.size).sum := by
  unfold PointToPoint.mpiSteps
  dsimp only
  generalize dropSelf o.selfToSelf o.packs = X
  generalize dropSelf o.selfToSelf o.unpacks = U
  have o1 : wireOut r (U.map fun e => MpiStep.irecv e.proc (nb * e.size)) = 0 := by
    induction U with
    | nil => rfl
    | cons a t ih => simpa [wireOut, MpiStep.wireOut] using ih
  have o2 : wireOut r (U.map fun _ => MpiStep.waitany) = 0 := by
    induction U with
    | nil => rfl
    | cons a t ih => simp [wireOut, MpiStep.wireOut]
  have o3 : wireOut r (if plined = true then [MpiStep.waitall] else []) = 0 := by cases plined <;> rfl
  have o4 : wireOut r (if plined = true then X.map fun e => MpiStep.isend e.proc (nb * e.size)
      else X.flatMap fun e => [.isend e.proc (nb * e.size), .endSend]) = nb * (X.map Entry.size).sum := by
    induction X with
    | nil => cases plined <;> simp [wireOut]
    | cons a t ih => cases plined <;> simp [wireOut, MpiStep.wireOut, mul_add] at ih ⊢ <;> exact ih
  have i1 : wireIn r (U.map fun e => MpiStep.irecv e.proc (nb * e.size)) = nb * (U.map Entry.size).sum := by
    clear o1 o2
    induction U with
    | nil => simp [wireIn]
    | cons a t ih => simp [wireIn, MpiStep.wireIn, mul_add] at ih ⊢; exact ih
  have i2 : wireIn r (U.map fun _ => MpiStep.waitany) = 0 := by
    clear o1 o2 i1
    induction U with
    | nil => rfl
    | cons a t ih => simp [wireIn, MpiStep.wireIn]
  have i3 : wireIn r (if plined = true then [MpiStep.waitall] else []) = 0 := by cases plined <;> rfl
  have i4 : wireIn r (if plined = true then X.map fun e => MpiStep.isend e.proc (nb * e.size)
      else X.flatMap fun e => [.isend e.proc (nb * e.size), .endSend]) = 0 := by
    clear o4
    induction X with
    | nil => cases plined <;> simp [wireIn]
    | cons a t ih => cases plined <;> simp [wireIn, MpiStep.wireIn] at ih ⊢ <;> exact ih
  simp only [wireOut_append, wireIn_append, o1, o2, o3, o4, i1, i2, i3, i4]
  exact ⟨by ring, by ring⟩

theorem wireOut_coll (r : Nat) (c : Comm) (op : CollCall) : wireOut r (collSteps c op) = (MpiStep.enter c op).wireOut r := by
  simp [wireOut, collSteps, MpiStep.wireOut]

theorem wireIn_coll (r : Nat) (c : Comm) (op : CollCall) : wireIn r (collSteps c op) = (MpiStep.enter c op).wireIn r := by
  simp [wireIn, collSteps, MpiStep.wireIn]

variable {alg : Alg} {shs : List (Option Shaper)}

/-- The calls of MPI of rank `r` in a reshape that communicates. -/
def stageSteps (alg : Alg) (key : Nat × Nat) (nb : Nat) (bin bout : List Box) (g : Nat → List Nat) (r : Nat) : List MpiStep :=
  match alg with
  | .alltoallv => if g r = [] then [] else collSteps ⟨some key, g r⟩ (.alltoallv ((g r).map fun q => cnt bin bout r q * nb) ((g r).map fun q => cnt bin bout q r * nb))
  | .alltoall => if g r = [] then [] else collSteps ⟨some key, g r⟩ (.alltoall (nb * getMaxSize (g r) bin bout))
  | .p2p => (objP (directOf bin bout) bin bout r).mpiSteps false nb
  | .p2pPlined => (objP (directOf bin bout) bin bout r).mpiSteps true nb

/-- What the ranks do in a reshape. -/
theorem stage_steps (h : Redistribution bin bout w) (hs : shapersOf alg bin bout = .ok shs) (key : Nat × Nat) (nb : Nat) :
    (boxesMatch bin bout = true ∧ ∀ r, r < bin.length → Shaper.mpiApply alg key nb (shAt shs r) = []) ∨
    (boxesMatch bin bout = false ∧ ∃ g, GroupFacts bin bout g ∧ ∀ r, r < bin.length → Shaper.mpiApply alg key nb (shAt shs r) = stageSteps alg key nb bin bout g r) := by
  rcases shapersOf_cases h alg with ⟨hm, e⟩ | ⟨hm, g, hg, e⟩
  · rw [hs] at e
    obtain rfl := Except.ok.inj e
    refine .inl ⟨hm, fun r hr => ?_⟩
    rw [shAt_map hr]
    rcases matchShaper_mpi (bin := bin) (bout := bout) r with e | ⟨p, e⟩ <;> rw [e] <;> rfl
  · rw [hs] at e
    obtain rfl := Except.ok.inj e
    refine .inr ⟨hm, g, hg, fun r hr => ?_⟩
    rw [shAt_map hr]
    unfold stageSteps
    cases alg with
    | alltoallv =>
      simp only [commShaper, objV]
      by_cases he : g r = []
      · simp [he, Shaper.mpiApply]
      · simp only [he, if_false, Option.map_some, Shaper.mpiApply]
        have e1 := ioRows_counts (send_nodup h.length hr) (g r) 0
        have e2 := ioRows_counts (recv_nodup (direct := directOf bin bout) (bout := bout) hr) (g r) 0
        have f1 : (ioRows (sendEntries bout r (boxAt bin r)) (g r) 0).map (fun row => row.count * (nb : Int)) = (g r).map fun q => cnt bin bout r q * nb := by
          rw [show (fun row : IoRow => row.count * (nb : Int)) = (fun x => x * (nb : Int)) ∘ IoRow.count from rfl, ← List.map_map, e1, List.map_map]
          refine List.map_congr_left fun q hq => ?_
          rw [Function.comp_apply, lookSize_send h.length hr (hg.lt hr hq)]
        have f2 : (ioRows (recvEntries (directOf bin bout) bin r (boxAt bout r)) (g r) 0).map (fun row => row.count * (nb : Int)) =
            (g r).map fun q => cnt bin bout q r * nb := by
          rw [show (fun row : IoRow => row.count * (nb : Int)) = (fun x => x * (nb : Int)) ∘ IoRow.count from rfl, ← List.map_map, e2, List.map_map]
          refine List.map_congr_left fun q hq => ?_
          rw [Function.comp_apply, lookSize_recv h.length hr (hg.lt hr hq)]
        rw [f1, f2]
    | alltoall =>
      simp only [commShaper, objA]
      by_cases he : g r = [] <;> simp [he, Shaper.mpiApply]
    | p2p => simp [commShaper, Shaper.mpiApply]
    | p2pPlined => simp [commShaper, Shaper.mpiApply]

theorem lost_match (hl : bout.length = bin.length) (hm : boxesMatch bin bout = true) {r : Nat} (hr : r < bin.length) :
    pointsLost bin bout r = 0 ∧ pointsLost bout bin r = 0 := by
  have b := boxesMatch_get hm hr
  have e : (boxAt bin r).points = (boxAt bout r).points := by
    ext p; rw [Box.mem_points, Box.mem_points]; exact mem_congr_bounds b.1 b.2 p
  rw [pointsLost_boxAt hl hr, pointsLost_boxAt hl.symm (by rw [hl]; exact hr), e]
  simp

/-- The amount of communication of a rank in a reshape. -/
theorem stage_wire (h : Redistribution bin bout w) (hs : shapersOf alg bin bout = .ok shs) (key : Nat × Nat) (nb : Nat) {r : Nat} (hr : r < bin.length) :
    (alg ≠ .alltoall → wireOut r (Shaper.mpiApply alg key nb (shAt shs r)) = nb * pointsLost bin bout r ∧
      wireIn r (Shaper.mpiApply alg key nb (shAt shs r)) = nb * pointsLost bout bin r) ∧
    ((nb : Int) * pointsLost bin bout r ≤ wireOut r (Shaper.mpiApply alg key nb (shAt shs r)) ∧
      (nb : Int) * pointsLost bout bin r ≤ wireIn r (Shaper.mpiApply alg key nb (shAt shs r))) := by
  have weak : ∀ {a b c d : Int}, a = b ∧ c = d → (alg ≠ .alltoall → a = b ∧ c = d) ∧ (b ≤ a ∧ d ≤ c) :=
    fun e => ⟨fun _ => e, e.1.ge, e.2.ge⟩
  rcases stage_steps h hs key nb with ⟨hm, e⟩ | ⟨-, g, hg, e⟩
  · rw [e r hr, (lost_match h.length hm hr).1, (lost_match h.length hm hr).2]
    exact weak ⟨by simp [wireOut], by simp [wireIn]⟩
  · rw [e r hr, ← sum_cnt_out h hr, ← sum_cnt_in h hr]
    unfold stageSteps
    have p2p : ∀ plined, wireOut r ((objP (directOf bin bout) bin bout r).mpiSteps plined nb) =
          nb * ∑ q ∈ (Finset.range bin.length).filter (fun q => q ≠ r), cnt bin bout r q ∧
        wireIn r ((objP (directOf bin bout) bin bout r).mpiSteps plined nb) =
          nb * ∑ q ∈ (Finset.range bin.length).filter (fun q => q ≠ r), cnt bin bout q r := by
      intro plined
      obtain ⟨h1, h2⟩ := wire_p2p plined nb r (objP (directOf bin bout) bin bout r)
      rw [h1, h2]
      unfold objP
      dsimp only
      rw [sum_entries (dropSelf_nodup (send_nodup h.length hr)) (E := sendE bin bout r) (c := cnt bin bout r) (fun q => rfl)
          (fun q => sendE_size _ _ _ _) (fun q => cnt_nonneg _ _) (fun e => mem_dropSend h.length hr),
        sum_entries (dropSelf_nodup (recv_nodup hr)) (E := recvE (directOf bin bout) bin bout r) (c := fun q => cnt bin bout q r) (fun q => rfl)
          (fun q => recvE_size _ _ _ _ _) (fun q => cnt_nonneg _ _) (fun e => mem_dropRecv h.length hr)]
      exact ⟨rfl, rfl⟩
    have so := fun c => sum_group hg hr (c := c)
    cases alg with
    | p2p => exact weak (p2p false)
    | p2pPlined => exact weak (p2p true)
    | alltoallv =>
      dsimp only
      apply weak
      rw [← so _ (cnt_out_zero h.length hg hr), ← so _ (cnt_in_zero h.length hg hr)]
      by_cases he : g r = []
      · simp [he, wireOut, wireIn]
      · simp only [he, if_false, wireOut_coll, wireIn_coll, MpiStep.wireOut, MpiStep.wireIn, othersSum_map, List.sum_map_mul_right]
        exact ⟨mul_comm _ _, mul_comm _ _⟩
    | alltoall =>
      dsimp only
      refine ⟨fun hne => absurd rfl hne, ?_⟩
      rw [← so _ (cnt_out_zero h.length hg hr), ← so _ (cnt_in_zero h.length hg hr)]
      by_cases he : g r = []
      · simp [he, wireOut, wireIn]
      · have hself : r ∈ g r := by
          obtain ⟨q, hq⟩ := List.exists_mem_of_ne_nil _ he
          exact hg.self r q hr hq
        simp only [he, if_false, wireOut_coll, wireIn_coll, MpiStep.wireOut, MpiStep.wireIn, othersSum_map]
        rw [← List.sum_map_mul_left, ← List.sum_map_mul_left]
        constructor
        · refine List.sum_le_sum fun q hq => ?_
          have hq := (List.mem_filter.1 hq).1
          exact mul_le_mul_of_nonneg_left (cnt_le_getMaxSize h.length hself hq hr (hg.lt hr hq)) (by omega)
        · refine List.sum_le_sum fun q hq => ?_
          have hq := (List.mem_filter.1 hq).1
          exact mul_le_mul_of_nonneg_left (cnt_le_getMaxSize h.length hq hself (hg.lt hr hq) hr) (by omega)

/-- `get_max_size` is the largest number of common points. -/
theorem getMaxSize_attained (hl : bout.length = bin.length) {g : List Nat} (hg : ∀ q ∈ g, q < bin.length) :
    getMaxSize g bin bout = 0 ∨ ∃ s ∈ g, ∃ d ∈ g, getMaxSize g bin bout = cnt bin bout s d := by
  unfold getMaxSize
  let Q : Int → Prop := fun m => m = 0 ∨ ∃ s ∈ g, ∃ d ∈ g, m = cnt bin bout s d
  have inner : ∀ s ∈ g, ∀ (l : List Nat), (∀ d ∈ l, d ∈ g) → ∀ m, Q m → Q (l.foldl (fun m irecv => match bin[s]?, bout[irecv]? with
      | some a, some b => max m (a.collide b).count
      | _, _ => m) m) := by
    intro s hs l
    induction l with
    | nil => intro _ m hm; exact hm
    | cons d t ih =>
      intro hsub m hm
      rw [List.foldl_cons]
      refine ih (fun q hq => hsub q (List.mem_cons_of_mem _ hq)) _ ?_
      have hd := hsub d (List.mem_cons_self ..)
      rw [boxAt_get (hg s hs), boxAt_get (show d < bout.length by rw [hl]; exact hg d hd)]
      dsimp only
      rcases max_choice m ((boxAt bin s).collide (boxAt bout d)).count with e | e <;> rw [e]
      · exact hm
      · exact .inr ⟨s, hs, d, hd, rfl⟩
  have outer : ∀ (l : List Nat), (∀ d ∈ l, d ∈ g) → ∀ m, Q m → Q (l.foldl (fun m isend => g.foldl (fun m irecv =>
      match bin[isend]?, bout[irecv]? with
      | some a, some b => max m (a.collide b).count
      | _, _ => m) m) m) := by
    intro l
    induction l with
    | nil => intro _ m hm; exact hm
    | cons s t ih =>
      intro hsub m hm
      rw [List.foldl_cons]
      exact ih (fun q hq => hsub q (List.mem_cons_of_mem _ hq)) _ (inner s (hsub s (List.mem_cons_self ..)) g (fun _ h => h) m hm)
  exact outer g (fun _ h => h) 0 (.inl rfl)

end Verif
